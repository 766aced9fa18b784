import Verif.Model.Decide

/-! Which part of the keyper's state a part of `Decide` can change. -/

namespace Shutter.Decide
open Shutter.Crypto Shutter.Dkg Shutter.Observe Shutter.Main
open Shutter.App (Addr findAddressIndex)

variable {G1 G2 GT R : Type}

theorem foldlM_option_inv {α β : Type} (P : β → Prop) (f : β → α → Option β) (hf : ∀ b x b', f b x = some b' → P b → P b') :
    ∀ (l : List α) (b b' : β), l.foldlM f b = some b' → P b → P b' := by
  intro l
  induction l with
  | nil =>
    intro b b' h hb
    simp only [List.foldlM_nil, Option.pure_def, Option.some.injEq] at h
    exact h ▸ hb
  | cons x l ih =>
    intro b b' h hb
    simp only [List.foldlM_cons, Option.bind_eq_bind, Option.bind_eq_some_iff] at h
    obtain ⟨b1, h1, h2⟩ := h
    exact ih _ _ h2 (hf _ _ _ h1 hb)

/-- The part of the state that belongs to the key generation. -/
def State.dkgPart (st : State G1 G2) : List (DKG G2) × Nat × Int := (st.dkgs, st.lastEonStarted, st.syncHeight)

theorem dkgPart_checkIn (cx : Cfg G1 G2 GT R) (sh : Observe.Shutter) (d : Decider G1 G2) :
    (maybeSendCheckIn cx sh d).st.dkgPart = d.st.dkgPart := by
  unfold maybeSendCheckIn
  split_ifs <;> rfl

theorem dkgPart_batchConfig (sh : Observe.Shutter) (mc : MainChain) (d : Decider G1 G2) :
    (maybeSendBatchConfig sh mc d).st.dkgPart = d.st.dkgPart := by
  unfold maybeSendBatchConfig
  split
  · rfl
  · simp only
    split
    · rfl
    · split <;> rfl

theorem dkgPart_sendSig {cx : Cfg G1 G2 GT R} {sh : Observe.Shutter} {mc : MainChain} {b : Nat} {d d' : Decider G1 G2}
    (h : sendDecryptionSignature cx sh mc b d = some d') : d'.st.dkgPart = d.st.dkgPart := by
  unfold sendDecryptionSignature at h
  split at h
  · cases h; rfl
  · simp only [Option.bind_eq_bind, Option.bind_eq_some_iff] at h
    obtain ⟨_, _, _, _, _, _, h⟩ := h
    split at h <;> (cases h; rfl)

theorem dkgPart_handleDecryptionSignatures {cx : Cfg G1 G2 GT R} {sh : Observe.Shutter} {mc : MainChain} {d d' : Decider G1 G2}
    (h : handleDecryptionSignatures cx sh mc d = some d') : d'.st.dkgPart = d.st.dkgPart := by
  unfold handleDecryptionSignatures at h
  rw [Option.map_eq_some_iff] at h
  obtain ⟨_, _, rfl⟩ := h
  rfl

theorem dkgPart_executeLoop {cx : Cfg G1 G2 GT R} {mc : MainChain} : ∀ {n h : Nat} {d d' : Decider G1 G2},
    executeLoop cx mc n h d = some d' → d'.st.dkgPart = d.st.dkgPart := by
  intro n
  induction n with
  | zero =>
    intro h d d' hr
    cases hr
    rfl
  | succ n ih =>
    intro h d d' hr
    unfold executeLoop at hr
    split at hr
    · cases hr
    · cases hr; rfl
    · exact (ih hr).trans rfl

theorem dkgPart_maybeExecuteBatch {cx : Cfg G1 G2 GT R} {mc : MainChain} {d d' : Decider G1 G2}
    (h : maybeExecuteBatch cx mc d = some d') : d'.st.dkgPart = d.st.dkgPart := by
  unfold maybeExecuteBatch at h
  simp only [Option.bind_eq_bind, Option.bind_eq_some_iff] at h
  obtain ⟨config, _, h⟩ := h
  split at h
  · cases h; rfl
  · simp only [Option.bind_eq_some_iff] at h
    obtain ⟨_, _, h⟩ := h
    split at h
    · cases h; rfl
    · exact (dkgPart_executeLoop h).trans rfl

theorem dkgPart_maybeAppeal {mc : MainChain} {keys : List Nat} {d d' : Decider G1 G2}
    (h : maybeAppeal mc keys d = some d') : d'.st.dkgPart = d.st.dkgPart := by
  unfold maybeAppeal at h
  refine foldlM_option_inv (fun x => x.st.dkgPart = d.st.dkgPart) _ ?_ _ _ _ h rfl
  intro b k b' hb hp
  unfold appealStep at hb
  split at hb
  · cases hb; exact hp
  · split at hb
    · cases hb; exact hp
    · split at hb
      · cases hb; exact hp
      · split at hb
        · cases hb; exact hp
        · split at hb
          · cases hb; exact hp
          · split at hb
            · cases hb; exact hp
            · split at hb
              · cases hb
              · cases hb; exact hp
              · rw [Option.map_eq_some_iff] at hb
                obtain ⟨_, _, rfl⟩ := hb
                exact hp

theorem dkgPart_maybeAccuse {cx : Cfg G1 G2 GT R} {mc : MainChain} {d d' : Decider G1 G2}
    (h : maybeAccuse cx mc d = some d') : d'.st.dkgPart = d.st.dkgPart := by
  unfold maybeAccuse at h
  rw [Option.map_eq_some_iff] at h
  obtain ⟨d1, h, rfl⟩ := h
  have := foldlM_option_inv (fun x => x.st.dkgPart = d.st.dkgPart) _ (by
    intro b k b' hb hp
    unfold accuseStep at hb
    split at hb
    · cases hb; exact hp
    · split at hb
      · cases hb; exact hp
      · split at hb
        · cases hb; exact hp
        · split at hb
          · cases hb; exact hp
          · split at hb
            · cases hb; exact hp
            · split at hb
              · cases hb
              · cases hb; exact hp
              · cases hb; exact hp) _ _ _ h rfl
  exact this

variable [AddCommGroup G1] [AddCommGroup G2] [DecidableEq G2] [DecidableEq GT]

theorem dkgPart_shareEvent {cx : Cfg G1 G2 GT R} {sh : Observe.Shutter} {mc : MainChain} {ekg ekg' : EKG G1 G2} {d d' : Decider G1 G2}
    {x : Stamped} (h : handleShareEvent cx sh mc ekg d x = some (ekg', d')) : d'.st.dkgPart = d.st.dkgPart := by
  unfold handleShareEvent at h
  split at h
  · split at h
    · cases h; rfl
    · split at h
      · cases h; rfl
      · simp only [Option.bind_eq_bind, Option.bind_eq_some_iff, Prod.exists] at h
        obtain ⟨kg, ok, _, h⟩ := h
        split at h
        · cases h; rfl
        · split at h
          · rw [Option.bind_eq_some_iff] at h
            obtain ⟨t, _, h⟩ := h
            split at h
            · cases h; rfl
            · rw [Option.map_eq_some_iff] at h
              obtain ⟨d1, h1, h⟩ := h
              cases h
              exact (dkgPart_sendSig h1).trans rfl
          · cases h; rfl
  · cases h; rfl

theorem dkgPart_syncEKGWithEon {cx : Cfg G1 G2 GT R} {sh : Observe.Shutter} {mc : MainChain} : ∀ {xs : List Stamped}
    {ekg ekg' : EKG G1 G2} {d d' : Decider G1 G2}, syncEKGWithEon cx sh mc ekg d xs = some (ekg', d') → d'.st.dkgPart = d.st.dkgPart := by
  intro xs
  induction xs with
  | nil =>
    intro ekg ekg' d d' h
    cases h
    rfl
  | cons x xs ih =>
    intro ekg ekg' d d' h
    simp only [syncEKGWithEon, Option.bind_eq_bind, Option.bind_eq_some_iff, Prod.exists] at h
    obtain ⟨e1, d1, h1, h2⟩ := h
    exact (ih h2).trans (dkgPart_shareEvent h1)

theorem dkgPart_syncEKGs {cx : Cfg G1 G2 GT R} {sh : Observe.Shutter} {mc : MainChain} : ∀ {l l' : List (EKG G1 G2)}
    {d d' : Decider G1 G2}, syncEKGs cx sh mc l d = some (l', d') → d'.st.dkgPart = d.st.dkgPart := by
  intro l
  induction l with
  | nil =>
    intro l' d d' h
    cases h
    rfl
  | cons x xs ih =>
    intro l' d d' h
    simp only [syncEKGs, Option.bind_eq_bind, Option.bind_eq_some_iff, Prod.exists, Option.some.injEq] at h
    obtain ⟨eon, _, e1, d1, h1, r, d2, h2, h⟩ := h
    cases h
    exact (ih h2).trans (dkgPart_syncEKGWithEon h1)

omit [AddCommGroup G2] [DecidableEq G2] [DecidableEq GT] in
theorem dkgPart_publishShares {cx : Cfg G1 G2 GT R} {sh : Observe.Shutter} {mc : MainChain} {d d' : Decider G1 G2}
    (h : publishEpochSecretKeyShares cx sh mc d = some d') : d'.st.dkgPart = d.st.dkgPart := by
  unfold publishEpochSecretKeyShares at h
  simp only [Option.bind_eq_bind, Option.bind_eq_some_iff] at h
  obtain ⟨i, _, bc, _, h⟩ := h
  split at h
  · cases h; rfl
  · simp only [Option.bind_eq_some_iff, Option.some.injEq] at h
    obtain ⟨c, _, d1, h1, rfl⟩ := h
    have := foldlM_option_inv (fun x => x.st.dkgPart = d.st.dkgPart) _ (by
      intro b k b' hb hp
      unfold publishStep at hb
      rw [Option.map_eq_some_iff] at hb
      obtain ⟨t, _, rfl⟩ := hb
      split
      · exact hp
      · unfold publishEpochSecretKeyShare
        split
        · exact hp
        · split
          · exact hp
          · split
            · exact hp
            · split <;> exact hp) _ _ _ h1 rfl
    exact this

theorem dkgPart_handleEpochKG {cx : Cfg G1 G2 GT R} {sh : Observe.Shutter} {mc : MainChain} {d d' : Decider G1 G2}
    (h : handleEpochKG cx sh mc d = some d') : d'.st.dkgPart = d.st.dkgPart := by
  simp only [handleEpochKG, Option.bind_eq_bind, Option.bind_eq_some_iff, Prod.exists] at h
  obtain ⟨l, d1, h1, h2⟩ := h
  exact (dkgPart_publishShares h2).trans ((show _ = d1.st.dkgPart from rfl).trans (dkgPart_syncEKGs h1))

/-- What a step does to the DKGs. -/
theorem decideStep_dkgs {cx : Cfg G1 G2 GT R} {sh : Observe.Shutter} {mc : MainChain} {keys : List Nat} {st st' : State G1 G2}
    {acts : List (Action G1 G2)} (h : decideStep cx sh mc keys st = some (st', acts)) :
    st' = st ∨ (isSynced sh = true ∧ mc.nodeSynced = true ∧ isKeyper sh cx.own = true ∧ ∃ ekgs a, handleDKGs cx sh st.syncHeight
      (st.dkgs ++ (maybeStartDKG cx sh st.lastEonStarted sh.eons).1) = some (st'.dkgs, ekgs, a) ∧
      st'.lastEonStarted = (maybeStartDKG cx sh st.lastEonStarted sh.eons).2 ∧ st'.syncHeight = sh.currentBlock + 1) := by
  unfold decideStep at h
  split at h
  · cases h; exact Or.inl rfl
  · split at h
    · cases h; exact Or.inl rfl
    · split at h
      · cases h; exact Or.inl rfl
      · next g1 g2 g3 =>
        right
        refine ⟨by simpa using g1, by simpa using g2, by simpa using g3, ?_⟩
        rw [Option.map_eq_some_iff] at h
        obtain ⟨d, h, he⟩ := h
        cases he
        simp only [decideAll, Option.bind_eq_bind, Option.bind_eq_some_iff, Option.some.injEq] at h
        obtain ⟨d1, h1, d2, h2, d3, h3, d4, h4, d5, h5, d6, h6, rfl⟩ := h
        have e : d6.st.dkgPart = d1.st.dkgPart :=
          (dkgPart_maybeAccuse h6).trans ((dkgPart_maybeAppeal h5).trans ((dkgPart_maybeExecuteBatch h4).trans
            ((dkgPart_handleDecryptionSignatures h3).trans (dkgPart_handleEpochKG h2))))
        have e0 := (dkgPart_batchConfig sh mc (maybeSendCheckIn cx sh ⟨st, []⟩)).trans (dkgPart_checkIn cx sh ⟨st, []⟩)
        simp only [State.dkgPart, Prod.mk.injEq] at e e0
        simp only [decideDKGs, Option.bind_eq_bind, Option.bind_eq_some_iff, Prod.exists, Option.some.injEq] at h1
        obtain ⟨dk, ek, ac, h1, rfl⟩ := h1
        rw [e0.1, e0.2.1, e0.2.2] at h1
        refine ⟨ek, ac, ?_, ?_, rfl⟩
        · simp only [e.1]
          exact h1
        · simp only [e.2.1]
          rw [e0.2.1]

end Shutter.Decide
