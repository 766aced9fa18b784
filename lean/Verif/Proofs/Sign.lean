import Verif.Proofs.SignEkgs
import Verif.Proofs.TurnExec

/-! # When a keyper signs, and what -/

namespace Shutter.Decide
open Shutter.Crypto Shutter.Dkg Shutter.Observe Shutter.Main Shutter.GoConfig Shutter.Decide.Spec
open Shutter.Sol (BatchConfig zeroHash World two64 NoneTakenBack)

variable {G1 G2 GT R : Type} [AddCommGroup G1] [AddCommGroup G2] [DecidableEq G2] [DecidableEq GT]
variable {cx : Cfg G1 G2 GT R} {sh : Observe.Shutter} {mc : MainChain}

/-- What the keyper signs when it gets the key. -/
def sigAction (cx : Cfg G1 G2 GT R) (mc : MainChain) (b : Nat) (key : G1) : Action G1 G2 :=
  .decryptionSignature b (cx.sign (freshBatch cx mc b key).decryptionSignatureHash)

/-- The conditions for signing. -/
structure Wants (cx : Cfg G1 G2 GT R) (sh : Observe.Shutter) (mc : MainChain) (b : Nat) (key : G1) : Prop where
  open_ : executionTimeoutReachedOrInactive mc b = some false
  filled : (freshBatch cx mc b key).isEmpty = false
  few : ∃ bt config, syncBatch cx sh mc (freshBatch cx mc b key) = some bt ∧ configForBatchIndex mc b = some (some config) ∧
    bt.verifiedSignatures.length < config.threshold

/-- What is added to the actions: the signatures for new keys, as far as wanted. -/
structure SignStep (cx : Cfg G1 G2 GT R) (sh : Observe.Shutter) (mc : MainChain) (ekg ekg' : EKG G1 G2) (old new : List (Action G1 G2)) : Prop where
  eon : ekg'.eon = ekg.eon
  mono : ∀ a ∈ old, a ∈ new
  sound : ∀ b sig, .decryptionSignature b sig ∈ new → .decryptionSignature b sig ∈ old ∨ ∃ key, ekg.kg.secretKeys b = none ∧
    ekg'.kg.secretKeys b = some (some key) ∧ Wants cx sh mc b key ∧ (.decryptionSignature b sig : Action G1 G2) = sigAction cx mc b key
  complete : ∀ b key, ekg'.kg.secretKeys b = some (some key) → ekg.kg.secretKeys b = some (some key) ∨
    (Wants cx sh mc b key → sigAction cx mc b key ∈ new)

theorem SignStep.same {ekg ekg' : EKG G1 G2} {old : List (Action G1 G2)} (he : ekg'.eon = ekg.eon)
    (h : ∀ b key, ekg'.kg.secretKeys b = some (some key) → ekg.kg.secretKeys b = some (some key)) : SignStep cx sh mc ekg ekg' old old :=
  ⟨he, fun _ h => h, fun _ _ h => .inl h, fun b key hk => .inl (h b key hk)⟩

theorem sendSig_acts {b : Nat} {key : G1} {d d' : Decider G1 G2} (hb : d.st.batches.lookup b = some (freshBatch cx mc b key))
    (h : sendDecryptionSignature cx sh mc b d = some d') :
    (d'.actions = d.actions ∨ d'.actions = d.actions ++ [sigAction cx mc b key]) ∧
    ((freshBatch cx mc b key).isEmpty = false → (∃ bt config, syncBatch cx sh mc (freshBatch cx mc b key) = some bt ∧
      configForBatchIndex mc b = some (some config) ∧ bt.verifiedSignatures.length < config.threshold) →
      d'.actions = d.actions ++ [sigAction cx mc b key]) ∧
    (d'.actions = d.actions ∨ ((freshBatch cx mc b key).isEmpty = false ∧ ∃ bt config, syncBatch cx sh mc (freshBatch cx mc b key) = some bt ∧
      configForBatchIndex mc b = some (some config) ∧ bt.verifiedSignatures.length < config.threshold)) := by
  unfold sendDecryptionSignature at h
  rw [hb] at h
  simp only [Option.bind_eq_bind, Option.bind_eq_some_iff] at h
  obtain ⟨bt, h1, oc, h2, config, rfl, h⟩ := h
  have hsame : bt.isEmpty = (freshBatch cx mc b key).isEmpty ∧ bt.decryptionSignatureHash = (freshBatch cx mc b key).decryptionSignatureHash := by
    unfold syncBatch at h1
    split at h1
    · cases h1; exact ⟨rfl, rfl⟩
    · split at h1
      · cases h1
      · cases h1
      · next _ sigs _ _ config hc =>
        split at h1
        · cases h1; exact ⟨rfl, rfl⟩
        · cases h1
          obtain ⟨new, g1, _, _⟩ := syncSignatures_spec cx config (sigs.drop (freshBatch cx mc b key).decryptionSignatureIndex) (freshBatch cx mc b key)
          rw [g1]
          exact ⟨rfl, rfl⟩
  split at h
  · next hc =>
    cases h
    have : ({ d with st := { d.st with batches := mapSet d.st.batches b bt } }.add
        (.decryptionSignature b (cx.sign bt.decryptionSignatureHash))).actions = d.actions ++ [sigAction cx mc b key] := by
      unfold Decider.add sigAction
      rw [hsame.2]
    exact ⟨.inr this, fun _ _ => this, .inr ⟨by rw [← hsame.1]; exact hc.2, bt, config, h1, h2, hc.1⟩⟩
  · next hc =>
    cases h
    refine ⟨.inl rfl, ?_, .inl rfl⟩
    rintro he ⟨bt', config', g1, g2, g3⟩
    rw [h1] at g1
    rw [h2] at g2
    cases g1; cases g2
    exact absurd ⟨g3, by rw [hsame.1]; exact he⟩ hc

theorem shareEvent_signs {ekg ekg' : EKG G1 G2} {d d' : Decider G1 G2} {x : Stamped} (hs : handleShareEvent cx sh mc ekg d x = some (ekg', d')) :
    SignStep cx sh mc ekg ekg' d.actions d'.actions := by
  unfold handleShareEvent at hs
  split at hs
  · next sender eon epoch share hev =>
    split at hs
    · cases hs; exact .same rfl fun _ _ h => h
    · split at hs
      · cases hs; exact .same rfl fun _ _ h => h
      · next hnone =>
        simp only [Option.bind_eq_bind, Option.bind_eq_some_iff, Prod.exists] at hs
        obtain ⟨kg, ok, hh, hs⟩ := hs
        split at hs
        · next hok =>
          cases hs
          refine .same rfl fun b key hk => ?_
          rcases handleShare_new hh hk with h | ⟨_, h⟩
          · exact h
          · rw [hok] at h; cases h
        · split at hs
          · next key0 hkey =>
            simp only [Option.bind_eq_some_iff] at hs
            obtain ⟨t, ht, hs⟩ := hs
            have hnone' : ekg.kg.secretKeys epoch = none := by simpa using hnone
            split at hs
            · next htt =>
              cases hs
              refine ⟨rfl, fun _ h => h, fun _ _ h => .inl h, fun b key hk => ?_⟩
              rcases handleShare_new hh hk with h | ⟨h, _⟩
              · exact .inl h
              · simp only at h hk
                subst h
                right
                intro hw
                have := hw.open_
                rw [ht, htt] at this
                cases this
            · next htt =>
              rw [Option.map_eq_some_iff] at hs
              obtain ⟨d1, h1, hs⟩ := hs
              cases hs
              have hto : executionTimeoutReachedOrInactive mc epoch = some false := by rw [ht]; simpa using htt
              obtain ⟨a1, a2, a3⟩ := sendSig_acts (key := key0) (by
                show (mapSet d.st.batches epoch (freshBatch cx mc epoch key0)).lookup epoch = _
                rw [lookup_mapSet, if_pos rfl]) h1
              have hda : (decryptBatch cx mc key0 epoch d).actions = d.actions := rfl
              rw [hda] at a1 a2 a3
              refine ⟨rfl, fun a ha => ?_, fun b sig hm => ?_, fun b key hk => ?_⟩
              · rcases a1 with h | h <;> rw [h]
                · exact ha
                · exact List.mem_append_left _ ha
              · rcases a3 with h | ⟨g1, g2⟩
                · rw [h] at hm; exact .inl hm
                · rw [a2 g1 g2, List.mem_append, List.mem_singleton] at hm
                  rcases hm with hm | hm
                  · exact .inl hm
                  · right
                    have hbe : b = epoch := by
                      unfold sigAction at hm
                      simp only [Action.decryptionSignature.injEq] at hm
                      exact hm.1
                    subst hbe
                    exact ⟨key0, hnone', hkey, ⟨hto, g1, g2⟩, hm⟩
              · rcases handleShare_new hh hk with h | ⟨h, _⟩
                · exact .inl h
                · simp only at h hk
                  subst h
                  right
                  intro hw
                  rw [hkey] at hk
                  simp only [Option.some.injEq] at hk
                  subst hk
                  rw [a2 hw.filled hw.few]
                  simp
          · next hno =>
            cases hs
            refine .same rfl fun b key hk => ?_
            rcases handleShare_new hh hk with h | ⟨h, _⟩
            · exact h
            · exfalso
              simp only at h hk
              subst h
              exact hno key hk
  · cases hs; exact .same rfl fun _ _ h => h

theorem SignStep.trans {a b c : EKG G1 G2} {x y z : List (Action G1 G2)} (h : SignStep cx sh mc a b x y) (g : SignStep cx sh mc b c y z)
    (kab : Keeps a b) (kbc : Keeps b c) : SignStep cx sh mc a c x z := by
  refine ⟨g.eon.trans h.eon, fun a ha => g.mono a (h.mono a ha), fun e sig hm => ?_, fun e key hk => ?_⟩
  · rcases g.sound e sig hm with hm | ⟨key, k1, k2, k3, k4⟩
    · rcases h.sound e sig hm with hm | ⟨key, k1, k2, k3, k4⟩
      · exact .inl hm
      · exact .inr ⟨key, k1, kbc.keys _ _ k2, k3, k4⟩
    · refine .inr ⟨key, ?_, k2, k3, k4⟩
      cases ha : a.kg.secretKeys e with
      | none => rfl
      | some v => rw [kab.keys e v ha] at k1; cases k1
  · rcases g.complete e key hk with hk | hk
    · rcases h.complete e key hk with hk | hk
      · exact .inl hk
      · exact .inr fun hw => g.mono _ (hk hw)
    · exact .inr hk

theorem syncEKG_signs : ∀ {xs : List Stamped} {ekg ekg' : EKG G1 G2} {d d' : Decider G1 G2},
    syncEKGWithEon cx sh mc ekg d xs = some (ekg', d') → SignStep cx sh mc ekg ekg' d.actions d'.actions := by
  intro xs
  induction xs with
  | nil => intro ekg ekg' d d' hs; cases hs; exact .same rfl fun _ _ h => h
  | cons x xs ih =>
    intro ekg ekg' d d' hs
    simp only [syncEKGWithEon, Option.bind_eq_bind, Option.bind_eq_some_iff, Prod.exists] at hs
    obtain ⟨e1, d1, h1, h2⟩ := hs
    exact (shareEvent_signs h1).trans (ih h2) (shareEvent_keeps h1) (syncEKG_keeps h2)

theorem syncEKGs_signs : ∀ {l l' : List (EKG G1 G2)} {d d' : Decider G1 G2}, syncEKGs cx sh mc l d = some (l', d') →
    (∀ a ∈ d.actions, a ∈ d'.actions) ∧
    (∀ b sig, .decryptionSignature b sig ∈ d'.actions → .decryptionSignature b sig ∈ d.actions ∨ ∃ ekg ∈ l, ∃ ekg' ∈ l', ∃ key, ekg'.eon = ekg.eon ∧
      ekg.kg.secretKeys b = none ∧ ekg'.kg.secretKeys b = some (some key) ∧ Wants cx sh mc b key ∧
      (.decryptionSignature b sig : Action G1 G2) = sigAction cx mc b key) ∧
    ∀ ekg' ∈ l', ∀ b key, ekg'.kg.secretKeys b = some (some key) → (∃ ekg ∈ l, ekg.eon = ekg'.eon ∧ ekg.kg.secretKeys b = some (some key)) ∨
      (Wants cx sh mc b key → sigAction cx mc b key ∈ d'.actions) := by
  intro l
  induction l with
  | nil => intro l' d d' hs; cases hs; exact ⟨fun _ h => h, fun _ _ h => .inl h, by simp⟩
  | cons x l ih =>
    intro l' d d' hs
    simp only [syncEKGs, Option.bind_eq_bind, Option.bind_eq_some_iff, Prod.exists, Option.some.injEq, Prod.mk.injEq] at hs
    obtain ⟨eon, _, e1, d1, h1, l1, d2, h2, rfl, rfl⟩ := hs
    have s1 := syncEKG_signs h1
    obtain ⟨i1, i2, i3⟩ := ih h2
    refine ⟨fun a ha => i1 a (s1.mono a ha), fun b sig hm => ?_, fun ekg' he b key hk => ?_⟩
    · rcases i2 b sig hm with hm | ⟨e, he, e', he', k⟩
      · rcases s1.sound b sig hm with hm | ⟨key, k⟩
        · exact .inl hm
        · exact .inr ⟨x, by simp, e1, by simp, key, s1.eon, k⟩
      · exact .inr ⟨e, by simp [he], e', by simp [he'], k⟩
    · rcases List.mem_cons.1 he with rfl | he
      · rcases s1.complete b key hk with h | h
        · exact .inl ⟨x, by simp, s1.eon.symm, h⟩
        · exact .inr fun hw => i1 _ (h hw)
      · rcases i3 ekg' he b key hk with ⟨e, h, h'⟩ | h
        · exact .inl ⟨e, by simp [h], h'⟩
        · exact .inr h

/-- The signatures of a round. -/
theorem signs_round {keys : List Nat} {st st' : State G1 G2} {acts : List (Action G1 G2)}
    {dkg sync pub sigs exec app acc : Decider G1 G2} {ekgs : List (EKG G1 G2)}
    (g : Stages cx sh mc keys st st' acts dkg sync pub sigs exec app acc ekgs) (inv' : EkgInv st') :
    (∀ b sig, .decryptionSignature b sig ∈ acts → ∃ e key, HasEonKey st' e b key ∧ (∀ key', ¬ HasEonKey st e b key') ∧ Wants cx sh mc b key ∧
      (.decryptionSignature b sig : Action G1 G2) = sigAction cx mc b key) ∧
    ∀ e b key, HasEonKey st' e b key → (∀ key', ¬ HasEonKey st e b key') → Wants cx sh mc b key → sigAction cx mc b key ∈ acts := by
  obtain ⟨i1, i2, i3⟩ := syncEKGs_signs g.hsync
  have hlate : ∀ a : Action G1 G2, a.kind = .signature → (a ∈ acts ↔ a ∈ sync.actions) := by
    intro a ha
    have step : ∀ {k : Kind} {d d' : Decider G1 G2}, Emits k d d' → k ≠ .signature → (a ∈ d'.actions ↔ a ∈ d.actions) := by
      rintro k d d' ⟨new, h1, h2⟩ hk
      rw [h1, List.mem_append]
      refine ⟨fun h => h.elim id fun h => ?_, .inl⟩
      have := h2 a h
      rw [ha] at this
      exact absurd this.symm hk
    rw [g.hacts, step (accuse_stage g.hacc).1 (by decide), step (appeal_stage g.happ).1 (by decide), step (exec_stage g.hexec).1 (by decide),
      (handleSigs_stage g.hsigs).1, step (publish_emits g.hpub).1 (by decide)]
  have hfirst : ∀ b sig, (.decryptionSignature b sig : Action G1 G2) ∉ dkg.actions := by
    intro b sig h
    rcases g.hkind _ h with h | h | h <;> cases h
  have hekg : ∀ ekg ∈ st.ekgs, ekg ∈ dkg.st.ekgs := by
    obtain ⟨_, _, _, _, z, hz⟩ := g.hdkg
    rw [hz]
    exact fun ekg h => List.mem_append_left _ h
  have hfin := ekgs_final g
  refine ⟨fun b sig hm => ?_, fun e b key hk hnew hw => ?_⟩
  · rw [hlate _ rfl] at hm
    rcases i2 b sig hm with hm | ⟨ekg, he, ekg', he', key, k1, k2, k3, k4, k5⟩
    · exact absurd hm (hfirst b sig)
    · refine ⟨ekg'.eon, key, ⟨ekg', by rw [hfin]; exact he', rfl, k3⟩, ?_, k4, k5⟩
      rintro key' ⟨x, hx, hxe, hxk⟩
      have hnd := inv'.nodup
      rw [hfin, ekgs_keep_eons (syncEKGs_keeps g.hsync)] at hnd
      obtain rfl := List.inj_on_of_nodup_map hnd (hekg x hx) he (hxe.trans k1)
      rw [k2] at hxk
      cases hxk
  · rw [hlate _ rfl]
    obtain ⟨ekg', he, hee, hk⟩ := hk
    rw [hfin] at he
    rcases i3 ekg' he b key hk with ⟨x, hx, hxe, hxk⟩ | h
    · exact absurd ⟨x, newEkgs_empty g hx hxk, hxe.trans hee, hxk⟩ (hnew key)
    · exact h hw

end Shutter.Decide
