import Verif.Proofs.DecideFrame

set_option linter.unusedSectionVars false

/-! A round of the keyper, stage by stage: which actions a stage emits and which part of the state it changes. -/

namespace Shutter.Decide
open Shutter.Crypto Shutter.Dkg Shutter.Observe Shutter.Main
open Shutter.App (Addr findAddressIndex)

variable {G1 G2 GT R : Type}

/-- The stage an action comes from. -/
inductive Kind
  | keygen | signature | share | exec | appeal | accuse | checkIn | vote
deriving DecidableEq

def Action.kind : Action G1 G2 → Kind
  | .epochSecretKeyShare .. => .share
  | .decryptionSignature .. => .signature
  | .executeCipherBatch .. => .exec
  | .executePlainBatch .. => .exec
  | .skipCipherBatch .. => .exec
  | .appeal .. => .appeal
  | .accuse .. => .accuse
  | .checkIn => .checkIn
  | .batchConfig .. => .vote
  | _ => .keygen

/-- Only actions of a kind are added. -/
def Emits (k : Kind) (d d' : Decider G1 G2) : Prop :=
  ∃ new, d'.actions = d.actions ++ new ∧ ∀ a ∈ new, a.kind = k

theorem Emits.refl (k : Kind) (d : Decider G1 G2) : Emits k d d := ⟨[], by simp, by simp⟩
theorem Emits.same {k : Kind} {d d' : Decider G1 G2} (h : d'.actions = d.actions) : Emits k d d' := ⟨[], by simp [h], by simp⟩
theorem Emits.trans {k : Kind} {a b c : Decider G1 G2} (h : Emits k a b) (g : Emits k b c) : Emits k a c := by
  obtain ⟨x, hx, hx'⟩ := h
  obtain ⟨y, hy, hy'⟩ := g
  refine ⟨x ++ y, by rw [hy, hx, List.append_assoc], fun a ha => ?_⟩
  rw [List.mem_append] at ha
  exact ha.elim (hx' a) (hy' a)
theorem Emits.one {k : Kind} {d d' : Decider G1 G2} {a : Action G1 G2} (h : d'.actions = d.actions ++ [a]) (hk : a.kind = k) :
    Emits k d d' := ⟨[a], h, by simpa using hk⟩

theorem Emits.filter_ne {k k' : Kind} {d d' : Decider G1 G2} (h : Emits k d d') (hk : k ≠ k') :
    d'.actions.filter (fun a => a.kind = k') = d.actions.filter (fun a => a.kind = k') := by
  obtain ⟨x, hx, hx'⟩ := h
  have : x.filter (fun a => a.kind = k') = [] := by
    rw [List.filter_eq_nil_iff]
    intro a ha
    rw [hx' a ha]
    simpa using hk
  rw [hx, List.filter_append, this, List.append_nil]

theorem Emits.all {k : Kind} {d d' : Decider G1 G2} (h : Emits k d d') (hd : ∀ a ∈ d.actions, a.kind = k) :
    ∀ a ∈ d'.actions, a.kind = k := by
  obtain ⟨x, hx, hx'⟩ := h
  intro a ha
  rw [hx, List.mem_append] at ha
  exact ha.elim (hd a) (hx' a)

/-! ## Key generation -/

theorem checkIn_stage (cx : Cfg G1 G2 GT R) (sh : Observe.Shutter) (d : Decider G1 G2) :
    Emits .checkIn d (maybeSendCheckIn cx sh d) ∧
    (maybeSendCheckIn cx sh d).st = { d.st with checkInMessageSent := (maybeSendCheckIn cx sh d).st.checkInMessageSent } := by
  unfold maybeSendCheckIn
  split_ifs
  · exact ⟨.refl _ _, rfl⟩
  · exact ⟨.refl _ _, rfl⟩
  · exact ⟨.one (a := .checkIn) rfl rfl, rfl⟩
  · exact ⟨.refl _ _, rfl⟩

theorem batchConfig_stage (sh : Observe.Shutter) (mc : MainChain) (d : Decider G1 G2) :
    Emits .vote d (maybeSendBatchConfig sh mc d) ∧
    (maybeSendBatchConfig sh mc d).st = { d.st with
      lastSentBatchConfigIndex := (maybeSendBatchConfig sh mc d).st.lastSentBatchConfigIndex } := by
  unfold maybeSendBatchConfig
  split
  · exact ⟨.refl _ _, rfl⟩
  · simp only
    split
    · exact ⟨.refl _ _, rfl⟩
    · split
      · exact ⟨.refl _ _, rfl⟩
      · exact ⟨.one rfl rfl, rfl⟩

theorem advance_kind {a b : DKG G2} {here n : Nat} {f : DKG G2 → Nat → Option (DKG G2 × List (Action G1 G2))}
    {acts : List (Action G1 G2)} (hf : ∀ x m y l, f x m = some (y, l) → ∀ e ∈ l, e.kind = .keygen)
    (h : advance a here n f = some (b, acts)) : ∀ e ∈ acts, e.kind = .keygen := by
  unfold advance at h
  split at h
  · exact hf _ _ _ _ h
  · cases h; simp

section
variable [AddCommGroup G1] [AddCommGroup G2] [DecidableEq G2] [DecidableEq GT]

theorem startPhase1_kind {cx : Cfg G1 G2 GT R} {a b : DKG G2} {n : Nat} {acts : List (Action G1 G2)}
    (h : startPhase1 cx a n = some (b, acts)) : ∀ e ∈ acts, e.kind = .keygen := by
  unfold startPhase1 at h
  rw [Option.bind_eq_some_iff] at h
  obtain ⟨r, _, h⟩ := h
  split at h
  · cases h
  · split at h
    · cases h; simp
    · cases h; simp [Action.kind]

theorem startPhase2_kind {cx : Cfg G1 G2 GT R} {a b : DKG G2} {n : Nat} {acts : List (Action G1 G2)}
    (h : startPhase2 cx a n = some (b, acts)) : ∀ e ∈ acts, e.kind = .keygen := by
  unfold startPhase2 at h
  rw [Option.bind_eq_some_iff] at h
  obtain ⟨r, _, h⟩ := h
  split at h
  · cases h; simp
  · split at h
    · rw [Option.map_eq_some_iff] at h
      obtain ⟨x, _, h⟩ := h
      cases h; simp [Action.kind]
    · cases h; simp

theorem startPhase3_kind {cx : Cfg G1 G2 GT R} {a b : DKG G2} {n : Nat} {acts : List (Action G1 G2)}
    (h : startPhase3 cx a n = some (b, acts)) : ∀ e ∈ acts, e.kind = .keygen := by
  unfold startPhase3 at h
  rw [Option.bind_eq_some_iff] at h
  obtain ⟨r, _, h⟩ := h
  split at h
  · cases h; simp
  · split at h
    · rw [Option.map_eq_some_iff] at h
      obtain ⟨x, _, h⟩ := h
      cases h; simp [Action.kind]
    · cases h; simp

theorem dkgFinalize_kind {cx : Cfg G1 G2 GT R} {a b : DKG G2} {e : List (EKG G1 G2)} {acts : List (Action G1 G2)}
    (h : dkgFinalize cx a = some (b, e, acts)) : ∀ e ∈ acts, e.kind = .keygen := by
  unfold dkgFinalize at h
  rw [Option.map_eq_some_iff] at h
  obtain ⟨r, _, h⟩ := h
  split at h
  · cases h; simp [Action.kind]
  · cases h; simp [Action.kind]

theorem syncDKG_kind {cx : Cfg G1 G2 GT R} {h t : Int} {a b : DKG G2} {eon : Eon} {e : List (EKG G1 G2)} {acts : List (Action G1 G2)}
    (hs : syncDKGWithEon cx h t a eon = some (b, e, acts)) : ∀ e ∈ acts, e.kind = .keygen := by
  simp only [syncDKGWithEon, Option.bind_eq_bind, Option.bind_eq_some_iff, Prod.exists] at hs
  obtain ⟨d1, a1, h1, d2, _, d3, _, d4, a2, h4, d5, _, d6, a3, h6, d7, _, hs⟩ := hs
  have k1 := advance_kind (fun _ _ _ _ => startPhase1_kind) h1
  have k2 := advance_kind (fun _ _ _ _ => startPhase2_kind) h4
  have k3 := advance_kind (fun _ _ _ _ => startPhase3_kind) h6
  split at hs
  · rw [Option.map_eq_some_iff] at hs
    obtain ⟨⟨x, y, z⟩, hf, hs⟩ := hs
    cases hs
    have k4 := dkgFinalize_kind hf
    intro e he
    simp only [List.mem_append] at he
    rcases he with ((he | he) | he) | he
    · exact k1 e he
    · exact k2 e he
    · exact k3 e he
    · exact k4 e he
  · cases hs
    intro e he
    simp only [List.mem_append] at he
    rcases he with (he | he) | he
    · exact k1 e he
    · exact k2 e he
    · exact k3 e he

omit [AddCommGroup G1] [AddCommGroup G2] [DecidableEq G2] [DecidableEq GT] in
theorem sendPolyEvals_kind {cx : Cfg G1 G2 GT R} {keys : Addr → Option Bytes} {a b : DKG G2} {acts : List (Action G1 G2)}
    (h : sendPolyEvals cx keys a = some (b, acts)) : ∀ e ∈ acts, e.kind = .keygen := by
  unfold sendPolyEvals at h
  split at h
  · cases h; simp
  · split at h
    · cases h; simp
    · rw [Option.map_eq_some_iff] at h
      obtain ⟨r, _, h⟩ := h
      split at h
      · cases h; simp [Action.kind]
      · cases h; simp

theorem handleDKGs_kind {cx : Cfg G1 G2 GT R} {sh : Observe.Shutter} {t : Int} : ∀ {l l' : List (DKG G2)} {e : List (EKG G1 G2)}
    {acts : List (Action G1 G2)}, handleDKGs cx sh t l = some (l', e, acts) → ∀ a ∈ acts, a.kind = .keygen := by
  intro l
  induction l with
  | nil =>
    intro l' e acts h
    cases h; simp
  | cons x l ih =>
    intro l' e acts h
    simp only [handleDKGs, Option.bind_eq_bind, Option.bind_eq_some_iff, Prod.exists, Option.some.injEq, Prod.mk.injEq] at h
    obtain ⟨d1, e1, a1, h1, d2, e2, a2, h2, _, _, rfl⟩ := h
    have k2 := ih h2
    have k1 : ∀ a ∈ a1, a.kind = .keygen := by
      unfold handleDKG at h1
      split at h1
      · cases h1; simp
      · simp only [Option.bind_eq_bind, Option.bind_eq_some_iff, Prod.exists, Option.some.injEq, Prod.mk.injEq] at h1
        obtain ⟨_, _, _, _, b1, hb1, _, b2, hb2, _, _, rfl⟩ := h1
        intro a ha
        rw [List.mem_append] at ha
        exact ha.elim (syncDKG_kind hb1 a) (sendPolyEvals_kind hb2 a)
    intro a ha
    rw [List.mem_append] at ha
    exact ha.elim (k1 a) (k2 a)

theorem decideDKGs_stage {cx : Cfg G1 G2 GT R} {sh : Observe.Shutter} {d d' : Decider G1 G2} (h : decideDKGs cx sh d = some d') :
    Emits .keygen d d' ∧ ∃ x y z, d'.st = { d.st with
      lastEonStarted := x
      dkgs := y
      ekgs := d.st.ekgs ++ z } := by
  simp only [decideDKGs, Option.bind_eq_bind, Option.bind_eq_some_iff, Prod.exists, Option.some.injEq] at h
  obtain ⟨a, b, c, h1, rfl⟩ := h
  exact ⟨⟨c, rfl, handleDKGs_kind h1⟩, _, _, _, rfl⟩

/-! ## Epoch keys -/

theorem sendSig_stage {cx : Cfg G1 G2 GT R} {sh : Observe.Shutter} {mc : MainChain} {b : Nat} {d d' : Decider G1 G2}
    (h : sendDecryptionSignature cx sh mc b d = some d') :
    Emits .signature d d' ∧ d'.st = { d.st with batches := d'.st.batches } := by
  unfold sendDecryptionSignature at h
  split at h
  · cases h; exact ⟨.refl _ _, rfl⟩
  · simp only [Option.bind_eq_bind, Option.bind_eq_some_iff] at h
    obtain ⟨_, _, _, _, _, _, h⟩ := h
    split at h
    · cases h; exact ⟨.one rfl rfl, rfl⟩
    · cases h; exact ⟨.same rfl, rfl⟩

theorem st_batches_trans {a b c : State G1 G2} (h : b = { a with batches := b.batches }) (g : c = { b with batches := c.batches }) :
    c = { a with batches := c.batches } := by
  rw [h] at g; exact g

theorem shareEvent_stage {cx : Cfg G1 G2 GT R} {sh : Observe.Shutter} {mc : MainChain} {ekg ekg' : EKG G1 G2} {d d' : Decider G1 G2}
    {x : Stamped} (h : handleShareEvent cx sh mc ekg d x = some (ekg', d')) :
    Emits .signature d d' ∧ d'.st = { d.st with batches := d'.st.batches } := by
  unfold handleShareEvent at h
  split at h
  · split at h
    · cases h; exact ⟨.refl _ _, rfl⟩
    · split at h
      · cases h; exact ⟨.refl _ _, rfl⟩
      · simp only [Option.bind_eq_bind, Option.bind_eq_some_iff, Prod.exists] at h
        obtain ⟨kg, ok, _, h⟩ := h
        split at h
        · cases h; exact ⟨.refl _ _, rfl⟩
        · split at h
          · simp only [Option.bind_eq_some_iff] at h
            obtain ⟨t, _, h⟩ := h
            split at h
            · cases h; exact ⟨.same rfl, rfl⟩
            · rw [Option.map_eq_some_iff] at h
              obtain ⟨d1, h1, h⟩ := h
              cases h
              obtain ⟨h2, h3⟩ := sendSig_stage h1
              exact ⟨(Emits.same rfl).trans h2, st_batches_trans rfl h3⟩
          · cases h; exact ⟨.refl _ _, rfl⟩
  · cases h; exact ⟨.refl _ _, rfl⟩

theorem syncEKG_stage {cx : Cfg G1 G2 GT R} {sh : Observe.Shutter} {mc : MainChain} : ∀ {xs : List Stamped}
    {ekg ekg' : EKG G1 G2} {d d' : Decider G1 G2}, syncEKGWithEon cx sh mc ekg d xs = some (ekg', d') →
    Emits .signature d d' ∧ d'.st = { d.st with batches := d'.st.batches } := by
  intro xs
  induction xs with
  | nil =>
    intro ekg ekg' d d' h
    cases h; exact ⟨.refl _ _, rfl⟩
  | cons x xs ih =>
    intro ekg ekg' d d' h
    simp only [syncEKGWithEon, Option.bind_eq_bind, Option.bind_eq_some_iff, Prod.exists] at h
    obtain ⟨e1, d1, h1, h2⟩ := h
    obtain ⟨a1, a2⟩ := shareEvent_stage h1
    obtain ⟨b1, b2⟩ := ih h2
    exact ⟨a1.trans b1, st_batches_trans a2 b2⟩

theorem syncEKGs_stage {cx : Cfg G1 G2 GT R} {sh : Observe.Shutter} {mc : MainChain} : ∀ {l l' : List (EKG G1 G2)}
    {d d' : Decider G1 G2}, syncEKGs cx sh mc l d = some (l', d') →
    Emits .signature d d' ∧ d'.st = { d.st with batches := d'.st.batches } := by
  intro l
  induction l with
  | nil =>
    intro l' d d' h
    cases h; exact ⟨.refl _ _, rfl⟩
  | cons x l ih =>
    intro l' d d' h
    simp only [syncEKGs, Option.bind_eq_bind, Option.bind_eq_some_iff, Prod.exists, Option.some.injEq, Prod.mk.injEq] at h
    obtain ⟨eon, _, e1, d1, h1, l1, d2, h2, _, rfl⟩ := h
    obtain ⟨a1, a2⟩ := syncEKG_stage h1
    obtain ⟨b1, b2⟩ := ih h2
    exact ⟨a1.trans b1, st_batches_trans a2 b2⟩

end

section
variable [AddCommGroup G1]

theorem publishStep_stage {cx : Cfg G1 G2 GT R} {sh : Observe.Shutter} {mc : MainChain} {d d' : Decider G1 G2} {b : Nat}
    (h : publishStep cx sh mc d b = some d') : d'.st = d.st ∧ (d'.actions = d.actions ∨
      executionTimeoutReachedOrInactive mc b = some false ∧ ∃ eon share, d'.actions = d.actions ++ [.epochSecretKeyShare eon b share]) := by
  unfold publishStep at h
  rw [Option.map_eq_some_iff] at h
  obtain ⟨t, ht, rfl⟩ := h
  split
  · exact ⟨rfl, .inl rfl⟩
  · next hf =>
    unfold publishEpochSecretKeyShare
    split
    · exact ⟨rfl, .inl rfl⟩
    · split
      · exact ⟨rfl, .inl rfl⟩
      · split
        · exact ⟨rfl, .inl rfl⟩
        · split
          · exact ⟨rfl, .inl rfl⟩
          · refine ⟨rfl, .inr ⟨?_, _, _, rfl⟩⟩
            rw [ht]; simpa using hf

theorem publishLoop_stage {cx : Cfg G1 G2 GT R} {sh : Observe.Shutter} {mc : MainChain} : ∀ {n s : Nat} {d d' : Decider G1 G2},
    (List.range' s n).foldlM (publishStep cx sh mc) d = some d' → d'.st = d.st ∧ ∃ new, d'.actions = d.actions ++ new ∧
      (∀ a ∈ new, ∃ eon b share, a = .epochSecretKeyShare eon b share ∧ s ≤ b ∧ b < s + n ∧
        executionTimeoutReachedOrInactive mc b = some false) ∧
      new.Pairwise (fun x y => ∀ e b k e' b' k', x = .epochSecretKeyShare e b k → y = .epochSecretKeyShare e' b' k' → b < b') := by
  intro n
  induction n with
  | zero =>
    intro s d d' h
    cases h
    exact ⟨rfl, [], by simp, by simp, .nil⟩
  | succ n ih =>
    intro s d d' h
    simp only [List.range'_succ, List.foldlM_cons, Option.bind_eq_bind, Option.bind_eq_some_iff] at h
    obtain ⟨d1, h1, h2⟩ := h
    obtain ⟨e1, g1⟩ := publishStep_stage h1
    obtain ⟨e2, new, g2, g3, g4⟩ := ih h2
    refine ⟨e2.trans e1, ?_⟩
    rcases g1 with g1 | ⟨ht, eon, share, g1⟩
    · refine ⟨new, by rw [g2, g1], fun a ha => ?_, g4⟩
      obtain ⟨eon, b, share, k1, k2, k3, k4⟩ := g3 a ha
      exact ⟨eon, b, share, k1, by omega, by omega, k4⟩
    · refine ⟨.epochSecretKeyShare eon s share :: new, by rw [g2, g1]; simp, fun a ha => ?_, ?_⟩
      · rw [List.mem_cons] at ha
        rcases ha with rfl | ha
        · exact ⟨eon, s, share, rfl, le_refl _, by omega, ht⟩
        · obtain ⟨eon, b, share, k1, k2, k3, k4⟩ := g3 a ha
          exact ⟨eon, b, share, k1, by omega, by omega, k4⟩
      · refine List.pairwise_cons.mpr ⟨fun y hy => ?_, g4⟩
        intro e b k e' b' k' h1 h2
        cases h1
        obtain ⟨_, _, _, rfl, k2, _⟩ := g3 y hy
        cases h2; omega

theorem publish_stage {cx : Cfg G1 G2 GT R} {sh : Observe.Shutter} {mc : MainChain} {d d' : Decider G1 G2}
    (h : publishEpochSecretKeyShares cx sh mc d = some d') : d' = d ∨ ∃ i bc current,
      activeConfigIndex mc mc.currentBlock = some i ∧ mc.configs[i]? = some bc ∧
      (findBatchConfigByConfigIndex sh i).isSome = true ∧ GoConfig.batchIndex bc mc.currentBlock = some current ∧
      d'.st = { d.st with nextEpochSecretShare := current } ∧ ∃ new, d'.actions = d.actions ++ new ∧
      (∀ a ∈ new, ∃ eon b share, a = .epochSecretKeyShare eon b share ∧ d.st.nextEpochSecretShare ≤ b ∧ b < current ∧
        executionTimeoutReachedOrInactive mc b = some false) ∧
      new.Pairwise (fun x y => ∀ e b k e' b' k', x = .epochSecretKeyShare e b k → y = .epochSecretKeyShare e' b' k' → b < b') := by
  unfold publishEpochSecretKeyShares at h
  simp only [Option.bind_eq_bind, Option.bind_eq_some_iff] at h
  obtain ⟨i, h1, bc, h2, h⟩ := h
  split at h
  · cases h; exact .inl rfl
  · next x hx =>
    simp only [Option.bind_eq_some_iff, Option.some.injEq] at h
    obtain ⟨c, h3, d1, h4, rfl⟩ := h
    obtain ⟨e, new, g1, g2, g3⟩ := publishLoop_stage h4
    refine .inr ⟨i, bc, c, h1, h2, by rw [hx]; rfl, h3, by rw [e], new, g1, fun a ha => ?_, g3⟩
    obtain ⟨eon, b, share, k1, k2, k3, k4⟩ := g2 a ha
    exact ⟨eon, b, share, k1, k2, by omega, k4⟩

theorem publish_emits {cx : Cfg G1 G2 GT R} {sh : Observe.Shutter} {mc : MainChain} {d d' : Decider G1 G2}
    (h : publishEpochSecretKeyShares cx sh mc d = some d') : Emits .share d d' ∧
      d'.st = { d.st with nextEpochSecretShare := d'.st.nextEpochSecretShare } := by
  rcases publish_stage h with rfl | ⟨i, bc, c, _, _, _, _, e, new, g1, g2, _⟩
  · exact ⟨.refl _ _, rfl⟩
  · refine ⟨⟨new, g1, fun a ha => ?_⟩, by rw [e]⟩
    obtain ⟨_, _, _, rfl, _⟩ := g2 a ha
    rfl

end

/-! ## Signatures, execution, appeals, accusations -/

theorem handleSigs_stage {cx : Cfg G1 G2 GT R} {sh : Observe.Shutter} {mc : MainChain} {d d' : Decider G1 G2}
    (h : handleDecryptionSignatures cx sh mc d = some d') : d'.actions = d.actions ∧ d'.st = { d.st with batches := d'.st.batches } := by
  unfold handleDecryptionSignatures at h
  rw [Option.map_eq_some_iff] at h
  obtain ⟨_, _, rfl⟩ := h
  exact ⟨rfl, rfl⟩

/-- What an executed half step looks like. -/
theorem halfStep_kind {cx : Cfg G1 G2 GT R} {mc : MainChain} {st : State G1 G2} {h : Nat} {a : Action G1 G2}
    (hm : maybeExecuteHalfStep cx mc st h = some (some a)) : a.kind = .exec := by
  unfold maybeExecuteHalfStep at hm
  split at hm
  · cases hm
  · cases hm
  · simp only [Option.bind_eq_bind, Option.bind_eq_some_iff] at hm
    obtain ⟨_, _, _, _, hm⟩ := hm
    split at hm
    · split at hm
      · cases hm; rfl
      · cases hm
    · split at hm
      · cases hm
      · split at hm
        · split at hm
          · unfold executeCipherBatch at hm
            simp only at hm
            split at hm
            · cases hm
            · split at hm
              · cases hm
              · split at hm
                · cases hm
                · cases hm; rfl
          · cases hm; rfl
        · cases hm

theorem executeLoop_stage {cx : Cfg G1 G2 GT R} {mc : MainChain} : ∀ {n h : Nat} {d d' : Decider G1 G2},
    executeLoop cx mc n h d = some d' → d'.st = { d.st with pendingHalfStep := d'.st.pendingHalfStep } ∧
      ∃ new, d'.actions = d.actions ++ new ∧ new.length ≤ n ∧
        (∀ (j : Nat) a, new[j]? = some a → ∃ p, maybeExecuteHalfStep cx mc { d.st with pendingHalfStep := p } (h + j) = some (some a)) ∧
        d'.st.pendingHalfStep = if new.length = 0 then d.st.pendingHalfStep else some (h + new.length - 1) := by
  intro n
  induction n with
  | zero =>
    intro h d d' hr
    cases hr
    exact ⟨rfl, [], by simp, by simp, by simp, by simp⟩
  | succ n ih =>
    intro h d d' hr
    unfold executeLoop at hr
    split at hr
    · cases hr
    · cases hr
      exact ⟨rfl, [], by simp, by simp, by simp, by simp⟩
    · next a ha =>
      obtain ⟨e1, new, g1, g2, g3, g4⟩ := ih hr
      refine ⟨e1, a :: new, by rw [g1]; simp [Decider.add], by simpa using g2, fun j x hx => ?_, ?_⟩
      · cases j with
        | zero =>
          rw [List.getElem?_cons_zero] at hx
          cases hx
          exact ⟨d.st.pendingHalfStep, ha⟩
        | succ j =>
          rw [List.getElem?_cons_succ] at hx
          obtain ⟨p, hp⟩ := g3 j x hx
          exact ⟨p, by rw [show h + (j + 1) = h + 1 + j by omega]; exact hp⟩
      · rw [g4]
        by_cases h0 : new.length = 0
        · simp [h0]
        · simp [h0]

theorem exec_stage {cx : Cfg G1 G2 GT R} {mc : MainChain} {d d' : Decider G1 G2} (h : maybeExecuteBatch cx mc d = some d') :
    Emits .exec d d' ∧ d'.st = { d.st with pendingHalfStep := d'.st.pendingHalfStep } := by
  unfold maybeExecuteBatch at h
  simp only [Option.bind_eq_bind, Option.bind_eq_some_iff] at h
  obtain ⟨config, _, h⟩ := h
  split at h
  · cases h; exact ⟨.refl _ _, rfl⟩
  · simp only [Option.bind_eq_some_iff] at h
    obtain ⟨_, _, h⟩ := h
    split at h
    · cases h; exact ⟨.same rfl, rfl⟩
    · obtain ⟨e1, new, g1, _, g3, _⟩ := executeLoop_stage h
      refine ⟨⟨new, g1, fun a ha => ?_⟩, e1⟩
      obtain ⟨j, hj⟩ := List.getElem?_of_mem ha
      obtain ⟨p, hp⟩ := g3 j a hj
      exact halfStep_kind hp

theorem appealStep_stage {mc : MainChain} {d d' : Decider G1 G2} {k : Nat} (h : appealStep mc d k = some d') :
    Emits .appeal d d' ∧ d'.st = { d.st with pendingAppeals := d'.st.pendingAppeals } := by
  unfold appealStep at h
  split at h
  · cases h; exact ⟨.refl _ _, rfl⟩
  · split at h
    · cases h; exact ⟨.refl _ _, rfl⟩
    · split at h
      · cases h; exact ⟨.refl _ _, rfl⟩
      · split at h
        · cases h; exact ⟨.refl _ _, rfl⟩
        · split at h
          · cases h; exact ⟨.refl _ _, rfl⟩
          · split at h
            · cases h; exact ⟨.refl _ _, rfl⟩
            · split at h
              · cases h
              · cases h; exact ⟨.refl _ _, rfl⟩
              · rw [Option.map_eq_some_iff] at h
                obtain ⟨_, _, rfl⟩ := h
                exact ⟨.one rfl rfl, rfl⟩

theorem appeal_stage {mc : MainChain} {keys : List Nat} {d d' : Decider G1 G2} (h : maybeAppeal mc keys d = some d') :
    Emits .appeal d d' ∧ d'.st = { d.st with pendingAppeals := d'.st.pendingAppeals } := by
  unfold maybeAppeal at h
  refine foldlM_option_inv (fun x => Emits .appeal d x ∧ x.st = { d.st with pendingAppeals := x.st.pendingAppeals }) _ ?_ _ _ _ h
    ⟨.same rfl, rfl⟩
  intro b k b' hb hp
  obtain ⟨h1, h2⟩ := appealStep_stage hb
  refine ⟨hp.1.trans h1, ?_⟩
  rw [h2, hp.2]

theorem accuseStep_stage {cx : Cfg G1 G2 GT R} {mc : MainChain} {d d' : Decider G1 G2} {k : Nat} (h : accuseStep cx mc d k = some d') :
    Emits .accuse d d' ∧ d'.st = d.st := by
  unfold accuseStep at h
  split at h
  · cases h; exact ⟨.refl _ _, rfl⟩
  · split at h
    · cases h; exact ⟨.refl _ _, rfl⟩
    · split at h
      · cases h; exact ⟨.refl _ _, rfl⟩
      · split at h
        · cases h; exact ⟨.refl _ _, rfl⟩
        · split at h
          · cases h; exact ⟨.refl _ _, rfl⟩
          · split at h
            · cases h
            · cases h; exact ⟨.refl _ _, rfl⟩
            · cases h; exact ⟨.one rfl rfl, rfl⟩

theorem accuse_stage {cx : Cfg G1 G2 GT R} {mc : MainChain} {d d' : Decider G1 G2} (h : maybeAccuse cx mc d = some d') :
    Emits .accuse d d' ∧ d'.st = { d.st with halfStepsChecked := mc.numHalfSteps } := by
  unfold maybeAccuse at h
  rw [Option.map_eq_some_iff] at h
  obtain ⟨d1, h, rfl⟩ := h
  have := foldlM_option_inv (fun x => Emits .accuse d x ∧ x.st = d.st) _ (by
    intro b k b' hb hp
    obtain ⟨h1, h2⟩ := accuseStep_stage hb
    exact ⟨hp.1.trans h1, h2.trans hp.2⟩) _ _ _ h ⟨.refl _ _, rfl⟩
  exact ⟨this.1, by rw [this.2]⟩

variable [AddCommGroup G1] [AddCommGroup G2] [DecidableEq G2] [DecidableEq GT]

/-- The stages of a round in which the keyper decides. -/
structure Stages (cx : Cfg G1 G2 GT R) (sh : Observe.Shutter) (mc : MainChain) (keys : List Nat) (st st' : State G1 G2)
    (acts : List (Action G1 G2)) (dkg sync pub sigs exec app acc : Decider G1 G2) (ekgs : List (EKG G1 G2)) : Prop where
  ready : isSynced sh = true ∧ mc.nodeSynced = true ∧ isKeyper sh cx.own = true
  hdkg : ∃ a b x y z, dkg.st = { st with
    checkInMessageSent := a
    lastSentBatchConfigIndex := b
    lastEonStarted := x
    dkgs := y
    ekgs := st.ekgs ++ z }
  hfirst : decideDKGs cx sh (maybeSendBatchConfig sh mc (maybeSendCheckIn cx sh ⟨st, []⟩)) = some dkg
  hkind : ∀ a ∈ dkg.actions, a.kind = .keygen ∨ a.kind = .checkIn ∨ a.kind = .vote
  hsync : syncEKGs cx sh mc dkg.st.ekgs dkg = some (ekgs, sync)
  hpub : publishEpochSecretKeyShares cx sh mc { sync with st := { sync.st with ekgs := ekgs } } = some pub
  hsigs : handleDecryptionSignatures cx sh mc pub = some sigs
  hexec : maybeExecuteBatch cx mc sigs = some exec
  happ : maybeAppeal mc keys exec = some app
  hacc : maybeAccuse cx mc app = some acc
  final : st' = { acc.st with syncHeight := sh.currentBlock + 1 }
  hacts : acts = acc.actions

theorem decide_ready {cx : Cfg G1 G2 GT R} {sh : Observe.Shutter} {mc : MainChain} {keys : List Nat} {st st' : State G1 G2}
    {acts : List (Action G1 G2)} (h : decideStep cx sh mc keys st = some (st', acts)) (g1 : isSynced sh = true)
    (g2 : mc.nodeSynced = true) (g3 : isKeyper sh cx.own = true) : ∃ dkg sync pub sigs exec app acc ekgs,
      Stages cx sh mc keys st st' acts dkg sync pub sigs exec app acc ekgs := by
  unfold decideStep at h
  simp only [g1, g2, g3, Bool.not_true, Bool.false_eq_true, if_false] at h
  rw [Option.map_eq_some_iff] at h
  obtain ⟨d, h, he⟩ := h
  cases he
  simp only [decideAll, Option.bind_eq_bind, Option.bind_eq_some_iff, Option.some.injEq] at h
  obtain ⟨d1, h1, d2, h2, d3, h3, d4, h4, d5, h5, d6, h6, rfl⟩ := h
  simp only [handleEpochKG, Option.bind_eq_bind, Option.bind_eq_some_iff, Prod.exists] at h2
  obtain ⟨l, d1', h2, h2'⟩ := h2
  obtain ⟨k1, x, y, z, k2⟩ := decideDKGs_stage h1
  obtain ⟨k3, k4⟩ := batchConfig_stage sh mc (maybeSendCheckIn cx sh ⟨st, []⟩)
  obtain ⟨k5, k6⟩ := checkIn_stage cx sh ⟨st, []⟩
  refine ⟨d1, d1', d2, d3, d4, d5, d6, l, ⟨g1, g2, g3⟩, ?_, h1, ?_, h2, h2', h3, h4, h5, h6, rfl, rfl⟩
  · rw [k4, k6] at k2
    exact ⟨_, _, _, _, _, k2⟩
  · obtain ⟨n1, e1, f1⟩ := k5
    obtain ⟨n2, e2, f2⟩ := k3
    obtain ⟨n3, e3, f3⟩ := k1
    intro a ha
    rw [e3, e2, e1] at ha
    simp only [List.nil_append, List.mem_append] at ha
    rcases ha with (h | h) | h
    · exact .inr (.inl (f1 a h))
    · exact .inr (.inr (f2 a h))
    · exact .inl (f3 a h)

theorem decide_stages {cx : Cfg G1 G2 GT R} {sh : Observe.Shutter} {mc : MainChain} {keys : List Nat} {st st' : State G1 G2}
    {acts : List (Action G1 G2)} (h : decideStep cx sh mc keys st = some (st', acts)) :
    (st' = st ∧ acts = []) ∨ ∃ dkg sync pub sigs exec app acc ekgs,
      Stages cx sh mc keys st st' acts dkg sync pub sigs exec app acc ekgs := by
  by_cases g : isSynced sh = true ∧ mc.nodeSynced = true ∧ isKeyper sh cx.own = true
  · exact .inr (decide_ready h g.1 g.2.1 g.2.2)
  · left
    unfold decideStep at h
    split at h
    · cases h; exact ⟨rfl, rfl⟩
    · split at h
      · cases h; exact ⟨rfl, rfl⟩
      · split at h
        · cases h; exact ⟨rfl, rfl⟩
        · next g1 g2 g3 => exact absurd ⟨by simpa using g1, by simpa using g2, by simpa using g3⟩ g

/-- How far the half steps have been checked changes only at the end. -/
theorem Stages.checked {cx : Cfg G1 G2 GT R} {sh : Observe.Shutter} {mc : MainChain} {keys : List Nat} {st st' : State G1 G2}
    {acts : List (Action G1 G2)} {dkg sync pub sigs exec app acc : Decider G1 G2} {ekgs : List (EKG G1 G2)}
    (g : Stages cx sh mc keys st st' acts dkg sync pub sigs exec app acc ekgs) : app.st.halfStepsChecked = st.halfStepsChecked := by
  rw [(appeal_stage g.happ).2, (exec_stage g.hexec).2, (handleSigs_stage g.hsigs).2, (publish_emits g.hpub).2]
  simp only
  rw [(syncEKGs_stage g.hsync).2]
  obtain ⟨_, _, _, _, _, h⟩ := g.hdkg
  rw [h]

section
variable {cx : Cfg G1 G2 GT R} {sh : Observe.Shutter} {mc : MainChain} {keys : List Nat} {st st' : State G1 G2}
    {acts : List (Action G1 G2)} {dkg sync pub sigs exec app acc : Decider G1 G2} {ekgs : List (EKG G1 G2)}

/-- The actions of each kind come from their stage. -/
theorem Stages.filter (h : Stages cx sh mc keys st st' acts dkg sync pub sigs exec app acc ekgs) (k : Kind) :
    acts.filter (fun a => a.kind = k) = match k with
    | .keygen => dkg.actions.filter (fun a => a.kind = .keygen)
    | .signature => sync.actions.filter (fun a => a.kind = .signature)
    | .share => pub.actions.filter (fun a => a.kind = .share)
    | .exec => exec.actions.filter (fun a => a.kind = .exec)
    | .appeal => app.actions.filter (fun a => a.kind = .appeal)
    | .accuse => acc.actions.filter (fun a => a.kind = .accuse)
    | .checkIn => dkg.actions.filter (fun a => a.kind = .checkIn)
    | .vote => dkg.actions.filter (fun a => a.kind = .vote) := by
  have e1 := (syncEKGs_stage h.hsync).1
  have e2 := (publish_emits h.hpub).1
  have e3 := (handleSigs_stage h.hsigs).1
  have e4 := (exec_stage h.hexec).1
  have e5 := (appeal_stage h.happ).1
  have e6 := (accuse_stage h.hacc).1
  rw [h.hacts]
  have k2 : ∀ k', Kind.share ≠ k' → pub.actions.filter (fun a => a.kind = k') = sync.actions.filter (fun a => a.kind = k') :=
    fun k' hk => e2.filter_ne hk
  cases k with
  | keygen =>
    rw [e6.filter_ne (by decide), e5.filter_ne (by decide), e4.filter_ne (by decide), e3, k2 _ (by decide), e1.filter_ne (by decide)]
  | signature => rw [e6.filter_ne (by decide), e5.filter_ne (by decide), e4.filter_ne (by decide), e3, k2 _ (by decide)]
  | share => rw [e6.filter_ne (by decide), e5.filter_ne (by decide), e4.filter_ne (by decide), e3]
  | exec => rw [e6.filter_ne (by decide), e5.filter_ne (by decide)]
  | appeal => rw [e6.filter_ne (by decide)]
  | accuse => rfl
  | checkIn =>
    rw [e6.filter_ne (by decide), e5.filter_ne (by decide), e4.filter_ne (by decide), e3, k2 _ (by decide), e1.filter_ne (by decide)]
  | vote =>
    rw [e6.filter_ne (by decide), e5.filter_ne (by decide), e4.filter_ne (by decide), e3, k2 _ (by decide), e1.filter_ne (by decide)]

end
end Shutter.Decide
