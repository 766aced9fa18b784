import Verif.Proofs.AppLog

/-! # Check-ins, DKG messages and signatures happen at most once -/

namespace Shutter.App

/-- The app remembers that this was published. -/
def seen (s : State) : Once → Prop
  | .checkIn a => (s.identities a).isSome = true
  | .signature b a => ∃ bs, s.batchStates b = some bs ∧ ∃ d ∈ bs.decryptionSignatures, d.1 = a
  | .commitment e a => ∃ d, s.dkgMap e = some d ∧ a ∈ d.polyCommitmentsSeen
  | .eval e a r => ∃ d, s.dkgMap e = some d ∧ (a, r) ∈ d.polyEvalsSeen
  | .accusation e a => ∃ d, s.dkgMap e = some d ∧ a ∈ d.accusationsSeen
  | .apology e a => ∃ d, s.dkgMap e = some d ∧ a ∈ d.apologiesSeen

theorem seen_congr {s s' : State} (h1 : s'.identities = s.identities) (h2 : s'.batchStates = s.batchStates)
    (h3 : s'.dkgMap = s.dkgMap) (k) : seen s' k ↔ seen s k := by
  cases k <;> simp [seen, h1, h2, h3]

/-- Facts about a registered DKG message. -/
theorem registerPolyEval_some {d d' a e rs} (h : registerPolyEval d a e rs = some d') :
    e = d.eon ∧ a ∈ d.config.keypers ∧ (∀ r ∈ rs, r ∈ d.config.keypers ∧ r ≠ a ∧ (a, r) ∉ d.polyEvalsSeen) ∧
    d' = { d with polyEvalsSeen := rs.map (fun r => (a, r)) ++ d.polyEvalsSeen } := by
  unfold registerPolyEval at h
  split_ifs at h with h1 h2 h3
  simp at h h1 h2
  refine ⟨h1, isKeyper_iff.1 h2, ?_, h.symm⟩
  intro r hr
  simp only [Bool.not_eq_true', Bool.not_eq_false] at h3
  have := List.all_eq_true.1 h3 r hr
  unfold receiverOk at this
  split_ifs at this with h4 h5 h6
  simp at h4 h5 h6
  exact ⟨isKeyper_iff.1 h4, h5, h6⟩

theorem registerPolyCommitment_some {d d' a e} (h : registerPolyCommitment d a e = some d') :
    e = d.eon ∧ a ∈ d.config.keypers ∧ a ∉ d.polyCommitmentsSeen ∧
    d' = { d with polyCommitmentsSeen := a :: d.polyCommitmentsSeen } := by
  unfold registerPolyCommitment at h
  split_ifs at h with h1 h2 h3
  simp at h h1 h2 h3
  exact ⟨h1, isKeyper_iff.1 h2, h3, h.symm⟩

theorem registerAccusation_some {d d' a e as} (h : registerAccusation d a e as = some d') :
    e = d.eon ∧ a ∈ d.config.keypers ∧ (∀ b ∈ as, b ∈ d.config.keypers ∧ b ≠ a) ∧ a ∉ d.accusationsSeen ∧
    d' = { d with accusationsSeen := a :: d.accusationsSeen } := by
  unfold registerAccusation at h
  split_ifs at h with h1 h2 h3 h4
  simp at h h1 h2 h4
  refine ⟨h1, isKeyper_iff.1 h2, ?_, h4, h.symm⟩
  intro b hb
  simp only [Bool.not_eq_true', Bool.not_eq_false] at h3
  have := List.all_eq_true.1 h3 b hb
  simp at this
  exact ⟨isKeyper_iff.1 this.1, fun hc => this.2 hc.symm⟩

theorem registerApology_some {d d' a e as} (h : registerApology d a e as = some d') :
    e = d.eon ∧ a ∈ d.config.keypers ∧ (∀ b ∈ as, b ∈ d.config.keypers ∧ b ≠ a) ∧ a ∉ d.apologiesSeen ∧
    d' = { d with apologiesSeen := a :: d.apologiesSeen } := by
  unfold registerApology at h
  split_ifs at h with h1 h2 h3 h4
  simp at h h1 h2 h4
  refine ⟨h1, isKeyper_iff.1 h2, ?_, h4, h.symm⟩
  intro b hb
  simp only [Bool.not_eq_true', Bool.not_eq_false] at h3
  have := List.all_eq_true.1 h3 b hb
  simp at this
  exact ⟨isKeyper_iff.1 this.1, fun hc => this.2 hc.symm⟩

theorem addDecryptionSignature_some {bs bs' : BatchState} {a sig} (h : bs.addDecryptionSignature a sig = some bs') :
    a ∈ bs.config.keypers ∧ (∀ d ∈ bs.decryptionSignatures, d.1 ≠ a) ∧
    bs' = { bs with decryptionSignatures := bs.decryptionSignatures ++ [(a, sig)] } := by
  unfold BatchState.addDecryptionSignature at h
  split_ifs at h with h1 h2
  simp at h h1
  refine ⟨isKeyper_iff.1 h1, ?_, h.symm⟩
  intro d hd hc
  apply h2
  rw [List.any_eq_true]
  exact ⟨d, hd, by simpa using hc⟩

/-- A DKG instance only grows. -/
structure DKGInstance.le (d d' : DKGInstance) : Prop where
  config : d'.config = d.config
  eon : d'.eon = d.eon
  evals : d.polyEvalsSeen ⊆ d'.polyEvalsSeen
  commitments : d.polyCommitmentsSeen ⊆ d'.polyCommitmentsSeen
  accusations : d.accusationsSeen ⊆ d'.accusationsSeen
  apologies : d.apologiesSeen ⊆ d'.apologiesSeen

theorem DKGInstance.le.refl (d : DKGInstance) : d.le d :=
  ⟨rfl, rfl, List.Subset.refl _, List.Subset.refl _, List.Subset.refl _, List.Subset.refl _⟩

/-- DKG part of a processed message: instances persist and grow. -/
theorem Eff.dkg_le {ps ord s a m s' r} (hc : ∀ e d, s.dkgMap e = some d → e ≤ s.eonCounter)
    (h : Eff ps ord s a m s' r) :
    ∀ e d, s.dkgMap e = some d → ∃ d', s'.dkgMap e = some d' ∧ d.le d' := by
  have hstart : ∀ (t : State) c e d, t.dkgMap = s.dkgMap → t.eonCounter = s.eonCounter → s.dkgMap e = some d →
      ∃ d', (startDKG t c).1.dkgMap e = some d' ∧ d.le d' := by
    intro t c e d h1 h2 hd
    have : e ≠ s.eonCounter + 1 := by have := hc e d hd; omega
    refine ⟨d, ?_, .refl d⟩
    show Function.update t.dkgMap (t.eonCounter + 1) _ e = some d
    rw [h2, Function.update_of_ne this, h1]; exact hd
  have hreg : ∀ (e₀ : Nat) d₀ d₁, s.dkgMap e₀ = some d₀ → d₀.le d₁ → ∀ e d, s.dkgMap e = some d →
      ∃ d', Function.update s.dkgMap e₀ (some d₁) e = some d' ∧ d.le d' := by
    intro e₀ d₀ d₁ h0 hle e d hd
    by_cases he : e = e₀
    · subst he
      rw [h0] at hd; simp at hd; subst hd
      exact ⟨d₁, by simp, hle⟩
    · exact ⟨d, by rw [Function.update_of_ne he]; exact hd, .refl d⟩
  intro e d hd
  cases h with
  | configAddedDKG => exact hstart _ _ _ _ (by rfl) (by rfl) hd
  | eonStarted => exact hstart _ _ _ _ (by rfl) (by rfl) hd
  | polyEval eon rs es d₀ d' h0 _ _ hr =>
    obtain ⟨_, _, _, rfl⟩ := registerPolyEval_some hr
    refine hreg _ _ _ h0 ?_ e d hd
    constructor <;> simp
  | polyCommitment eon gs gs' d₀ d' h0 _ hr =>
    obtain ⟨_, _, _, rfl⟩ := registerPolyCommitment_some hr
    refine hreg _ _ _ h0 ?_ e d hd
    constructor <;> simp
  | accusation eon as d₀ d' h0 _ hr =>
    obtain ⟨_, _, _, _, rfl⟩ := registerAccusation_some hr
    refine hreg _ _ _ h0 ?_ e d hd
    constructor <;> simp
  | apology eon as es d₀ d' h0 _ _ hr =>
    obtain ⟨_, _, _, _, rfl⟩ := registerApology_some hr
    refine hreg _ _ _ h0 ?_ e d hd
    constructor <;> simp
  | _ => exact ⟨d, hd, .refl d⟩

/-- Identities persist. -/
theorem Eff.identities {ps ord s a m s' r} (h : Eff ps ord s a m s' r) :
    ∀ b k, s.identities b = some k → s'.identities b = some k := by
  intro b k hk
  cases h with
  | checkIn vk ek pk hn =>
    have : b ≠ a := by rintro rfl; rw [hn] at hk; simp at hk
    show Function.update s.identities a (some vk) b = some k
    rw [Function.update_of_ne this]; exact hk
  | _ => exact hk

/-- Batch states persist, their config is fixed and signatures are only added. -/
theorem Eff.batchStates {ps ord s a m s' r} (h : Eff ps ord s a m s' r) :
    ∀ b bs, s.batchStates b = some bs → ∃ bs', s'.batchStates b = some bs' ∧ bs'.config = bs.config ∧
      bs.decryptionSignatures ⊆ bs'.decryptionSignatures := by
  intro b bs hb
  cases h with
  | decSig b₀ sig bs₀ bs' h0 hadd =>
    obtain ⟨_, _, rfl⟩ := addDecryptionSignature_some hadd
    by_cases he : b = b₀
    · subst he
      simp [getBatchState, hb] at h0
      subst h0
      exact ⟨_, Function.update_self .., rfl, by simp⟩
    · exact ⟨bs, by show Function.update _ _ _ _ = _; rw [Function.update_of_ne he]; exact hb, rfl, by simp⟩
  | _ => exact ⟨bs, hb, rfl, by simp⟩

theorem Eff.seen_mono {ps ord s a m s' r} (hc : ∀ e d, s.dkgMap e = some d → e ≤ s.eonCounter)
    (h : Eff ps ord s a m s' r) {k} (hk : seen s k) : seen s' k := by
  cases k with
  | checkIn b =>
    obtain ⟨v, hv⟩ := Option.isSome_iff_exists.1 hk
    simp [seen, h.identities b v hv]
  | signature b c =>
    obtain ⟨bs, h1, d, hd, hda⟩ := hk
    obtain ⟨bs', h2, _, h3⟩ := h.batchStates b bs h1
    exact ⟨bs', h2, d, h3 hd, hda⟩
  | commitment e c =>
    obtain ⟨d, h1, h2⟩ := hk
    obtain ⟨d', h3, h4⟩ := h.dkg_le hc e d h1
    exact ⟨d', h3, h4.commitments h2⟩
  | eval e c r =>
    obtain ⟨d, h1, h2⟩ := hk
    obtain ⟨d', h3, h4⟩ := h.dkg_le hc e d h1
    exact ⟨d', h3, h4.evals h2⟩
  | accusation e c =>
    obtain ⟨d, h1, h2⟩ := hk
    obtain ⟨d', h3, h4⟩ := h.dkg_le hc e d h1
    exact ⟨d', h3, h4.accusations h2⟩
  | apology e c =>
    obtain ⟨d, h1, h2⟩ := hk
    obtain ⟨d', h3, h4⟩ := h.dkg_le hc e d h1
    exact ⟨d', h3, h4.apologies h2⟩

/-- What a processed message publishes is new, and remembered. -/
theorem Eff.once_new {ps ord s a m s' r} (h : Eff ps ord s a m s' r) :
    (r.events.flatMap Event.once).Nodup ∧ ∀ k ∈ r.events.flatMap Event.once, ¬ seen s k ∧ seen s' k := by
  cases h with
  | checkIn vk ek pk hn hk =>
    simp [Event.once, seen, hn]
  | decSig b sig bs bs' hb hadd =>
    obtain ⟨_, hno, rfl⟩ := addDecryptionSignature_some hadd
    simp only [List.flatMap_cons, List.flatMap_nil, Event.once, List.append_nil, List.nodup_singleton, true_and,
      List.mem_singleton]
    rintro k rfl
    constructor
    · rintro ⟨bs₀, h1, d, hd, hda⟩
      simp [getBatchState, h1] at hb
      subst hb
      exact hno d hd hda
    · exact ⟨_, Function.update_self .., (a, sig), by simp, rfl⟩
  | polyEval eon rs es d d' hd hlen hp hr =>
    obtain ⟨_, _, hrs, rfl⟩ := registerPolyEval_some hr
    have hnd := (parseAddresses_iff.1 hp).2.2
    simp only [List.flatMap_cons, List.flatMap_nil, Event.once, List.append_nil]
    refine ⟨hnd.map (fun x y h => by simpa using h), ?_⟩
    intro k hk
    obtain ⟨r, hr, rfl⟩ := List.mem_map.1 hk
    constructor
    · rintro ⟨d₁, h1, h2⟩
      rw [hd] at h1; simp at h1; subst h1
      exact (hrs r hr).2.2 h2
    · exact ⟨_, Function.update_self .., List.mem_append_left _ (List.mem_map.2 ⟨r, hr, rfl⟩)⟩
  | polyCommitment eon gs gs' d d' hd _ hr =>
    obtain ⟨_, _, hno, rfl⟩ := registerPolyCommitment_some hr
    simp only [List.flatMap_cons, List.flatMap_nil, Event.once, List.append_nil, List.nodup_singleton, true_and,
      List.mem_singleton]
    rintro k rfl
    constructor
    · rintro ⟨d₁, h1, h2⟩
      rw [hd] at h1; simp at h1; subst h1
      exact hno h2
    · exact ⟨_, Function.update_self .., List.mem_cons_self ..⟩
  | accusation eon as d d' hd _ hr =>
    obtain ⟨_, _, _, hno, rfl⟩ := registerAccusation_some hr
    simp only [List.flatMap_cons, List.flatMap_nil, Event.once, List.append_nil, List.nodup_singleton, true_and,
      List.mem_singleton]
    rintro k rfl
    constructor
    · rintro ⟨d₁, h1, h2⟩
      rw [hd] at h1; simp at h1; subst h1
      exact hno h2
    · exact ⟨_, Function.update_self .., List.mem_cons_self ..⟩
  | apology eon as es d d' hd _ _ hr =>
    obtain ⟨_, _, _, hno, rfl⟩ := registerApology_some hr
    simp only [List.flatMap_cons, List.flatMap_nil, Event.once, List.append_nil, List.nodup_singleton, true_and,
      List.mem_singleton]
    rintro k rfl
    constructor
    · rintro ⟨d₁, h1, h2⟩
      rw [hd] at h1; simp at h1; subst h1
      exact hno h2
    · exact ⟨_, Function.update_self .., List.mem_cons_self ..⟩
  | _ => simp [Event.once, errorResponse, configEvent]

theorem Exec.once {ps dev log s} (h : Exec ps dev log s) :
    ((allEvents log).flatMap Event.once).Nodup ∧ ∀ k ∈ (allEvents log).flatMap Event.once, seen s k := by
  induction h with
  | start => simp [allEvents]
  | @step log s o op s' r hE ho hs ih =>
    obtain ⟨ih1, ih2⟩ := ih
    rw [events_concat, List.flatMap_append]
    rcases step_frame hs with ⟨hf, hev, _⟩ | ⟨a, m, d, rfl, _, _, rfl, he⟩
    · rw [hev]
      refine ⟨by simpa using ih1, ?_⟩
      intro k hk
      exact (seen_congr hf.identities hf.batchStates hf.dkgMap k).2 (ih2 k (by simpa using hk))
    · rw [events_deliver]
      have hcount : ∀ e d, (withNonce s a m.randomNonce).dkgMap e = some d → e ≤ (withNonce s a m.randomNonce).eonCounter :=
        fun e d hd => ((hE.eons.2 e).1 d hd).2.1
      obtain ⟨n1, n2⟩ := he.once_new
      refine ⟨?_, ?_⟩
      · rw [List.nodup_append]
        refine ⟨ih1, n1, ?_⟩
        rintro k hk k' hk' rfl
        exact (n2 k hk').1 (ih2 k hk)
      · intro k hk
        rcases List.mem_append.1 hk with hk | hk
        · exact he.seen_mono hcount (ih2 k hk)
        · exact (n2 k hk).2

end Shutter.App
