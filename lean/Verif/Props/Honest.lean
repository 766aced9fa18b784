import Verif.Proofs.DemoHonest
import Verif.Props.Sent

/-! Property theorems C69 (shuttermint/keyper/decide.go, shlib/puredkg: the key generation of honest keypers succeeds). -/

namespace Shutter.Decide.Props
open Shutter.Crypto Shutter.Crypto.Spec Shutter.Dkg Shutter.Observe Shutter.Decide Shutter.Decide.Spec
open Shutter.App (Addr findAddressIndex)
open Shutter.Events (Codecs)

variable {G1 G2 GT R : Type} [AddCommGroup G1] [AddCommGroup G2] [DecidableEq G2] [DecidableEq GT]

theorem honest_phase {cx : Cfg G1 G2 GT R} (hL : 0 ≤ cx.phaseLength) {codecs : Codecs} {chain : Chain} {S : Int}
    {rs : List (Round G1 G2)} {s : Observe.Shutter} {st : State G1 G2} {dkg : DKG G2}
    (h : Honest cx codecs chain S rs s st dkg) : dkg.pure.state.phase = finalized := by
  rw [C54_phase hL (lived_reach h.lived) h.runs h.started, if_pos h.finished]

/-- **C69** An honest keyper that is online is not considered corrupt, by no keyper that finished the key generation (with the same
keypers and threshold), whatever the other keypers sent and however often it was accused. -/
theorem C69_honest_not_corrupt {cx₁ cx₂ : Cfg G1 G2 GT R} (hL : 0 ≤ cx₁.phaseLength) (law : ∀ p : G2, order • p = 0)
    (hlen : cx₂.phaseLength = cx₁.phaseLength) (hcr : cx₂.crypto = cx₁.crypto) (hga : cx₂.gammas = cx₁.gammas) {codecs : Codecs}
    {chain : Chain} {S : Int} {rs : List (Round G1 G2)} {s₁ s₂ : Observe.Shutter} {st₁ st₂ : State G1 G2} {d₁ d₂ : DKG G2}
    (h₁ : Honest cx₁ codecs chain S rs s₁ st₁ d₁) (h₂ : Reach cx₂ codecs chain s₂ st₂) (m₂ : d₂ ∈ st₂.dkgs) (he : d₁.eon = d₂.eon)
    (hk : d₁.keypers = d₂.keypers) (ht : d₁.pure.state.threshold = d₂.pure.state.threshold) (f₂ : d₂.pure.state.phase = finalized)
    {i : Nat} (hi : d₂.keypers.idxOf? cx₁.own = some i) : isCorrupt cx₂.crypto d₂.pure.state i = false := by
  rw [← (C54_agreement hL hlen hcr hga (lived_reach h₁.lived) h₂ h₁.runs m₂ he hk ht (honest_phase hL h₁) f₂).1]
  obtain ⟨j, P, hf⟩ := honest_facts law hL h₁
  have := hf.own
  rw [hk, hi] at this
  cases this
  exact honest_not_corrupt law hf

/-- **C69** A keyper does not accuse an honest one that dealt to it: if the dealer knew its encryption key in the dealing phase and the
evaluation got on the chain, it has the evaluation at the end, and the dealer is not among those it accused. -/
theorem C69_not_accused {cx₁ cx₂ : Cfg G1 G2 GT R} (hL : 0 ≤ cx₁.phaseLength) (law : ∀ p : G2, order • p = 0)
    (hlen : cx₂.phaseLength = cx₁.phaseLength) (hcr : cx₂.crypto = cx₁.crypto) (hga : cx₂.gammas = cx₁.gammas) {codecs : Codecs}
    {chain : Chain} {S : Int} {rs₁ rs₂ : List (Round G1 G2)} {s₁ s₂ : Observe.Shutter} {st₁ st₂ : State G1 G2} {d₁ d₂ : DKG G2}
    (h₁ : Honest cx₁ codecs chain S rs₁ s₁ st₁ d₁) (dealt : Dealt cx₁ codecs chain d₁.eon S rs₁)
    (h₂ : Lived cx₂ codecs chain rs₂ s₂ st₂) (m₂ : d₂ ∈ st₂.dkgs) (he : d₁.eon = d₂.eon)
    (hk : d₁.keypers = d₂.keypers) (ht : d₁.pure.state.threshold = d₂.pure.state.threshold) (f₂ : d₂.pure.state.phase = finalized)
    (hn : d₂.keypers.Nodup) (other : cx₁.own ≠ cx₂.own)
    (known : firstTo codecs chain S cx₁.phaseLength cx₂.own rs₁ ≠ none)
    (opens : ∀ n key, keyAt codecs chain cx₂.own n = some key → ∀ b, cx₂.decryptEval (cx₁.encryptEval key b) = some b)
    {i j : Nat} (hi : d₂.keypers.idxOf? cx₁.own = some i) (hj : d₂.keypers.idxOf? cx₂.own = some j) :
    (∃ P, cx₁.poly d₁.eon = some P ∧ (d₂.pure.state.evals[i]?).join = some (evaluation P j)) ∧
    ∀ m ∈ said (accusationsFor d₂.eon) rs₂, cx₁.own ∉ m.2 := by
  obtain ⟨S', inv₂⟩ := (kinv_reach (by omega) (lived_reach h₂)).dkgs d₂ m₂
  obtain ⟨S'', inv₁⟩ := (kinv_reach hL (lived_reach h₁.lived)).dkgs d₁ h₁.runs
  obtain ⟨_, rfl⟩ := started_unique h₁.started inv₁.started
  have k₂ := inv₂.started
  rw [← he] at k₂
  obtain ⟨_, rfl⟩ := started_unique_chain h₁.started k₂
  have g₂ : S + 3 * cx₁.phaseLength ≤ st₂.syncHeight := by
    have := (phase_ge cx₂.phaseLength S st₂.syncHeight (by omega) (by have := inv₂.before; omega)).2.2.2.1 (by rw [← inv₂.phase, f₂])
    rw [hlen] at this
    exact this
  obtain ⟨i', P, hf⟩ := honest_facts law hL h₁
  have := hf.own
  rw [hk, hi] at this
  cases this
  obtain ⟨hij, hev⟩ := dealt_eval law hL hlen h₁ dealt inv₂ g₂ he hk hn other known opens hf hj
  refine ⟨⟨P, hf.poly, hev⟩, ?_⟩
  obtain ⟨Q, sd⟩ := (linv_lived law (by omega) h₂).said d₂ m₂ S inv₂.started
  have hkeyper : d₂.pure.state.keyper = j := by
    obtain ⟨ops, thr, j', hrun, hj', _⟩ := inv₂.ran
    rw [findAddressIndex_eq, hj] at hj'
    cases hj'
    exact (logInv_run _ _ _ _ _ _ _ hrun).keyper
  have hnot : i ∉ toBlame cx₂.crypto.g2 d₂.pure.state := by
    rw [← toBlame_eq law sd.proper.log.2.2.2, List.mem_filter]
    rintro ⟨_, h⟩
    simp only [Bool.and_eq_true] at h
    refine (shouldAccuse_iff _ _ _).1 h.2 ?_
    have hc : HasCommit d₂.pure.state i (polyGammas cx₂.crypto P) := by
      have h1 : com d₁.pure.state i = some (polyGammas cx₁.crypto P) := hf.com
      rw [same_commitments hL hlen hga inv₁ inv₂ h₁.finished g₂ he hk ht i] at h1
      rw [hcr]
      exact h1
    refine ⟨_, _, hev, hc, ?_⟩
    obtain ⟨P', w, p1, p2, p3, p4⟩ := hf.proper.poly (by rw [hf.phase]; decide)
    rw [hf.poly] at p1
    cases p1
    rw [hkeyper]
    exact verify_own cx₂.crypto law P j _ _ (evalForKeyper_eq p3 p4 j) (sd.proper.log.2.2.2 i _ hc)
  intro m hm hmem
  rw [sd.acc] at hm
  split at hm
  · simp at hm
  · simp only [Option.mem_toList, Option.map_eq_some_iff] at hm
    obtain ⟨r, _, rfl⟩ := hm
    simp only [pick, List.mem_filterMap] at hmem
    obtain ⟨k, hk1, hk2⟩ := hmem
    have hg := idxOf_get hi
    obtain ⟨hkl, hk'⟩ := List.getElem?_eq_some_iff.1 hk2
    obtain ⟨hjl', hj'⟩ := List.getElem?_eq_some_iff.1 hg
    have := (List.Nodup.getElem_inj_iff hn).1 (hk'.trans hj'.symm)
    subst this
    exact hnot hk1

/-- **C69** If at least `threshold` many keypers of an eon are honest and online, each of them finishes the key generation with a result, the
eon public key is the same for all of them, and each of them broadcasts it. The others may send whatever they like, or nothing. -/
theorem C69_success (cx : Nat → Cfg G1 G2 GT R) (crypto : Env G1 G2 GT) (gammas : List Bytes → List G2) (L : Int) (hL : 0 ≤ L)
    (law : ∀ p : G2, order • p = 0) (codecs : Codecs) (chain : Chain) (e : Nat) (keypers : List Addr) (threshold : Nat) (S : Int)
    (rs : Nat → List (Round G1 G2)) (s : Nat → Observe.Shutter) (st : Nat → State G1 G2) (dkg : Nat → DKG G2) (H : Finset Nat)
    (honest : ∀ i ∈ H, Honest (cx i) codecs chain S (rs i) (s i) (st i) (dkg i))
    (members : ∀ i ∈ H, keypers.idxOf? (cx i).own = some i)
    (same : ∀ i ∈ H, (cx i).crypto = crypto ∧ (cx i).gammas = gammas ∧ (cx i).phaseLength = L ∧ (dkg i).eon = e ∧
      (dkg i).keypers = keypers ∧ (dkg i).pure.state.threshold = threshold)
    (enough : threshold ≤ H.card) :
    ∃ key, ∀ i ∈ H, (∃ r, computeResult crypto (dkg i).pure.state = some r ∧ r.publicKey = key) ∧
      ∃ n, (n, Action.eonKeyBroadcast i (dkg i).startBatchIndex key) ∈ said verdicts (rs i) := by
  have good : ∀ i ∈ H, ∀ j ∈ H, isCorrupt crypto (dkg i).pure.state j = false := by
    intro i hi j hj
    obtain ⟨a1, a2, a3, a4, a5, a6⟩ := same i hi
    obtain ⟨b1, b2, b3, b4, b5, b6⟩ := same j hj
    have hp := honest_phase (by rw [a3]; exact hL) (honest i hi)
    have := C69_honest_not_corrupt (cx₁ := cx j) (cx₂ := cx i) (by rw [b3]; exact hL) law (by rw [a3, b3]) (by rw [a1, b1]) (by rw [a2, b2])
      (honest j hj) (lived_reach (honest i hi).lived) (honest i hi).runs (by rw [a4, b4]) (by rw [a5, b5]) (by rw [a6, b6]) hp
      (i := j) (by rw [a5]; exact members j hj)
    rw [a1] at this
    exact this
  have result : ∀ i ∈ H, ∃ r, computeResult crypto (dkg i).pure.state = some r := by
    intro i hi
    obtain ⟨a1, a2, a3, a4, a5, a6⟩ := same i hi
    obtain ⟨j, P, hf⟩ := honest_facts law (by rw [a3]; exact hL) (honest i hi)
    have := honest_result law hf (by
      rw [a6, hf.proper.log.2.1, a5]
      refine le_trans enough ?_
      have hsub : H ⊆ ((List.range keypers.length).filter (fun d => !isCorrupt (cx i).crypto (dkg i).pure.state d)).toFinset := by
        intro d hd
        rw [List.mem_toFinset, List.mem_filter, List.mem_range]
        have hm := members d hd
        rw [← findAddressIndex_eq] at hm
        refine ⟨findAddressIndex_lt hm, ?_⟩
        rw [a1, good i hi d hd]
        rfl
      refine le_trans (Finset.card_le_card hsub) ?_
      exact List.toFinset_card_le _)
    rw [a1] at this
    exact Option.isSome_iff_exists.1 this
  rcases H.eq_empty_or_nonempty with rfl | ⟨i₀, h₀⟩
  · exact ⟨0, by simp⟩
  obtain ⟨r₀, hr₀⟩ := result i₀ h₀
  refine ⟨r₀.publicKey, fun i hi => ?_⟩
  obtain ⟨r, hr⟩ := result i hi
  obtain ⟨a1, a2, a3, a4, a5, a6⟩ := same i hi
  obtain ⟨b1, b2, b3, b4, b5, b6⟩ := same i₀ h₀
  have hkey : r.publicKey = r₀.publicKey := by
    refine ((C54_agreement (cx₁ := cx i) (cx₂ := cx i₀) (by rw [a3]; exact hL) (by rw [a3, b3]) (by rw [a1, b1]) (by rw [a2, b2])
      (lived_reach (honest i hi).lived) (lived_reach (honest i₀ h₀).lived) (honest i hi).runs (honest i₀ h₀).runs (by rw [a4, b4])
      (by rw [a5, b5]) (by rw [a6, b6]) (honest_phase (by rw [a3]; exact hL) (honest i hi))
      (honest_phase (by rw [b3]; exact hL) (honest i₀ h₀))).2 r r₀ (by rw [a1]; exact hr) (by rw [b1]; exact hr₀)).1
  refine ⟨⟨r, hr, hkey⟩, ?_⟩
  have hv := C68_verdict (by rw [a3]; exact hL) law (honest i hi).lived
  have hmem : verdict (cx i).crypto (dkg i) ∈ ((st i).dkgs.filter (fun dkg => decide (dkg.pure.state.phase = finalized))).map
      (verdict (cx i).crypto) :=
    List.mem_map.2 ⟨_, List.mem_filter.2 ⟨(honest i hi).runs, by simpa using honest_phase (by rw [a3]; exact hL) (honest i hi)⟩, rfl⟩
  rw [← hv.mem_iff, List.mem_map] at hmem
  obtain ⟨⟨n, a⟩, hm, ha⟩ := hmem
  obtain ⟨j, P, hf⟩ := honest_facts law (by rw [a3]; exact hL) (honest i hi)
  have hj : j = i := by
    have h1 := hf.own
    rw [a5, members i hi] at h1
    cases h1
    rfl
  refine ⟨n, ?_⟩
  have : a = .eonKeyBroadcast i (dkg i).startBatchIndex r₀.publicKey := by
    rw [show a = verdict (cx i).crypto (dkg i) from ha]
    unfold verdict
    rw [a1, hr, hf.keyper, hj]
    simp only [hkey]
  rw [← this]
  exact hm

/-! ## Concrete lives -/

section demo
open HonestDemo
open Shutter.Events Shutter.Events.Props

/-- **C69** Keypers A and B are honest and online; keyper C does not deal and accuses A without reason. All hypotheses are met, and the
key generation with threshold 2 succeeds. -/
theorem C69_example : ∃ (rs : Nat → List (Round Zq Zq)) (s : Nat → Observe.Shutter) (st : Nat → State Zq Zq) (dkg : Nat → DKG Zq),
    (∀ i ∈ ({0, 1} : Finset Nat), Honest (cxOf i) demoCodecs (tableChain table) 2 (rs i) (s i) (st i) (dkg i)) ∧
    (∀ i ∈ ({0, 1} : Finset Nat), [kA, kB, kC].idxOf? (cxOf i).own = some i) ∧
    (∀ i ∈ ({0, 1} : Finset Nat), (dkg i).eon = 1 ∧ (dkg i).keypers = [kA, kB, kC] ∧ (dkg i).pure.state.threshold = 2) ∧
    (∀ i ∈ ({0, 1} : Finset Nat), Dealt (cxOf i) demoCodecs (tableChain table) 1 2 (rs i)) ∧
    firstTo demoCodecs (tableChain table) 2 3 kB (rs 0) ≠ none ∧ firstTo demoCodecs (tableChain table) 2 3 kA (rs 1) ≠ none ∧
    ∃ key, ∀ i ∈ ({0, 1} : Finset Nat), ∃ r, computeResult zEnv (dkg i).pure.state = some r ∧ r.publicKey = key := by
  obtain ⟨rA, lA, _⟩ := Option.map_eq_some_iff.1 seen_A
  obtain ⟨rB, lB, _⟩ := Option.map_eq_some_iff.1 seen_B
  obtain ⟨dA, a1, a2, a3, a4, a5, a6⟩ := honest_A lA
  obtain ⟨dB, b1, b2, b3, b4, b5, b6⟩ := honest_B lB
  have two : ∀ {p : Nat → Prop}, p 0 → p 1 → ∀ i ∈ ({0, 1} : Finset Nat), p i := by
    intro p h0 h1 i hi
    rw [Finset.mem_insert, Finset.mem_singleton] at hi
    rcases hi with rfl | rfl
    · exact h0
    · exact h1
  let pick {α : Type} (x y : α) (i : Nat) : α := if i = 0 then x else y
  have hon : ∀ i ∈ ({0, 1} : Finset Nat), Honest (cxOf i) demoCodecs (tableChain table) 2 (pick rA.1 rB.1 i) (pick rA.2.1 rB.2.1 i)
      (pick rA.2.2 rB.2.2 i) (pick dA dB i) := two a4 b4
  have mem : ∀ i ∈ ({0, 1} : Finset Nat), [kA, kB, kC].idxOf? (cxOf i).own = some i := two (by decide) (by decide)
  have par : ∀ i ∈ ({0, 1} : Finset Nat), (pick dA dB i).eon = 1 ∧ (pick dA dB i).keypers = [kA, kB, kC] ∧
      (pick dA dB i).pure.state.threshold = 2 := two ⟨a1, a2, a3⟩ ⟨b1, b2, b3⟩
  obtain ⟨key, hkey⟩ := C69_success cxOf zEnv (List.map (fun b => Zq.of (beNat b))) 3 (by decide) zLawful.order_smul_G2 demoCodecs (tableChain table) 1
    [kA, kB, kC] 2 2 _ _ _ _ {0, 1} hon mem (two ⟨rfl, rfl, rfl, a1, a2, a3⟩ ⟨rfl, rfl, rfl, b1, b2, b3⟩) (by decide)
  exact ⟨_, _, _, _, hon, mem, par, two (p := fun i => Dealt (cxOf i) demoCodecs (tableChain table) 1 2 (pick rA.1 rB.1 i)) a5 b5, a6, b6, key,
    fun i hi => (hkey i hi).1⟩

/-- The encryption of the demo can be undone: the last hypothesis of `C69_not_accused`. -/
example : ∀ key b, (cxOf 1).decryptEval ((cxOf 0).encryptEval key b) = some b := by
  intro key b
  simp [cxOf, cx]

end demo

end Shutter.Decide.Props
