import Verif.Proofs.Bytes
import Verif.Spec.Dkg
import Verif.Proofs.DkgResult
import Verif.Proofs.EpochKG
import Verif.Proofs.ToyDkg

/-! Property theorems C13–C18 (shlib/puredkg, shuttermint/keyper/epochkg). -/

namespace Shutter.Dkg.Props
open Shutter.Crypto Shutter.Crypto.Spec Shutter.Dkg Shutter.Dkg.Spec

variable {G1 G2 GT : Type} [AddCommGroup G1] [AddCommGroup G2] [CommGroup GT] [DecidableEq G2]

/-! ### C13 -/

omit [DecidableEq G2] in
private theorem same_views {e n t k₁ k₂ : Nat} {w₁ w₂ : World G2} (i1 : LogInv e n t k₁ w₁) (i2 : LogInv e n t k₂ w₂)
    (same : SameBroadcasts w₁ w₂) :
    (∀ d c, HasCommit w₁.state d c ↔ HasCommit w₂.state d c) ∧
    (∀ a d, HasAccusation w₁.state a d ↔ HasAccusation w₂.state a d) ∧
    (∀ a d v, HasApology w₁.state a d v ↔ HasApology w₂.state a d v) := by
  refine ⟨?_, ?_, ?_⟩
  · intro d c
    rw [i1.commit, i2.commit]
    exact exists_congr fun m => and_congr_left fun _ => same _ trivial
  · intro a d
    rw [i1.accus, i2.accus]
    exact exists_congr fun m => and_congr_left fun _ => same _ trivial
  · intro a d v
    rw [i1.apol, i2.apol]
    exact exists_congr fun m => and_congr_left fun _ => same _ trivial

private theorem same_corrupt (env : Env G1 G2 GT) {e n t k₁ k₂ : Nat} {w₁ w₂ : World G2} (i1 : LogInv e n t k₁ w₁)
    (i2 : LogInv e n t k₂ w₂) (same : SameBroadcasts w₁ w₂) (d : Nat) :
    isCorrupt env w₁.state d = isCorrupt env w₂.state d := by
  obtain ⟨h1, h2, h3⟩ := same_views i1 i2 same
  rw [Bool.eq_iff_iff, isCorrupt_iff, isCorrupt_iff]
  simp only [h1, h2, h3, i1.thr, i2.thr]

/-- **C13** Two keypers of the same eon that accepted the same set of broadcast messages - in whatever order, with
whatever private evaluations and rejected calls in between - agree on every dealer's status, and if both obtain a result,
on the eon public key and on all public key shares. -/
theorem C13_agreement (env : Env G1 G2 GT) (eon n t k₁ k₂ : Nat) (ops₁ ops₂ : List (Op G2)) (w₁ w₂ : World G2)
    (h₁ : run env (newWorld G2 eon n t k₁) ops₁ = some w₁) (h₂ : run env (newWorld G2 eon n t k₂) ops₂ = some w₂)
    (same : SameBroadcasts w₁ w₂) :
    (∀ dealer, isCorrupt env w₁.state dealer = isCorrupt env w₂.state dealer) ∧
    ∀ r₁ r₂, computeResult env w₁.state = some r₁ → computeResult env w₂.state = some r₂ →
      r₁.publicKey = r₂.publicKey ∧ r₁.publicKeyShares = r₂.publicKeyShares ∧ r₁.threshold = r₂.threshold ∧
      r₁.eon = r₂.eon ∧ r₁.numKeypers = r₂.numKeypers := by
  have i1 := logInv_run env eon n t k₁ ops₁ w₁ h₁
  have i2 := logInv_run env eon n t k₂ ops₂ w₂ h₂
  have hc := same_corrupt env i1 i2 same
  refine ⟨hc, ?_⟩
  intro r₁ r₂ e₁ e₂
  obtain ⟨c1, _, f1, _, rfl⟩ := computeResult_some env _ _ e₁
  obtain ⟨c2, _, f2, _, rfl⟩ := computeResult_some env _ _ e₂
  rw [i1.num] at f1
  rw [i2.num] at f2
  have := entries_fst_eq env w₁.state w₂.state (i1.thr.trans i2.thr.symm) hc (same_views i1 i2 same).1 _ _ _ f1 f2
  simp only [this, i1.num, i2.num, i1.thr, i2.thr, i1.eon, i2.eon]
  exact ⟨trivial, trivial, trivial, trivial, trivial⟩

/-- **C13** A keyper that followed the protocol to the end and whose own broadcasts were accepted succeeds exactly
if at least `threshold` many dealers are not corrupt. -/
theorem C13_success_iff (env : Env G1 G2 GT) (law : Lawful env) (eon n t k : Nat) (ops : List (Op G2)) (w : World G2)
    (h : run env (newWorld G2 eon n t k) ops = some w) (member : k < n) (noRngFailure : Op.start1 none ∉ ops)
    (finished : w.state.phase = finalized) (delivered : BroadcastsDelivered w w) :
    (computeResult env w.state).isSome = true ↔
      t ≤ ((List.range n).filter fun d => !isCorrupt env w.state d).length := by
  have hi := honestInv_run env eon n t k ops w noRngFailure h
  have lg := hi.log
  have hgood : ∀ d ∈ List.range w.state.numKeypers, isCorrupt env w.state d = false →
      ∃ c e, HasCommit w.state d c ∧ polyEval w.state d = some e ∧
        verifyPolyEval env w.state.keyper e c w.state.threshold = true := by
    intro d hd hc
    rw [List.mem_range, lg.num] at hd
    have hc' : ¬ isCorrupt env w.state d = true := by simp [hc]
    rw [isCorrupt_iff] at hc'
    push Not at hc'
    obtain ⟨⟨c, hcm⟩, hc2⟩ := hc'
    obtain ⟨ha, hb⟩ := hc2 c hcm
    unfold polyEval
    cases hf : w.state.apologies.find? (fun a => a.1.1 = w.state.keyper && a.1.2 = d) with
    | some a =>
      have hmem := List.mem_of_find?_eq_some hf
      have hpred := List.find?_some hf
      simp only [Bool.and_eq_true, decide_eq_true_eq] at hpred
      obtain ⟨⟨x, y⟩, v⟩ := a
      simp only at hpred
      obtain ⟨rfl, rfl⟩ := hpred
      have := ha _ _ hmem
      exact ⟨c, v, hcm, rfl, by simpa using this⟩
    | none =>
      have hnoap : ∀ v, ¬ HasApology w.state w.state.keyper d v := by
        intro v hv
        have := (List.find?_eq_none.1 hf) _ hv
        simp at this
      simp only
      by_cases hdk : d = k
      · subst hdk
        obtain ⟨p, _, hem, hown, _⟩ := hi.poly (by rw [finished]; decide)
        obtain ⟨v, hv, hev⟩ := hown member
        have hacc := delivered _ hem trivial
        have hcp : HasCommit w.state d (polyGammas env p) := (lg.commit d _).2 ⟨_, hacc, rfl, rfl⟩
        refine ⟨_, v, hcp, hev, ?_⟩
        rw [lg.keyper, lg.thr]
        exact verify_own env law.order_smul_G2 p d v t hv (lg.deg d _ hcp)
      · by_contra hng
        have hngood : ¬ Good env w.state d := by
          rintro ⟨e, c', he, hcm', hver⟩
          exact hng ⟨c', e, hcm', he, hver⟩
        have hem := (hi.acc (by rw [finished]; decide) d hd hdk).2 hngood
        have hacc := delivered _ hem trivial
        have hA : HasAccusation w.state k d := (lg.accus k d).2 ⟨_, hacc, rfl, rfl⟩
        obtain ⟨v, hv⟩ := hb k hA
        rw [lg.keyper] at hnoap
        exact hnoap v hv
  obtain ⟨ces, np, hcol⟩ := collect_isSome env w.state _ hgood
  obtain ⟨_, hnp⟩ := collect_spec env w.state _ _ _ hcol
  unfold computeResult
  rw [if_neg (by rw [finished]; decide), hcol]
  simp only
  rw [lg.num] at hnp
  rw [← hnp, lg.thr]
  split
  · next hlt => simp; omega
  · next hlt => simp; omega

/-- **C13** Either all or none of the honest keypers succeed. -/
theorem C13_all_or_none (env : Env G1 G2 GT) (law : Lawful env) (eon n t k₁ k₂ : Nat) (ops₁ ops₂ : List (Op G2))
    (w₁ w₂ : World G2)
    (h₁ : run env (newWorld G2 eon n t k₁) ops₁ = some w₁) (h₂ : run env (newWorld G2 eon n t k₂) ops₂ = some w₂)
    (member₁ : k₁ < n) (member₂ : k₂ < n) (rng₁ : Op.start1 none ∉ ops₁) (rng₂ : Op.start1 none ∉ ops₂)
    (finished₁ : w₁.state.phase = finalized) (finished₂ : w₂.state.phase = finalized)
    (delivered₁ : BroadcastsDelivered w₁ w₁) (delivered₂ : BroadcastsDelivered w₂ w₂)
    (same : SameBroadcasts w₁ w₂) :
    (computeResult env w₁.state).isSome = (computeResult env w₂.state).isSome := by
  rw [Bool.eq_iff_iff, C13_success_iff env law eon n t k₁ ops₁ w₁ h₁ member₁ rng₁ finished₁ delivered₁,
    C13_success_iff env law eon n t k₂ ops₂ w₂ h₂ member₂ rng₂ finished₂ delivered₂]
  have := (C13_agreement env eon n t k₁ k₂ ops₁ ops₂ w₁ w₂ h₁ h₂ same).1
  simp only [this]

/-! ### C14 -/

/-- **C14** Whenever a result is computed, in whatever state, the secret key share matches the public key share listed
for the keyper. -/
theorem C14_result_consistent (env : Env G1 G2 GT) (law : Lawful env) (st : PureDKG G2) (r : Result G2)
    (h : computeResult env st = some r) (member : st.keyper < st.numKeypers) :
    r.publicKeyShares[r.keyper]? = some (r.secretKeyShare • env.g2) := by
  obtain ⟨ces, _, hf, _, rfl⟩ := computeResult_some env st r h
  simp only [List.getElem?_map, List.getElem?_range member, Option.map_some, Option.some.injEq]
  rw [eonShare_smul law.order_smul_G2, ← entries_share env law.order_smul_G2 st _ _ hf]
  unfold computeEonPublicKeyShare
  rw [foldl_add_eq_sum, zero_add]

/-- **C14** Hence the keyper's epoch shares pass verification at everybody. -/
theorem C14_epoch_shares_verify [DecidableEq GT] (env : Env G1 G2 GT) (law : Lawful env) (st : PureDKG G2)
    (r : Result G2) (h : computeResult env st = some r) (member : st.keyper < st.numKeypers) (epochID : G1) :
    ∃ pk, r.publicKeyShares[r.keyper]? = some pk ∧
      verifyEpochSecretKeyShare env (computeEpochSecretKeyShare r.secretKeyShare epochID) pk epochID = true :=
  ⟨_, C14_result_consistent env law st r h member,
    (Crypto.Props.C05_share_verification_exact env law _ _ _).2 rfl⟩

/-- **C14** The result is a consistent sharing: there is one polynomial with `threshold` coefficients whose value at
`j+1` (times the generator) is keyper `j`'s public key share and whose constant term gives the eon public key.
The commitments' lengths are Go slice lengths, hence below 2^64. -/
theorem C14_joint_polynomial (env : Env G1 G2 GT) (law : Lawful env) (st : PureDKG G2) (r : Result G2)
    (h : computeResult env st = some r) (ht : 1 ≤ st.threshold) (ht' : st.threshold < 2 ^ 64)
    (slices : ∀ d c, HasCommit st d c → c.length < 2 ^ 64) :
    r.publicKeyShares.length = st.numKeypers ∧
    ∃ P : List Nat, P.length = r.threshold ∧ r.publicKey = secret P • env.g2 ∧
      ∀ j (hj : j < r.publicKeyShares.length), r.publicKeyShares[j] = polyValue P (j + 1) • env.g2 := by
  obtain ⟨ces, _, hf, _, rfl⟩ := computeResult_some env st r h
  have hlen : ∀ c ∈ ces.map (·.1), c.length = st.threshold := by
    intro c hc
    obtain ⟨ce, hce, rfl⟩ := List.mem_map.1 hc
    obtain ⟨i, hi, rfl⟩ := List.mem_iff_getElem.1 hce
    have hl := hf.length_eq
    have := (List.forall₂_iff_get.1 hf).2 i (by omega) hi
    rcases this with ⟨_, he⟩ | ⟨_, hm, _, hv⟩
    · simp only [List.get_eq_getElem] at he
      rw [he]
      simp only [zeroGammas, List.length_replicate, sub1u64]
      omega
    · simp only [List.get_eq_getElem] at hm hv
      have hs := slices _ _ hm
      unfold verifyPolyEval at hv
      split at hv
      · simp at hv
      · next hd =>
        have hd' : degree ces[i].1 = sub1u64 st.threshold := not_not.1 hd
        simp only [degree, sub1u64] at hd'
        omega
  obtain ⟨P, hP, hx⟩ := joint_poly env law st.threshold _ hlen
  refine ⟨by simp, P, hP, ?_, ?_⟩
  · simp only [computeEonPublicKey]
    rw [foldl_add_eq_sum, zero_add, hx, polyValue_zero P (by omega)]
  · intro j hj
    simp only [List.getElem_map, List.getElem_range, computeEonPublicKeyShare]
    rw [foldl_add_eq_sum, zero_add, hx, keyperX, add_comm 1 j]

/-! ### C15 -/

/-- **C15** A dealer `k` that followed the protocol up to the apology phase is not corrupt at any keyper `j` that accepted
its broadcasts, however many (false) accusations were made: `j` only holds apologies in `k`'s name that `k` sent, and
`k` saw the accusations `j` saw. -/
theorem C15_honest_dealer_not_corrupt (env : Env G1 G2 GT) (law : Lawful env) (eon n t k j : Nat)
    (opsK opsJ : List (Op G2)) (wk wj : World G2)
    (hk : run env (newWorld G2 eon n t k) opsK = some wk) (hj : run env (newWorld G2 eon n t j) opsJ = some wj)
    (noRngFailure : Op.start1 none ∉ opsK) (apologized : apologizing ≤ wk.state.phase)
    (delivered : BroadcastsDelivered wk wj)
    (authentic : ∀ m, Op.apology m ∈ wj.accepted → m.accused = k → Op.apology m ∈ wk.emitted)
    (accusationsSeen : ∀ m, Op.accusation m ∈ wj.accepted → m.accused = k → Op.accusation m ∈ wk.accepted) :
    isCorrupt env wj.state k = false := by
  have hi := honestInv_run env eon n t k opsK wk noRngFailure hk
  have lj := logInv_run env eon n t j opsJ wj hj
  obtain ⟨p, hp, hem, _, _⟩ := hi.poly (le_trans (by decide) apologized)
  have hcj : HasCommit wj.state k (polyGammas env p) := (lj.commit k _).2 ⟨_, delivered _ hem trivial, rfl, rfl⟩
  by_contra hc
  rw [Bool.not_eq_false, isCorrupt_iff] at hc
  rcases hc with hc | ⟨c, hcm, hc⟩
  · exact hc _ hcj
  · have : c = polyGammas env p := by
      unfold HasCommit at hcm hcj; rw [hcm] at hcj; simpa using hcj
    subst this
    rcases hc with ⟨a, v, hap, hv⟩ | ⟨a, hac, hno⟩
    · obtain ⟨m, hm, rfl, hd, rfl⟩ := (lj.apol a k v).1 hap
      obtain ⟨p', v', hp', hv', hm'⟩ := hi.emApol m (authentic m hm hd)
      rw [hp] at hp'
      simp only [Option.some.injEq] at hp'
      subst hp'
      have he : m.eval.toNat = v' := by rw [hm']; simp
      rw [he, lj.thr, verify_own env law.order_smul_G2 p m.accuser v' t hv' (lj.deg k _ hcj)] at hv
      simp at hv
    · obtain ⟨m, hm, rfl, hd⟩ := (lj.accus a k).1 hac
      have hK : HasAccusation wk.state m.accuser k :=
        (hi.log.accus _ _).2 ⟨m, accusationsSeen m hm hd, rfl, hd⟩
      obtain ⟨p', v', _, _, hmem⟩ := hi.apol apologized m.accuser hK
      exact hno ⟨_, (lj.apol _ _ _).2 ⟨_, delivered _ hmem trivial, rfl, rfl, rfl⟩⟩

/-- **C15** An honest keyper `j` that accepted the evaluation and the commitment of an honest dealer `k` does not
accuse it. -/
theorem C15_honest_dealer_not_accused (env : Env G1 G2 GT) (law : Lawful env) (eon n t k j : Nat)
    (opsK opsJ : List (Op G2)) (wk wj : World G2)
    (hk : run env (newWorld G2 eon n t k) opsK = some wk) (hj : run env (newWorld G2 eon n t j) opsJ = some wj)
    (rngK : Op.start1 none ∉ opsK) (rngJ : Op.start1 none ∉ opsJ) (memberK : k < n) (other : k ≠ j)
    (accusing : accusing ≤ wj.state.phase)
    (c : PolyCommitmentMsg G2) (hc : Op.commitment c ∈ wk.emitted) (hc' : Op.commitment c ∈ wj.accepted)
    (m : PolyEvalMsg) (hm : Op.eval m ∈ wk.emitted) (hm' : Op.eval m ∈ wj.accepted) (forJ : m.receiver = j) :
    Op.accusation ⟨eon, j, k⟩ ∉ wj.emitted := by
  have hK := honestInv_run env eon n t k opsK wk rngK hk
  have hJ := honestInv_run env eon n t j opsJ wj rngJ hj
  rw [hJ.acc accusing k memberK other]
  rw [not_not]
  obtain ⟨p, hp, rfl⟩ := hK.emCommit c hc
  obtain ⟨p', v, hp', hv, hme⟩ := hK.emEval m hm
  rw [hp] at hp'
  simp only [Option.some.injEq] at hp'
  subst hp'
  have hcm : HasCommit wj.state k (polyGammas env p) := (hJ.log.commit k _).2 ⟨_, hc', rfl, rfl⟩
  have hev := hJ.log.evalAcc m hm'
  have e1 : m.sender = k := by rw [hme]
  have e2 : m.eval.toNat = v := by rw [hme]; simp
  rw [e1, e2] at hev
  refine ⟨v, _, hev, hcm, ?_⟩
  rw [hJ.log.keyper, hJ.log.thr]
  rw [forJ] at hv
  exact verify_own env law.order_smul_G2 p j v t hv (hJ.log.deg k _ hcm)

/-! ### C16 -/

omit [AddCommGroup G1] [CommGroup GT] in
/-- **C16** Every call leaves the phase alone or moves it to the next one; each start call moves it from exactly the
preceding phase (in any other phase it panics). -/
theorem C16_phases_one_by_one (env : Env G1 G2 GT) (st : PureDKG G2) (op : Op G2) (o : Outcome G2)
    (h : step env st op = some o) :
    match op with
    | .start1 _ => st.phase = off ∧ o.state.phase = dealing
    | .start2 => st.phase = dealing ∧ o.state.phase = accusing
    | .start3 => st.phase = accusing ∧ o.state.phase = apologizing
    | .fin => st.phase = apologizing ∧ o.state.phase = finalized
    | _ => o.state.phase = st.phase := by
  have sp := step_spec env st op o h
  have h1 := sp.phase
  have h2 := sp.prev
  cases op with
  | start1 p => exact ⟨h2.1 p rfl, h1⟩
  | start2 => exact ⟨h2.2.1 rfl, h1⟩
  | start3 => exact ⟨h2.2.2.1 rfl, h1⟩
  | fin => exact ⟨h2.2.2.2 rfl, h1⟩
  | commitment m => exact h1
  | eval m => exact h1
  | accusation m => exact h1
  | apology m => exact h1

omit [AddCommGroup G1] [CommGroup GT] in
/-- **C16** A message call that returns an error leaves the instance exactly as it was. -/
theorem C16_error_changes_nothing (env : Env G1 G2 GT) (st : PureDKG G2) (op : Op G2) (o : Outcome G2)
    (message : IsMessage op)
    (h : step env st op = some o) (error : o.ok = false) : o.state = st := by
  cases op with
  | start1 p => exact message.elim
  | start2 => exact message.elim
  | start3 => exact message.elim
  | fin => exact message.elim
  | commitment m =>
    simp only [step, handlePolyCommitmentMsg] at h
    repeat' split at h
    all_goals simp at h
    all_goals subst h
    all_goals first | rfl | simp at error
  | eval m =>
    simp only [step, Option.map_eq_some_iff] at h
    obtain ⟨r, hr, rfl⟩ := h
    exact (handleEval_frame (ok := r.2) (st' := r.1) hr).2.2.2.2.2.2.2.2.2.2.1 error
  | accusation m =>
    simp only [step, handleAccusationMsg] at h
    repeat' split at h
    all_goals simp at h
    all_goals subst h
    all_goals first | rfl | simp at error
  | apology m =>
    simp only [step, handleApologyMsg] at h
    repeat' split at h
    all_goals simp at h
    all_goals subst h
    all_goals first | rfl | simp at error

omit [AddCommGroup G1] [CommGroup GT] in
/-- **C16** Exactly which messages of keypers `< numKeypers` are accepted: right eon, early enough phase, right receiver,
nothing recorded yet from that sender (for that pair), right degree, value in range. -/
theorem C16_acceptance (env : Env G1 G2 GT) (st : PureDKG G2)
    (sizes : st.commitments.length = st.numKeypers ∧ st.evals.length = st.numKeypers) :
    (∀ m : PolyCommitmentMsg G2, m.sender < st.numKeypers → ∃ o, step env st (.commitment m) = some o ∧
      (o.ok = true ↔ m.eon = st.eon ∧ st.phase ≤ dealing ∧ (∀ c, ¬ HasCommit st m.sender c) ∧
        degree m.gammas = sub1u64 st.threshold)) ∧
    (∀ m : PolyEvalMsg, m.sender < st.numKeypers → ∃ o, step env st (.eval m) = some o ∧
      (o.ok = true ↔ m.eon = st.eon ∧ st.phase ≤ dealing ∧ m.receiver = st.keyper ∧ (∀ v, ¬ HasEval st m.sender v) ∧
        0 ≤ m.eval ∧ m.eval < order)) ∧
    (∀ m : AccusationMsg, ∃ o, step env st (.accusation m) = some o ∧
      (o.ok = true ↔ m.eon = st.eon ∧ st.phase ≤ accusing ∧ ¬ HasAccusation st m.accuser m.accused)) ∧
    (∀ m : ApologyMsg, ∃ o, step env st (.apology m) = some o ∧
      (o.ok = true ↔ m.eon = st.eon ∧ st.phase ≤ apologizing ∧ (∀ v, ¬ HasApology st m.accuser m.accused v) ∧
        0 ≤ m.eval ∧ m.eval < order)) := by
  have hchk : ∀ e mp, checkEonAndPhase st e mp = true ↔ e = st.eon ∧ st.phase ≤ mp := by
    intro e mp
    unfold checkEonAndPhase
    by_cases h1 : st.eon = e
    · by_cases h2 : st.phase ≤ mp
      · simp [h1, h2]
      · simp [h1]
    · have : ¬ e = st.eon := fun h => h1 h.symm
      simp [h1, this]
  have hval : ∀ v : Int, validEval v = true ↔ 0 ≤ v ∧ v < order := by
    intro v
    unfold validEval
    by_cases h1 : v < 0
    · simp [h1]
    · by_cases h2 : v ≥ (order : Int)
      · simp only [h1, h2, if_true, if_false]; constructor
        · simp
        · rintro ⟨_, h⟩; omega
      · simp only [h1, h2, if_false, true_iff]; omega
  refine ⟨?_, ?_, ?_, ?_⟩
  · intro m hm
    have hm' : m.sender < st.commitments.length := by omega
    simp only [step, handlePolyCommitmentMsg]
    by_cases hc : checkEonAndPhase st m.eon dealing = true
    · have hc2 := (hchk _ _).1 hc
      rw [hc]
      simp only [Bool.not_true, Bool.false_eq_true, if_false]
      rw [List.getElem?_eq_getElem hm']
      cases hs : st.commitments[m.sender] with
      | some c =>
        refine ⟨_, rfl, ?_⟩
        simp only [Bool.false_eq_true, false_iff]
        rintro ⟨_, _, h, _⟩
        apply h c
        unfold HasCommit
        rw [List.getElem?_eq_getElem hm', hs]; rfl
      | none =>
        simp only
        have hno : ∀ c, ¬ HasCommit st m.sender c := by
          intro c; unfold HasCommit; rw [List.getElem?_eq_getElem hm', hs]; simp
        split
        · next hd =>
          refine ⟨_, rfl, ?_⟩
          simp only [Bool.false_eq_true, false_iff]
          rintro ⟨_, _, _, h⟩; exact hd h
        · next hd =>
          refine ⟨_, rfl, ?_⟩
          simp only [true_iff]
          exact ⟨hc2.1, hc2.2, hno, not_not.1 hd⟩
    · have hcf : checkEonAndPhase st m.eon dealing = false := by simpa using hc
      rw [hcf]
      refine ⟨_, rfl, ?_⟩
      simp only [Bool.false_eq_true, false_iff]
      rintro ⟨h1, h2, _⟩
      exact hc ((hchk _ _).2 ⟨h1, h2⟩)
  · intro m hm
    have hm' : m.sender < st.evals.length := by omega
    simp only [step, handlePolyEvalMsg]
    by_cases hc : checkEonAndPhase st m.eon dealing = true
    · have hc2 := (hchk _ _).1 hc
      rw [hc]
      simp only [Bool.not_true, Bool.false_eq_true, if_false]
      split
      · next hr =>
        refine ⟨_, rfl, ?_⟩
        simp only [Bool.false_eq_true, false_iff]
        rintro ⟨_, _, h, _⟩; exact hr h
      · next hr =>
        rw [List.getElem?_eq_getElem hm']
        cases hs : st.evals[m.sender] with
        | some c =>
          refine ⟨_, rfl, ?_⟩
          simp only [Bool.false_eq_true, false_iff]
          rintro ⟨_, _, _, h, _⟩
          apply h c
          unfold HasEval
          rw [List.getElem?_eq_getElem hm', hs]; rfl
        | none =>
          simp only
          have hno : ∀ c, ¬ HasEval st m.sender c := by
            intro c; unfold HasEval; rw [List.getElem?_eq_getElem hm', hs]; simp
          split
          · next hd =>
            refine ⟨_, rfl, ?_⟩
            simp only [Bool.false_eq_true, false_iff]
            rintro ⟨_, _, _, _, h⟩
            rw [← hval] at h
            simp [h] at hd
          · next hd =>
            refine ⟨_, rfl, ?_⟩
            simp only [true_iff]
            exact ⟨hc2.1, hc2.2, not_not.1 hr, hno, (hval _).1 (by simpa using hd)⟩
    · have hcf : checkEonAndPhase st m.eon dealing = false := by simpa using hc
      rw [hcf]
      refine ⟨_, rfl, ?_⟩
      simp only [Bool.false_eq_true, false_iff]
      rintro ⟨h1, h2, _⟩
      exact hc ((hchk _ _).2 ⟨h1, h2⟩)
  · intro m
    refine ⟨_, rfl, ?_⟩
    simp only [handleAccusationMsg]
    by_cases hc : checkEonAndPhase st m.eon accusing = true
    · have hc2 := (hchk _ _).1 hc
      rw [hc]
      simp only [Bool.not_true, Bool.false_eq_true, if_false, HasAccusation]
      split
      · next hd => simp only [Bool.false_eq_true, false_iff]; rintro ⟨_, _, h⟩; exact h (by simpa using hd)
      · next hd => simp only [true_iff]; exact ⟨hc2.1, hc2.2, by simpa using hd⟩
    · have hcf : checkEonAndPhase st m.eon accusing = false := by simpa using hc
      rw [hcf]
      simp only [Bool.not_false, if_true, Bool.false_eq_true, false_iff]
      rintro ⟨h1, h2, _⟩
      exact hc ((hchk _ _).2 ⟨h1, h2⟩)
  · intro m
    refine ⟨_, rfl, ?_⟩
    simp only [handleApologyMsg]
    by_cases hc : checkEonAndPhase st m.eon apologizing = true
    · have hc2 := (hchk _ _).1 hc
      rw [hc]
      simp only [Bool.not_true, Bool.false_eq_true, if_false]
      split
      · next hd =>
        rw [hasApology_iff_lookup] at hd
        simp only [Bool.false_eq_true, false_iff]; rintro ⟨_, _, h, _⟩
        obtain ⟨v, hv⟩ := hd
        exact h v hv
      · next hd =>
        rw [hasApology_iff_lookup] at hd
        split
        · next hv =>
          simp only [Bool.false_eq_true, false_iff]
          rintro ⟨_, _, _, h⟩
          rw [← hval] at h
          simp [h] at hv
        · next hv =>
          simp only [true_iff]
          exact ⟨hc2.1, hc2.2, fun v h => hd ⟨v, h⟩, (hval _).1 (by simpa using hv)⟩
    · have hcf : checkEonAndPhase st m.eon apologizing = false := by simpa using hc
      rw [hcf]
      simp only [Bool.not_false, if_true, Bool.false_eq_true, false_iff]
      rintro ⟨h1, h2, _⟩
      exact hc ((hchk _ _).2 ⟨h1, h2⟩)

omit [AddCommGroup G1] [CommGroup GT] in
/-- **C16** First message wins: what was recorded from a sender is never replaced. -/
theorem C16_first_message_wins (env : Env G1 G2 GT) (ops : List (Op G2)) (w w' : World G2)
    (h : run env w ops = some w') :
    (∀ d c, HasCommit w.state d c → HasCommit w'.state d c) ∧ (∀ d v, HasEval w.state d v → HasEval w'.state d v) ∧
    (∀ a d, HasAccusation w.state a d → HasAccusation w'.state a d) ∧
    (∀ a d v, HasApology w.state a d v → HasApology w'.state a d v) := by
  refine run_induct env (fun x => (∀ d c, HasCommit w.state d c → HasCommit x.state d c) ∧
    (∀ d v, HasEval w.state d v → HasEval x.state d v) ∧
    (∀ a d, HasAccusation w.state a d → HasAccusation x.state a d) ∧
    (∀ a d v, HasApology w.state a d v → HasApology x.state a d v)) ops w w' ⟨?_, ?_, ?_, ?_⟩ ?_ h
  · exact fun _ _ h => h
  · exact fun _ _ h => h
  · exact fun _ _ h => h
  · exact fun _ _ _ h => h
  · rintro x op y _ ⟨h1, h2, h3, h4⟩ he
    simp only [exec, Option.map_eq_some_iff] at he
    obtain ⟨o, ho, rfl⟩ := he
    have sp := step_spec env x.state op o ho
    exact ⟨fun d c h => (sp.commit d c).2 (Or.inl (h1 d c h)), fun d c h => (sp.eval d c).2 (Or.inl (h2 d c h)),
      fun d c h => (sp.accus d c).2 (Or.inl (h3 d c h)), fun a d c h => (sp.apol a d c).2 (Or.inl (h4 a d c h))⟩

/-! ### C18, C17 -/

variable [DecidableEq GT] [DecidableEq G1]

/-- **C18** Feed any sequence of share messages with senders in range - forged, duplicated, in any order, for any
epochs - to a fresh epoch key generator of a keyper set sharing the polynomial `P`. Nothing panics, and afterwards
the generator holds a key for an epoch exactly if at least `threshold` distinct senders had sent their correct share for
it, and the key is then the correct one `secret P · H(epoch)`. (Being true after every prefix, the key also never
changes.) -/
theorem C18_epoch_key (env : Env G1 G2 GT) (law : Lawful env) (r : Result G2) (P : List Nat)
    (threshold : r.threshold = P.length) (positive : 0 < P.length) (size : r.publicKeyShares.length ≤ 2 ^ 63)
    (shares : ∀ j (h : j < r.publicKeyShares.length), r.publicKeyShares[j] = polyValue P (j + 1) • env.g2)
    (msgs : List (EpochShare G1)) (senders : ∀ m ∈ msgs, m.sender < r.publicKeyShares.length) :
    ∃ kg, (newEpochKG r).handleAll env msgs = some kg ∧ ∀ epoch,
      kg.secretKeys epoch =
        if r.threshold ≤ (correctSenders env (fun j => polyValue P (j + 1)) msgs epoch).card
        then some (some (secret P • epochIDOf env epoch)) else none := by
  obtain ⟨kg, hkg⟩ := kg_total env msgs (newEpochKG r : EpochKG G1 G2) senders
  refine ⟨kg, hkg, ?_⟩
  intro epoch
  have inv := kg_run env law P r.publicKeyShares shares size msgs [] _ kg
    (kg_init env r P threshold positive) hkg
  rw [List.nil_append] at inv
  cases hk : kg.secretKeys epoch with
  | none =>
    obtain ⟨p1, p2, _, p4⟩ := inv.pending epoch hk
    rw [← p2, List.toFinset_card_of_nodup p1, List.length_map, if_neg]
    rw [inv.thr] at p4
    omega
  | some key =>
    obtain ⟨h1, h2⟩ := inv.done epoch key hk
    rw [inv.thr, ← threshold] at h2
    rw [if_pos h2, h1]

/-- **C17** End to end. Keypers `j ∈ Q` (distinct, `threshold` many) and a keyper `i` ran the DKG, accepted the same
broadcasts and obtained results. Then whatever share messages keyper `i` receives (from senders in range), as long as
the epoch shares of all of `Q` are among them, it obtains an epoch secret key, and that key decrypts every message
encrypted to the eon public key for the epoch. -/
theorem C17_dkg_then_decrypt (env : Env G1 G2 GT) (law : Lawful env) (eon n t : Nat) (ht : 1 ≤ t) (ht' : t < 2 ^ 64)
    (hn : n ≤ 2 ^ 63) (ops : Nat → List (Op G2)) (w : Nat → World G2) (r : Nat → Result G2)
    (Q : Finset Nat) (enough : t ≤ Q.card) (i : Nat) (members : ∀ j ∈ insert i Q, j < n)
    (ran : ∀ j ∈ insert i Q, run env (newWorld G2 eon n t j) (ops j) = some (w j))
    (results : ∀ j ∈ insert i Q, computeResult env (w j).state = some (r j))
    (same : ∀ j ∈ Q, SameBroadcasts (w i) (w j))
    (slices : ∀ m, Op.commitment m ∈ (w i).accepted → m.gammas.length < 2 ^ 64)
    (epoch : Nat) (msgs : List (EpochShare G1)) (senders : ∀ m ∈ msgs, m.sender < n)
    (sent : ∀ j ∈ Q, ∃ m ∈ msgs, m.epoch = epoch ∧ m.sender = j ∧
      m.share = (newEpochKG (r j)).computeShare env epoch) :
    ∃ kg key, (newEpochKG (r i)).handleAll env msgs = some kg ∧ kg.secretKeys epoch = some (some key) ∧
      ∀ (message : Bytes) (sigma : Block),
        decrypt env (encrypt env message (r i).publicKey (epochIDOf env epoch) sigma) key = some message := by
  have hi : i ∈ insert i Q := Finset.mem_insert_self _ _
  have lg := logInv_run env eon n t i (ops i) (w i) (ran i hi)
  have hr := results i hi
  obtain ⟨hlen, P, hP, hpk, hpks⟩ := C14_joint_polynomial env law (w i).state (r i) hr (by rw [lg.thr]; exact ht)
    (by rw [lg.thr]; exact ht') (by
      intro d c hc
      obtain ⟨m, hm, _, rfl⟩ := (lg.commit d c).1 hc
      exact slices m hm)
  have hthr : (r i).threshold = t := by
    obtain ⟨ces, _, _, _, he⟩ := computeResult_some env _ _ hr
    rw [he]; exact lg.thr
  rw [lg.num] at hlen
  obtain ⟨kg, hkg, hkeys⟩ := C18_epoch_key env law (r i) P hP.symm (by omega) (by omega) hpks msgs (by
    intro m hm; rw [hlen]; exact senders m hm)
  have hcard : (r i).threshold ≤ (correctSenders env (fun j => polyValue P (j + 1)) msgs epoch).card := by
    rw [hthr]
    refine enough.trans (Finset.card_le_card ?_)
    intro j hj
    have hjm : j ∈ insert i Q := Finset.mem_insert_of_mem hj
    obtain ⟨m, hm, he, hs, hshare⟩ := sent j hj
    have hag := (C13_agreement env eon n t i j (ops i) (ops j) (w i) (w j) (ran i hi) (ran j hjm) (same j hj)).2 _ _ hr
      (results j hjm)
    have lgj := logInv_run env eon n t j (ops j) (w j) (ran j hjm)
    have hkj : (r j).keyper = j := by
      obtain ⟨ces, _, _, _, he⟩ := computeResult_some env _ _ (results j hjm)
      rw [he]; exact lgj.keyper
    have hcons := C14_result_consistent env law (w j).state (r j) (results j hjm) (by
      rw [lgj.keyper, lgj.num]; exact members j hjm)
    rw [← hag.2.1, hkj] at hcons
    have hjl : j < (r i).publicKeyShares.length := by rw [hlen]; exact members j hjm
    rw [List.getElem?_eq_getElem hjl, hpks j hjl, Option.some.injEq] at hcons
    have hcast := cast_eq_of_smul_eq law.order_smul_G2 law.g2_ne_zero hcons
    unfold correctSenders
    simp only [List.mem_toFinset, List.mem_map, List.mem_filter, decide_eq_true_eq]
    refine ⟨m, ⟨hm, he, ?_⟩, hs⟩
    rw [hshare, hs]
    unfold EpochKG.computeShare computeEpochSecretKeyShare newEpochKG
    simp only
    exact (smul_congr law.order_smul_G1 hcast _).symm
  refine ⟨kg, secret P • epochIDOf env epoch, hkg, ?_, ?_⟩
  · rw [hkeys, if_pos hcard]
  · intro message sigma
    rw [hpk]
    exact Crypto.Props.C01_encrypt_decrypt env law _ _ _ _

/-! ### A concrete run: three keypers, threshold two, keyper 1 falsely accuses keyper 0 -/

section example_run

/-- Dealer polynomials of the example. -/
def exPoly : Nat → List Nat
  | 0 => [3, 4]
  | 1 => [5, 6]
  | _ => [7, 8]

def exCommit (k : Nat) : Op Zq := .commitment ⟨7, k, polyGammas zEnv (exPoly k)⟩
def exEval (k j : Nat) : Op Zq := .eval ⟨7, k, j, ((evalForKeyper (exPoly k) j).getD 0 : Nat)⟩

/-- The calls of keyper 0 and of keyper 2 (who sees the commitments in another order). -/
def exOps0 : List (Op Zq) :=
  [.start1 (some (exPoly 0)), exCommit 0, exCommit 1, exCommit 2, exEval 1 0, exEval 2 0, .start2,
   .accusation ⟨7, 1, 0⟩, .start3, .apology ⟨7, 1, 0, 11⟩, .fin]
def exOps2 : List (Op Zq) :=
  [exCommit 2, exCommit 1, .start1 (some (exPoly 2)), exEval 1 2, exCommit 0, exEval 0 2, .start2,
   .accusation ⟨7, 1, 0⟩, .accusation ⟨7, 1, 0⟩, .start3, .apology ⟨7, 1, 0, 11⟩, .fin]

instance : DecidablePred (IsBroadcast (G2 := Zq)) := fun op => by cases op <;> unfold IsBroadcast <;> infer_instance

theorem exRun0 : ∃ w, run zEnv (newWorld Zq 7 3 2 0) exOps0 = some w ∧
    w = (run zEnv (newWorld Zq 7 3 2 0) exOps0).getD (newWorld Zq 7 3 2 0) := by
  have h : (run zEnv (newWorld Zq 7 3 2 0) exOps0).isSome = true := by decide +kernel
  obtain ⟨w, hw⟩ := Option.isSome_iff_exists.1 h
  exact ⟨w, hw, by rw [hw]; rfl⟩

theorem exRun2 : ∃ w, run zEnv (newWorld Zq 7 3 2 2) exOps2 = some w ∧
    w = (run zEnv (newWorld Zq 7 3 2 2) exOps2).getD (newWorld Zq 7 3 2 2) := by
  have h : (run zEnv (newWorld Zq 7 3 2 2) exOps2).isSome = true := by decide +kernel
  obtain ⟨w, hw⟩ := Option.isSome_iff_exists.1 h
  exact ⟨w, hw, by rw [hw]; rfl⟩

/-- All hypotheses of C13–C15 are met by this run, and results exist. -/
example : ∃ w0 w2, run zEnv (newWorld Zq 7 3 2 0) exOps0 = some w0 ∧ run zEnv (newWorld Zq 7 3 2 2) exOps2 = some w2 ∧
    SameBroadcasts w0 w2 ∧ BroadcastsDelivered w0 w0 ∧ BroadcastsDelivered w2 w2 ∧ BroadcastsDelivered w0 w2 ∧
    w0.state.phase = finalized ∧ w2.state.phase = finalized ∧
    (∀ m, Op.apology m ∈ w2.accepted → m.accused = 0 → Op.apology m ∈ w0.emitted) ∧
    (∀ m, Op.accusation m ∈ w2.accepted → m.accused = 0 → Op.accusation m ∈ w0.accepted) ∧
    (computeResult zEnv w0.state).isSome = true ∧ (computeResult zEnv w2.state).isSome = true ∧
    Op.start1 none ∉ exOps0 ∧ Op.start1 none ∉ exOps2 := by
  obtain ⟨w0, h0, e0⟩ := exRun0
  obtain ⟨w2, h2, e2⟩ := exRun2
  refine ⟨w0, w2, h0, h2, ?_⟩
  clear h0 h2
  have hs : (∀ op ∈ w0.accepted, IsBroadcast op → op ∈ w2.accepted) ∧
      (∀ op ∈ w2.accepted, IsBroadcast op → op ∈ w0.accepted) := by
    subst e0 e2; decide +kernel
  refine ⟨fun op hb => ⟨fun h => hs.1 op h hb, fun h => hs.2 op h hb⟩, ?_, ?_, ?_, ?_, ?_, ?_, ?_, ?_, ?_, ?_, ?_⟩
  · unfold BroadcastsDelivered; subst e0 e2; decide +kernel
  · unfold BroadcastsDelivered; subst e0 e2; decide +kernel
  · unfold BroadcastsDelivered; subst e0 e2; decide +kernel
  · subst e0 e2; decide +kernel
  · subst e0 e2; decide +kernel
  · have : ∀ op ∈ w2.accepted, (match op with | .apology m => decide (m.accused = 0) | _ => false) = true → op ∈ w0.emitted := by
      subst e0 e2; decide +kernel
    intro m hm ha
    exact this _ hm (by simpa using ha)
  · have : ∀ op ∈ w2.accepted, (match op with | .accusation m => decide (m.accused = 0) | _ => false) = true → op ∈ w0.accepted := by
      subst e0 e2; decide +kernel
    intro m hm ha
    exact this _ hm (by simpa using ha)
  · subst e0 e2; decide +kernel
  · subst e0 e2; decide +kernel
  · decide +kernel
  · decide +kernel

/-- A result as in C18: three keypers sharing the polynomial `15 + 18x`. -/
def exResult : Result Zq where
  eon := 7
  numKeypers := 3
  threshold := 2
  keyper := 0
  secretKeyShare := 33
  publicKey := (15 : Nat) • zEnv.g2
  publicKeyShares := (List.range 3).map fun j => polyValue [15, 18] (j + 1) • zEnv.g2

/-- The shares of keypers 2 and 0 for epoch 5, between forged and duplicate ones. -/
def exShares : List (EpochShare Zq) :=
  [⟨7, 5, 2, polyValue [15, 18] 3 • epochIDOf zEnv 5⟩, ⟨7, 5, 1, Zq.of 12345⟩,
   ⟨7, 5, 2, polyValue [15, 18] 3 • epochIDOf zEnv 5⟩, ⟨7, 5, 0, polyValue [15, 18] 1 • epochIDOf zEnv 5⟩]

example : ∃ kg, (newEpochKG exResult).handleAll zEnv exShares = some kg ∧
    kg.secretKeys 5 = some (some ((15 : Nat) • epochIDOf zEnv 5)) ∧ kg.secretKeys 6 = none := by
  obtain ⟨kg, h1, h2⟩ := C18_epoch_key zEnv zLawful exResult [15, 18] rfl (by decide) (by decide +kernel)
    (by intro j h; simp [exResult]) exShares (by decide +kernel)
  refine ⟨kg, h1, ?_, ?_⟩
  · rw [h2, if_pos (by decide +kernel)]; rfl
  · rw [h2, if_neg (by decide +kernel)]

end example_run

/-- **C18** The key of an epoch belongs to this epoch only: its point is the hash of the epoch number, so (with a hash to the curve
without collisions) different epochs have different points. -/
theorem C18_epochs_distinct (env : Env G1 G2 GT) (collisionFree : Function.Injective (hash1 env)) {e₁ e₂ : Nat} (h₁ : e₁ < 2 ^ 64)
    (h₂ : e₂ < 2 ^ 64) (ne : e₁ ≠ e₂) : epochIDOf env e₁ ≠ epochIDOf env e₂ :=
  fun h => ne (be8_injective h₁ h₂ (collisionFree h))

end Shutter.Dkg.Props
