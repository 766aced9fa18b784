import Verif.Proofs.DriverRound
import Verif.Proofs.DkgResult
import Verif.Spec.Sent

/-! The messages returned by the calls that start a phase, exactly. -/

namespace Shutter.Decide
open Shutter.Crypto Shutter.Crypto.Spec Shutter.Dkg Shutter.Observe Shutter.Decide.Spec
open Shutter.App (Addr findAddressIndex)

variable {G1 G2 GT R : Type}

/-! ## Evaluations -/

theorem polyEvalAt_lt' {c : Nat} {cs : List Nat} {x v : Nat} (hne : cs ≠ []) (h : polyEvalAt (c :: cs) x = some v) : v < order := by
  unfold polyEvalAt at h
  rw [List.reverse_cons] at h
  cases hr : cs.reverse with
  | nil => simp at hr; exact absurd hr hne
  | cons d ds =>
    rw [hr] at h
    simp only [List.cons_append, List.foldl_append, List.foldl_cons, List.foldl_nil, Option.some.injEq] at h
    rw [← h]
    exact Nat.mod_lt _ order_pos

/-- If the evaluation at one place is reduced, they all are. -/
theorem evalForKeyper_eq {p : List Nat} {i w : Nat} (hi : evalForKeyper p i = some w) (hw : w < order) (j : Nat) :
    evalForKeyper p j = some (evaluation p j) := by
  unfold evalForKeyper keyperX at *
  unfold evaluation
  rw [Nat.add_comm j 1]
  cases p with
  | nil => simp [polyEvalAt] at hi
  | cons c cs =>
    by_cases hcs : cs = []
    · subst hcs
      refine polyEvalAt_eq _ ?_ (by simp)
      simp only [polyEvalAt, List.reverse_cons, List.reverse_nil, List.nil_append, List.foldl_nil, Option.some.injEq] at hi
      intro d hd
      simp only [List.mem_singleton] at hd
      omega
    · obtain ⟨v, hv⟩ := polyEvalAt_isSome (p := c :: cs) (1 + j) (by simp)
      have h1 := polyEvalAt_cast hv
      have h2 := polyEvalAt_lt' hcs hv
      rw [← polyValue_cast, ZMod.natCast_eq_natCast_iff] at h1
      rw [hv, ← h1, Nat.mod_eq_of_lt h2]

/-- The evaluations dealt. -/
def dealt (e i n : Nat) (p : List Nat) : List PolyEvalMsg :=
  ((List.range n).filter (fun j => decide (j ≠ i))).map (fun j => ⟨e, i, j, (evaluation p j : Nat)⟩)

theorem dealLoop_exact (p : List Nat) : ∀ (rs : List Nat) (st st' : PureDKG G2) (msgs : List PolyEvalMsg),
    dealLoop p st rs = some (st', msgs) →
    msgs = (rs.filter (fun j => decide (j ≠ st.keyper))).map (fun j => ⟨st.eon, st.keyper, j, (((evalForKeyper p j).getD 0 : Nat) : Int)⟩) ∧
    (st.keyper ∈ rs → ∃ w, evalForKeyper p st.keyper = some w ∧ w < order) := by
  intro rs
  induction rs with
  | nil =>
    intro st st' msgs h
    simp only [dealLoop, Option.some.injEq, Prod.mk.injEq] at h
    obtain ⟨rfl, rfl⟩ := h
    simp
  | cons r rs ih =>
    intro st st' msgs h
    rw [dealLoop] at h
    split at h
    · simp at h
    · next eval hev =>
      simp only at h
      split at h
      · next hr =>
        split at h
        · next st1 hh =>
          obtain ⟨a1, a2, a3, a4, a5, a6, a7, a8, a9, a10, a11, a12, a13⟩ := handleEval_frame hh
          obtain ⟨i1, i2⟩ := ih _ _ _ h
          rw [a8, a5] at i1
          refine ⟨by rw [i1]; simp [hr], fun _ => ⟨eval, by rw [← hr]; exact hev, ?_⟩⟩
          unfold handlePolyEvalMsg at hh
          split at hh
          · simp at hh
          · split at hh
            · simp at hh
            · split at hh
              · simp at hh
              · simp at hh
              · split at hh
                · simp at hh
                · next hv =>
                  simp only [validEval] at hv
                  by_contra hge
                  apply hv
                  rw [if_neg (by omega), if_pos (by omega)]
                  rfl
        · simp at h
      · next hr =>
        split at h
        · simp at h
        · next st1 msgs1 hh =>
          simp only [Option.some.injEq, Prod.mk.injEq] at h
          obtain ⟨rfl, rfl⟩ := h
          obtain ⟨i1, i2⟩ := ih _ _ _ hh
          refine ⟨by rw [i1]; simp [hr, hev], fun hm => i2 ?_⟩
          rcases List.mem_cons.1 hm with hm | hm
          · exact absurd hm.symm hr
          · exact hm

variable [AddCommGroup G2] [DecidableEq G2]

theorem start1_exact {env : Env G1 G2 GT} {st : PureDKG G2} {poly : Option (List Nat)} {o : Outcome G2}
    (h : step env st (.start1 poly) = some o) (hok : o.ok = true) (hi : st.keyper < st.numKeypers) :
    ∃ P w, poly = some P ∧ evalForKeyper P st.keyper = some w ∧ w < order ∧ outGammas o.out = P.map (fun c => c • env.g2) ∧
      outEvals o.out = dealt st.eon st.keyper st.numKeypers P := by
  simp only [step, startPhase1Dealing] at h
  split at h
  · simp at h
  · next st1 hs =>
    obtain ⟨hp, rfl⟩ := setPhase_some hs
    cases poly with
    | none =>
      simp only [Option.map_some, Option.some.injEq] at h
      rw [← h] at hok
      simp at hok
    | some P =>
      simp only at h
      split at h
      · simp at h
      · next st3 msgs hd =>
        simp only [Option.map_some, Option.some.injEq] at h
        subst h
        obtain ⟨e1, e2⟩ := dealLoop_exact P _ _ _ _ hd
        simp only at e1 e2
        obtain ⟨w, hw, hlt⟩ := e2 (by simpa using hi)
        refine ⟨P, w, rfl, hw, hlt, ?_, ?_⟩
        · simp [outGammas, polyGammas]
        · have : outEvals (Op.commitment ⟨st.eon, st.keyper, polyGammas env P⟩ :: msgs.map Op.eval) = msgs := by
            simp only [outEvals, List.filterMap_cons, List.filterMap_map, Function.comp_def]
            simp
          rw [this, e1]
          unfold dealt
          refine List.map_congr_left (fun j _ => ?_)
          rw [evalForKeyper_eq hw hlt]
          rfl

theorem start2_exact {env : Env G1 G2 GT} {st : PureDKG G2} {o : Outcome G2} (h : step env st .start2 = some o) :
    outAccusations o.out = ((List.range st.numKeypers).filter (fun d => decide (d ≠ st.keyper) && shouldAccuse env st d)).map
      (fun d => ⟨st.eon, st.keyper, d⟩) := by
  simp only [step, startPhase2Accusing] at h
  split at h
  · simp at h
  · next st1 hs =>
    obtain ⟨hp, rfl⟩ := setPhase_some hs
    simp only [Option.map_some, Option.some.injEq] at h
    subst h
    have hsa : ∀ d, shouldAccuse env { st with phase := accusing } d = shouldAccuse env st d := fun d => rfl
    simp only [outAccusations, List.filterMap_map, Function.comp_def, List.filterMap_some]
    generalize List.range st.numKeypers = l
    induction l with
    | nil => rfl
    | cons d l ih =>
      rw [List.filterMap_cons, List.filter_cons, ih, hsa]
      by_cases hd : d = st.keyper
      · simp [hd]
      · by_cases hs : shouldAccuse env st d = true <;> simp [hd, hs]

theorem start3_exact {env : Env G1 G2 GT} {st : PureDKG G2} {o : Outcome G2} (h : step env st .start3 = some o) {P : List Nat}
    (hP : st.polynomial = some P) : outApologies o.out = (accusers st).map
      (fun a => ⟨st.eon, a, st.keyper, (((evalForKeyper P a).getD 0 : Nat) : Int)⟩) := by
  simp only [step, startPhase3Apologizing] at h
  split at h
  · simp at h
  · next st1 hs =>
    obtain ⟨hp, rfl⟩ := setPhase_some hs
    simp only [Option.map_map, Option.map_eq_some_iff] at h
    obtain ⟨msgs, hm, h⟩ := h
    simp only [Function.comp] at h
    subst h
    simp only [outApologies, List.filterMap_map, Function.comp_def, List.filterMap_some]
    simp only [accusers, List.map_map, Function.comp_def]
    have hk : ∀ x ∈ st.accusations.filter (fun key : Nat × Nat => decide (key.2 = st.keyper)), x.2 = st.keyper := by
      intro x hx
      simpa using (List.mem_filter.1 hx).2
    generalize st.accusations.filter (fun key : Nat × Nat => decide (key.2 = st.keyper)) = l at hm hk
    induction l generalizing msgs with
    | nil => simp at hm; simp [← hm]
    | cons x l ih =>
      rw [List.mapM_cons] at hm
      simp only [Option.pure_def, Option.bind_eq_bind, Option.bind_eq_some_iff, Option.some.injEq] at hm
      obtain ⟨m, h1, ms, h2, rfl⟩ := hm
      rw [hP] at h1
      simp only [Option.map_eq_some_iff] at h1
      obtain ⟨v, hv, rfl⟩ := h1
      rw [List.map_cons, ← ih _ h2 (fun y hy => hk y (by simp [hy]))]
      simp [hv, hk x (by simp)]

/-- Whom to accuse, in terms of the commitments and evaluations. -/
theorem toBlame_eq {env : Env G1 G2 GT} (law : ∀ p : G2, order • p = 0) {st : PureDKG G2}
    (deg : ∀ (d : Nat) (c : List G2), (st.commitments[d]?).join = some c → degree c = sub1u64 st.threshold) :
    (List.range st.numKeypers).filter (fun d => decide (d ≠ st.keyper) && shouldAccuse env st d) = toBlame env.g2 st := by
  unfold toBlame
  refine List.filter_congr (fun d _ => ?_)
  congr 1
  unfold shouldAccuse
  cases h1 : (st.evals[d]?).join with
  | none => cases h2 : (st.commitments[d]?).join <;> rfl
  | some v =>
    cases h2 : (st.commitments[d]?).join with
    | none => rfl
    | some c =>
      simp only
      unfold verifyPolyEval
      rw [if_neg (by rw [deg d c h2]; simp), gammasPi_eq law]
      simp only [keyperX, Nat.add_comm 1]
      by_cases hv : v • env.g2 = (c.mapIdx (fun k gamma => (st.keyper + 1) ^ k • gamma)).sum
      · simp [hv]
      · simp [hv]

/-! ## What does not change any more -/

theorem step_frozen {env : Env G1 G2 GT} {st : PureDKG G2} {op : Op G2} {o : Outcome G2} (h : step env st op = some o) :
    (2 ≤ st.phase → o.state.commitments = st.commitments ∧ o.state.evals = st.evals) ∧
    (3 ≤ st.phase → o.state.accusations = st.accusations) ∧
    (1 ≤ st.phase → o.state.polynomial = st.polynomial) ∧ st.phase ≤ o.state.phase := by
  have sp := step_spec env st op o h
  have hph := sp.phase
  have hprev := sp.prev
  have hpoly := sp.poly
  cases op with
  | start1 p =>
    have := hprev.1 p rfl
    exact ⟨by omega, by omega, by omega, by omega⟩
  | start2 =>
    have := hprev.2.1 rfl
    exact ⟨by omega, by omega, fun _ => hpoly, by simp only at hph; omega⟩
  | start3 =>
    have := hprev.2.2.1 rfl
    refine ⟨fun _ => ?_, by omega, fun _ => hpoly, by simp only at hph; omega⟩
    simp only [step, startPhase3Apologizing] at h
    split at h
    · simp at h
    · next st1 hs =>
      obtain ⟨_, rfl⟩ := setPhase_some hs
      simp only [Option.map_map, Option.map_eq_some_iff] at h
      obtain ⟨msgs, _, h⟩ := h
      simp only [Function.comp] at h
      subst h
      exact ⟨rfl, rfl⟩
  | fin =>
    have := hprev.2.2.2 rfl
    simp only [step, finalize, Option.map_eq_some_iff] at h
    obtain ⟨s, hs, rfl⟩ := h
    obtain ⟨_, rfl⟩ := setPhase_some hs
    refine ⟨fun _ => ⟨rfl, rfl⟩, fun _ => rfl, fun _ => rfl, ?_⟩
    simp only at hph ⊢
    omega
  | commitment m =>
    refine ⟨fun hp => ?_, fun hp => ?_, fun _ => hpoly, by simp only at hph; omega⟩
    all_goals
      simp only [step, Option.map_eq_some_iff] at h
      obtain ⟨r, hr, rfl⟩ := h
      have hc : checkEonAndPhase st m.eon dealing = false := by
        unfold checkEonAndPhase
        split
        · rfl
        · rw [if_pos (by simp only [dealing]; omega)]
      rw [handlePolyCommitmentMsg, hc] at hr
      simp only [Bool.not_false, if_true, Option.some.injEq] at hr
      rw [← hr]
    · simp
  | eval m =>
    refine ⟨fun hp => ?_, fun hp => ?_, fun _ => hpoly, by simp only at hph; omega⟩
    all_goals
      simp only [step, Option.map_eq_some_iff] at h
      obtain ⟨r, hr, rfl⟩ := h
      have hc : checkEonAndPhase st m.eon dealing = false := by
        unfold checkEonAndPhase
        split
        · rfl
        · rw [if_pos (by simp only [dealing]; omega)]
      rw [handlePolyEvalMsg, hc] at hr
      simp only [Bool.not_false, if_true, Option.some.injEq] at hr
      rw [← hr]
    · simp
  | accusation m =>
    simp only [step, Option.some.injEq] at h
    refine ⟨fun hp => ?_, fun hp => ?_, fun _ => hpoly, by simp only at hph; omega⟩
    · rw [← h]
      simp only [handleAccusationMsg]
      split_ifs <;> exact ⟨rfl, rfl⟩
    · rw [← h]
      have hc : checkEonAndPhase st m.eon accusing = false := by
        unfold checkEonAndPhase
        split
        · rfl
        · rw [if_pos (by simp only [accusing]; omega)]
      simp only [handleAccusationMsg, hc]
      rfl
  | apology m =>
    simp only [step, Option.some.injEq] at h
    refine ⟨fun hp => ?_, fun hp => ?_, fun _ => hpoly, by simp only at hph; omega⟩
    all_goals
      rw [← h]
      simp only [handleApologyMsg]
      split_ifs <;> simp

theorem run_frozen {env : Env G1 G2 GT} {ops : List (Op G2)} : ∀ {w w' : World G2}, Dkg.run env w ops = some w' →
    (2 ≤ w.state.phase → w'.state.commitments = w.state.commitments ∧ w'.state.evals = w.state.evals) ∧
    (3 ≤ w.state.phase → w'.state.accusations = w.state.accusations) ∧
    (1 ≤ w.state.phase → w'.state.polynomial = w.state.polynomial) ∧ w.state.phase ≤ w'.state.phase := by
  induction ops with
  | nil =>
    intro w w' h
    simp only [Dkg.run, List.foldlM_nil, Option.pure_def, Option.some.injEq] at h
    subst h
    simp
  | cons op ops ih =>
    intro w w' h
    obtain ⟨w1, h1, h2⟩ := (run_cons env).1 h
    obtain ⟨i1, i2, i3, i4⟩ := ih h2
    simp only [exec, Option.map_eq_some_iff] at h1
    obtain ⟨o, ho, rfl⟩ := h1
    obtain ⟨j1, j2, j3, j4⟩ := step_frozen ho
    simp only at i1 i2 i3 i4
    refine ⟨fun h => ?_, fun h => ?_, fun h => ?_, by omega⟩
    · have a := i1 (by omega)
      have b := j1 h
      exact ⟨a.1.trans b.1, a.2.trans b.2⟩
    · exact (i2 (by omega)).trans (j2 h)
    · exact (i3 (by omega)).trans (j3 h)

end Shutter.Decide
