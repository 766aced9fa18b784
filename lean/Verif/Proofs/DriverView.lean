import Verif.Proofs.DriverReach
import Verif.Proofs.DkgResult

/-! The state of the key generation as a function of the prescribed calls. -/

namespace Shutter.Decide
open Shutter.Crypto Shutter.Dkg Shutter.Observe Shutter.Decide.Spec
open Shutter.App (Addr findAddressIndex)
open Shutter.Events (Codecs)

variable {G1 G2 GT R : Type} [AddCommGroup G2] [DecidableEq G2]

/-- The states only. -/
def runS (env : Env G1 G2 GT) (st : PureDKG G2) (ops : List (Op G2)) : Option (PureDKG G2) :=
  ops.foldlM (fun st op => (step env st op).map (·.state)) st

theorem runS_run (env : Env G1 G2 GT) (ops : List (Op G2)) : ∀ w : World G2, runS env w.state ops = (Dkg.run env w ops).map (·.state) := by
  induction ops with
  | nil => intro w; rfl
  | cons op ops ih =>
    intro w
    simp only [runS, Dkg.run, List.foldlM_cons, Option.bind_eq_bind, exec] at ih ⊢
    cases step env w.state op with
    | none => rfl
    | some o => exact ih ⟨o.state, _, _⟩

theorem runS_cons (env : Env G1 G2 GT) (st : PureDKG G2) (op : Op G2) (ops : List (Op G2)) :
    runS env st (op :: ops) = ((step env st op).map (·.state)).bind (fun st => runS env st ops) := by
  simp only [runS, List.foldlM_cons, Option.bind_eq_bind]

theorem runS_append (env : Env G1 G2 GT) (st : PureDKG G2) (a b : List (Op G2)) :
    runS env st (a ++ b) = (runS env st a).bind (fun st => runS env st b) := by
  simp only [runS, List.foldlM_append, Option.bind_eq_bind]

def evalUpd (ok : Bool) (e : PolyEvalMsg) (l : List (Option Nat)) : Option (List (Option Nat)) :=
  if ok then match l[e.sender]? with
    | none => none
    | some (some _) => some l
    | some none => if validEval e.eval then some (l.set e.sender (some e.eval.toNat)) else some l
  else some l

def commUpd (ok : Bool) (deg : Nat) (c : PolyCommitmentMsg G2) (l : List (Option (List G2))) : Option (List (Option (List G2))) :=
  if ok then match l[c.sender]? with
    | none => none
    | some (some _) => some l
    | some none => if degree c.gammas = deg then some (l.set c.sender (some c.gammas)) else some l
  else some l

theorem step_eval (env : Env G1 G2 GT) (st : PureDKG G2) (e : PolyEvalMsg) : (step env st (.eval e)).map (·.state) =
    (evalUpd (checkEonAndPhase st e.eon dealing && (e.receiver == st.keyper)) e st.evals).map (fun l => { st with
      evals := l }) := by
  simp only [step, handlePolyEvalMsg, evalUpd]
  cases h : checkEonAndPhase st e.eon dealing
  · simp
  · by_cases h2 : e.receiver = st.keyper
    · simp only [h2, Bool.not_true, Bool.false_eq_true, ne_eq, not_true_eq_false, if_false, beq_self_eq_true, Bool.and_self, if_true]
      generalize st.evals[e.sender]? = o
      rcases o with _ | _ | _
      · rfl
      · cases validEval e.eval <;> rfl
      · rfl
    · simp [h2]

theorem step_comm (env : Env G1 G2 GT) (st : PureDKG G2) (c : PolyCommitmentMsg G2) : (step env st (.commitment c)).map (·.state) =
    (commUpd (checkEonAndPhase st c.eon dealing) (sub1u64 st.threshold) c st.commitments).map (fun l => { st with
      commitments := l }) := by
  simp only [step, handlePolyCommitmentMsg, commUpd]
  cases h : checkEonAndPhase st c.eon dealing
  · simp
  · simp only [Bool.not_true, Bool.false_eq_true, ne_eq, if_false, if_true]
    generalize st.commitments[c.sender]? = o
    rcases o with _ | _ | _
    rotate_left 2
    · rfl
    · rfl
    · by_cases h3 : degree c.gammas = sub1u64 st.threshold <;> simp [h3]

/-- Commitments and evaluations can be swapped. -/
theorem step_swap (env : Env G1 G2 GT) (st : PureDKG G2) (c : PolyCommitmentMsg G2) (e : PolyEvalMsg) :
    ((step env st (.eval e)).map (·.state)).bind (fun s => (step env s (.commitment c)).map (·.state)) =
    ((step env st (.commitment c)).map (·.state)).bind (fun s => (step env s (.eval e)).map (·.state)) := by
  have k1 : ∀ (l : List (Option Nat)) (x y : Nat), checkEonAndPhase { st with evals := l } x y = checkEonAndPhase st x y := fun _ _ _ => rfl
  have k2 : ∀ (l : List (Option (List G2))) (x y : Nat), checkEonAndPhase { st with commitments := l } x y = checkEonAndPhase st x y :=
    fun _ _ _ => rfl
  simp only [step_eval, step_comm, Option.bind_map, Function.comp_def, k1, k2]
  cases evalUpd (checkEonAndPhase st e.eon dealing && (e.receiver == st.keyper)) e st.evals <;>
    cases commUpd (checkEonAndPhase st c.eon dealing) (sub1u64 st.threshold) c st.commitments <;> rfl

theorem runS_swap (env : Env G1 G2 GT) (c : PolyCommitmentMsg G2) (es : List (Op G2)) : ∀ st : PureDKG G2,
    (∀ op ∈ es, isEval op = true) → runS env st (es ++ [.commitment c]) = runS env st (.commitment c :: es) := by
  induction es with
  | nil => intro st _; rfl
  | cons op es ih =>
    intro st h
    obtain ⟨e, rfl⟩ : ∃ e, op = .eval e := by
      have := h op (by simp)
      cases op <;> simp [isEval] at this
      exact ⟨_, rfl⟩
    rw [List.cons_append, runS_cons, runS_cons]
    have : (fun s => runS env s (es ++ [.commitment c])) = (fun s => ((step env s (.commitment c)).map (·.state)).bind (fun s => runS env s es)) := by
      funext s
      rw [ih s (fun op ho => h op (by simp [ho])), runS_cons]
    rw [this, ← Option.bind_assoc, step_swap, Option.bind_assoc]
    simp only [runS_cons]

/-- The dealing in the order commitments, evaluations. -/
theorem runS_deal (env : Env G1 G2 GT) (st : PureDKG G2) (D : List (Op G2)) (h : ∀ op ∈ D, isCommitment op = true ∨ isEval op = true) :
    runS env st D = runS env st (D.filter isCommitment ++ D.filter isEval) := by
  induction D using List.reverseRecOn with
  | nil => rfl
  | append_singleton D op ih =>
    rw [runS_append, ih (fun x hx => h x (by simp [hx])), List.filter_append, List.filter_append]
    have ho := h op (by simp)
    cases op <;> simp [isCommitment, isEval] at ho
    · rw [List.filter_cons_of_pos rfl, List.filter_cons_of_neg (by simp [isEval]), List.filter_nil, List.filter_nil, List.append_nil,
        ← runS_append, List.append_assoc, List.append_assoc, runS_append, runS_append]
      congr 1
      funext s
      exact runS_swap env _ _ s (fun x hx => (List.mem_filter.1 hx).2)
    · rw [List.filter_cons_of_neg (by simp [isCommitment]), List.filter_cons_of_pos rfl, List.filter_nil, List.filter_nil, List.append_nil,
        ← runS_append, List.append_assoc]

/-- The prescribed calls determine the state. -/
theorem prescribed_state {env : Env G1 G2 GT} {p : Params G2} {poly : Option (List Nat)} {evs : List Stamped} {next : Int}
    {ops : List (Op G2)} (h : Prescribed p poly evs next ops) (st : PureDKG G2) :
    runS env st ops = runS env st (script p.length p.start next poly (commitments p evs ++ evals p evs) (accusations p evs) (apologies p evs)) := by
  obtain ⟨D, rfl, hk, hc, he⟩ := h
  simp only [script, List.append_assoc]
  rw [runS_append, runS_append]
  congr 1
  funext s
  rw [runS_append, runS_deal env s D hk, hc, he, ← List.append_assoc (commitments p evs), ← runS_append]

theorem exec_start1_frame (env : Env G1 G2 GT) {w w' : World G2} {p : Option (List Nat)} (h : exec env w (.start1 p) = some w') :
    SameParams w.state w'.state ∧ w'.state.phase = dealing ∧ w'.state.commitments = w.state.commitments ∧
    w'.state.accusations = w.state.accusations ∧ w'.state.apologies = w.state.apologies ∧
    ∀ d, d ≠ w.state.keyper → evl w'.state d = evl w.state d := by
  simp only [exec, step, Option.map_eq_some_iff] at h
  obtain ⟨o, ⟨r, hr, rfl⟩, rfl⟩ := h
  simp only [startPhase1Dealing] at hr
  split at hr
  · simp at hr
  · next st1 hs =>
    obtain ⟨hp, rfl⟩ := setPhase_some hs
    cases p with
    | none =>
      simp only [Option.some.injEq] at hr
      subst hr
      exact ⟨⟨rfl, rfl, rfl, rfl⟩, rfl, rfl, rfl, rfl, fun _ _ => rfl⟩
    | some p =>
      simp only at hr
      split at hr
      · simp at hr
      · next st3 msgs hd =>
        simp only [Option.some.injEq] at hr
        subst hr
        obtain ⟨b1, b2, b3, b4, b5, b6, b7, b8, b9, b10, b11⟩ := dealLoop_frame p _ _ _ _ hd
        refine ⟨⟨b5, b6, b7, b8⟩, b4, b1, b2, b3, fun d hd => Option.ext fun v => ?_⟩
        have := b10 d v
        simp only [HasEval] at this
        simp only [evl]
        rw [this]
        simp [hd]

/-- What the prescribed calls leave: for every keyper the first acceptable commitment, all accusations, and for every
accusation the first acceptable apology. -/
theorem prescribed_views {env : Env G1 G2 GT} {p : Params G2} {poly : Option (List Nat)} {evs : List Stamped} {next : Int}
    {ops : List (Op G2)} {n t : Nat} {w : World G2} (h : Prescribed p poly evs next ops)
    (hr : Dkg.run env (newWorld G2 p.eon n t p.own) ops = some w) (hfin : p.start + 3 * p.length ≤ next) (hL : 0 ≤ p.length) :
    w.state.threshold = t ∧ w.state.numKeypers = n ∧ w.state.eon = p.eon ∧ w.state.phase = finalized ∧
    (∀ d, com w.state d = (commitments p evs).findSome? (commitmentIn t d)) ∧
    (∀ k, k ∈ w.state.accusations ↔ (accusations p evs).any (accusationIn k) = true) ∧
    (∀ k, apo w.state k = (apologies p evs).findSome? (apologyIn k)) ∧
    ∀ d, d ≠ p.own → evl w.state d = (evals p evs).findSome? (evalIn d) := by
  have h1 := prescribed_state (env := env) h (newPureDKG G2 p.eon n t p.own)
  have h2 := runS_run env ops (newWorld G2 p.eon n t p.own)
  rw [hr] at h2
  rw [show (newWorld G2 p.eon n t p.own).state = newPureDKG G2 p.eon n t p.own from rfl, h1] at h2
  have h3 := runS_run env (script p.length p.start next poly (commitments p evs ++ evals p evs) (accusations p evs) (apologies p evs))
    (newWorld G2 p.eon n t p.own)
  rw [show (newWorld G2 p.eon n t p.own).state = newPureDKG G2 p.eon n t p.own from rfl, h2] at h3
  obtain ⟨w', hw', hs⟩ := Option.map_eq_some_iff.1 h3.symm
  simp only at hs
  rw [← hs]
  clear h1 h2 h3 hs hr h
  simp only [script, hfin, show p.start + p.length ≤ next by omega, show p.start + 2 * p.length ≤ next by omega, if_true,
    run_append] at hw'
  obtain ⟨w6, ⟨w5, ⟨w4, ⟨w3, ⟨w2, ⟨w1, h1, wc, hc, he⟩, h3⟩, h4⟩, h5⟩, h6⟩, h7⟩ := hw'
  have single : ∀ {a b : World G2} {op : Op G2}, Dkg.run env a [op] = some b → exec env a op = some b := by
    intro a b op h
    obtain ⟨x, hx, hy⟩ := (run_cons env).1 h
    simp only [Dkg.run, List.foldlM_nil, Option.pure_def, Option.some.injEq] at hy
    exact hy ▸ hx
  replace h1 := single h1
  obtain ⟨a1, a3, a6, a7, a8, a9⟩ := exec_start1_frame env h1
  obtain ⟨b1, b2, b3, b4, b5, b6, b7⟩ := run_commitments env hc (by
    intro op hop
    obtain ⟨x, hx, hop⟩ := List.mem_flatMap.1 hop
    obtain ⟨m, rfl, k, hk⟩ := commitmentOf_kind _ _ _ hop
    refine ⟨m, rfl, ?_⟩
    have := (List.mem_filter.1 hx).2
    rw [decide_eq_true_eq, hk] at this
    rw [a1.eon]
    simp only [Option.some.injEq, Prod.mk.injEq] at this
    exact this.2) (fun _ => by rw [a3])
  obtain ⟨c1, c2, c3, c4, c5, c6, c7⟩ := run_evals env he (by
    intro op hop
    obtain ⟨x, hx, hop⟩ := List.mem_flatMap.1 hop
    obtain ⟨m, rfl, hrec, k, hk⟩ := evalsOf_kind _ _ _ hop
    have := (List.mem_filter.1 hx).2
    rw [decide_eq_true_eq, hk] at this
    simp only [Option.some.injEq, Prod.mk.injEq] at this
    refine ⟨m, rfl, ?_, ?_⟩
    · rw [b1.eon, a1.eon]; exact this.2
    · rw [b1.keyper, a1.keyper]; exact hrec) (fun _ => by rw [b2, a3])
  obtain ⟨d1, d2⟩ := exec_start2 env (single h3)
  obtain ⟨e1, e2, e3, e4, e5, e6, e7⟩ := run_accusations env h4 (by
    intro op hop
    obtain ⟨x, hx, hop⟩ := List.mem_flatMap.1 hop
    obtain ⟨m, rfl, hm⟩ := accusationsOf_kind _ _ _ hop
    refine ⟨m, rfl, ?_⟩
    rw [d1]
    simp only
    rw [c1.eon, b1.eon, a1.eon]
    exact hm) (fun _ => by rw [d1])
  obtain ⟨f1, f2⟩ := exec_start3 env (single h5)
  obtain ⟨g1, g2, g3, g4, g5, g6, g7⟩ := run_apologies env h6 (by
    intro op hop
    obtain ⟨x, hx, hop⟩ := List.mem_flatMap.1 hop
    obtain ⟨m, rfl, hm⟩ := apologiesOf_kind _ _ _ hop
    refine ⟨m, rfl, ?_⟩
    rw [f1]
    simp only
    rw [e1.eon, d1]
    simp only
    rw [c1.eon, b1.eon, a1.eon]
    exact hm) (fun _ => by rw [f1])
  obtain ⟨i1, i2⟩ := exec_fin env (single h7)
  rw [i1]
  simp only
  have j : SameParams (newWorld G2 p.eon n t p.own).state w5.state := by
    refine ((a1.trans b1).trans c1).trans (SameParams.trans (b := w3.state) ?_ (e1.trans ?_))
    · rw [d1]; exact ⟨rfl, rfl, rfl, rfl⟩
    · rw [f1]; exact ⟨rfl, rfl, rfl, rfl⟩
  have hthr : w1.state.threshold = t := a1.thr
  have hk := SameParams.trans j g1
  refine ⟨hk.thr, hk.num, hk.eon, trivial, fun d => ?_, fun k => ?_, fun k => ?_, fun d hd => ?_⟩
  · have : com w6.state d = com wc.state d := by
      simp only [com]
      rw [g4, f1]
      simp only
      rw [e4, d1]
      simp only
      rw [c4]
    have h0 : com w1.state d = none := by
      simp only [com, a6, newWorld, newPureDKG, List.getElem?_replicate]
      split <;> rfl
    have hb := b7 d
    rw [h0, hthr] at hb
    simpa [com] using this.trans hb
  · have h0 : w3.state.accusations = [] := by
      rw [d1]
      simp only
      rw [c5, b5, a7]
      rfl
    have := e7 k
    rw [h0] at this
    rw [g6, f1]
    simpa using this
  · have h0 : apo w5.state k = none := by
      simp only [apo]
      rw [f1]
      simp only
      rw [e6, d1]
      simp only
      rw [c6, b6, a8]
      rfl
    have := g7 k
    rw [h0] at this
    simpa [apo] using this
  · have : evl w6.state d = evl w2.state d := by
      simp only [evl]
      rw [g5, f1]
      simp only
      rw [e5, d1]
    have h0 : evl wc.state d = none := by
      have h1 : evl wc.state d = evl w1.state d := by
        simp only [evl]
        rw [b4]
      rw [h1, a9 d hd]
      simp only [evl, newWorld, newPureDKG, List.getElem?_replicate]
      split <;> rfl
    have hb := c7 d
    rw [h0] at hb
    simpa [evl] using this.trans hb

end Shutter.Decide
