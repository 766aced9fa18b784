import Verif.Model.DecideDkg
import Verif.Proofs.DkgRun

/-! What the calls made by the driver of the DKG do to the state of the DKG. -/

namespace Shutter.Decide
open Shutter.Crypto Shutter.Dkg

variable {G1 G2 GT : Type} [AddCommGroup G2] [DecidableEq G2]

/-- Two states of a DKG with the same parameters. -/
structure SameParams (a b : PureDKG G2) : Prop where
  eon : b.eon = a.eon
  num : b.numKeypers = a.numKeypers
  thr : b.threshold = a.threshold
  keyper : b.keyper = a.keyper

omit [AddCommGroup G2] [DecidableEq G2] in
theorem SameParams.refl (a : PureDKG G2) : SameParams a a := ⟨rfl, rfl, rfl, rfl⟩

omit [AddCommGroup G2] [DecidableEq G2] in
theorem SameParams.trans {a b c : PureDKG G2} (h : SameParams a b) (k : SameParams b c) : SameParams a c :=
  ⟨k.eon.trans h.eon, k.num.trans h.num, k.thr.trans h.thr, k.keyper.trans h.keyper⟩

def com (st : PureDKG G2) (d : Nat) : Option (List G2) := (st.commitments[d]?).join
def evl (st : PureDKG G2) (d : Nat) : Option Nat := (st.evals[d]?).join
def apo (st : PureDKG G2) (k : Nat × Nat) : Option Nat := st.apologies.lookup k

/-- The commitment of dealer `d` in a call, if it can be accepted. -/
def commitmentIn (t d : Nat) : Op G2 → Option (List G2)
  | .commitment m => if m.sender = d ∧ degree m.gammas = sub1u64 t then some m.gammas else none
  | _ => none

def evalIn (d : Nat) : Op G2 → Option Nat
  | .eval m => if m.sender = d ∧ validEval m.eval = true then some m.eval.toNat else none
  | _ => none

def apologyIn (k : Nat × Nat) : Op G2 → Option Nat
  | .apology m => if (m.accuser, m.accused) = k ∧ validEval m.eval = true then some m.eval.toNat else none
  | _ => none

def accusationIn (k : Nat × Nat) : Op G2 → Bool
  | .accusation m => decide ((m.accuser, m.accused) = k)
  | _ => false

omit [AddCommGroup G2] [DecidableEq G2] in
theorem join_set_ne {α : Type} (l : List (Option α)) (i j : Nat) (x : Option α) (h : i ≠ j) : ((l.set i x)[j]?).join = (l[j]?).join := by
  rw [List.getElem?_set, if_neg h]

theorem run_cons (env : Env G1 G2 GT) {w w' : World G2} {op : Op G2} {ops : List (Op G2)} :
    Dkg.run env w (op :: ops) = some w' ↔ ∃ w1, exec env w op = some w1 ∧ Dkg.run env w1 ops = some w' := by
  simp only [Dkg.run, List.foldlM_cons, Option.bind_eq_bind]
  cases exec env w op with
  | none => simp
  | some w1 => simp

theorem run_append (env : Env G1 G2 GT) {w w' : World G2} {a b : List (Op G2)} :
    Dkg.run env w (a ++ b) = some w' ↔ ∃ w1, Dkg.run env w a = some w1 ∧ Dkg.run env w1 b = some w' := by
  simp only [Dkg.run, List.foldlM_append, Option.bind_eq_bind]
  cases List.foldlM (exec env) w a with
  | none => simp
  | some w1 => simp

/-- Commitments. -/
theorem exec_commitment (env : Env G1 G2 GT) {w w' : World G2} {m : PolyCommitmentMsg G2} (h : exec env w (.commitment m) = some w')
    (he : m.eon = w.state.eon) (hp : w.state.phase ≤ dealing) :
    SameParams w.state w'.state ∧ w'.state.phase = w.state.phase ∧ w'.state.polynomial = w.state.polynomial ∧
    w'.state.evals = w.state.evals ∧ w'.state.accusations = w.state.accusations ∧ w'.state.apologies = w.state.apologies ∧
    ∀ d, com w'.state d = (com w.state d).or (commitmentIn w.state.threshold d (.commitment m)) := by
  simp only [exec, step, handlePolyCommitmentMsg, checkEonAndPhase, he, ne_eq, not_true_eq_false, if_false, if_neg (not_lt.2 hp),
    Bool.not_true, Bool.false_eq_true] at h
  split at h
  · simp at h
  · next c hc =>
    simp only [Option.map_some, Option.some.injEq] at h
    subst h
    refine ⟨⟨rfl, rfl, rfl, rfl⟩, rfl, rfl, rfl, rfl, rfl, fun d => ?_⟩
    simp only [com, commitmentIn]
    by_cases hd : m.sender = d
    · subst hd
      rw [hc]
      simp
    · simp [hd]
  · next hc =>
    split at h
    · next hdg =>
      simp only [Option.map_some, Option.some.injEq] at h
      subst h
      refine ⟨⟨rfl, rfl, rfl, rfl⟩, rfl, rfl, rfl, rfl, rfl, fun d => ?_⟩
      simp [com, commitmentIn, hdg]
    · next hdg =>
      simp only [Option.map_some, Option.some.injEq] at h
      subst h
      refine ⟨⟨rfl, rfl, rfl, rfl⟩, rfl, rfl, rfl, rfl, rfl, fun d => ?_⟩
      simp only [com, commitmentIn]
      by_cases hd : m.sender = d
      · subst hd
        have hi : m.sender < w.state.commitments.length := by
          by_contra hc'
          rw [List.getElem?_eq_none (by omega)] at hc
          cases hc
        rw [hc, List.getElem?_set_self hi, if_pos ⟨rfl, not_not.1 hdg⟩]
        rfl
      · rw [join_set_ne _ _ _ _ hd, if_neg (fun h => hd h.1)]
        simp

theorem run_commitments (env : Env G1 G2 GT) {ops : List (Op G2)} : ∀ {w w' : World G2}, Dkg.run env w ops = some w' →
    (∀ op ∈ ops, ∃ m, op = .commitment m ∧ m.eon = w.state.eon) → (ops ≠ [] → w.state.phase ≤ dealing) →
    SameParams w.state w'.state ∧ w'.state.phase = w.state.phase ∧ w'.state.polynomial = w.state.polynomial ∧
    w'.state.evals = w.state.evals ∧ w'.state.accusations = w.state.accusations ∧ w'.state.apologies = w.state.apologies ∧
    ∀ d, com w'.state d = (com w.state d).or (ops.findSome? (commitmentIn w.state.threshold d)) := by
  induction ops with
  | nil =>
    intro w w' h _ _
    simp only [Dkg.run, List.foldlM_nil, Option.pure_def, Option.some.injEq] at h
    subst h
    exact ⟨⟨rfl, rfl, rfl, rfl⟩, rfl, rfl, rfl, rfl, rfl, fun d => by simp⟩
  | cons op ops ih =>
    intro w w' h hops hp
    obtain ⟨w1, h1, h2⟩ := (run_cons env).1 h
    obtain ⟨m, rfl, hm⟩ := hops op (by simp)
    obtain ⟨a1, a2, a3, a4, a5, a6, a7⟩ := exec_commitment env h1 hm (hp (by simp))
    obtain ⟨b1, b2, b3, b4, b5, b6, b7⟩ := ih h2 (fun op ho => by
      obtain ⟨m, r, q⟩ := hops op (by simp [ho])
      exact ⟨m, r, by rw [q, a1.eon]⟩) (fun _ => by rw [a2]; exact hp (by simp))
    refine ⟨a1.trans b1, b2.trans a2, b3.trans a3, b4.trans a4, b5.trans a5, b6.trans a6, fun d => ?_⟩
    rw [b7, a7, a1.thr, List.findSome?_cons, Option.or_assoc]
    cases commitmentIn w.state.threshold d (.commitment m) <;> simp

/-- Evaluations. -/
theorem exec_eval (env : Env G1 G2 GT) {w w' : World G2} {m : PolyEvalMsg} (h : exec env w (.eval m) = some w')
    (he : m.eon = w.state.eon) (hr : m.receiver = w.state.keyper) (hp : w.state.phase ≤ dealing) :
    SameParams w.state w'.state ∧ w'.state.phase = w.state.phase ∧ w'.state.polynomial = w.state.polynomial ∧
    w'.state.commitments = w.state.commitments ∧ w'.state.accusations = w.state.accusations ∧ w'.state.apologies = w.state.apologies ∧
    ∀ d, evl w'.state d = (evl w.state d).or (evalIn d (.eval m : Op G2)) := by
  simp only [exec, step, handlePolyEvalMsg, checkEonAndPhase, he, hr, ne_eq, not_true_eq_false, if_false, if_neg (not_lt.2 hp),
    Bool.not_true, Bool.false_eq_true] at h
  split at h
  · simp at h
  · next c hc =>
    simp only [Option.map_some, Option.some.injEq] at h
    subst h
    refine ⟨⟨rfl, rfl, rfl, rfl⟩, rfl, rfl, rfl, rfl, rfl, fun d => ?_⟩
    simp only [evl, evalIn]
    by_cases hd : m.sender = d
    · subst hd
      rw [hc]
      simp
    · simp [hd]
  · next hc =>
    split at h
    · next hdg =>
      simp only [Option.map_some, Option.some.injEq] at h
      subst h
      refine ⟨⟨rfl, rfl, rfl, rfl⟩, rfl, rfl, rfl, rfl, rfl, fun d => ?_⟩
      simp only [Bool.not_eq_eq_eq_not, Bool.not_true] at hdg
      simp [evl, evalIn, hdg]
    · next hdg =>
      simp only [Option.map_some, Option.some.injEq] at h
      subst h
      refine ⟨⟨rfl, rfl, rfl, rfl⟩, rfl, rfl, rfl, rfl, rfl, fun d => ?_⟩
      simp only [evl, evalIn]
      by_cases hd : m.sender = d
      · subst hd
        have hi : m.sender < w.state.evals.length := by
          by_contra hc'
          rw [List.getElem?_eq_none (by omega)] at hc
          cases hc
        rw [hc, List.getElem?_set_self hi, if_pos ⟨rfl, by simpa using hdg⟩]
        rfl
      · rw [join_set_ne _ _ _ _ hd, if_neg (fun h => hd h.1)]
        simp

theorem run_evals (env : Env G1 G2 GT) {ops : List (Op G2)} : ∀ {w w' : World G2}, Dkg.run env w ops = some w' →
    (∀ op ∈ ops, ∃ m, op = .eval m ∧ m.eon = w.state.eon ∧ m.receiver = w.state.keyper) → (ops ≠ [] → w.state.phase ≤ dealing) →
    SameParams w.state w'.state ∧ w'.state.phase = w.state.phase ∧ w'.state.polynomial = w.state.polynomial ∧
    w'.state.commitments = w.state.commitments ∧ w'.state.accusations = w.state.accusations ∧ w'.state.apologies = w.state.apologies ∧
    ∀ d, evl w'.state d = (evl w.state d).or (ops.findSome? (evalIn d)) := by
  induction ops with
  | nil =>
    intro w w' h _ _
    simp only [Dkg.run, List.foldlM_nil, Option.pure_def, Option.some.injEq] at h
    subst h
    exact ⟨⟨rfl, rfl, rfl, rfl⟩, rfl, rfl, rfl, rfl, rfl, fun d => by simp⟩
  | cons op ops ih =>
    intro w w' h hops hp
    obtain ⟨w1, h1, h2⟩ := (run_cons env).1 h
    obtain ⟨m, rfl, hm, hr⟩ := hops op (by simp)
    obtain ⟨a1, a2, a3, a4, a5, a6, a7⟩ := exec_eval env h1 hm hr (hp (by simp))
    obtain ⟨b1, b2, b3, b4, b5, b6, b7⟩ := ih h2 (fun op ho => by
      obtain ⟨m, r, q, s⟩ := hops op (by simp [ho])
      exact ⟨m, r, by rw [q, a1.eon], by rw [s, a1.keyper]⟩) (fun _ => by rw [a2]; exact hp (by simp))
    refine ⟨a1.trans b1, b2.trans a2, b3.trans a3, b4.trans a4, b5.trans a5, b6.trans a6, fun d => ?_⟩
    rw [b7, a7, List.findSome?_cons, Option.or_assoc]
    cases evalIn d (.eval m : Op G2) <;> simp

/-- Accusations. -/
theorem run_accusations (env : Env G1 G2 GT) {ops : List (Op G2)} : ∀ {w w' : World G2}, Dkg.run env w ops = some w' →
    (∀ op ∈ ops, ∃ m, op = .accusation m ∧ m.eon = w.state.eon) → (ops ≠ [] → w.state.phase ≤ accusing) →
    SameParams w.state w'.state ∧ w'.state.phase = w.state.phase ∧ w'.state.polynomial = w.state.polynomial ∧
    w'.state.commitments = w.state.commitments ∧ w'.state.evals = w.state.evals ∧ w'.state.apologies = w.state.apologies ∧
    ∀ k, k ∈ w'.state.accusations ↔ k ∈ w.state.accusations ∨ ops.any (accusationIn k) = true := by
  induction ops with
  | nil =>
    intro w w' h _ _
    simp only [Dkg.run, List.foldlM_nil, Option.pure_def, Option.some.injEq] at h
    subst h
    exact ⟨⟨rfl, rfl, rfl, rfl⟩, rfl, rfl, rfl, rfl, rfl, fun d => by simp⟩
  | cons op ops ih =>
    intro w w' h hops hp
    obtain ⟨w1, h1, h2⟩ := (run_cons env).1 h
    obtain ⟨m, rfl, hm⟩ := hops op (by simp)
    have ha : SameParams w.state w1.state ∧ w1.state.phase = w.state.phase ∧ w1.state.polynomial = w.state.polynomial ∧
        w1.state.commitments = w.state.commitments ∧ w1.state.evals = w.state.evals ∧ w1.state.apologies = w.state.apologies ∧
        ∀ k, k ∈ w1.state.accusations ↔ k ∈ w.state.accusations ∨ accusationIn k (.accusation m : Op G2) = true := by
      simp only [exec, step, handleAccusationMsg, checkEonAndPhase, hm, ne_eq, not_true_eq_false, if_false,
        if_neg (not_lt.2 (hp (by simp))), Bool.not_true, Bool.false_eq_true, Option.map_some, Option.some.injEq] at h1
      subst h1
      simp only
      split
      · next hc =>
        refine ⟨⟨rfl, rfl, rfl, rfl⟩, rfl, rfl, rfl, rfl, rfl, fun k => ?_⟩
        simp only [accusationIn, decide_eq_true_eq]
        constructor
        · exact Or.inl
        · rintro (h | rfl)
          · exact h
          · simpa using hc
      · refine ⟨⟨rfl, rfl, rfl, rfl⟩, rfl, rfl, rfl, rfl, rfl, fun k => ?_⟩
        simp only [accusationIn, decide_eq_true_eq, List.mem_append, List.mem_singleton]
        exact or_congr Iff.rfl eq_comm
    obtain ⟨a1, a2, a3, a4, a5, a6, a7⟩ := ha
    obtain ⟨b1, b2, b3, b4, b5, b6, b7⟩ := ih h2 (fun op ho => by
      obtain ⟨m, r, q⟩ := hops op (by simp [ho])
      exact ⟨m, r, by rw [q, a1.eon]⟩) (fun _ => by rw [a2]; exact hp (by simp))
    refine ⟨a1.trans b1, b2.trans a2, b3.trans a3, b4.trans a4, b5.trans a5, b6.trans a6, fun k => ?_⟩
    rw [b7, a7, List.any_cons, Bool.or_eq_true, or_assoc]

/-- Apologies. -/
theorem run_apologies (env : Env G1 G2 GT) {ops : List (Op G2)} : ∀ {w w' : World G2}, Dkg.run env w ops = some w' →
    (∀ op ∈ ops, ∃ m, op = .apology m ∧ m.eon = w.state.eon) → (ops ≠ [] → w.state.phase ≤ apologizing) →
    SameParams w.state w'.state ∧ w'.state.phase = w.state.phase ∧ w'.state.polynomial = w.state.polynomial ∧
    w'.state.commitments = w.state.commitments ∧ w'.state.evals = w.state.evals ∧ w'.state.accusations = w.state.accusations ∧
    ∀ k, apo w'.state k = (apo w.state k).or (ops.findSome? (apologyIn k)) := by
  induction ops with
  | nil =>
    intro w w' h _ _
    simp only [Dkg.run, List.foldlM_nil, Option.pure_def, Option.some.injEq] at h
    subst h
    exact ⟨⟨rfl, rfl, rfl, rfl⟩, rfl, rfl, rfl, rfl, rfl, fun d => by simp⟩
  | cons op ops ih =>
    intro w w' h hops hp
    obtain ⟨w1, h1, h2⟩ := (run_cons env).1 h
    obtain ⟨m, rfl, hm⟩ := hops op (by simp)
    have ha : SameParams w.state w1.state ∧ w1.state.phase = w.state.phase ∧ w1.state.polynomial = w.state.polynomial ∧
        w1.state.commitments = w.state.commitments ∧ w1.state.evals = w.state.evals ∧ w1.state.accusations = w.state.accusations ∧
        ∀ k, apo w1.state k = (apo w.state k).or (apologyIn k (.apology m : Op G2)) := by
      simp only [exec, step, handleApologyMsg, checkEonAndPhase, hm, ne_eq, not_true_eq_false, if_false,
        if_neg (not_lt.2 (hp (by simp))), Bool.not_true, Bool.false_eq_true, Option.map_some, Option.some.injEq] at h1
      subst h1
      simp only
      split
      · next hc =>
        refine ⟨⟨rfl, rfl, rfl, rfl⟩, rfl, rfl, rfl, rfl, rfl, fun k => ?_⟩
        simp only [apologyIn, apo]
        by_cases hk : (m.accuser, m.accused) = k
        · subst hk
          obtain ⟨v, hv⟩ := Option.isSome_iff_exists.1 hc
          rw [hv]
          simp
        · simp [hk]
      · next hc =>
        have hc : List.lookup (m.accuser, m.accused) w.state.apologies = none := by
          cases hl : List.lookup (m.accuser, m.accused) w.state.apologies with
          | none => rfl
          | some v => rw [hl] at hc; simp at hc
        split
        · next hv =>
          refine ⟨⟨rfl, rfl, rfl, rfl⟩, rfl, rfl, rfl, rfl, rfl, fun k => ?_⟩
          have hv : validEval m.eval = false := by simpa using hv
          simp [apologyIn, apo, hv]
        · next hv =>
          refine ⟨⟨rfl, rfl, rfl, rfl⟩, rfl, rfl, rfl, rfl, rfl, fun k => ?_⟩
          have hv : validEval m.eval = true := by simpa using hv
          simp only [apologyIn, apo, hv, and_true]
          rw [List.lookup_append]
          by_cases hk : (m.accuser, m.accused) = k
          · subst hk
            rw [hc]
            simp [List.lookup]
          · have : (k == (m.accuser, m.accused)) = false := by simpa using Ne.symm hk
            simp [hk, List.lookup, this]
    obtain ⟨a1, a2, a3, a4, a5, a6, a7⟩ := ha
    obtain ⟨b1, b2, b3, b4, b5, b6, b7⟩ := ih h2 (fun op ho => by
      obtain ⟨m, r, q⟩ := hops op (by simp [ho])
      exact ⟨m, r, by rw [q, a1.eon]⟩) (fun _ => by rw [a2]; exact hp (by simp))
    refine ⟨a1.trans b1, b2.trans a2, b3.trans a3, b4.trans a4, b5.trans a5, b6.trans a6, fun k => ?_⟩
    rw [b7, a7, List.findSome?_cons, Option.or_assoc]
    cases apologyIn k (.apology m : Op G2) <;> simp

/-- The first phase: the own evaluation is stored. -/
theorem exec_start1 (env : Env G1 G2 GT) {w w' : World G2} {p : Option (List Nat)} {o : Outcome G2} (h : exec env w (.start1 p) = some w')
    (ho : step env w.state (.start1 p) = some o) (hok : o.ok = true) :
    SameParams w.state w'.state ∧ w.state.phase = off ∧ w'.state.phase = dealing ∧ w'.state.polynomial = p ∧ p.isSome = true ∧
    w'.state.commitments = w.state.commitments ∧ w'.state.accusations = w.state.accusations ∧ w'.state.apologies = w.state.apologies ∧
    ∀ d v, evl w'.state d = some v ↔ evl w.state d = some v ∨
      (d = w.state.keyper ∧ w.state.keyper < w.state.numKeypers ∧ p.bind (fun p => evalForKeyper p w.state.keyper) = some v) := by
  simp only [exec, ho, Option.map_some, Option.some.injEq] at h
  subst h
  have sp := step_spec env w.state _ o ho
  simp only [step, startPhase1Dealing] at ho
  split at ho
  · simp at ho
  · next st1 hs =>
    obtain ⟨hp, rfl⟩ := setPhase_some hs
    cases p with
    | none =>
      simp only [Option.map_some, Option.some.injEq] at ho
      subst ho
      simp at hok
    | some p =>
      simp only at ho
      split at ho
      · simp at ho
      · next st3 msgs hd =>
        simp only [Option.map_some, Option.some.injEq] at ho
        subst ho
        obtain ⟨b1, b2, b3, b4, b5, b6, b7, b8, b9, b10, b11⟩ := dealLoop_frame p _ _ _ _ hd
        refine ⟨⟨b5, b6, b7, b8⟩, ?_, b4, b9, rfl, b1, b2, b3, fun d v => ?_⟩
        · simp only [dealing] at hp
          simp only [off]
          omega
        · have := b10 d v
          simp only [HasEval, List.mem_range] at this
          exact this

theorem exec_start2 (env : Env G1 G2 GT) {w w' : World G2} (h : exec env w .start2 = some w') :
    w'.state = { w.state with phase := accusing } ∧ w.state.phase = dealing := by
  simp only [exec, step, Option.map_eq_some_iff] at h
  obtain ⟨o, ⟨r, hr, rfl⟩, rfl⟩ := h
  simp only [startPhase2Accusing] at hr
  split at hr
  · simp at hr
  · next st1 hs =>
    obtain ⟨hp, rfl⟩ := setPhase_some hs
    simp only [Option.some.injEq] at hr
    subst hr
    simp only [accusing, dealing] at hp ⊢
    exact ⟨trivial, by omega⟩

theorem exec_start3 (env : Env G1 G2 GT) {w w' : World G2} (h : exec env w .start3 = some w') :
    w'.state = { w.state with phase := apologizing } ∧ w.state.phase = accusing := by
  simp only [exec, step, Option.map_eq_some_iff] at h
  obtain ⟨o, ⟨r, hr, rfl⟩, rfl⟩ := h
  simp only [startPhase3Apologizing] at hr
  split at hr
  · simp at hr
  · next st1 hs =>
    obtain ⟨hp, rfl⟩ := setPhase_some hs
    rw [Option.map_eq_some_iff] at hr
    obtain ⟨_, _, rfl⟩ := hr
    simp only [accusing, apologizing] at hp ⊢
    exact ⟨trivial, by omega⟩

theorem exec_fin (env : Env G1 G2 GT) {w w' : World G2} (h : exec env w .fin = some w') :
    w'.state = { w.state with phase := finalized } ∧ w.state.phase = apologizing := by
  simp only [exec, step, finalize, Option.map_eq_some_iff] at h
  obtain ⟨o, ⟨r, hr, rfl⟩, rfl⟩ := h
  obtain ⟨hp, rfl⟩ := setPhase_some hr
  simp only [finalized, apologizing] at hp ⊢
  exact ⟨trivial, by omega⟩

end Shutter.Decide
