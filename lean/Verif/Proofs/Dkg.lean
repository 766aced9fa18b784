import Verif.Model.Dkg
import Verif.Proofs.Shares
import Verif.Props.Crypto

/-! Invariants of the DKG state machine. -/

namespace Shutter.Dkg
open Shutter.Crypto Shutter.Crypto.Spec

variable {G1 G2 GT : Type} [AddCommGroup G2] [DecidableEq G2]

/-- State-level views of the three broadcast maps and the received evaluations. -/
def HasCommit (st : PureDKG G2) (d : Nat) (c : List G2) : Prop := (st.commitments[d]?).join = some c
def HasEval (st : PureDKG G2) (d : Nat) (v : Nat) : Prop := (st.evals[d]?).join = some v
def HasAccusation (st : PureDKG G2) (a d : Nat) : Prop := (a, d) ∈ st.accusations
def HasApology (st : PureDKG G2) (a d v : Nat) : Prop := ((a, d), v) ∈ st.apologies

omit [AddCommGroup G2] [DecidableEq G2] in
theorem join_set (l : List (Option α)) (i j : Nat) (x y : α) (h : l[i]? = some none) :
    ((l.set i (some x))[j]?).join = some y ↔ (l[j]?).join = some y ∨ (i = j ∧ x = y) := by
  rw [List.getElem?_set]
  have hi : i < l.length := by
    by_contra hc
    rw [List.getElem?_eq_none (by omega)] at h; simp at h
  by_cases e : i = j
  · subst e
    rw [List.getElem?_eq_getElem hi] at h
    simp only [Option.some.injEq] at h
    simp [hi, h]
  · simp [e]

omit [AddCommGroup G2] [DecidableEq G2] in
theorem handleEval_frame {st st' : PureDKG G2} {m : PolyEvalMsg} {ok : Bool}
    (h : handlePolyEvalMsg st m = some (st', ok)) :
    st'.commitments = st.commitments ∧ st'.accusations = st.accusations ∧ st'.apologies = st.apologies ∧
    st'.phase = st.phase ∧ st'.eon = st.eon ∧ st'.numKeypers = st.numKeypers ∧ st'.threshold = st.threshold ∧
    st'.keyper = st.keyper ∧ st'.polynomial = st.polynomial ∧
    (∀ d v, HasEval st' d v ↔ HasEval st d v ∨ (ok = true ∧ m.sender = d ∧ m.eval.toNat = v)) ∧
    (ok = false → st' = st) ∧ (ok = true → m.receiver = st.keyper ∧ validEval m.eval = true ∧ st.phase ≤ dealing
      ∧ m.eon = st.eon) ∧ st'.evals.length = st.evals.length := by
  unfold handlePolyEvalMsg at h
  split at h
  · simp only [Option.some.injEq, Prod.mk.injEq] at h
    obtain ⟨rfl, rfl⟩ := h
    simp
  · next hc =>
    split at h
    · simp only [Option.some.injEq, Prod.mk.injEq] at h
      obtain ⟨rfl, rfl⟩ := h
      simp
    · next hr =>
      split at h
      · simp at h
      · simp only [Option.some.injEq, Prod.mk.injEq] at h
        obtain ⟨rfl, rfl⟩ := h
        simp
      · next hn =>
        split at h
        · simp only [Option.some.injEq, Prod.mk.injEq] at h
          obtain ⟨rfl, rfl⟩ := h
          simp
        · next hv =>
          simp only [Option.some.injEq, Prod.mk.injEq] at h
          obtain ⟨rfl, rfl⟩ := h
          refine ⟨rfl, rfl, rfl, rfl, rfl, rfl, rfl, rfl, rfl, ?_, by simp, ?_, by simp⟩
          · intro d v
            simp only [HasEval, true_and]
            exact join_set _ _ _ _ _ hn
          · intro _
            simp only [checkEonAndPhase] at hc
            refine ⟨not_not.1 hr, by simpa using hv, ?_, ?_⟩
            · by_contra hp; apply hc; split <;> simp_all
            · by_contra hp; apply hc; rw [if_pos (fun e => hp e.symm)]; rfl

omit [AddCommGroup G2] [DecidableEq G2] in
theorem dealLoop_frame (p : List Nat) : ∀ (rs : List Nat) (st st' : PureDKG G2) (msgs : List PolyEvalMsg),
    dealLoop p st rs = some (st', msgs) →
    st'.commitments = st.commitments ∧ st'.accusations = st.accusations ∧ st'.apologies = st.apologies ∧
    st'.phase = st.phase ∧ st'.eon = st.eon ∧ st'.numKeypers = st.numKeypers ∧ st'.threshold = st.threshold ∧
    st'.keyper = st.keyper ∧ st'.polynomial = st.polynomial ∧
    (∀ d v, HasEval st' d v ↔ HasEval st d v ∨ (d = st.keyper ∧ st.keyper ∈ rs ∧ evalForKeyper p st.keyper = some v)) ∧
    (∀ m, m ∈ msgs ↔ m.eon = st.eon ∧ m.sender = st.keyper ∧ m.receiver ∈ rs ∧ m.receiver ≠ st.keyper ∧
      ∃ v : Nat, evalForKeyper p m.receiver = some v ∧ m.eval = v) := by
  intro rs
  induction rs with
  | nil =>
    intro st st' msgs h
    simp only [dealLoop, Option.some.injEq, Prod.mk.injEq] at h
    obtain ⟨rfl, rfl⟩ := h
    simp
  | cons r rs ih =>
    intro st st' msgs h
    rw [dealLoop] at h
    split at h
    · simp at h
    · next eval hev =>
      simp only at h
      split at h
      · next hr =>
        split at h
        · next st1 hh =>
          obtain ⟨a1, a2, a3, a4, a5, a6, a7, a8, a9, a10, a11, a12, a13⟩ := handleEval_frame hh
          obtain ⟨b1, b2, b3, b4, b5, b6, b7, b8, b9, b10, b11⟩ := ih _ _ _ h
          refine ⟨b1.trans a1, b2.trans a2, b3.trans a3, b4.trans a4, b5.trans a5, b6.trans a6, b7.trans a7,
            b8.trans a8, b9.trans a9, ?_, ?_⟩
          · intro d v
            rw [b10, a10]
            simp only [a8, true_and, Int.toNat_natCast]
            subst hr
            simp only [List.mem_cons, true_or, true_and, hev, Option.some.injEq]
            constructor
            · rintro ((h1 | ⟨rfl, rfl⟩) | ⟨rfl, _, rfl⟩)
              · exact Or.inl h1
              · exact Or.inr ⟨rfl, rfl⟩
              · exact Or.inr ⟨rfl, rfl⟩
            · rintro (h1 | ⟨rfl, rfl⟩)
              · exact Or.inl (Or.inl h1)
              · exact Or.inl (Or.inr ⟨rfl, rfl⟩)
          · intro m
            rw [b11, a5, a8]
            simp only [List.mem_cons]
            constructor
            · rintro ⟨h1, h2, h3, h4, h5⟩; exact ⟨h1, h2, Or.inr h3, h4, h5⟩
            · rintro ⟨h1, h2, h3 | h3, h4, h5⟩
              · exact absurd (h3.trans hr) h4
              · exact ⟨h1, h2, h3, h4, h5⟩
        · simp at h
      · next hr =>
        split at h
        · simp at h
        · next st1 msgs1 hh =>
          simp only [Option.some.injEq, Prod.mk.injEq] at h
          obtain ⟨rfl, rfl⟩ := h
          obtain ⟨b1, b2, b3, b4, b5, b6, b7, b8, b9, b10, b11⟩ := ih _ _ _ hh
          refine ⟨b1, b2, b3, b4, b5, b6, b7, b8, b9, ?_, ?_⟩
          · intro d v
            rw [b10]
            simp [Ne.symm hr]
          · intro m
            rw [List.mem_cons, b11]
            constructor
            · rintro (rfl | ⟨h1, h2, h3, h4, h5⟩)
              · exact ⟨rfl, rfl, by simp, hr, eval, hev, rfl⟩
              · exact ⟨h1, h2, List.mem_cons_of_mem _ h3, h4, h5⟩
            · rintro ⟨h1, h2, h3, h4, v, h5, h6⟩
              rcases List.mem_cons.1 h3 with h3 | h3
              · left
                obtain ⟨me, ms, mr, mv⟩ := m
                simp only at h1 h2 h3 h5 h6
                rw [h3, hev] at h5
                simp only [Option.some.injEq] at h5
                rw [h1, h2, h3, h6, h5]
              · exact Or.inr ⟨h1, h2, h3, h4, v, h5, h6⟩

/-- The effect of one call, seen through the views above. -/
structure StepSpec (env : Env G1 G2 GT) (st : PureDKG G2) (op : Op G2) (o : Outcome G2) : Prop where
  eon : o.state.eon = st.eon
  num : o.state.numKeypers = st.numKeypers
  thr : o.state.threshold = st.threshold
  keyper : o.state.keyper = st.keyper
  commit : ∀ d c, HasCommit o.state d c ↔ HasCommit st d c ∨
    (o.ok = true ∧ ∃ m, op = .commitment m ∧ m.sender = d ∧ m.gammas = c)
  accus : ∀ a d, HasAccusation o.state a d ↔ HasAccusation st a d ∨
    (o.ok = true ∧ ∃ m, op = .accusation m ∧ m.accuser = a ∧ m.accused = d)
  apol : ∀ a d v, HasApology o.state a d v ↔ HasApology st a d v ∨
    (o.ok = true ∧ ∃ m, op = .apology m ∧ m.accuser = a ∧ m.accused = d ∧ m.eval.toNat = v)
  eval : ∀ d v, HasEval o.state d v ↔ HasEval st d v ∨
    (o.ok = true ∧ ∃ m, op = .eval m ∧ m.sender = d ∧ m.eval.toNat = v) ∨
    (d = st.keyper ∧ st.keyper < st.numKeypers ∧ ∃ p, op = .start1 (some p) ∧ evalForKeyper p st.keyper = some v)
  apolKeys : (st.apologies.map (·.1)).Nodup → (o.state.apologies.map (·.1)).Nodup
  phase : o.state.phase = match op with
    | .start1 _ => 1 | .start2 => 2 | .start3 => 3 | .fin => 4 | _ => st.phase
  prev : (∀ p, op = .start1 p → st.phase = 0) ∧ (op = .start2 → st.phase = 1) ∧ (op = .start3 → st.phase = 2) ∧
    (op = .fin → st.phase = 3)
  poly : o.state.polynomial = match op with
    | .start1 (some p) => some p | _ => st.polynomial
  accepted : o.ok = true →
    (∀ m, op = .commitment m → st.phase ≤ 1 ∧ m.eon = st.eon ∧ degree m.gammas = sub1u64 st.threshold) ∧
    (∀ m, op = .eval m → st.phase ≤ 1 ∧ m.eon = st.eon ∧ m.receiver = st.keyper) ∧
    (∀ m, op = .accusation m → st.phase ≤ 2 ∧ m.eon = st.eon) ∧
    (∀ m, op = .apology m → st.phase ≤ 3 ∧ m.eon = st.eon ∧ validEval m.eval = true)

omit [DecidableEq G2] in
theorem checkEonAndPhase_true {st : PureDKG G2} {eon maxPhase : Nat}
    (h : checkEonAndPhase st eon maxPhase = true) : st.phase ≤ maxPhase ∧ eon = st.eon := by
  unfold checkEonAndPhase at h
  split at h
  · simp at h
  · next h1 =>
    split at h
    · simp at h
    · next h2 => exact ⟨by omega, (not_not.1 h1).symm⟩

theorem step_commitment (env : Env G1 G2 GT) (st : PureDKG G2) (m : PolyCommitmentMsg G2) (o : Outcome G2)
    (h : step env st (.commitment m) = some o) : StepSpec env st (.commitment m) o := by
  simp only [step, handlePolyCommitmentMsg] at h
  split at h
  · simp only [Option.map_some, Option.some.injEq] at h
    subst h
    constructor <;> simp
  · next hc =>
    have hc' : checkEonAndPhase st m.eon dealing = true := by simpa using hc
    split at h
    · simp at h
    · simp only [Option.map_some, Option.some.injEq] at h
      subst h
      constructor <;> simp
    · next hn =>
      split at h
      · simp only [Option.map_some, Option.some.injEq] at h
        subst h
        constructor <;> simp
      · next hd =>
        simp only [Option.map_some, Option.some.injEq] at h
        subst h
        constructor <;> try simp [HasAccusation, HasApology, HasEval]
        case commit =>
          intro d c
          simp only [HasCommit]
          exact join_set _ _ _ _ _ hn
        case accepted => exact ⟨(checkEonAndPhase_true hc').1, (checkEonAndPhase_true hc').2, not_not.1 hd⟩

theorem step_eval (env : Env G1 G2 GT) (st : PureDKG G2) (m : PolyEvalMsg) (o : Outcome G2)
    (h : step env st (.eval m) = some o) : StepSpec env st (.eval m) o := by
  simp only [step] at h
  cases hh : handlePolyEvalMsg st m with
  | none => rw [hh] at h; simp at h
  | some r =>
    obtain ⟨st', ok⟩ := r
    rw [hh] at h
    simp only [Option.map_some, Option.some.injEq] at h
    subst h
    obtain ⟨a1, a2, a3, a4, a5, a6, a7, a8, a9, a10, a11, a12, a13⟩ := handleEval_frame hh
    constructor <;> try simp [HasAccusation, HasApology, HasCommit, *]
    · intro ok; exact ⟨(a12 ok).2.2.1, (a12 ok).2.2.2, (a12 ok).1⟩

theorem step_accusation (env : Env G1 G2 GT) (st : PureDKG G2) (m : AccusationMsg) (o : Outcome G2)
    (h : step env st (.accusation m) = some o) : StepSpec env st (.accusation m) o := by
  simp only [step, handleAccusationMsg] at h
  split at h
  · simp only [Option.some.injEq] at h
    subst h
    constructor <;> simp
  · next hc =>
    have hc' : checkEonAndPhase st m.eon accusing = true := by simpa using hc
    split at h
    · simp only [Option.some.injEq] at h
      subst h
      constructor <;> simp
    · simp only [Option.some.injEq] at h
      subst h
      constructor <;> try simp [HasCommit, HasApology, HasEval]
      case accus =>
        intro a d
        simp only [HasAccusation, List.mem_append, List.mem_singleton, Prod.mk.injEq]
        constructor
        · rintro (h | ⟨rfl, rfl⟩); exacts [Or.inl h, Or.inr ⟨rfl, rfl⟩]
        · rintro (h | ⟨rfl, rfl⟩); exacts [Or.inl h, Or.inr ⟨rfl, rfl⟩]
      case accepted => exact checkEonAndPhase_true hc'

omit [AddCommGroup G2] [DecidableEq G2] in
theorem lookup_isSome_iff {α β : Type} [BEq α] [LawfulBEq α] (l : List (α × β)) (k : α) :
    (l.lookup k).isSome = true ↔ k ∈ l.map (·.1) := by
  induction l with
  | nil => simp
  | cons x xs ih =>
    obtain ⟨a, b⟩ := x
    rw [List.lookup_cons]
    by_cases h : k == a
    · simp only [h]
      simp only [beq_iff_eq] at h
      simp [h]
    · simp only [h]
      rw [ih]
      have : k ≠ a := by simpa using h
      simp [this]

theorem step_apology (env : Env G1 G2 GT) (st : PureDKG G2) (m : ApologyMsg) (o : Outcome G2)
    (h : step env st (.apology m) = some o) : StepSpec env st (.apology m) o := by
  simp only [step, handleApologyMsg] at h
  split at h
  · simp only [Option.some.injEq] at h
    subst h
    constructor <;> simp
  · next hc =>
    have hc' : checkEonAndPhase st m.eon apologizing = true := by simpa using hc
    split at h
    · simp only [Option.some.injEq] at h
      subst h
      constructor <;> simp
    · next hl =>
      rw [lookup_isSome_iff] at hl
      split at h
      · simp only [Option.some.injEq] at h
        subst h
        constructor <;> simp
      · next hv =>
        simp only [Option.some.injEq] at h
        subst h
        constructor <;> try simp [HasCommit, HasAccusation, HasEval]
        case apol =>
          intro a d v
          simp only [HasApology, List.mem_append, List.mem_singleton, Prod.mk.injEq]
          constructor
          · rintro (h | ⟨⟨rfl, rfl⟩, rfl⟩); exacts [Or.inl h, Or.inr ⟨rfl, rfl, rfl⟩]
          · rintro (h | ⟨rfl, rfl, rfl⟩); exacts [Or.inl h, Or.inr ⟨⟨rfl, rfl⟩, rfl⟩]
        case apolKeys =>
          intro hn
          rw [List.nodup_append]
          refine ⟨hn, by simp, ?_⟩
          intro a ha b hb
          simp only [List.mem_singleton] at hb
          subst hb
          rintro rfl
          exact hl ha
        case accepted => exact ⟨(checkEonAndPhase_true hc').1, (checkEonAndPhase_true hc').2, by simpa using hv⟩

omit [AddCommGroup G2] [DecidableEq G2] in
theorem setPhase_some {st st1 : PureDKG G2} {p : Nat} (h : setPhase st p = some st1) :
    p = st.phase + 1 ∧ st1 = { st with phase := p } := by
  unfold setPhase at h
  split at h
  · simp at h
  · next hp =>
    simp only [Option.some.injEq] at h
    exact ⟨not_not.1 hp, h.symm⟩

theorem step_start1 (env : Env G1 G2 GT) (st : PureDKG G2) (poly : Option (List Nat)) (o : Outcome G2)
    (h : step env st (.start1 poly) = some o) : StepSpec env st (.start1 poly) o := by
  simp only [step, startPhase1Dealing] at h
  split at h
  · simp at h
  · next st1 hs =>
    obtain ⟨hp, rfl⟩ := setPhase_some hs
    simp only [dealing] at hp
    split at h
    · simp only [Option.map_some, Option.some.injEq] at h
      subst h
      constructor <;> simp [HasCommit, HasAccusation, HasEval, HasApology, dealing]
      omega
    · next p =>
      simp only at h
      split at h
      · simp at h
      · next st3 msgs hd =>
        simp only [Option.map_some, Option.some.injEq] at h
        subst h
        obtain ⟨b1, b2, b3, b4, b5, b6, b7, b8, b9, b10, b11⟩ := dealLoop_frame p _ _ _ _ hd
        simp only at b1 b2 b3 b4 b5 b6 b7 b8 b9 b10
        constructor <;> try simp [HasCommit, HasAccusation, HasApology, b1, b2, b3, b4, b5, b6, b7, b8, b9, dealing]
        case eval =>
          intro d v
          rw [b10]
          simp [HasEval]
        case prev => omega

theorem step_start2 (env : Env G1 G2 GT) (st : PureDKG G2) (o : Outcome G2)
    (h : step env st .start2 = some o) : StepSpec env st .start2 o := by
  simp only [step, startPhase2Accusing] at h
  split at h
  · simp at h
  · next st1 hs =>
    obtain ⟨hp, rfl⟩ := setPhase_some hs
    simp only [accusing] at hp
    simp only [Option.map_some, Option.some.injEq] at h
    subst h
    constructor <;> simp [HasCommit, HasAccusation, HasEval, HasApology, accusing]
    omega

theorem step_start3 (env : Env G1 G2 GT) (st : PureDKG G2) (o : Outcome G2)
    (h : step env st .start3 = some o) : StepSpec env st .start3 o := by
  simp only [step, startPhase3Apologizing] at h
  split at h
  · simp at h
  · next st1 hs =>
    obtain ⟨hp, rfl⟩ := setPhase_some hs
    simp only [apologizing] at hp
    simp only [Option.map_map, Option.map_eq_some_iff] at h
    obtain ⟨msgs, _, h⟩ := h
    simp only [Function.comp] at h
    subst h
    constructor <;> simp [HasCommit, HasAccusation, HasEval, HasApology, apologizing]
    omega

theorem step_fin (env : Env G1 G2 GT) (st : PureDKG G2) (o : Outcome G2)
    (h : step env st .fin = some o) : StepSpec env st .fin o := by
  simp only [step, finalize, Option.map_eq_some_iff] at h
  obtain ⟨s, hs, rfl⟩ := h
  obtain ⟨hp, rfl⟩ := setPhase_some hs
  simp only [finalized] at hp
  constructor <;> simp [HasCommit, HasAccusation, HasEval, HasApology, finalized]
  omega

theorem step_spec (env : Env G1 G2 GT) (st : PureDKG G2) (op : Op G2) (o : Outcome G2)
    (h : step env st op = some o) : StepSpec env st op o := by
  cases op with
  | start1 p => exact step_start1 env st p o h
  | start2 => exact step_start2 env st o h
  | start3 => exact step_start3 env st o h
  | fin => exact step_fin env st o h
  | commitment m => exact step_commitment env st m o h
  | eval m => exact step_eval env st m o h
  | accusation m => exact step_accusation env st m o h
  | apology m => exact step_apology env st m o h

end Shutter.Dkg
