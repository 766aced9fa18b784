import Mathlib.Tactic.IntervalCases
import Verif.Proofs.DriverRound
import Verif.Proofs.ObserveInv
import Verif.Proofs.ObserveFetch

/-! The calls made over several rounds. -/

namespace Shutter.Decide
open Shutter.Crypto Shutter.Dkg Shutter.Observe Shutter.Decide.Spec
open Shutter.App (Addr findAddressIndex)
open Shutter.Events (Codecs)

variable {G1 G2 GT R : Type}

theorem sinceStart_skip {e : Nat} {a b : List Stamped} (h : ∀ y ∈ a, ∀ i, y.ev ≠ .eonStarted e i) :
    sinceStart e (a ++ b) = sinceStart e b := by
  induction a with
  | nil => rfl
  | cons x a ih =>
    rw [← ih (fun y hy => h y (by simp [hy]))]
    unfold sinceStart
    rw [List.cons_append, List.dropWhile_cons]
    have hx := h x (by simp)
    cases hev : x.ev <;> simp only [if_true]
    next e' i' =>
      rw [if_pos]
      rw [decide_eq_true_eq]
      rintro rfl
      exact hx _ hev

theorem sinceStart_nil {e : Nat} {a : List Stamped} (h : ∀ y ∈ a, ∀ i, y.ev ≠ .eonStarted e i) : sinceStart e a = [] := by
  have := sinceStart_skip (b := []) h
  rw [List.append_nil] at this
  exact this

/-- The messages of a longer history: those known before and those that are newer. -/
theorem messages_split (k : Kind) (e : Nat) {a b : List Stamped} {t : Int} (ha : ∀ x ∈ a, x.height ≤ t) (hb : ∀ x ∈ b, t + 1 ≤ x.height) :
    messages k e (a ++ b) = messages k e a ++ (messages k e (a ++ b)).filter (fun y => decide (y.height ≥ t + 1)) := by
  by_cases h : ∃ y ∈ a, ∃ i, y.ev = .eonStarted e i
  · obtain ⟨y, hy, i, hi⟩ := h
    have hs : sinceStart e (a ++ b) = sinceStart e a ++ b := dropWhile_append_of_exists _ _ _ ⟨y, hy, by simp [hi]⟩
    unfold messages
    rw [hs, List.filter_append, List.filter_append]
    congr 1
    have h1 : (List.filter (fun x => decide (eonMessage x.ev = some (k, e))) (sinceStart e a)).filter (fun y => decide (y.height ≥ t + 1)) = [] := by
      rw [List.filter_eq_nil_iff]
      intro x hx
      have := ha x ((List.dropWhile_sublist _).subset (List.mem_filter.1 hx).1)
      simp only [decide_eq_true_eq]
      omega
    have h2 : (List.filter (fun x => decide (eonMessage x.ev = some (k, e))) b).filter (fun y => decide (y.height ≥ t + 1)) =
        List.filter (fun x => decide (eonMessage x.ev = some (k, e))) b := by
      rw [List.filter_eq_self]
      intro x hx
      have := hb x (List.mem_filter.1 hx).1
      simp only [decide_eq_true_eq]
      omega
    rw [h1, h2, List.nil_append]
  · push Not at h
    have h1 : sinceStart e a = [] := sinceStart_nil h
    have h2 : sinceStart e (a ++ b) = sinceStart e b := sinceStart_skip h
    unfold messages
    rw [h1, h2]
    symm
    rw [List.filter_nil, List.nil_append, List.filter_eq_self]
    intro x hx
    have := hb x ((List.dropWhile_sublist _).subset (List.mem_filter.1 hx).1)
    simp only [decide_eq_true_eq]
    omega

theorem started_append {a b : List Stamped} {e i : Nat} {h : Int} (hs : Started a e i h) : Started (a ++ b) e i h := by
  obtain ⟨pre, post, rfl, hp⟩ := hs
  exact ⟨pre, post ++ b, by simp, hp⟩

/-! ## Windows -/

theorem commitmentOf_nil {p : Params G2} {x : Stamped} (h : inPhase p.length p.start 0 x.height = false) : commitmentOf p x = [] := by
  unfold commitmentOf
  cases x.ev <;> simp [h]

theorem evalsOf_nil {p : Params G2} {x : Stamped} (h : inPhase p.length p.start 0 x.height = false) : evalsOf p x = [] := by
  unfold evalsOf
  cases x.ev <;> simp [h]

theorem accusationsOf_nil {p : Params G2} {x : Stamped} (h : inPhase p.length p.start 1 x.height = false) : accusationsOf p x = [] := by
  unfold accusationsOf
  cases x.ev <;> simp [h]

theorem apologiesOf_nil {p : Params G2} {x : Stamped} (h : inPhase p.length p.start 2 x.height = false) : apologiesOf p x = [] := by
  unfold apologiesOf
  cases x.ev <;> simp [h]

theorem flatMap_nil {α β : Type} {l : List α} {f : α → List β} (h : ∀ x ∈ l, f x = []) : l.flatMap f = [] := by
  rw [List.flatMap_eq_nil_iff]
  exact h

/-- The script of a longer history. -/
theorem script_extend {L S n m : Int} {poly : Option (List Nat)} {D A P C E A' P' : List (Op G2)} (hnm : n ≤ m) (hL : 0 ≤ L)
    (h1 : ¬ S + L ≤ n → A = []) (h2 : ¬ S + 2 * L ≤ n → P = [])
    (h3 : S + L ≤ n → C = [] ∧ E = []) (h4 : S + 2 * L ≤ n → A' = []) (h5 : S + 3 * L ≤ n → P' = []) :
    script L S n poly D A P ++ (C ++ E ++ (if ¬ S + L ≤ n ∧ S + L ≤ m then [.start2] else []) ++ A' ++
      (if ¬ S + 2 * L ≤ n ∧ S + 2 * L ≤ m then [.start3] else []) ++ P' ++
      (if ¬ S + 3 * L ≤ n ∧ S + 3 * L ≤ m then [.fin] else [])) =
    script L S m poly (D ++ C ++ E) (A ++ A') (P ++ P') := by
  unfold script
  by_cases c2 : S + L ≤ n
  · obtain ⟨rfl, rfl⟩ := h3 c2
    have d2 : S + L ≤ m := by omega
    simp only [c2, d2, not_true_eq_false, false_and, if_false, if_true, List.append_nil, List.nil_append]
    by_cases c3 : S + 2 * L ≤ n
    · rw [h4 c3]
      have d3 : S + 2 * L ≤ m := by omega
      simp only [c3, d3, not_true_eq_false, false_and, if_false, if_true, List.append_nil, List.nil_append]
      by_cases c4 : S + 3 * L ≤ n
      · rw [h5 c4]
        have d4 : S + 3 * L ≤ m := by omega
        simp [c4, d4]
      · simp [c4]
    · have c4 : ¬ S + 3 * L ≤ n := by omega
      rw [h2 c3]
      simp [c3, c4]
  · have c3 : ¬ S + 2 * L ≤ n := by omega
    have c4 : ¬ S + 3 * L ≤ n := by omega
    rw [h1 c2, h2 c3]
    simp [c2, c3, c4]

/-- The phase in terms of the heights. -/
theorem phase_of (L S n : Int) (hL : 0 ≤ L) (hS : S ≤ n) : getPhaseAtHeight L n S =
    if S + 3 * L ≤ n then finalized else if S + 2 * L ≤ n then apologizing else if S + L ≤ n then accusing else dealing := by
  unfold getPhaseAtHeight
  simp only [off, dealing, accusing, apologizing, finalized]
  split_ifs <;> omega

theorem phase_ge (L S n : Int) (hL : 0 ≤ L) (hS : S ≤ n) :
    (getPhaseAtHeight L n S ≥ dealing) ∧ (getPhaseAtHeight L n S ≥ accusing ↔ S + L ≤ n) ∧
    (getPhaseAtHeight L n S ≥ apologizing ↔ S + 2 * L ≤ n) ∧ (getPhaseAtHeight L n S ≥ finalized ↔ S + 3 * L ≤ n) := by
  rw [phase_of L S n hL hS]
  simp only [dealing, accusing, apologizing, finalized]
  split_ifs <;> omega

variable [AddCommGroup G2] [DecidableEq G2]

/-- What is known about a DKG after the events `evs` up to the block before `next`. -/
structure DkgInv (cx : Cfg G1 G2 GT R) (evs : List Stamped) (next : Int) (dkg : DKG G2) (S : Int) : Prop where
  len : dkg.phaseLength = cx.phaseLength
  started : Started evs dkg.eon dkg.startBatchIndex S
  before : S < next
  phase : dkg.pure.state.phase = getPhaseAtHeight cx.phaseLength next S
  ran : ∃ ops thr i, Dkg.run cx.crypto (newWorld G2 dkg.eon dkg.keypers.length thr i) ops = some dkg.pure ∧
    findAddressIndex dkg.keypers cx.own = some i ∧
    Prescribed ⟨dkg.eon, S, cx.phaseLength, dkg.keypers, i, cx.gammas, cx.decryptEval⟩ (cx.poly dkg.eon) evs next ops

omit [AddCommGroup G2] [DecidableEq G2] in
theorem kinds_commitment (l : List Stamped) (p : Params G2) :
    (l.flatMap (commitmentOf p)).filter isCommitment = l.flatMap (commitmentOf p) ∧ (l.flatMap (commitmentOf p)).filter isEval = [] ∧
    ∀ op ∈ l.flatMap (commitmentOf p), isCommitment op = true := by
  have h : ∀ op ∈ l.flatMap (commitmentOf p), ∃ m, op = .commitment m := by
    intro op ho
    obtain ⟨x, _, ho⟩ := List.mem_flatMap.1 ho
    obtain ⟨m, hm, _⟩ := commitmentOf_kind _ _ _ ho
    exact ⟨m, hm⟩
  refine ⟨List.filter_eq_self.2 ?_, List.filter_eq_nil_iff.2 ?_, ?_⟩
  all_goals
    intro op ho
    obtain ⟨m, rfl⟩ := h op ho
    simp [isCommitment, isEval]

omit [AddCommGroup G2] [DecidableEq G2] in
theorem kinds_eval (l : List Stamped) (p : Params G2) :
    (l.flatMap (evalsOf p)).filter isEval = l.flatMap (evalsOf p) ∧ (l.flatMap (evalsOf p)).filter isCommitment = [] ∧
    ∀ op ∈ l.flatMap (evalsOf p), isEval op = true := by
  have h : ∀ op ∈ l.flatMap (evalsOf p), ∃ m, op = .eval m := by
    intro op ho
    obtain ⟨x, _, ho⟩ := List.mem_flatMap.1 ho
    obtain ⟨m, hm, _⟩ := evalsOf_kind _ _ _ ho
    exact ⟨m, hm⟩
  refine ⟨List.filter_eq_self.2 ?_, List.filter_eq_nil_iff.2 ?_, ?_⟩
  all_goals
    intro op ho
    obtain ⟨m, rfl⟩ := h op ho
    simp [isCommitment, isEval]

omit [AddCommGroup G2] [DecidableEq G2] in
/-- Prescribed calls and the calls for newer messages. -/
theorem prescribed_extend {p : Params G2} {poly : Option (List Nat)} {a b : List Stamped} {t t' : Int} {ops : List (Op G2)}
    (hL : 0 ≤ p.length) (htt : t ≤ t') (ha : ∀ x ∈ a, x.height ≤ t) (hb : ∀ x ∈ b, t + 1 ≤ x.height ∧ x.height ≤ t')
    (h : Prescribed p poly a (t + 1) ops) :
    Prescribed p poly (a ++ b) (t' + 1) (ops ++
      (((messages .commitment p.eon (a ++ b)).filter (fun y => decide (y.height ≥ t + 1))).flatMap (commitmentOf p) ++
       ((messages .polyEval p.eon (a ++ b)).filter (fun y => decide (y.height ≥ t + 1))).flatMap (evalsOf p) ++
       (if ¬ p.start + p.length ≤ t + 1 ∧ p.start + p.length ≤ t' + 1 then [.start2] else []) ++
       ((messages .accusation p.eon (a ++ b)).filter (fun y => decide (y.height ≥ t + 1))).flatMap (accusationsOf p) ++
       (if ¬ p.start + 2 * p.length ≤ t + 1 ∧ p.start + 2 * p.length ≤ t' + 1 then [.start3] else []) ++
       ((messages .apology p.eon (a ++ b)).filter (fun y => decide (y.height ≥ t + 1))).flatMap (apologiesOf p) ++
       (if ¬ p.start + 3 * p.length ≤ t + 1 ∧ p.start + 3 * p.length ≤ t' + 1 then [.fin] else []))) := by
  obtain ⟨D, rfl, hD, hC, hE⟩ := h
  have hb' : ∀ x ∈ b, t + 1 ≤ x.height := fun x hx => (hb x hx).1
  have mem_old : ∀ k x, x ∈ messages k p.eon a → x.height ≤ t := fun k x hx => ha x ((messages_sublist _ _ _).subset hx)
  have mem_new : ∀ k x, x ∈ (messages k p.eon (a ++ b)).filter (fun y => decide (y.height ≥ t + 1)) → t + 1 ≤ x.height := by
    intro k x hx
    simpa using (List.mem_filter.1 hx).2
  rw [script_extend (by omega) hL]
  · have e1 := messages_split .commitment p.eon ha hb'
    have e2 := messages_split .polyEval p.eon ha hb'
    have e3 := messages_split .accusation p.eon ha hb'
    have e4 := messages_split .apology p.eon ha hb'
    refine ⟨D ++ ((messages .commitment p.eon (a ++ b)).filter (fun y => decide (y.height ≥ t + 1))).flatMap (commitmentOf p) ++
       ((messages .polyEval p.eon (a ++ b)).filter (fun y => decide (y.height ≥ t + 1))).flatMap (evalsOf p), ?_, ?_, ?_, ?_⟩
    · congr 1
      · unfold accusations
        conv_rhs => rw [e3, List.flatMap_append]
      · unfold apologies
        conv_rhs => rw [e4, List.flatMap_append]
    · intro op ho
      rcases List.mem_append.1 ho with ho | ho
      · rcases List.mem_append.1 ho with ho | ho
        · exact hD op ho
        · exact Or.inl ((kinds_commitment _ _).2.2 op ho)
      · exact Or.inr ((kinds_eval _ _).2.2 op ho)
    · rw [List.filter_append, List.filter_append, hC, (kinds_commitment _ _).1, (kinds_eval _ _).2.1, List.append_nil]
      unfold commitments
      conv_rhs => rw [e1, List.flatMap_append]
    · rw [List.filter_append, List.filter_append, hE, (kinds_commitment _ _).2.1, (kinds_eval _ _).1, List.append_nil]
      unfold evals
      conv_rhs => rw [e2, List.flatMap_append]
  · intro hc
    refine flatMap_nil (fun x hx => accusationsOf_nil ?_)
    have := mem_old _ x hx
    simp only [inPhase, decide_eq_false_iff_not]
    omega
  · intro hc
    refine flatMap_nil (fun x hx => apologiesOf_nil ?_)
    have := mem_old _ x hx
    simp only [inPhase, decide_eq_false_iff_not]
    omega
  · intro hc
    constructor
    · refine flatMap_nil (fun x hx => commitmentOf_nil ?_)
      have := mem_new _ x hx
      simp only [inPhase, decide_eq_false_iff_not]
      omega
    · refine flatMap_nil (fun x hx => evalsOf_nil ?_)
      have := mem_new _ x hx
      simp only [inPhase, decide_eq_false_iff_not]
      omega
  · intro hc
    refine flatMap_nil (fun x hx => accusationsOf_nil ?_)
    have := mem_new _ x hx
    simp only [inPhase, decide_eq_false_iff_not]
    omega
  · intro hc
    refine flatMap_nil (fun x hx => apologiesOf_nil ?_)
    have := mem_new _ x hx
    simp only [inPhase, decide_eq_false_iff_not]
    omega

/-- A round on a DKG known already. -/
theorem round_old {cx : Cfg G1 G2 GT R} (hL : 0 ≤ cx.phaseLength) {a b : List Stamped} {t t' S : Int} {dkg dkg' : DKG G2} {eon : Eon}
    (htt : t ≤ t') (ha : ∀ x ∈ a, x.height ≤ t) (hb : ∀ x ∈ b, t + 1 ≤ x.height ∧ x.height ≤ t')
    (inv : DkgInv cx a (t + 1) dkg S) (hS : eon.startHeight = S)
    (hq : ∀ k, k ≠ .share → eon.query k (t + 1) = (messages k dkg.eon (a ++ b)).filter (fun y => decide (y.height ≥ t + 1)))
    {ekgs : List (EKG G1 G2)} {acts : List (Action G1 G2)}
    (hr : syncDKGWithEon cx (t + 1) t' dkg eon = some (dkg', ekgs, acts)) :
    DkgInv cx (a ++ b) (t' + 1) dkg' S ∧ SameDkg dkg dkg' := by
  obtain ⟨hc, hp, hk⟩ := syncDKG_calls hr
  subst hS
  obtain ⟨ops, thr, i, run, hi, pre⟩ := inv.ran
  have kx : dkg.pure.state.keyper = i := (logInv_run _ _ _ _ _ _ _ run).keyper
  have hpar : dkg.params cx eon.startHeight = ⟨dkg.eon, eon.startHeight, cx.phaseLength, dkg.keypers, i, cx.gammas, cx.decryptEval⟩ := by
    simp only [DKG.params, inv.len, kx]
  have bef := inv.before
  obtain ⟨o1, o2, o3, o4⟩ := phase_ge cx.phaseLength eon.startHeight (t + 1) hL (by omega)
  obtain ⟨n1, n2, n3, n4⟩ := phase_ge cx.phaseLength eon.startHeight (t' + 1) hL (by omega)
  have ph := inv.phase
  have phv := phase_of cx.phaseLength eon.startHeight (t + 1) hL (by omega)
  have pnv := phase_of cx.phaseLength eon.startHeight (t' + 1) hL (by omega)
  rw [ph] at hc hp
  generalize hp0 : getPhaseAtHeight cx.phaseLength (t + 1) eon.startHeight = p0 at *
  generalize hpn : getPhaseAtHeight cx.phaseLength (t' + 1) eon.startHeight = pn at *
  have z1 : ¬ (p0 = off ∧ pn ≥ dealing) := by
    simp only [off, dealing, ge_iff_le] at *
    omega
  rw [if_neg z1] at hc hp
  rw [if_neg z1] at hc
  -- the conditions of the phases in terms of heights
  have c2 : (p0 = dealing ∧ pn ≥ accusing) ↔ (¬ eon.startHeight + cx.phaseLength ≤ t + 1 ∧ eon.startHeight + cx.phaseLength ≤ t' + 1) := by
    rw [n2, ← o2]
    simp only [dealing, accusing, ge_iff_le] at *
    omega
  have c3 : ((if p0 = dealing ∧ pn ≥ accusing then accusing else p0) = accusing ∧ pn ≥ apologizing) ↔
      (¬ eon.startHeight + 2 * cx.phaseLength ≤ t + 1 ∧ eon.startHeight + 2 * cx.phaseLength ≤ t' + 1) := by
    rw [n3, ← o3]
    simp only [dealing, accusing, apologizing, finalized, ge_iff_le] at *
    split_ifs <;> omega
  have c4 : ((if (if p0 = dealing ∧ pn ≥ accusing then accusing else p0) = accusing ∧ pn ≥ apologizing then apologizing
        else if p0 = dealing ∧ pn ≥ accusing then accusing else p0) = apologizing ∧ pn ≥ finalized) ↔
      (¬ eon.startHeight + 3 * cx.phaseLength ≤ t + 1 ∧ eon.startHeight + 3 * cx.phaseLength ≤ t' + 1) := by
    rw [n4, ← o4]
    simp only [dealing, accusing, apologizing, finalized, ge_iff_le] at *
    split_ifs <;> omega
  have hfin : dkg'.pure.state.phase = pn := by
    rw [hp]
    have mono : p0 ≤ pn := by
      rw [phv, pnv]
      simp only [dealing, accusing, apologizing, finalized]
      split_ifs <;> omega
    have : pn ≤ finalized := by
      rw [pnv]
      simp only [dealing, accusing, apologizing, finalized]
      split_ifs <;> omega
    simp only [dealing, accusing, apologizing, finalized, ge_iff_le] at *
    split_ifs <;> omega
  rw [hpar] at hc
  have ext := prescribed_extend (p := ⟨dkg.eon, eon.startHeight, cx.phaseLength, dkg.keypers, i, cx.gammas, cx.decryptEval⟩) hL htt ha hb pre
  rw [if_congr c4 rfl rfl, if_congr c3 rfl rfl, if_congr c2 rfl rfl, List.nil_append] at hc
  rw [hq .commitment (by simp), hq .polyEval (by simp), hq .accusation (by simp), hq .apology (by simp)] at hc
  refine ⟨⟨hc.2.len.trans inv.len, ?_, by omega, hfin.trans hpn.symm, ?_⟩, hc.2⟩
  · rw [hc.2.eon, hc.2.sbi]
    exact started_append inv.started
  · rw [hc.2.eon, hc.2.keypers]
    refine ⟨_, thr, i, (run_append _).2 ⟨_, run, hc.1⟩, hi, ?_⟩
    exact ext

theorem new_phases : ∀ pn : Nat, pn ≥ dealing → pn ≤ finalized →
    (((if dealing = dealing ∧ pn ≥ accusing then accusing else dealing) = accusing ∧ pn ≥ apologizing) ↔ pn ≥ apologizing) ∧
    (((if (if dealing = dealing ∧ pn ≥ accusing then accusing else dealing) = accusing ∧ pn ≥ apologizing then apologizing
        else if dealing = dealing ∧ pn ≥ accusing then accusing else dealing) = apologizing ∧ pn ≥ finalized) ↔ pn ≥ finalized) ∧
    (if (if (if dealing = dealing ∧ pn ≥ accusing then accusing else dealing) = accusing ∧ pn ≥ apologizing then apologizing
        else if dealing = dealing ∧ pn ≥ accusing then accusing else dealing) = apologizing ∧ pn ≥ finalized then finalized
      else if (if dealing = dealing ∧ pn ≥ accusing then accusing else dealing) = accusing ∧ pn ≥ apologizing then apologizing
        else if dealing = dealing ∧ pn ≥ accusing then accusing else dealing) = pn := by
  intro pn h1 h4
  simp only [dealing, finalized] at h1 h4
  interval_cases pn <;> decide

/-- A round on a DKG just started. -/
theorem round_new {cx : Cfg G1 G2 GT R} (hL : 0 ≤ cx.phaseLength) {a b : List Stamped} {t t' S : Int} {dkg dkg' : DKG G2} {eon : Eon}
    (htt : t ≤ t') (ha : ∀ x ∈ a, x.height ≤ t) (hb : ∀ x ∈ b, t + 1 ≤ x.height ∧ x.height ≤ t')
    (hlen : dkg.phaseLength = cx.phaseLength) (hstart : Started (a ++ b) dkg.eon dkg.startBatchIndex S)
    (hnew : ∀ x ∈ a, ∀ i, x.ev ≠ .eonStarted dkg.eon i) (hS' : t < S)
    (hw : ∃ thr i, dkg.pure = newWorld G2 dkg.eon dkg.keypers.length thr i ∧ findAddressIndex dkg.keypers cx.own = some i)
    (hS : eon.startHeight = S)
    (hq : ∀ k, k ≠ .share → eon.query k (t + 1) = (messages k dkg.eon (a ++ b)).filter (fun y => decide (y.height ≥ t + 1)))
    {ekgs : List (EKG G1 G2)} {acts : List (Action G1 G2)}
    (hr : syncDKGWithEon cx (t + 1) t' dkg eon = some (dkg', ekgs, acts)) :
    DkgInv cx (a ++ b) (t' + 1) dkg' S ∧ SameDkg dkg dkg' := by
  obtain ⟨hc, hp, hk⟩ := syncDKG_calls hr
  subst hS
  obtain ⟨thr, i, hw, hi⟩ := hw
  have hSt : eon.startHeight ≤ t' := by
    obtain ⟨pre, post, he, _⟩ := hstart
    have : (⟨eon.startHeight, .eonStarted dkg.eon dkg.startBatchIndex⟩ : Stamped) ∈ a ++ b := by rw [he]; simp
    rcases List.mem_append.1 this with h | h
    · exact absurd rfl (hnew _ h _)
    · exact (hb _ h).2
  have ph : dkg.pure.state.phase = off := by rw [hw]; rfl
  have kx : dkg.pure.state.keyper = i := by rw [hw]; rfl
  have hpar : dkg.params cx eon.startHeight = ⟨dkg.eon, eon.startHeight, cx.phaseLength, dkg.keypers, i, cx.gammas, cx.decryptEval⟩ := by
    simp only [DKG.params, hlen, kx]
  obtain ⟨n1, n2, n3, n4⟩ := phase_ge cx.phaseLength eon.startHeight (t' + 1) hL (by omega)
  have pnv := phase_of cx.phaseLength eon.startHeight (t' + 1) hL (by omega)
  rw [ph] at hc hp
  generalize hpn : getPhaseAtHeight cx.phaseLength (t' + 1) eon.startHeight = pn at *
  have n5 : pn ≤ finalized := by
    rw [pnv]
    simp only [dealing, accusing, apologizing, finalized]
    split_ifs <;> omega
  have z1 : off = off ∧ pn ≥ dealing := ⟨rfl, n1⟩
  rw [if_pos z1] at hc hp
  rw [if_pos z1] at hc
  have c2 : (dealing = dealing ∧ pn ≥ accusing) ↔ (eon.startHeight + cx.phaseLength ≤ t' + 1) := by
    rw [n2]
    simp
  have c3 : ((if dealing = dealing ∧ pn ≥ accusing then accusing else dealing) = accusing ∧ pn ≥ apologizing) ↔
      (eon.startHeight + 2 * cx.phaseLength ≤ t' + 1) := by
    rw [← n3]
    exact (new_phases pn n1 n5).1
  have c4 : ((if (if dealing = dealing ∧ pn ≥ accusing then accusing else dealing) = accusing ∧ pn ≥ apologizing then apologizing
        else if dealing = dealing ∧ pn ≥ accusing then accusing else dealing) = apologizing ∧ pn ≥ finalized) ↔
      (eon.startHeight + 3 * cx.phaseLength ≤ t' + 1) := by
    rw [← n4]
    exact (new_phases pn n1 n5).2.1
  have hfin : dkg'.pure.state.phase = pn := by
    rw [hp]
    exact (new_phases pn n1 n5).2.2
  rw [hpar] at hc
  rw [if_congr c4 rfl rfl, if_congr c3 rfl rfl, if_congr c2 rfl rfl] at hc
  rw [hq .commitment (by simp), hq .polyEval (by simp), hq .accusation (by simp), hq .apology (by simp)] at hc
  have all : ∀ k, (messages k dkg.eon (a ++ b)).filter (fun y => decide (y.height ≥ t + 1)) = messages k dkg.eon (a ++ b) := by
    intro k
    have h := messages_split k dkg.eon ha (fun x hx => (hb x hx).1)
    have h0 : messages k dkg.eon a = [] := by
      unfold messages
      rw [sinceStart_nil hnew]
      rfl
    rw [h0, List.nil_append] at h
    exact h.symm
  rw [all, all, all, all] at hc
  refine ⟨⟨hc.2.len.trans hlen, ?_, by omega, hfin.trans hpn.symm, ?_⟩, hc.2⟩
  · rw [hc.2.eon, hc.2.sbi]
    exact hstart
  · rw [hc.2.eon, hc.2.keypers]
    have hrun := hc.1
    rw [hw] at hrun
    refine ⟨_, thr, i, hrun, hi,
      ((messages .commitment dkg.eon (a ++ b)).flatMap (commitmentOf ⟨dkg.eon, eon.startHeight, cx.phaseLength, dkg.keypers, i, cx.gammas, cx.decryptEval⟩)) ++
        (messages .polyEval dkg.eon (a ++ b)).flatMap (evalsOf ⟨dkg.eon, eon.startHeight, cx.phaseLength, dkg.keypers, i, cx.gammas, cx.decryptEval⟩), ?_, ?_, ?_, ?_⟩
    · simp only [script, accusations, apologies, List.append_assoc]
    · intro op ho
      rcases List.mem_append.1 ho with ho | ho
      · exact Or.inl ((kinds_commitment _ _).2.2 op ho)
      · exact Or.inr ((kinds_eval _ _).2.2 op ho)
    · rw [List.filter_append, (kinds_commitment _ _).1, (kinds_eval _ _).2.1, List.append_nil]
      rfl
    · rw [List.filter_append, (kinds_commitment _ _).2.1, (kinds_eval _ _).1, List.nil_append]
      rfl

end Shutter.Decide
