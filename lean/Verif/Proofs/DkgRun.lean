import Verif.Proofs.Dkg

/-! Invariants of DKG runs. -/

namespace Shutter.Dkg
open Shutter.Crypto Shutter.Crypto.Spec

variable {G1 G2 GT : Type} [AddCommGroup G2] [DecidableEq G2]

theorem run_induct (env : Env G1 G2 GT) (P : World G2 → Prop) :
    ∀ (ops : List (Op G2)) (w w' : World G2), P w →
    (∀ w op w', op ∈ ops → P w → exec env w op = some w' → P w') → run env w ops = some w' → P w' := by
  intro ops
  induction ops with
  | nil => intro w w' h _ hr; simp [run] at hr; exact hr ▸ h
  | cons op ops ih =>
    intro w w' h hs hr
    simp only [run, List.foldlM_cons, Option.bind_eq_bind] at hr
    cases he : exec env w op with
    | none => rw [he] at hr; simp at hr
    | some w1 =>
      rw [he] at hr
      exact ih w1 w' (hs w op w1 (by simp) h he) (fun a b c hb => hs a b c (by simp [hb])) hr

/-- The state as a function of the accepted calls. -/
structure LogInv (e n t k : Nat) (w : World G2) : Prop where
  eon : w.state.eon = e
  num : w.state.numKeypers = n
  thr : w.state.threshold = t
  keyper : w.state.keyper = k
  commit : ∀ d c, HasCommit w.state d c ↔ ∃ m, Op.commitment m ∈ w.accepted ∧ m.sender = d ∧ m.gammas = c
  accus : ∀ a d, HasAccusation w.state a d ↔ ∃ m, Op.accusation m ∈ w.accepted ∧ m.accuser = a ∧ m.accused = d
  apol : ∀ a d v, HasApology w.state a d v ↔
    ∃ m, Op.apology m ∈ w.accepted ∧ m.accuser = a ∧ m.accused = d ∧ m.eval.toNat = v
  apolKeys : (w.state.apologies.map (·.1)).Nodup
  deg : ∀ d c, HasCommit w.state d c → degree c = sub1u64 t
  apolEon : ∀ m, Op.apology m ∈ w.accepted → m.eon = e
  accEon : ∀ m, Op.accusation m ∈ w.accepted → m.eon = e
  evalAcc : ∀ m, Op.eval m ∈ w.accepted → HasEval w.state m.sender m.eval.toNat

theorem logInv_init (eon n t k : Nat) : LogInv eon n t k (newWorld G2 eon n t k) := by
  have h : ∀ (d : Nat) (c : List G2), ¬ HasCommit (newPureDKG G2 eon n t k) d c := by
    intro d c
    simp only [HasCommit, newPureDKG, List.getElem?_replicate]
    split <;> simp
  constructor <;> simp [newWorld, HasAccusation, HasApology, h] <;> simp [newPureDKG]

theorem logInv_exec (env : Env G1 G2 GT) (eon n t k : Nat) (w w' : World G2) (op : Op G2)
    (inv : LogInv eon n t k w) (h : exec env w op = some w') : LogInv eon n t k w' := by
  simp only [exec, Option.map_eq_some_iff] at h
  obtain ⟨o, ho, rfl⟩ := h
  have sp := step_spec env w.state op o ho
  have mem : ∀ x, x ∈ (if o.ok = true then w.accepted ++ [op] else w.accepted) ↔
      x ∈ w.accepted ∨ (o.ok = true ∧ op = x) := by
    intro x; split <;> simp [*, eq_comm]
  constructor
  · exact sp.eon.trans inv.eon
  · exact sp.num.trans inv.num
  · exact sp.thr.trans inv.thr
  · exact sp.keyper.trans inv.keyper
  · intro d c
    simp only [mem]
    rw [sp.commit, inv.commit]
    constructor
    · rintro (⟨m, h1, h2⟩ | ⟨h0, m, h1, h2⟩)
      · exact ⟨m, Or.inl h1, h2⟩
      · exact ⟨m, Or.inr ⟨h0, h1⟩, h2⟩
    · rintro ⟨m, h1 | ⟨h0, h1⟩, h2⟩
      · exact Or.inl ⟨m, h1, h2⟩
      · exact Or.inr ⟨h0, m, h1, h2⟩
  · intro a d
    simp only [mem]
    rw [sp.accus, inv.accus]
    constructor
    · rintro (⟨m, h1, h2⟩ | ⟨h0, m, h1, h2⟩)
      · exact ⟨m, Or.inl h1, h2⟩
      · exact ⟨m, Or.inr ⟨h0, h1⟩, h2⟩
    · rintro ⟨m, h1 | ⟨h0, h1⟩, h2⟩
      · exact Or.inl ⟨m, h1, h2⟩
      · exact Or.inr ⟨h0, m, h1, h2⟩
  · intro a d v
    simp only [mem]
    rw [sp.apol, inv.apol]
    constructor
    · rintro (⟨m, h1, h2⟩ | ⟨h0, m, h1, h2⟩)
      · exact ⟨m, Or.inl h1, h2⟩
      · exact ⟨m, Or.inr ⟨h0, h1⟩, h2⟩
    · rintro ⟨m, h1 | ⟨h0, h1⟩, h2⟩
      · exact Or.inl ⟨m, h1, h2⟩
      · exact Or.inr ⟨h0, m, h1, h2⟩
  · exact sp.apolKeys inv.apolKeys
  · intro d c hc
    rcases (sp.commit d c).1 hc with h1 | ⟨h0, m, h1, _, rfl⟩
    · exact inv.deg d c h1
    · rw [← inv.thr]; exact ((sp.accepted h0).1 m h1).2.2
  · intro m hm
    rcases (mem _).1 hm with h1 | ⟨h0, h1⟩
    · exact inv.apolEon m h1
    · rw [← inv.eon]; exact ((sp.accepted h0).2.2.2 m h1).2.1
  · intro m hm
    rcases (mem _).1 hm with h1 | ⟨h0, h1⟩
    · exact inv.accEon m h1
    · rw [← inv.eon]; exact ((sp.accepted h0).2.2.1 m h1).2
  · intro m hm
    rw [sp.eval]
    rcases (mem _).1 hm with h1 | ⟨h0, h1⟩
    · exact Or.inl (inv.evalAcc m h1)
    · exact Or.inr (Or.inl ⟨h0, m, h1, rfl, rfl⟩)

theorem logInv_run (env : Env G1 G2 GT) (eon n t k : Nat) (ops : List (Op G2)) (w : World G2)
    (h : run env (newWorld G2 eon n t k) ops = some w) : LogInv eon n t k w :=
  run_induct env _ ops _ w (logInv_init eon n t k) (fun a op b _ ha hb => logInv_exec env eon n t k a b op ha hb) h

/-! ### isCorrupt as a predicate on the broadcast maps -/

omit [DecidableEq G2] in
theorem hasApology_iff_lookup (st : PureDKG G2) (a d : Nat) :
    (st.apologies.lookup (a, d)).isSome = true ↔ ∃ v, HasApology st a d v := by
  rw [lookup_isSome_iff]
  simp [HasApology]

theorem isCorrupt_iff (env : Env G1 G2 GT) (st : PureDKG G2) (d : Nat) :
    isCorrupt env st d = true ↔ (∀ c, ¬ HasCommit st d c) ∨ ∃ c, HasCommit st d c ∧
      ((∃ a v, HasApology st a d v ∧ verifyPolyEval env a v c st.threshold = false) ∨
       (∃ a, HasAccusation st a d ∧ ¬ ∃ v, HasApology st a d v)) := by
  unfold isCorrupt
  cases hc : (st.commitments[d]?).join with
  | none => simp [HasCommit, hc]
  | some c =>
    have e1 : (st.apologies.any fun a => a.1.2 = d && !verifyPolyEval env a.1.1 a.2 c st.threshold) = true ↔
        ∃ a v, HasApology st a d v ∧ verifyPolyEval env a v c st.threshold = false := by
      simp only [List.any_eq_true, HasApology]
      constructor
      · rintro ⟨⟨⟨a, d'⟩, v⟩, h1, h2⟩
        simp at h2
        obtain ⟨rfl, h2⟩ := h2
        exact ⟨a, v, h1, h2⟩
      · rintro ⟨a, v, h1, h2⟩
        exact ⟨((a, d), v), h1, by simp [h2]⟩
    have e2 : (st.accusations.any fun k => k.2 = d && !(st.apologies.lookup k).isSome) = true ↔
        ∃ a, HasAccusation st a d ∧ ¬ ∃ v, HasApology st a d v := by
      simp only [List.any_eq_true, HasAccusation]
      constructor
      · rintro ⟨⟨a, d'⟩, h1, h2⟩
        simp only [Bool.and_eq_true, decide_eq_true_eq, Bool.not_eq_true', ← Bool.not_eq_true] at h2
        obtain ⟨rfl, h2⟩ := h2
        rw [hasApology_iff_lookup] at h2
        exact ⟨a, h1, h2⟩
      · rintro ⟨a, h1, h2⟩
        refine ⟨(a, d), h1, ?_⟩
        rw [← hasApology_iff_lookup] at h2
        simp only [Bool.and_eq_true, decide_eq_true_eq, Bool.not_eq_true', ← Bool.not_eq_true]
        exact ⟨trivial, h2⟩
    have e3 : ∀ c', HasCommit st d c' ↔ c = c' := by intro c'; simp [HasCommit, hc]
    simp only [e3, not_true, imp_false]
    constructor
    · intro h
      right
      refine ⟨c, rfl, ?_⟩
      split at h
      · next h1 => exact Or.inl (e1.1 h1)
      · split at h
        · next h2 => exact Or.inr (e2.1 h2)
        · simp at h
    · rintro (h | ⟨_, rfl, h | h⟩)
      · exact absurd rfl (h c)
      · rw [if_pos (e1.2 h)]
      · rw [if_pos (e2.2 h)]; split <;> rfl

/-! ### Messages returned by the start calls -/

theorem start2_out (env : Env G1 G2 GT) (st : PureDKG G2) (o : Outcome G2) (h : step env st .start2 = some o)
    (op : Op G2) : op ∈ o.out ↔ ∃ d, d < st.numKeypers ∧ d ≠ st.keyper ∧ shouldAccuse env st d = true ∧
      op = .accusation ⟨st.eon, st.keyper, d⟩ := by
  simp only [step, startPhase2Accusing] at h
  split at h
  · simp at h
  · next st1 hs =>
    obtain ⟨hp, rfl⟩ := setPhase_some hs
    simp only [Option.map_some, Option.some.injEq] at h
    subst h
    have hsa : ∀ d, shouldAccuse env { st with phase := accusing } d = shouldAccuse env st d := by
      intro d; rfl
    simp only [List.mem_map, List.mem_filterMap, List.mem_range]
    constructor
    · rintro ⟨m, ⟨d, hd, hm⟩, rfl⟩
      split at hm
      · simp at hm
      · next hk =>
        split at hm
        · next hs =>
          simp only [Option.some.injEq] at hm
          exact ⟨d, hd, hk, hs, by rw [hm]⟩
        · simp at hm
    · rintro ⟨d, hd, hk, hs, rfl⟩
      exact ⟨_, ⟨d, hd, by rw [if_neg hk, hsa, if_pos hs]⟩, rfl⟩

omit [DecidableEq G2] [AddCommGroup G2] in
theorem mapM_option_mem {α β : Type} (f : α → Option β) : ∀ (l : List α) (r : List β), l.mapM f = some r →
    ∀ b, b ∈ r ↔ ∃ a ∈ l, f a = some b := by
  intro l
  induction l with
  | nil => intro r h b; simp at h; subst h; simp
  | cons x xs ih =>
    intro r h b
    rw [List.mapM_cons] at h
    cases hx : f x with
    | none => rw [hx] at h; simp at h
    | some y =>
      rw [hx] at h
      cases hxs : xs.mapM f with
      | none => rw [hxs] at h; simp at h
      | some ys =>
        rw [hxs] at h
        simp at h
        subst h
        simp [ih ys hxs b, hx, eq_comm]

omit [DecidableEq G2] [AddCommGroup G2] in
theorem mapM_option_all {α β : Type} (f : α → Option β) : ∀ (l : List α) (r : List β), l.mapM f = some r →
    ∀ a ∈ l, ∃ b, f a = some b := by
  intro l
  induction l with
  | nil => simp
  | cons x xs ih =>
    intro r h a ha
    rw [List.mapM_cons] at h
    cases hx : f x with
    | none => rw [hx] at h; simp at h
    | some y =>
      rw [hx] at h
      cases hxs : xs.mapM f with
      | none => rw [hxs] at h; simp at h
      | some ys =>
        rcases List.mem_cons.1 ha with rfl | ha
        · exact ⟨y, hx⟩
        · exact ih ys hxs a ha

theorem start3_out (env : Env G1 G2 GT) (st : PureDKG G2) (o : Outcome G2) (h : step env st .start3 = some o) :
    (∀ op, op ∈ o.out ↔ ∃ (a : Nat) (p : List Nat) (v : Nat), HasAccusation st a st.keyper ∧ st.polynomial = some p ∧ evalForKeyper p a = some v ∧
      op = .apology ⟨st.eon, a, st.keyper, (v : Int)⟩) ∧
    (∀ a, HasAccusation st a st.keyper → ∃ p v, st.polynomial = some p ∧ evalForKeyper p a = some v) := by
  simp only [step, startPhase3Apologizing] at h
  split at h
  · simp at h
  · next st1 hs =>
    obtain ⟨hp, rfl⟩ := setPhase_some hs
    simp only [Option.map_map, Option.map_eq_some_iff] at h
    obtain ⟨msgs, hm, h⟩ := h
    simp only [Function.comp] at h
    subst h
    constructor
    · intro op
      simp only [List.mem_map]
      constructor
      · rintro ⟨m, h1, rfl⟩
        rw [mapM_option_mem _ _ _ hm] at h1
        obtain ⟨⟨a, d⟩, h1, h2⟩ := h1
        simp only [List.mem_filter, decide_eq_true_eq] at h1
        obtain ⟨h1, rfl⟩ := h1
        simp only at h2
        cases hpo : st.polynomial with
        | none => rw [hpo] at h2; simp at h2
        | some p =>
          rw [hpo] at h2
          simp only [Option.map_eq_some_iff] at h2
          obtain ⟨v, hv, rfl⟩ := h2
          exact ⟨a, p, v, h1, rfl, hv, rfl⟩
      · rintro ⟨a, p, v, h1, h2, h3, rfl⟩
        refine ⟨⟨st.eon, a, st.keyper, (v : Int)⟩, ?_, rfl⟩
        rw [mapM_option_mem _ _ _ hm]
        refine ⟨(a, st.keyper), ?_, ?_⟩
        · simp only [List.mem_filter, decide_eq_true_eq]
          exact ⟨h1, trivial⟩
        · simp [h2, h3]
    · intro a ha
      obtain ⟨b, hb⟩ := mapM_option_all _ _ _ hm (a, st.keyper) (by
        simp only [List.mem_filter, decide_eq_true_eq]; exact ⟨ha, trivial⟩)
      simp only at hb
      cases hpo : st.polynomial with
      | none => rw [hpo] at hb; simp at hb
      | some p =>
        rw [hpo] at hb
        simp only [Option.map_eq_some_iff] at hb
        obtain ⟨v, hv, _⟩ := hb
        exact ⟨p, v, rfl, hv⟩

theorem start1_out (env : Env G1 G2 GT) (st : PureDKG G2) (p : List Nat) (o : Outcome G2)
    (h : step env st (.start1 (some p)) = some o) (op : Op G2) :
    op ∈ o.out ↔ op = .commitment ⟨st.eon, st.keyper, polyGammas env p⟩ ∨
      ∃ r v, r < st.numKeypers ∧ r ≠ st.keyper ∧ evalForKeyper p r = some v ∧
        op = .eval ⟨st.eon, st.keyper, r, (v : Int)⟩ := by
  simp only [step, startPhase1Dealing] at h
  split at h
  · simp at h
  · next st1 hs =>
    obtain ⟨hp, rfl⟩ := setPhase_some hs
    simp only at h
    split at h
    · simp at h
    · next st3 msgs hd =>
      simp only [Option.map_some, Option.some.injEq] at h
      subst h
      obtain ⟨b1, b2, b3, b4, b5, b6, b7, b8, b9, b10, b11⟩ := dealLoop_frame p _ _ _ _ hd
      simp only [List.mem_cons, List.mem_map]
      constructor
      · rintro (h | ⟨m, hm, rfl⟩)
        · exact Or.inl h
        · right
          rw [b11] at hm
          obtain ⟨h1, h2, h3, h4, v, h5, h6⟩ := hm
          refine ⟨m.receiver, v, by simpa using h3, h4, h5, ?_⟩
          obtain ⟨me, ms, mr, mv⟩ := m
          simp only at h1 h2 h6 ⊢
          rw [h1, h2, h6]
      · rintro (h | ⟨r, v, h1, h2, h3, rfl⟩)
        · exact Or.inl h
        · right
          refine ⟨_, ?_, rfl⟩
          rw [b11]
          exact ⟨rfl, rfl, by simpa using h1, h2, v, h3, rfl⟩

theorem start1_evals_some (env : Env G1 G2 GT) (st : PureDKG G2) (p : List Nat) (o : Outcome G2)
    (h : step env st (.start1 (some p)) = some o) (r : Nat) (hr : r < st.numKeypers) :
    ∃ v, evalForKeyper p r = some v := by
  by_cases hp : p = []
  · exfalso
    subst hp
    simp only [step, startPhase1Dealing] at h
    split at h
    · simp at h
    · next st1 hs =>
      have : ∃ n, st.numKeypers = n + 1 := ⟨st.numKeypers - 1, by omega⟩
      obtain ⟨n, hn⟩ := this
      rw [hn, List.range_succ_eq_map] at h
      simp [dealLoop, evalForKeyper, polyEvalAt] at h
  · exact polyEvalAt_isSome _ hp

omit [AddCommGroup G2] [DecidableEq G2] in
theorem other_out [AddCommGroup G2] [DecidableEq G2] (env : Env G1 G2 GT) (st : PureDKG G2) (op : Op G2) (o : Outcome G2)
    (h : step env st op = some o) (h1 : ∀ p, op ≠ .start1 (some p)) (h2 : op ≠ .start2) (h3 : op ≠ .start3) :
    o.out = [] := by
  cases op with
  | start1 p =>
    cases p with
    | none =>
      simp only [step, startPhase1Dealing] at h
      split at h
      · simp at h
      · simp only [Option.map_some, Option.some.injEq] at h; rw [← h]
    | some p => exact absurd rfl (h1 p)
  | start2 => exact absurd rfl h2
  | start3 => exact absurd rfl h3
  | fin => simp only [step, Option.map_eq_some_iff] at h; obtain ⟨_, _, rfl⟩ := h; rfl
  | commitment m => simp only [step, Option.map_eq_some_iff] at h; obtain ⟨_, _, rfl⟩ := h; rfl
  | eval m => simp only [step, Option.map_eq_some_iff] at h; obtain ⟨_, _, rfl⟩ := h; rfl
  | accusation m => simp only [step, Option.some.injEq] at h; rw [← h]
  | apology m => simp only [step, Option.some.injEq] at h; rw [← h]

/-! ### Behaviour of a keyper that follows the protocol -/

/-- Dealer `d`'s evaluation and commitment are there and match. -/
def Good (env : Env G1 G2 GT) (st : PureDKG G2) (d : Nat) : Prop :=
  ∃ e c, HasEval st d e ∧ HasCommit st d c ∧ verifyPolyEval env st.keyper e c st.threshold = true

theorem shouldAccuse_iff (env : Env G1 G2 GT) (st : PureDKG G2) (d : Nat) :
    shouldAccuse env st d = true ↔ ¬ Good env st d := by
  unfold shouldAccuse Good HasEval HasCommit
  cases h1 : (st.evals[d]?).join with
  | none => simp
  | some e =>
    cases h2 : (st.commitments[d]?).join with
    | none => simp
    | some c => simp

structure HonestInv (env : Env G1 G2 GT) (e n t k : Nat) (w : World G2) : Prop where
  log : LogInv e n t k w
  fresh : w.state.phase = 0 → w.emitted = []
  noAcc : w.state.phase ≤ 1 → ∀ m, Op.accusation m ∉ w.emitted
  noApol : w.state.phase ≤ 2 → ∀ m, Op.apology m ∉ w.emitted
  poly : 1 ≤ w.state.phase → ∃ p, w.state.polynomial = some p ∧
    Op.commitment ⟨e, k, polyGammas env p⟩ ∈ w.emitted ∧
    (k < n → ∃ v, evalForKeyper p k = some v ∧ HasEval w.state k v) ∧
    (∀ r, r < n → r ≠ k → ∃ v : Nat, evalForKeyper p r = some v ∧ Op.eval ⟨e, k, r, (v : Int)⟩ ∈ w.emitted)
  emCommit : ∀ m, Op.commitment m ∈ w.emitted → ∃ p, w.state.polynomial = some p ∧ m = ⟨e, k, polyGammas env p⟩
  emEval : ∀ m, Op.eval m ∈ w.emitted → ∃ (p : List Nat) (v : Nat), w.state.polynomial = some p ∧
    evalForKeyper p m.receiver = some v ∧ m = ⟨e, k, m.receiver, (v : Int)⟩
  emApol : ∀ m, Op.apology m ∈ w.emitted → ∃ (p : List Nat) (v : Nat), w.state.polynomial = some p ∧
    evalForKeyper p m.accuser = some v ∧ m = ⟨e, m.accuser, k, (v : Int)⟩
  acc : 2 ≤ w.state.phase → ∀ d, d < n → d ≠ k →
    (Op.accusation ⟨e, k, d⟩ ∈ w.emitted ↔ ¬ Good env w.state d)
  apol : 3 ≤ w.state.phase → ∀ a, HasAccusation w.state a k →
    ∃ (p : List Nat) (v : Nat), w.state.polynomial = some p ∧ evalForKeyper p a = some v ∧
      Op.apology ⟨e, a, k, (v : Int)⟩ ∈ w.emitted

theorem honestInv_init (env : Env G1 G2 GT) (e n t k : Nat) : HonestInv env e n t k (newWorld G2 e n t k) := by
  constructor
  · exact logInv_init e n t k
  all_goals simp [newWorld, newPureDKG, off]

theorem good_frozen (env : Env G1 G2 GT) (st : PureDKG G2) (op : Op G2) (o : Outcome G2)
    (h : step env st op = some o) (hp : 2 ≤ o.state.phase) (d : Nat) : Good env o.state d ↔ Good env st d := by
  have sp := step_spec env st op o h
  have hph := sp.phase
  unfold Good
  rw [sp.keyper, sp.thr]
  have hc : ∀ c, HasCommit o.state d c ↔ HasCommit st d c := by
    intro c
    rw [sp.commit]
    constructor
    · rintro (h1 | ⟨h0, m, rfl, _⟩)
      · exact h1
      · have := ((sp.accepted h0).1 m rfl).1
        simp only at hph; omega
    · exact Or.inl
  have he : ∀ v, HasEval o.state d v ↔ HasEval st d v := by
    intro v
    rw [sp.eval]
    constructor
    · rintro (h1 | ⟨h0, m, rfl, _⟩ | ⟨_, _, p, rfl, _⟩)
      · exact h1
      · have := ((sp.accepted h0).2.1 m rfl).1
        simp only at hph; omega
      · simp only at hph; omega
    · exact Or.inl
  simp only [hc, he]

theorem accus_frozen (env : Env G1 G2 GT) (st : PureDKG G2) (op : Op G2) (o : Outcome G2)
    (h : step env st op = some o) (hp : 3 ≤ o.state.phase) (a d : Nat) :
    HasAccusation o.state a d ↔ HasAccusation st a d := by
  have sp := step_spec env st op o h
  have hph := sp.phase
  rw [sp.accus]
  constructor
  · rintro (h1 | ⟨h0, m, rfl, _⟩)
    · exact h1
    · have := ((sp.accepted h0).2.2.1 m rfl).1
      simp only at hph; omega
  · exact Or.inl

theorem honestInv_exec (env : Env G1 G2 GT) (e n t k : Nat) (w w' : World G2) (op : Op G2)
    (hop : op ≠ .start1 none) (inv : HonestInv env e n t k w) (h : exec env w op = some w') :
    HonestInv env e n t k w' := by
  have hlog := logInv_exec env e n t k w w' op inv.log h
  simp only [exec, Option.map_eq_some_iff] at h
  obtain ⟨o, ho, rfl⟩ := h
  have sp := step_spec env w.state op o ho
  have hph := sp.phase
  have hprev := sp.prev
  have hpoly := sp.poly
  have lg := inv.log
  by_cases c1 : ∃ p, op = .start1 (some p)
  · obtain ⟨p, rfl⟩ := c1
    have hp0 := hprev.1 _ rfl
    have hem := inv.fresh hp0
    have hout := start1_out env w.state p o ho
    rw [lg.eon, lg.keyper, lg.num] at hout
    simp only at hph hpoly
    constructor
    · exact hlog
    · simp only [hph]; omega
    · intro _ m hm
      simp [hem, hout] at hm
    · intro _ m hm
      simp [hem, hout] at hm
    · intro _
      refine ⟨p, hpoly, ?_, ?_, ?_⟩
      · simp [hem, hout]
      · intro hk
        obtain ⟨v, hv⟩ := start1_evals_some env w.state p o ho k (by rw [lg.num]; exact hk)
        refine ⟨v, hv, ?_⟩
        rw [sp.eval]
        right; right
        rw [lg.keyper, lg.num]
        exact ⟨rfl, hk, p, rfl, hv⟩
      · intro r hr hrk
        obtain ⟨v, hv⟩ := start1_evals_some env w.state p o ho r (by rw [lg.num]; exact hr)
        refine ⟨v, hv, ?_⟩
        simp only [hem, List.nil_append, hout]
        exact Or.inr ⟨r, v, hr, hrk, hv, rfl⟩
    · intro m hm
      simp only [hem, List.nil_append, hout] at hm
      rcases hm with hm | ⟨_, _, _, _, _, hm⟩
      · exact ⟨p, hpoly, by simpa using hm⟩
      · simp at hm
    · intro m hm
      simp only [hem, List.nil_append, hout] at hm
      rcases hm with hm | ⟨r, v, h1, h2, h3, hm⟩
      · simp at hm
      · simp only [Op.eval.injEq] at hm
        subst hm
        exact ⟨p, v, hpoly, h3, rfl⟩
    · intro m hm
      simp [hem, hout] at hm
    · simp only [hph]; omega
    · simp only [hph]; omega
  · have hpolyEq : o.state.polynomial = w.state.polynomial := by
      rw [hpoly]
      cases op with
      | start1 p => cases p with
        | none => exact absurd rfl hop
        | some p => exact absurd ⟨p, rfl⟩ c1
      | _ => rfl
    have hpos : op = .start2 ∨ op = .start3 ∨ op = .fin ∨ o.state.phase = w.state.phase := by
      rw [hph]
      cases op with
      | start1 p => cases p with
        | none => exact absurd rfl hop
        | some p => exact absurd ⟨p, rfl⟩ c1
      | _ => simp
    have hle : 1 ≤ o.state.phase → 1 ≤ w.state.phase := by
      intro h1
      rcases hpos with rfl | rfl | rfl | h2
      · have := hprev.2.1 rfl; omega
      · have := hprev.2.2.1 rfl; omega
      · have := hprev.2.2.2 rfl; omega
      · omega
    have hge : w.state.phase ≤ o.state.phase := by
      rcases hpos with rfl | rfl | rfl | h2
      · have := hprev.2.1 rfl; simp only at hph; omega
      · have := hprev.2.2.1 rfl; simp only at hph; omega
      · have := hprev.2.2.2 rfl; simp only at hph; omega
      · omega
    have hout : ∀ x, x ∈ o.out →
        (op = .start2 ∧ ∃ d, d < n ∧ d ≠ k ∧ ¬ Good env w.state d ∧ x = .accusation ⟨e, k, d⟩) ∨
        (op = .start3 ∧ ∃ (a : Nat) (p : List Nat) (v : Nat), HasAccusation w.state a k ∧ w.state.polynomial = some p ∧
          evalForKeyper p a = some v ∧ x = .apology ⟨e, a, k, (v : Int)⟩) := by
      intro x hx
      by_cases c2 : op = .start2
      · subst c2
        left
        rw [start2_out env w.state o ho] at hx
        obtain ⟨d, h1, h2, h3, h4⟩ := hx
        rw [shouldAccuse_iff] at h3
        rw [lg.eon, lg.keyper] at h4
        exact ⟨rfl, d, by rw [← lg.num]; exact h1, by rw [← lg.keyper]; exact h2, h3, h4⟩
      · by_cases c3 : op = .start3
        · subst c3
          right
          rw [(start3_out env w.state o ho).1] at hx
          rw [lg.eon, lg.keyper] at hx
          exact ⟨rfl, hx⟩
        · rw [other_out env w.state op o ho (fun p hp => c1 ⟨p, hp⟩) c2 c3] at hx
          simp at hx
    constructor
    · exact hlog
    · intro h0
      have hw0 : w.state.phase = 0 := by simp only at h0; omega
      have : o.out = [] := by
        apply List.eq_nil_iff_forall_not_mem.2
        intro x hx
        rcases hout x hx with ⟨rfl, _⟩ | ⟨rfl, _⟩
        · have := hprev.2.1 rfl; omega
        · have := hprev.2.2.1 rfl; omega
      simp [inv.fresh hw0, this]
    · intro h1 m hm
      simp only at h1
      rcases List.mem_append.1 hm with hm | hm
      · exact inv.noAcc (by omega) m hm
      · rcases hout _ hm with ⟨rfl, _⟩ | ⟨rfl, _⟩
        · simp only at hph; omega
        · simp only at hph; omega
    · intro h1 m hm
      simp only at h1
      rcases List.mem_append.1 hm with hm | hm
      · exact inv.noApol (by omega) m hm
      · rcases hout _ hm with ⟨rfl, d, _, _, _, hx⟩ | ⟨rfl, _⟩
        · simp at hx
        · simp only at hph; omega
    · intro h1
      obtain ⟨p, g1, g2, g3, g4⟩ := inv.poly (hle h1)
      refine ⟨p, hpolyEq.trans g1, List.mem_append_left _ g2, ?_, ?_⟩
      · intro hk
        obtain ⟨v, hv, hev⟩ := g3 hk
        exact ⟨v, hv, (sp.eval k v).2 (Or.inl hev)⟩
      · intro r hr hrk
        obtain ⟨v, hv, hev⟩ := g4 r hr hrk
        exact ⟨v, hv, List.mem_append_left _ hev⟩
    · intro m hm
      simp only [hpolyEq]
      rcases List.mem_append.1 hm with hm | hm
      · exact inv.emCommit m hm
      · rcases hout _ hm with ⟨rfl, d, _, _, _, hx⟩ | ⟨rfl, a, p, v, _, _, _, hx⟩ <;> simp at hx
    · intro m hm
      simp only [hpolyEq]
      rcases List.mem_append.1 hm with hm | hm
      · exact inv.emEval m hm
      · rcases hout _ hm with ⟨rfl, d, _, _, _, hx⟩ | ⟨rfl, a, p, v, _, _, _, hx⟩ <;> simp at hx
    · intro m hm
      simp only [hpolyEq]
      rcases List.mem_append.1 hm with hm | hm
      · exact inv.emApol m hm
      · rcases hout _ hm with ⟨rfl, d, _, _, _, hx⟩ | ⟨rfl, a, p, v, _, h2, h3, hx⟩
        · simp at hx
        · simp only [Op.apology.injEq] at hx
          subst hx
          exact ⟨p, v, h2, h3, rfl⟩
    · intro h2 d hd hdk
      simp only at h2 ⊢
      rw [good_frozen env w.state op o ho h2]
      by_cases c2 : op = .start2
      · subst c2
        constructor
        · intro hm
          rcases List.mem_append.1 hm with hm | hm
          · exact absurd hm (inv.noAcc (by have := hprev.2.1 rfl; omega) _)
          · rcases hout _ hm with ⟨_, d', _, _, h3, hx⟩ | ⟨hc, _⟩
            · simp only [Op.accusation.injEq, AccusationMsg.mk.injEq, true_and] at hx
              rw [hx]; exact h3
            · simp at hc
        · intro hg
          apply List.mem_append_right
          rw [start2_out env w.state o ho]
          refine ⟨d, by rw [lg.num]; exact hd, by rw [lg.keyper]; exact hdk, (shouldAccuse_iff _ _ _).2 hg, ?_⟩
          rw [lg.eon, lg.keyper]
      · have hw2 : 2 ≤ w.state.phase := by
          rcases hpos with rfl | rfl | rfl | h3
          · exact absurd rfl c2
          · have := hprev.2.2.1 rfl; omega
          · have := hprev.2.2.2 rfl; omega
          · omega
        rw [← inv.acc hw2 d hd hdk]
        constructor
        · intro hm
          rcases List.mem_append.1 hm with hm | hm
          · exact hm
          · rcases hout _ hm with ⟨rfl, _⟩ | ⟨_, a, p, v, _, _, _, hx⟩
            · exact absurd rfl c2
            · simp at hx
        · exact fun hm => List.mem_append_left _ hm
    · intro h3 a ha
      simp only at h3 ha
      simp only [hpolyEq]
      rw [accus_frozen env w.state op o ho h3] at ha
      by_cases c3 : op = .start3
      · subst c3
        obtain ⟨s1, s2⟩ := start3_out env w.state o ho
        rw [lg.keyper] at s2
        obtain ⟨p, v, hp, hv⟩ := s2 a ha
        refine ⟨p, v, hp, hv, List.mem_append_right _ ?_⟩
        rw [s1, lg.eon, lg.keyper]
        exact ⟨a, p, v, ha, hp, hv, rfl⟩
      · have hw3 : 3 ≤ w.state.phase := by
          rcases hpos with rfl | rfl | rfl | h3
          · simp only at hph; omega
          · exact absurd rfl c3
          · have := hprev.2.2.2 rfl; omega
          · omega
        obtain ⟨p, v, hp, hv, hm⟩ := inv.apol hw3 a ha
        exact ⟨p, v, hp, hv, List.mem_append_left _ hm⟩

theorem honestInv_run (env : Env G1 G2 GT) (e n t k : Nat) (ops : List (Op G2)) (w : World G2)
    (hops : Op.start1 none ∉ ops)
    (h : run env (newWorld G2 e n t k) ops = some w) : HonestInv env e n t k w :=
  run_induct env _ ops _ w (honestInv_init env e n t k)
    (fun a op b hm ha hb => honestInv_exec env e n t k a b op (fun hc => hops (hc ▸ hm)) ha hb) h

end Shutter.Dkg
