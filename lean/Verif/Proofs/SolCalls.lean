import Verif.Proofs.SolExec

/-! # The calls of the targets -/

namespace Shutter.Sol
open World

theorem HasBatch.target {w : World} {b bc st e t} (h : w.HasBatch b bc st e t) :
    w.targetOf b = (bc.targetAddress, bc.targetFunctionSelector) := by
  obtain ⟨i, h1, h2, _⟩ := h
  simp only [Config.scheduledConfig, Option.bind_eq_bind, Option.bind_eq_some_iff] at h2
  obtain ⟨_, _, h2⟩ := h2
  simp [World.targetOf, Config.configForBatchIndex, h1, h2]

theorem target_mono {w w' : World} (hi : w.config.Inv) (l : ConfigLater w.configAt w'.configAt) {b} (ho : w.BatchOver b) :
    w'.targetOf b = w.targetOf b := by
  obtain ⟨bc, st, e, t, h1, h2⟩ := ho
  rw [HasBatch.target h1, HasBatch.target (hasBatch_mono hi l h1 (le_trans (HasBatch.order h1).1 h2))]

def Event.call? : Event → Option (Address × Bytes × Bytes)
  | .targetCalled t sel tx => some (t, sel, tx)
  | _ => none

def Event.execution? : Event → Option (Nat × TxType × List Bytes)
  | .cipherDone _ b _ txs => some (b, .cipher, txs)
  | .plainDone _ b txs => some (b, .plain, txs)
  | _ => none

theorem filterMap_trace {α : Type} (f : Event → Option α) (hf : ∀ e, e.ofExecutor = false → f e = none)
    (l : List (Nat × Event)) : l.filterMap (fun e => f e.2) = ((l.map Prod.snd).filter Event.ofExecutor).filterMap f := by
  induction l with
  | nil => rfl
  | cons x l ih =>
    simp only [List.map_cons, List.filter_cons]
    cases h : x.2.ofExecutor
    · simp [hf x.2 h, ih]
    · simp [List.filterMap_cons, ih]

theorem targetTxs_trace (w : World) : w.targetTxs = w.execTrace.filterMap Event.call? := by
  unfold World.execTrace
  rw [← filterMap_trace]
  · unfold World.targetTxs
    congr 1
  · intro e he; cases e <;> simp_all [Event.ofExecutor, Event.call?]

theorem executions_trace (w : World) : w.executions = w.execTrace.filterMap Event.execution? := by
  unfold World.execTrace
  rw [← filterMap_trace]
  · unfold World.executions
    congr 1
  · intro e he; cases e <;> simp_all [Event.ofExecutor, Event.execution?]

/-- No calls, no executions. -/
def NoCalls (w w' : World) : Prop := ∃ l, w'.execTrace = w.execTrace ++ l ∧ ∀ e ∈ l, e.call? = none ∧ e.execution? = none

theorem NoCalls.refl (w : World) : NoCalls w w := ⟨[], by simp, by simp⟩
theorem NoCalls.trans {w w' w'' : World} (h : NoCalls w w') (h' : NoCalls w' w'') : NoCalls w w'' := by
  obtain ⟨l, h1, h2⟩ := h
  obtain ⟨l', h1', h2'⟩ := h'
  refine ⟨l ++ l', by rw [h1', h1, List.append_assoc], fun e he => ?_⟩
  rw [List.mem_append] at he
  rcases he with he | he
  · exact h2 e he
  · exact h2' e he

theorem NoCalls.spec {w w' : World} (h : NoCalls w w') : w'.targetTxs = w.targetTxs ∧ w'.executions = w.executions := by
  obtain ⟨l, h1, h2⟩ := h
  rw [targetTxs_trace, targetTxs_trace, executions_trace, executions_trace, h1]
  simp only [List.filterMap_append]
  constructor
  · rw [List.append_right_eq_self, List.filterMap_eq_nil_iff]; exact fun e he => (h2 e he).1
  · rw [List.append_right_eq_self, List.filterMap_eq_nil_iff]; exact fun e he => (h2 e he).2

theorem noCalls_one {w w' : World} {e : Event} (h : w'.log = w.log ++ [(w.block, e)])
    (he : e.call? = none ∧ e.execution? = none) : NoCalls w w' := by
  refine ⟨if e.ofExecutor then [e] else [], ?_, ?_⟩
  · simp only [World.execTrace, h, List.map_append, List.map_cons, List.map_nil, List.filter_append]
    congr 1
    cases hh : e.ofExecutor <;> simp [hh]
  · intro e' he'
    split at he'
    · simp at he'; subst he'; exact he
    · simp at he'

theorem skipCipherPost_noCalls {w w' : World} (h : w.skipCipherPost = some w') : NoCalls w w' := by
  simp only [skipCipherPost, incHalfSteps, Option.bind_eq_bind, Option.bind_eq_some_iff, Option.some.injEq,
    addU64_eq_some] at h
  obtain ⟨_, ⟨_, ⟨rfl, hlt⟩, rfl⟩, rfl⟩ := h
  exact noCalls_one rfl ⟨rfl, rfl⟩

theorem skipPlain_noCalls {w w' : World} {n b} (h : w.skipPlain n b = some w') : NoCalls w w' := by
  unfold skipPlain at h
  split at h
  · simp at h; subst h; exact noCalls_one rfl ⟨rfl, rfl⟩
  · simp at h

theorem skipLoop_noCalls {n : Nat} {w w' : World} (h : w.skipLoop n = some w') : NoCalls w w' := by
  induction n generalizing w with
  | zero => simp [skipLoop] at h; subst h; exact .refl _
  | succ n ih =>
    rw [skipLoop] at h
    split at h
    · split at h
      · simp at h
      · simp at h; subst h; exact .refl _
      · split at h
        · simp at h
        · next w1 h1 =>
          have p1 := skipCipherPost_noCalls h1
          split at h
          · split at h
            · simp at h; subst h; exact p1
            · next w2 h2 => exact (p1.trans (skipPlain_noCalls h2)).trans (ih h)
          · split at h
            · simp at h
            · simp at h; subst h; exact p1
    · split at h
      · split at h
        · simp at h; subst h; exact .refl _
        · next w2 h2 => exact (skipPlain_noCalls h2).trans (ih h)
      · split at h
        · simp at h
        · simp at h; subst h; exact .refl _

theorem atomic_noCalls {E} {w w' : World} {op : Op} (h : w.atomic E op = some w') : NoCalls w w' := by
  by_cases hx : op.callsExecutor = true
  · cases op <;> simp [Op.callsExecutor] at hx
    case setHalfSteps s n =>
      simp only [atomic, setHalfSteps, Option.bind_eq_bind, Option.bind_eq_some_iff, require_eq_some, Option.some.injEq,
        u64_eq_some] at h
      obtain ⟨_, _, _, ⟨rfl, hn⟩, i, hi, ⟨st, e, t⟩, hbd, _, ht, _, hlt, j, hj, ⟨st', e', t'⟩, hbd', _, he, rfl⟩ := h
      exact noCalls_one rfl ⟨rfl, rfl⟩
    case executeCipherBatch => simp [atomic] at h
    case executePlainBatch => simp [atomic] at h
    case skipEmptyOrTimedOutBatches =>
      simp only [atomic, skipEmptyOrTimedOutBatches, Option.bind_eq_bind, Option.bind_eq_some_iff] at h
      obtain ⟨_, _, h⟩ := h
      exact skipLoop_noCalls h
    case skipCipherExecution =>
      simp only [atomic, skipCipherExecution, Option.bind_eq_bind, Option.bind_eq_some_iff, require_eq_some,
        u64_eq_some] at h
      obtain ⟨_, ⟨rfl, _⟩, _, hb, _, hev, i, hi, _, _, _, _, ⟨st, e, t⟩, hbd, _, ht, h⟩ := h
      exact skipCipherPost_noCalls h
  · have hn : op.nested = [] := by cases op <;> simp_all [atomic, Op.nested]
    have ht : op.Throughout (fun o => o.callsExecutor = false) := .mk (by simpa using hx) (by rw [hn]; simp)
    exact ⟨[], by rw [((noExec_cases E).atomic ht h).2]; simp, by simp⟩

/-- The calls made for executions. -/
def World.callsFor (w : World) (x : Nat × TxType × List Bytes) : List (Address × Bytes × Bytes) :=
  x.2.2.map (fun tx => ((w.targetOf x.1).1, (w.targetOf x.1).2, tx))

/-- The new calls are those of the new executions. -/
structure Faithful (w w' : World) : Prop where
  inv : w'.config.Inv
  later : ConfigLater w.configAt w'.configAt
  new : ∃ Ex, w'.executions = w.executions ++ Ex ∧ w'.targetTxs = w.targetTxs ++ Ex.flatMap w'.callsFor ∧
    ∀ x ∈ Ex, w'.BatchOver x.1

theorem faithful_of_noCalls {E} {w w' : World} (hi : w.config.Inv) (hp : Prims true E w w') (h : NoCalls w w') :
    Faithful w w' :=
  ⟨prims_inv hi hp, (prims_config hp).2, [], by simp [h.spec.2], by simp [h.spec.1], by simp⟩

theorem callsFor_mono {w w' : World} (hi : w.config.Inv) (l : ConfigLater w.configAt w'.configAt)
    {Ex : List (Nat × TxType × List Bytes)} (ho : ∀ x ∈ Ex, w.BatchOver x.1) : Ex.flatMap w'.callsFor = Ex.flatMap w.callsFor := by
  induction Ex with
  | nil => rfl
  | cons x Ex ih =>
    rw [List.flatMap_cons, List.flatMap_cons, ih (fun y hy => ho y (by simp [hy]))]
    congr 1
    simp [World.callsFor, target_mono hi l (ho x (by simp))]

theorem Faithful.trans {w w' w'' : World} (h : Faithful w w') (h' : Faithful w' w'') : Faithful w w'' := by
  obtain ⟨i1, l1, Ex, e1, t1, o1⟩ := h
  obtain ⟨i2, l2, Ex', e2, t2, o2⟩ := h'
  have hb := Config.block_mono l2
  refine ⟨i2, l1.trans l2, Ex ++ Ex', by rw [e2, e1, List.append_assoc], ?_, ?_⟩
  · rw [t2, t1, List.flatMap_append, List.append_assoc, callsFor_mono i1 l2 o1]
  · intro x hx
    rw [List.mem_append] at hx
    rcases hx with hx | hx
    · exact batchOver_mono i1 hb l2 (o1 x hx)
    · exact o2 x hx

theorem trace_emit_calls {w w' : World} {l : List Event} (h : w'.execTrace = w.execTrace ++ l) :
    w'.targetTxs = w.targetTxs ++ l.filterMap Event.call? ∧ w'.executions = w.executions ++ l.filterMap Event.execution? := by
  rw [targetTxs_trace, targetTxs_trace, executions_trace, executions_trace, h]
  simp

theorem called_filterMap (t : Address × Bytes) (txs : List Bytes) :
    (txs.map (fun tx => Event.targetCalled t.1 t.2 tx)).filterMap Event.call? = txs.map (fun tx => (t.1, t.2, tx)) ∧
    (txs.map (fun tx => Event.targetCalled t.1 t.2 tx)).filterMap Event.execution? = [] := by
  induction txs with
  | nil => simp
  | cons x xs ih => simp [Event.call?, Event.execution?, ih]

theorem faithful_same {w w' : World} (hi : w.config.Inv) (hc : w'.config = w.config) (hb : w'.block = w.block)
    (h : NoCalls w w') : Faithful w w' :=
  ⟨by rw [hc]; exact hi, by unfold World.configAt; rw [hc, hb], [], by simp [h.spec.2], by simp [h.spec.1], by simp⟩

theorem tame_targets {E} {w : World} {op : Op} {t : Address × Bytes} {txs inner} (hp : op.Tame) (hx : op.callsExecutor = true)
    (hn : op.nested = List.flatten inner) (hi : w.config.Inv) :
    Prims true E w (w.runTargets E t txs inner) ∧ (w.runTargets E t txs inner).executor = w.executor ∧
    (w.runTargets E t txs inner).execTrace = w.execTrace ++ txs.map (fun tx => Event.targetCalled t.1 t.2 tx) := by
  refine ⟨targets_cases (prims_cases true E) inner w t txs (fun o ho _ => throughout_nested (by rw [hn]; exact ho) hp) hi, ?_⟩
  exact noExec_trace (fun o ho => throughout_p hp hx o (by rw [hn]; exact ho))

theorem faithful_done {E} {w w1 w2 : World} {t : Address × Bytes} {b : Nat} {ty : TxType} {txs : List Bytes} {m : Nat} {h : Bytes}
    {ev : Event} (hi : w.config.Inv) (ps : Prims true E w w1)
    (htr : w1.execTrace = w.execTrace ++ txs.map (fun tx => Event.targetCalled t.1 t.2 tx))
    (hc : w2.config = w1.config) (hb : w2.block = w1.block)
    (hl : w2.log = (w1.log ++ [(w1.block, .batchExecuted m h)]) ++ [(w1.block, ev)])
    (hev : ev.ofExecutor = true) (hev1 : ev.execution? = some (b, ty, txs)) (hev2 : ev.call? = none)
    (ho : w.BatchOver b) (ht : w.targetOf b = t) : Faithful w w2 := by
  obtain ⟨c1, c2⟩ := prims_config ps
  have pin := prims_inv hi ps
  have htr2 : w2.execTrace = w.execTrace ++ (txs.map (fun tx => Event.targetCalled t.1 t.2 tx) ++
      [.batchExecuted m h, ev]) := by
    have : w2.execTrace = w1.execTrace ++ [.batchExecuted m h, ev] := by
      have hbe : (Event.batchExecuted m h).ofExecutor = true := rfl
      simp [World.execTrace, hl, hev, hbe]
    rw [this, htr, List.append_assoc]
  have c3 : ConfigLater w.configAt w2.configAt := by
    have : w2.configAt = w1.configAt := by unfold World.configAt; rw [hc, hb]
    rw [this]; exact c2
  obtain ⟨k1, k2⟩ := trace_emit_calls htr2
  refine ⟨by rw [hc]; exact pin, c3, [(b, ty, txs)], ?_, ?_, ?_⟩
  · rw [k2]
    simp only [List.filterMap_append, (called_filterMap t txs).2, List.nil_append, List.filterMap_cons, hev1,
      List.filterMap_nil]
    rfl
  · rw [k1]
    have : w2.targetOf b = t := by rw [target_mono hi c3 ho, ht]
    simp only [List.filterMap_append, (called_filterMap t txs).1, List.filterMap_cons, hev2, List.filterMap_nil,
      List.flatMap_cons, List.flatMap_nil, List.append_nil, World.callsFor, this]
    simp [Event.call?]
  · intro x hx
    simp at hx; subst hx
    exact batchOver_mono (w := w) hi (by rw [hb, c1]) c3 ho

/-- In tame calls, the new calls of targets are those of the new executions. -/
theorem faithful_cases (E : Env) : StepCases E Op.Tame (fun w w' => w.config.Inv → Faithful w w')
    (fun _ _ _ _ => True) where
  refl w hi := ⟨hi, .refl, [], by simp, by simp, by simp⟩
  trans h h' hi := (h hi).trans (h' (h hi).inv)
  closed ho h := throughout_nested ho h
  atomic := fun {w op w'} _ h hi => faithful_of_noCalls hi (atomic_prims hi h) (atomic_noCalls h)
  done _ _ := trivial
  called _ _ := trivial
  fee := by
    intro w s r a w1 w2 h h2 hi
    simp only [feeWithdrawPre, Option.bind_eq_bind, Option.bind_eq_some_iff, require_eq_some, Option.some.injEq] at h
    obtain ⟨_, g1, _, g2, _, g3, _, g4, rfl⟩ := h
    have f2 := h2 hi
    refine Faithful.trans (Faithful.trans ?_ f2) ?_
    · exact faithful_same hi rfl rfl (noCalls_one rfl ⟨rfl, rfl⟩)
    · exact faithful_same f2.inv rfl rfl (noCalls_one rfl ⟨rfl, rfl⟩)
  cipherSkip := by
    intro w s b h txs k inner w' _ hp hs hi
    obtain ⟨g1, g2, g3⟩ := cipherPre_spec hi hp
    have hb : w.executor.halfSteps / 2 = b := by omega
    exact faithful_of_noCalls (E := E) hi
      (.single (skipCipherPost_prim hs (by omega) (by rw [hb]; exact g2) (.inl (by rw [hb]; exact g3))))
      (skipCipherPost_noCalls hs)
  cipher := by
    intro w s b h txs k inner t sel w' hp hpre _ hpost hi
    obtain ⟨g1, g2, _, _, _, _, bc, st, e, t', g3, g4, g5, _⟩ := cipherPre_spec hi hpre
    obtain ⟨ps, _, htr⟩ := tame_targets (E := E) (t := (t, sel)) (txs := txs) hp rfl rfl hi
    simp only [cipherPost, incHalfSteps, Option.bind_eq_bind, Option.bind_eq_some_iff, Option.some.injEq,
      addU64_eq_some] at hpost
    obtain ⟨_, ⟨_, ⟨rfl, hlt⟩, rfl⟩, rfl⟩ := hpost
    exact faithful_done hi ps htr rfl rfl rfl rfl rfl rfl g2 (by rw [HasBatch.target g3, g4, g5])
  plain := by
    intro w s b txs inner t w' hp hpre _ hpost hi
    obtain ⟨g1, g2, bc, st, e, t', g3, g4⟩ := plainPre_spec hpre
    obtain ⟨ps, _, htr⟩ := tame_targets (E := E) (t := t) (txs := txs) hp rfl rfl hi
    simp only [plainPost, incHalfSteps, Option.bind_eq_bind, Option.bind_eq_some_iff, Option.some.injEq, require_eq_some,
      addU64_eq_some] at hpost
    obtain ⟨_, hh, _, ⟨_, ⟨rfl, hlt⟩, rfl⟩, rfl⟩ := hpost
    exact faithful_done hi ps htr rfl rfl rfl rfl rfl rfl g2 (by rw [HasBatch.target g3, g4])
  withdraw := by
    intro w s r w1 a w2 h h2 hi
    simp only [withdrawPre, Option.bind_eq_bind, Option.bind_eq_some_iff, require_eq_some, Option.some.injEq,
      Prod.mk.injEq, addU64_eq_some] at h
    obtain ⟨_, g1, _, g2, _, g3, _, ⟨rfl, _⟩, _, g4, _, _, _, _, _, g5, rfl, rfl⟩ := h
    have f2 := h2 hi
    refine Faithful.trans (Faithful.trans ?_ f2) ?_
    · exact faithful_same hi rfl rfl (noCalls_one rfl ⟨rfl, rfl⟩)
    · exact faithful_same f2.inv rfl rfl (noCalls_one rfl ⟨rfl, rfl⟩)
  slashDeposit := by
    intro w s a w1 w2 _ _ h h2 hi
    simp only [World.slashDeposit, Option.bind_eq_bind, Option.bind_eq_some_iff, require_eq_some, Option.some.injEq] at h
    obtain ⟨_, _, _, _, rfl⟩ := h
    refine Faithful.trans ?_ (h2 hi)
    exact faithful_same hi rfl rfl (noCalls_one rfl ⟨rfl, rfl⟩)
  slash := by
    intro w hs acc w1 w2 _ _ h h2 hi
    simp only [World.slashDeposit, Option.bind_eq_bind, Option.bind_eq_some_iff, require_eq_some, Option.some.injEq] at h
    obtain ⟨_, _, _, _, rfl⟩ := h
    have f2 := h2 hi
    refine Faithful.trans (Faithful.trans ?_ f2) ?_
    · exact faithful_same hi rfl rfl (noCalls_one rfl ⟨rfl, rfl⟩)
    · exact faithful_same f2.inv rfl rfl (noCalls_one rfl ⟨rfl, rfl⟩)

theorem faithful_reach {E w} (h : TameReach E w) : w.targetTxs = w.executions.flatMap w.callsFor ∧
    ∀ x ∈ w.executions, w.BatchOver x.1 := by
  obtain ⟨w0, h0, l⟩ := h
  have hi0 := deployed_inv h0
  have : Faithful w0 w := by
    induction l with
    | refl => exact (faithful_cases E).refl _ hi0
    | tail _ st ih =>
      refine ih.trans ?_
      cases st with
      | mine h1 h2 => exact ⟨ih.inv, .single (.mine h1 h2), [], by simp; rfl, by simp; rfl, by simp⟩
      | tx ht h => exact step_cases (faithful_cases E) _ _ _ ht h ih.inv
  obtain ⟨_, _, Ex, h1, h2, h3⟩ := this
  obtain ⟨_, _, _, _, _, _, _, _, _, _, rfl⟩ := h0
  simp only [World.deployed, World.executions, World.targetTxs, List.filterMap_nil, List.nil_append] at h1 h2
  constructor
  · unfold World.targetTxs World.executions; rw [h1, h2]
  · unfold World.executions; rw [h1]; exact h3

/-- The position of an execution in the order of half steps. -/
def execKey (x : Nat × TxType × List Bytes) : Nat := 2 * x.1 + (match x.2.1 with | .cipher => 0 | .plain => 1)

theorem executions_order {E w} (h : PReach true E w) : (w.executions.map execKey).Pairwise (· < ·) ∧
    ∀ k ∈ w.executions.map execKey, k < w.executor.halfSteps := by
  have app : ∀ {w w' : World} {l : List (Nat × Event)}, w'.log = w.log ++ l →
      w'.executions = w.executions ++ l.filterMap (fun e => e.2.execution?) := by
    intro w w' l h
    have : ∀ w : World, w.executions = w.log.filterMap (fun e => e.2.execution?) := by
      intro w
      unfold World.executions
      congr 1
    rw [this, this, h, List.filterMap_append]
  have add : ∀ {l : List Nat} {n : Nat}, l.Pairwise (· < ·) → (∀ m ∈ l, m < n) →
      (l ++ [n]).Pairwise (· < ·) ∧ ∀ m ∈ l ++ [n], m < n + 1 := by
    intro l n h1 h2
    constructor
    · rw [List.pairwise_append]
      exact ⟨h1, by simp, by intro a ha b hb; simp at hb; have := h2 a ha; omega⟩
    · intro m hm
      simp at hm
      rcases hm with hm | rfl
      · have := h2 m hm; omega
      · omega
  refine PReach.induct (I := fun w => (w.executions.map execKey).Pairwise (· < ·) ∧
    ∀ k ∈ w.executions.map execKey, k < w.executor.halfSteps) ?_ ?_ ?_ h
  · rintro w ⟨_, _, _, _, _, _, _, _, _, _, rfl⟩; simp [World.deployed, World.executions]
  · intro w b ih _ _; exact ih
  · intro w w' _ ih p
    cases prim_exec p with
    | other l h h1 h2 =>
      have : l.filterMap (fun e => e.2.execution?) = [] := by
        rw [List.filterMap_eq_nil_iff]
        intro x hx
        have := h2 x hx
        rcases x with ⟨n, e⟩
        cases e <;> simp_all [Event.quiet, Event.ofExecutor, Event.execution?]
      rw [app h1, this, h, List.append_nil]; exact ih
    | set n h1 _ h2 _ h3 =>
      rw [app h3, h2]
      simp only [List.filterMap_cons, Event.execution?, List.filterMap_nil, List.append_nil]
      exact ⟨ih.1, fun m hm => lt_trans (ih.2 m hm) h1⟩
    | skipped _ _ _ h _ h3 =>
      rw [app h3, h]
      simp only [List.filterMap_cons, Event.execution?, List.filterMap_nil, List.append_nil]
      exact ⟨ih.1, fun m hm => Nat.lt_succ_of_lt (ih.2 m hm)⟩
    | plainSkipped _ _ h _ h3 =>
      rw [app h3, h]
      simp only [List.filterMap_cons, Event.execution?, List.filterMap_nil, List.append_nil]
      exact ⟨ih.1, fun m hm => Nat.lt_succ_of_lt (ih.2 m hm)⟩
    | cipherDone s b hh txs _ _ _ _ _ _ _ _ _ _ _ g h _ h3 =>
      rw [app h3, h]
      simp only [List.filterMap_cons, Event.execution?, List.filterMap_nil, List.map_append, List.map_cons, List.map_nil]
      rw [show execKey (b, TxType.cipher, txs) = w.executor.halfSteps by rw [g rfl]; rfl]
      exact add ih.1 ih.2
    | plainDone s b txs _ _ g h _ h3 =>
      rw [app h3, h]
      simp only [List.filterMap_cons, Event.execution?, List.filterMap_nil, List.map_append, List.map_cons, List.map_nil]
      rw [show execKey (b, TxType.plain, txs) = w.executor.halfSteps by rw [g rfl]; rfl]
      exact add ih.1 ih.2

end Shutter.Sol
