import Verif.Proofs.SolCalls
import Verif.Proofs.SolDemo

/-! Property theorems C46 and C47: the executor contract.

`WorldReach`: any history. `TameReach`: a history in which the targets called by the executor do not call the executor. -/

namespace Shutter.Sol.Props
open Shutter.Sol World

/-! ### C46 -/

/-- **C46** The number of half steps never decreases, in any history. -/
theorem C46_never_decreases {E : Env} {w w' : World} (h : WorldReach E w) (l : WorldLater E w w') :
    w.executor.halfSteps ≤ w'.executor.halfSteps :=
  halfSteps_later (worldLater_plater h.preach.inv l)

/-- **C46** No half step is reported executed or skipped twice, and the reports come in order, in any history. -/
theorem C46_reported_once {E : Env} {w : World} (h : WorldReach E w) :
    w.halfStepsReported.Pairwise (· < ·) ∧ ∀ m ∈ w.halfStepsReported, m ≤ w.executor.halfSteps :=
  reported_once h.preach

/-- **C46** Unless the owner moved the counter, exactly the half steps below the counter have been reported, one by one. -/
theorem C46_in_order {E : Env} {w : World} (h : WorldReach E w) (hn : w.NeverSet) :
    w.halfStepsReported = List.range' 1 w.executor.halfSteps :=
  reported_range h.preach hn

/-- **C46** (tame targets) Every half step was executed or skipped after the end of its batch: a report of `m` half steps
at block `n` concerns half step `m - 1` and hence batch `(m - 1) / 2`. -/
theorem C46_after_end {E : Env} {w : World} (h : TameReach E w) {n m : Nat} {ev : Event} (hm : (n, ev) ∈ w.log)
    (he : ev.halfStepsReported = some m) :
    1 ≤ m ∧ ∃ bc start stop timeout, w.HasBatch ((m - 1) / 2) bc start stop timeout ∧ stop ≤ n := by
  obtain ⟨h1, _, h2⟩ := (execInv h.preach).ended n ev m hm he
  exact ⟨h1, h2⟩

/-- **C46** (tame targets) A cipher half step is skipped only after its timeout, or if its batch has no encrypted
transactions (batch hash zero). -/
theorem C46_skipped {E : Env} {w : World} (h : TameReach E w) {n m : Nat} (hm : (n, Event.cipherSkipped m) ∈ w.log) :
    m % 2 = 1 ∧ ∃ bc start stop timeout, w.HasBatch (m / 2) bc start stop timeout ∧ stop ≤ n ∧
      (timeout ≤ n ∨ w.batcher.hashes (m / 2) .cipher = zeroHash) := by
  obtain ⟨h1, bc, st, e, t, h2, h3, h4⟩ := (execInv h.preach).skipped n m hm
  rw [show (m - 1) / 2 = m / 2 by omega] at h2 h4
  exact ⟨h1, bc, st, e, t, h2, h3, h4⟩

/-- **C46** (tame targets) A cipher half step (odd `m`) is executed by a keyper of the batch, in time, for the encrypted
transactions accepted by the batcher, and nothing is executed for a batch without encrypted transactions. The receipt
says so. -/
theorem C46_cipher_executed {E : Env} {w : World} (h : TameReach E w) {n m : Nat} {hash : Bytes} (hodd : m % 2 = 1)
    (hm : (n, Event.batchExecuted m hash) ∈ w.log) :
    ∃ bc start stop timeout keyper txs, w.HasBatch (m / 2) bc start stop timeout ∧ stop ≤ n ∧ n < timeout ∧
      keyper ∈ bc.keypers ∧ (m / 2, TxType.cipher, txs) ∈ w.executions ∧ hash = chainHashes E txs ∧
      (w.accepted (m / 2) .cipher = [] → txs = []) ∧
      w.executor.receipts (m - 1) = ⟨true, keyper, m - 1, chainHashes E (w.accepted (m / 2) .cipher), hash⟩ := by
  have inv := execInv h.preach
  obtain ⟨s, h', txs, h1, rfl⟩ := inv.executedCipher n m hash hodd hm
  obtain ⟨_, h2, bc, st, e, t, h3, h4, h5, h6, h7, h8⟩ := inv.cipher n s (m / 2) h' txs h1
  have hb := (batcherInv h.preach).hash (m / 2) .cipher
  refine ⟨bc, st, e, t, s, txs, h3, h4, h5, h6, ?_, rfl, ?_, ?_⟩
  · unfold World.executions
    rw [List.mem_filterMap]
    exact ⟨_, h1, rfl⟩
  · intro ha
    apply h8
    rw [h7, hb, ha]; rfl
  · rw [show m - 1 = 2 * (m / 2) by omega, h2, ← hb, ← h7]

/-- **C46** (tame targets) A plain half step (even `m`) is executed for the plain transactions accepted by the batcher. -/
theorem C46_plain_executed {E : Env} {w : World} (h : TameReach E w) {n m : Nat} {hash : Bytes} (hev : m % 2 = 0)
    (hm : (n, Event.batchExecuted m hash) ∈ w.log) : hash = chainHashes E (w.accepted (m / 2 - 1) .plain) := by
  rw [← (batcherInv h.preach).hash]
  exact ((execInv h.preach).executedPlain n m hash hev hm).2

/-- **C46** Who may call `executeCipherBatch` when (in any history): the counter is at the cipher part of the batch, and
either the timeout has passed, or the batch is over and the sender is the keyper with the given index, not slashed, and
names the right batch hash. -/
theorem C46_cipher_call {E : Env} {w w' : World} (h : WorldReach E w) {sender : Address} {b k : Nat} {hash : Bytes}
    {txs : List Bytes} {inner : List (List Op)} (hs : w.step E (.executeCipherBatch sender b hash txs k inner) = some w') :
    w.executor.halfSteps = 2 * b ∧
    ((w.TimedOut b ∧ w'.executions = w.executions ∧ w'.targetTxs = w.targetTxs) ∨
      (w.BatchOver b ∧ ¬ w.TimedOut b ∧ w.KeyperOf b sender k ∧ (w.deposit.deposits sender).slashed = false ∧
        hash = chainHashes E (w.accepted b .cipher))) := by
  have hi := h.preach.inv
  rw [World.step] at hs
  split at hs
  · simp at hs
  · next hp =>
    obtain ⟨g1, _, g2⟩ := cipherPre_spec hi hp
    have := (skipCipherPost_noCalls hs).spec
    exact ⟨g1, .inl ⟨g2, this.2, this.1⟩⟩
  · next t sel hp =>
    obtain ⟨g1, g2, g3, g4, _, g5, bc, st, e, t', g6, _, _, g7⟩ := cipherPre_spec hi hp
    refine ⟨g1, .inr ⟨g2, ?_, g3, g5, by rw [← (batcherInv h.preach).hash]; exact g4⟩⟩
    rintro ⟨_, _, _, t2, g8, g9⟩
    obtain ⟨-, -, -, rfl⟩ := HasBatch.unique g6 g8
    omega

/-- **C46** (tame targets) The executor never gets stuck at a plain half step: whoever calls `executePlainBatch` with the
accepted transactions succeeds, whatever the targets do besides calling the executor. In particular the assertions in
the contract hold. -/
theorem C46_plain_possible {E : Env} {w : World} (h : TameReach E w) {b : Nat} (hb : w.executor.halfSteps = 2 * b + 1)
    (fits : w.executor.halfSteps + 1 < two64) (sender : Address) (inner : List (List Op))
    (tame : Op.Tame (.executePlainBatch sender b (w.accepted b .plain) inner)) :
    ∃ w', w.step E (.executePlainBatch sender b (w.accepted b .plain) inner) = some w' := by
  have hi := h.preach.inv
  have ho := (execInv h.preach).over (by omega)
  rw [show w.executor.halfSteps / 2 = b by omega] at ho
  obtain ⟨bc, st, e, t, ⟨i, h1, h2, h3⟩, h4⟩ := id ho
  have hact : w.config.batchingActive i = some true := by
    obtain ⟨bc', g1, g2, _⟩ := Config.boundary_iff.1 h3
    exact active_iff.2 ⟨bc', g1, g2⟩
  have hpre : w.plainPre b = some (bc.targetAddress, bc.targetFunctionSelector) := by
    simp only [plainPre, Option.bind_eq_bind, Option.bind_eq_some_iff, require_eq_some, Option.some.injEq, u64_eq_some]
    exact ⟨b, ⟨rfl, by omega⟩, (), by omega, (), by omega, i, h1, bc, h2, true, hact, (), rfl, (st, e, t), h3, (), h4, rfl⟩
  obtain ⟨ps, hex, _⟩ := tame_targets (E := E) (w := w) (t := (bc.targetAddress, bc.targetFunctionSelector))
    (txs := w.accepted b .plain) tame rfl rfl hi
  rw [World.step, hpre]
  rw [← Option.isSome_iff_exists]
  simp only [plainPost, incHalfSteps, hashes_prims hi ps ho, hex, (batcherInv h.preach).hash b .plain]
  simp [require, addU64, u64, fits]

/-- **C46** After the timeout anyone can skip the cipher half step, in any history. -/
theorem C46_skip_possible {E : Env} {w : World} (h : WorldReach E w) {b : Nat} (hb : w.executor.halfSteps = 2 * b)
    (fits : w.executor.halfSteps + 1 < two64) (ht : w.TimedOut b) (sender : Address) :
    ∃ w', w.step E (.skipCipherExecution sender b) = some w' ∧ w'.executor.halfSteps = 2 * b + 1 := by
  obtain ⟨bc, st, e, t, ⟨i, h1, h2, h3⟩, h4⟩ := ht
  have hact : w.config.batchingActive i = some true := by
    obtain ⟨bc', g1, g2, _⟩ := Config.boundary_iff.1 h3
    exact active_iff.2 ⟨bc', g1, g2⟩
  obtain ⟨w', hw⟩ : ∃ w', w.skipCipherPost = some w' := by
    rw [← Option.isSome_iff_exists]
    simp [skipCipherPost, incHalfSteps, addU64, u64, fits]
  refine ⟨w', ?_, by rw [(skipCipherPost_spec hw).2, hb]⟩
  rw [World.step, World.atomic]
  simp only [skipCipherExecution, Option.bind_eq_bind, Option.bind_eq_some_iff, require_eq_some, u64_eq_some]
  exact ⟨b, ⟨rfl, by omega⟩, (), by omega, (), by omega, i, h1, true, hact, (), rfl, (st, e, t), h3, (), h4, hw⟩

/-! ### C47 -/

/-- **C47** (tame targets) The targets have been called with exactly the transactions of the successful executions, in
order and without interruption, each one at the target contract and function of the batch's config. -/
theorem C47_calls {E : Env} {w : World} (h : TameReach E w) :
    w.targetTxs = w.executions.flatMap (fun x => x.2.2.map (fun tx => ((w.targetOf x.1).1, (w.targetOf x.1).2, tx))) :=
  (faithful_reach h).1

/-- **C47** (tame targets) Executions follow the order of batches, encrypted before plain transactions, and no part of a
batch is executed twice. -/
theorem C47_executed_once {E : Env} {w : World} (h : TameReach E w) :
    w.executions.Pairwise (fun x y => x.1 < y.1 ∨ (x.1 = y.1 ∧ x.2.1 = .cipher ∧ y.2.1 = .plain)) := by
  have := (executions_order h.preach).1
  rw [List.pairwise_map] at this
  refine this.imp ?_
  rintro ⟨b, ty, txs⟩ ⟨b', ty', txs'⟩ hlt
  unfold execKey at hlt
  cases ty <;> cases ty' <;> simp at hlt ⊢ <;> omega

/-- In any history a successful plain execution was for the right hash. -/
theorem plainDone_hash {E : Env} {w : World} (h : WorldReach E w) {n : Nat} {s : Address} {b : Nat} {txs : List Bytes} :
    (n, Event.plainDone s b txs) ∈ w.log → w.BatchOver b ∧ chainHashes E txs = w.batcher.hashes b .plain := by
  revert n s b txs
  refine PReach.induct (I := fun w => ∀ {n s b txs}, (n, Event.plainDone s b txs) ∈ w.log →
    w.BatchOver b ∧ chainHashes E txs = w.batcher.hashes b .plain) ?_ ?_ ?_ h.preach
  · rintro w ⟨_, _, _, _, _, _, _, _, _, _, rfl⟩; simp [World.deployed]
  · intro w blk ih hb _ n s b txs hm
    obtain ⟨⟨bc, st, e, t, h1, h2⟩, h3⟩ := ih hm
    exact ⟨⟨bc, st, e, t, h1, le_trans h2 hb⟩, h3⟩
  · intro w w' hr ih p n s b txs hm
    have hi := hr.inv
    obtain ⟨hblk, hlat⟩ := prim_config p
    have old : (n, Event.plainDone s b txs) ∈ w.log → w'.BatchOver b ∧ chainHashes E txs = w'.batcher.hashes b .plain := by
      intro hm
      obtain ⟨h1, h2⟩ := ih hm
      exact ⟨batchOver_mono hi (le_of_eq hblk.symm) hlat h1, by rw [hashes_prim p h1]; exact h2⟩
    cases prim_exec p with
    | other l _ h1 h2 =>
      rw [h1, List.mem_append] at hm
      rcases hm with hm | hm
      · exact old hm
      · have := h2 _ hm; simp [Event.quiet, Event.ofExecutor] at this
    | set _ _ _ _ _ h1 =>
      rw [h1] at hm; simp at hm; exact old hm
    | skipped _ _ _ _ _ h1 =>
      rw [h1] at hm; simp at hm; exact old hm
    | plainSkipped _ _ _ _ h1 =>
      rw [h1] at hm; simp at hm; exact old hm
    | cipherDone _ _ _ _ _ _ _ _ _ _ _ _ _ _ _ _ _ _ h1 =>
      rw [h1] at hm; simp at hm; exact old hm
    | plainDone s' b' txs' g1 g2 _ _ _ h1 =>
      rw [h1] at hm
      simp only [List.mem_append, List.mem_cons, Prod.mk.injEq, reduceCtorEq, and_false, false_or, List.not_mem_nil,
        or_false] at hm
      rcases hm with hm | ⟨rfl, hq⟩
      · exact old hm
      · injection hq with q1 q2 q3
        subst q1 q2 q3
        exact ⟨batchOver_mono hi (le_of_eq hblk.symm) hlat g1, by rw [hashes_prim p g1]; exact g2⟩

/-- **C47** (any history, also with targets that call back; what remains true of the property then) The transactions of
every successful plain execution are exactly the accepted plain transactions of the batch in their order, or a keccak
collision (or a preimage of zero) is among the strings hashed. Missing: that the batch is executed only once, see
`C47_reentrancy_counterexample`. -/
theorem C47_plain_right_partial {E : Env} (h32 : ∀ x, (E.keccak x).length = 32) {w : World} (h : WorldReach E w) {b : Nat}
    {txs : List Bytes} (hm : (b, TxType.plain, txs) ∈ w.executions) :
    txs = w.accepted b .plain ∨
    (∃ x ∈ chainPreimages E txs, ∃ y ∈ chainPreimages E (w.accepted b .plain), x ≠ y ∧ E.keccak x = E.keccak y) ∨
    (∃ x ∈ chainPreimages E txs ++ chainPreimages E (w.accepted b .plain), E.keccak x = zeroHash) := by
  unfold World.executions at hm
  rw [List.mem_filterMap] at hm
  obtain ⟨⟨n, ev⟩, h1, h2⟩ := hm
  cases ev <;> simp at h2
  obtain ⟨rfl, rfl⟩ := h2
  obtain ⟨_, h3⟩ := plainDone_hash h h1
  rw [(batcherInv h.preach).hash] at h3
  exact chainHash_inj_aux E h32 _ _ h3

/-- **C47** False of the code for targets that call back: `executePlainBatch` has no protection against reentrancy. Here
the target of the first plain transaction of batch 0 calls `executePlainBatch` itself: both transactions are executed
twice, the counter moves on by two, and the encrypted part of batch 1, which is still open, counts as done. -/
theorem C47_reentrancy_counterexample : ∃ E w, WorldReach E w ∧
    w.executions = [(0, .cipher, [[7]]), (0, .plain, [[3], [5]]), (0, .plain, [[3], [5]])] ∧
    w.targetTxs.map (fun x => x.2.2) = [[7], [3], [3], [5], [5]] ∧ w.accepted 0 .plain = [[3], [5]] ∧
    w.executor.halfSteps = 3 ∧ (∃ bc, w.HasBatch 1 bc 100 120 150) ∧ w.block = 116 ∧ w.accepted 1 .cipher = [[8]] :=
  ⟨Demo.env, Demo.hostile, Demo.hostile_reach, by decide +kernel, by decide +kernel, by decide +kernel, by decide +kernel,
    ⟨Demo.config, 1, by decide +kernel, by decide +kernel, by decide +kernel⟩, by decide +kernel, by decide +kernel⟩

/-! ### Instances -/

/-- A tame history with executed, skipped and empty parts of batches. -/
example : TameReach Demo.env Demo.executed ∧ Demo.executed.halfStepsReported = [1, 2, 3, 4, 5, 6, 7, 8] ∧
    Demo.executed.executions = [(0, .cipher, [[7]]), (0, .plain, [[3], [5]]), (1, .plain, [[9, 9]])] ∧
    Demo.executed.targetTxs = [(60, [0, 0, 0, 0], [7]), (60, [0, 0, 0, 0], [3]), (60, [0, 0, 0, 0], [5]),
      (60, [0, 0, 0, 0], [9, 9])] ∧
    (160, Event.cipherSkipped 3) ∈ Demo.executed.log ∧ Demo.executed.block = 161 :=
  ⟨Demo.executed_tame, by decide +kernel, by decide +kernel, by decide +kernel, by decide +kernel, by decide +kernel⟩

example : Demo.executed.NeverSet := by
  intro n m hm
  have : Demo.executed.log.all (fun e => match e.2 with | .halfStepsSet _ => false | _ => true) = true := by decide +kernel
  rw [List.all_eq_true] at this
  simpa using this _ hm

/-- The hypotheses of `C46_plain_possible`: the target may for instance submit a transaction. -/
example : ∃ w, TameReach Demo.env w ∧ w.executor.halfSteps = 2 * 0 + 1 ∧
    Op.Tame (.executePlainBatch 99 0 (w.accepted 0 .plain) [[.addTransaction 60 2 .plain [1] 3]]) := by
  have hrun : (Demo.run Demo.submitted (Demo.executionOps.take 1)).isSome = true := by decide +kernel
  obtain ⟨w, hw⟩ := Option.isSome_iff_exists.1 hrun
  refine ⟨w, ?_, ?_, .mk ?_ ?_⟩
  · obtain ⟨w0, h0, h1⟩ := Demo.submitted_tame
    exact ⟨w0, h0, h1.trans (Demo.run_tame hw (fun x hx => Demo.tame_flat (by revert x; decide +kernel)))⟩
  · have : (Demo.run Demo.submitted (Demo.executionOps.take 1)).map (fun w => w.executor.halfSteps) = some 1 := by
      decide +kernel
    rw [hw] at this; simpa using this
  · intro _ o ho
    simp [Op.nested] at ho; subst ho
    exact .mk rfl (by simp [Op.nested])
  · intro o ho
    simp [Op.nested] at ho; subst ho
    exact Demo.tame_flat rfl

end Shutter.Sol.Props
