import Verif.Proofs.SolBatcher

/-! # The executor -/

namespace Shutter.Sol
open World

/-- Events that are irrelevant to the counter. -/
def Event.quiet (e : Event) : Bool := e.ofExecutor = false || (match e with | .targetCalled _ _ _ => true | _ => false)

theorem quiet_reported {e : Event} (h : e.quiet = true) : e.halfStepsReported = none := by
  cases e <;> simp_all [Event.quiet, Event.ofExecutor, Event.halfStepsReported]

theorem reported_quiet_false {e : Event} {m : Nat} (h : e.halfStepsReported = some m) : e.quiet = false := by
  cases hq : e.quiet
  · rfl
  · rw [quiet_reported hq] at h; cases h

/-- What a primitive change does to the executor. -/
inductive ExecChange (tame : Bool) (E : Env) (w w' : World) : Prop
  | other (l : List (Nat × Event)) : w'.executor = w.executor → w'.log = w.log ++ l → (∀ x ∈ l, x.2.quiet = true) →
      ExecChange tame E w w'
  | set (n : Nat) : w.executor.halfSteps < n → w.BatchOver (n / 2) → w'.executor.halfSteps = n →
      w'.executor.receipts = w.executor.receipts → w'.log = w.log ++ [(w.block, .halfStepsSet n)] → ExecChange tame E w w'
  | skipped : w.executor.halfSteps % 2 = 0 → w.BatchOver (w.executor.halfSteps / 2) →
      (w.TimedOut (w.executor.halfSteps / 2) ∨ w.batcher.hashes (w.executor.halfSteps / 2) .cipher = zeroHash) →
      w'.executor.halfSteps = w.executor.halfSteps + 1 → w'.executor.receipts = w.executor.receipts →
      w'.log = w.log ++ [(w.block, .cipherSkipped (w.executor.halfSteps + 1))] → ExecChange tame E w w'
  | plainSkipped : w.executor.halfSteps % 2 = 1 → w.batcher.hashes (w.executor.halfSteps / 2) .plain = zeroHash →
      w'.executor.halfSteps = w.executor.halfSteps + 1 → w'.executor.receipts = w.executor.receipts →
      w'.log = w.log ++ [(w.block, .batchExecuted (w.executor.halfSteps + 1) zeroHash)] → ExecChange tame E w w'
  | cipherDone (s : Address) (b : Nat) (h : Bytes) (txs : List Bytes) (bc : BatchConfig) (st e t k : Nat) :
      w.HasBatch b bc st e t → e ≤ w.block → w.block < t → bc.keypers[k]? = some s → h = w.batcher.hashes b .cipher →
      (h ≠ zeroHash ∨ txs = []) → (tame = true → w.executor.halfSteps = 2 * b) →
      w'.executor.halfSteps = w.executor.halfSteps + 1 →
      w'.executor.receipts = upd w.executor.receipts w.executor.halfSteps
        ⟨true, s, w.executor.halfSteps, h, chainHashes E txs⟩ →
      w'.log = w.log ++ [(w.block, .batchExecuted (w.executor.halfSteps + 1) (chainHashes E txs)),
        (w.block, .cipherDone s b h txs)] → ExecChange tame E w w'
  | plainDone (s : Address) (b : Nat) (txs : List Bytes) : w.BatchOver b →
      chainHashes E txs = w.batcher.hashes b .plain → (tame = true → w.executor.halfSteps = 2 * b + 1) →
      w'.executor.halfSteps = w.executor.halfSteps + 1 → w'.executor.receipts = w.executor.receipts →
      w'.log = w.log ++ [(w.block, .batchExecuted (w.executor.halfSteps + 1) (chainHashes E txs)),
        (w.block, .plainDone s b txs)] → ExecChange tame E w w'

theorem prim_exec {tame E} {w w' : World} (p : Prim tame E w w') : ExecChange tame E w w' := by
  cases p
  case noted e he =>
    refine .other [_] rfl rfl ?_
    cases he <;> simp [Event.quiet, Event.ofExecutor]
  case config => exact .other [] rfl (by simp) (by simp)
  case minFee => exact .other [] rfl (by simp) (by simp)
  case kept => exact .other [] rfl (by simp) (by simp)
  case setSlasher => exact .other [] rfl (by simp) (by simp)
  case setReceiver => exact .other [] rfl (by simp) (by simp)
  case halfStepsSet n h1 h2 h3 h4 => exact .set n h1 h4 rfl rfl rfl
  case cipherSkipped h1 h2 h3 h4 => exact .skipped h1 h3 h4 rfl rfl rfl
  case plainSkipped h1 h2 h3 => exact .plainSkipped h1 h3 rfl rfl rfl
  case cipherDone s b h txs bc st e t k h1 h2 h3 h4 h5 h6 h7 h8 =>
    exact .cipherDone s b h txs bc st e t k h2 h3 h4 h5 h6 h7 h8 rfl rfl (List.append_assoc _ _ _)
  case plainDone s b txs h1 h2 h3 h4 => exact .plainDone s b txs h2 h3 h4 rfl rfl (List.append_assoc _ _ _)
  all_goals exact .other [_] rfl rfl (by simp [World.emit, Event.quiet, Event.ofExecutor])

theorem halfSteps_prim {tame E} {w w' : World} (p : Prim tame E w w') : w.executor.halfSteps ≤ w'.executor.halfSteps := by
  cases prim_exec p with
  | other l h _ _ => rw [h]
  | set n h1 _ h2 _ _ => omega
  | skipped _ _ _ h _ _ => omega
  | plainSkipped _ _ h _ _ => omega
  | cipherDone _ _ _ _ _ _ _ _ _ _ _ _ _ _ _ _ h _ _ => omega
  | plainDone _ _ _ _ _ _ h _ _ => omega

theorem halfSteps_later {tame E} {w w' : World} (l : PLater tame E w w') : w.executor.halfSteps ≤ w'.executor.halfSteps := by
  induction l with
  | refl => exact le_refl _
  | tail _ st ih =>
    cases st with
    | mine _ _ => exact ih
    | prim p => exact le_trans ih (halfSteps_prim p)

theorem reported_append {w w' : World} {l : List (Nat × Event)} (h : w'.log = w.log ++ l) :
    w'.halfStepsReported = w.halfStepsReported ++ l.filterMap (fun e => e.2.halfStepsReported) := by
  simp [World.halfStepsReported, h]

theorem reported_quiet {w w' : World} {l : List (Nat × Event)} (h : w'.log = w.log ++ l) (hq : ∀ x ∈ l, x.2.quiet = true) :
    w'.halfStepsReported = w.halfStepsReported := by
  rw [reported_append h, List.append_right_eq_self, List.filterMap_eq_nil_iff]
  exact fun x hx => quiet_reported (hq x hx)

theorem reported_pairwise {l : List Nat} {n : Nat} (h1 : l.Pairwise (· < ·)) (h2 : ∀ m ∈ l, m ≤ n) :
    (l ++ [n + 1]).Pairwise (· < ·) ∧ ∀ m ∈ l ++ [n + 1], m ≤ n + 1 := by
  constructor
  · rw [List.pairwise_append]
    exact ⟨h1, by simp, by intro a ha b hb; simp at hb; have := h2 a ha; omega⟩
  · intro m hm
    simp at hm
    rcases hm with hm | rfl
    · have := h2 m hm; omega
    · exact le_refl _

theorem reported_once {tame E w} (h : PReach tame E w) :
    w.halfStepsReported.Pairwise (· < ·) ∧ ∀ m ∈ w.halfStepsReported, m ≤ w.executor.halfSteps := by
  refine PReach.induct (I := fun w => w.halfStepsReported.Pairwise (· < ·) ∧
    ∀ m ∈ w.halfStepsReported, m ≤ w.executor.halfSteps) ?_ ?_ ?_ h
  · rintro w ⟨_, _, _, _, _, _, _, _, _, _, rfl⟩; simp [World.deployed, World.halfStepsReported]
  · intro w b ih _ _; exact ih
  · intro w w' _ ih p
    cases prim_exec p with
    | other l h h1 h2 => rw [reported_quiet h1 h2, h]; exact ih
    | set n h1 _ h2 _ h3 =>
      rw [reported_append h3, h2]
      simp only [List.filterMap_cons, Event.halfStepsReported, List.filterMap_nil, List.append_nil]
      exact ⟨ih.1, fun m hm => le_trans (ih.2 m hm) (le_of_lt h1)⟩
    | skipped _ _ _ h _ h3 =>
      rw [reported_append h3, h]
      exact reported_pairwise ih.1 ih.2
    | plainSkipped _ _ h _ h3 =>
      rw [reported_append h3, h]
      exact reported_pairwise ih.1 ih.2
    | cipherDone _ _ _ _ _ _ _ _ _ _ _ _ _ _ _ _ h _ h3 =>
      rw [reported_append h3, h]
      exact reported_pairwise ih.1 ih.2
    | plainDone _ _ _ _ _ _ h _ h3 =>
      rw [reported_append h3, h]
      exact reported_pairwise ih.1 ih.2

theorem neverSet_append {w w' : World} {l} (h : w'.log = w.log ++ l) (hn : w'.NeverSet) : w.NeverSet := by
  intro n m hm
  exact hn n m (by rw [h]; simp [hm])

theorem reported_range {tame E w} (h : PReach tame E w) :
    w.NeverSet → w.halfStepsReported = List.range' 1 w.executor.halfSteps := by
  refine PReach.induct (I := fun w => w.NeverSet → w.halfStepsReported = List.range' 1 w.executor.halfSteps) ?_ ?_ ?_ h
  · rintro w ⟨_, _, _, _, _, _, _, _, _, _, rfl⟩ _; simp [World.deployed, World.halfStepsReported]
  · intro w b ih _ _ hn; exact ih hn
  · intro w w' _ ih p hn
    have key : ∀ n : Nat, List.range' 1 n ++ [n + 1] = List.range' 1 (n + 1) := by
      intro n; rw [List.range'_concat]; simp; omega
    cases prim_exec p with
    | other l h h1 h2 => rw [reported_quiet h1 h2, h]; exact ih (neverSet_append h1 hn)
    | set n h1 _ h2 _ h3 => exact absurd (by rw [h3]; simp) (hn w.block n)
    | skipped _ _ _ h _ h3 =>
      rw [reported_append h3, h, ih (neverSet_append h3 hn)]
      exact key _
    | plainSkipped _ _ h _ h3 =>
      rw [reported_append h3, h, ih (neverSet_append h3 hn)]
      exact key _
    | cipherDone _ _ _ _ _ _ _ _ _ _ _ _ _ _ _ _ h _ h3 =>
      rw [reported_append h3, h, ih (neverSet_append h3 hn)]
      exact key _
    | plainDone _ _ _ _ _ _ h _ h3 =>
      rw [reported_append h3, h, ih (neverSet_append h3 hn)]
      exact key _

/-- The history of the executor, tame. -/
structure ExecInv (E : Env) (w : World) : Prop where
  over : w.executor.halfSteps % 2 = 1 → w.BatchOver (w.executor.halfSteps / 2)
  ended : ∀ n ev m, (n, ev) ∈ w.log → ev.halfStepsReported = some m → 1 ≤ m ∧ m ≤ w.executor.halfSteps ∧
    ∃ bc st e t, w.HasBatch ((m - 1) / 2) bc st e t ∧ e ≤ n
  skipped : ∀ n m, (n, Event.cipherSkipped m) ∈ w.log → m % 2 = 1 ∧
    ∃ bc st e t, w.HasBatch ((m - 1) / 2) bc st e t ∧ e ≤ n ∧ (t ≤ n ∨ w.batcher.hashes ((m - 1) / 2) .cipher = zeroHash)
  cipher : ∀ n s b h txs, (n, Event.cipherDone s b h txs) ∈ w.log →
    (n, Event.batchExecuted (2 * b + 1) (chainHashes E txs)) ∈ w.log ∧
    w.executor.receipts (2 * b) = ⟨true, s, 2 * b, h, chainHashes E txs⟩ ∧
    ∃ bc st e t, w.HasBatch b bc st e t ∧ e ≤ n ∧ n < t ∧ s ∈ bc.keypers ∧ h = w.batcher.hashes b .cipher ∧
      (h = zeroHash → txs = [])
  executedCipher : ∀ n m h, m % 2 = 1 → (n, Event.batchExecuted m h) ∈ w.log →
    ∃ s h' txs, (n, Event.cipherDone s (m / 2) h' txs) ∈ w.log ∧ h = chainHashes E txs
  executedPlain : ∀ n m h, m % 2 = 0 → (n, Event.batchExecuted m h) ∈ w.log →
    w.BatchOver (m / 2 - 1) ∧ h = w.batcher.hashes (m / 2 - 1) .plain
  plain : ∀ n s b txs, (n, Event.plainDone s b txs) ∈ w.log →
    (n, Event.batchExecuted (2 * b + 2) (chainHashes E txs)) ∈ w.log ∧ w.BatchOver b ∧ chainHashes E txs = w.batcher.hashes b .plain
  receipts : ∀ k, (w.executor.receipts k).executed = true → ∃ n s b h txs, (n, Event.cipherDone s b h txs) ∈ w.log ∧ k = 2 * b
  bound : ∀ n s b h txs, (n, Event.cipherDone s b h txs) ∈ w.log → 2 * b < w.executor.halfSteps

/-- What happened stays true. -/
theorem execInv_keep {tame E} {w w' : World} (hr : PReach tame E w) (ih : ExecInv E w) (p : Prim tame E w w')
    (hrec : ∀ k, k < w.executor.halfSteps → w'.executor.receipts k = w.executor.receipts k) :
    (∀ n ev m, (n, ev) ∈ w.log → ev.halfStepsReported = some m → 1 ≤ m ∧ m ≤ w'.executor.halfSteps ∧
      ∃ bc st e t, w'.HasBatch ((m - 1) / 2) bc st e t ∧ e ≤ n) ∧
    (∀ n m, (n, Event.cipherSkipped m) ∈ w.log → m % 2 = 1 ∧
      ∃ bc st e t, w'.HasBatch ((m - 1) / 2) bc st e t ∧ e ≤ n ∧
        (t ≤ n ∨ w'.batcher.hashes ((m - 1) / 2) .cipher = zeroHash)) ∧
    (∀ n s b h txs, (n, Event.cipherDone s b h txs) ∈ w.log →
      (n, Event.batchExecuted (2 * b + 1) (chainHashes E txs)) ∈ w'.log ∧
      w'.executor.receipts (2 * b) = ⟨true, s, 2 * b, h, chainHashes E txs⟩ ∧
      ∃ bc st e t, w'.HasBatch b bc st e t ∧ e ≤ n ∧ n < t ∧ s ∈ bc.keypers ∧ h = w'.batcher.hashes b .cipher ∧
        (h = zeroHash → txs = [])) ∧
    (∀ n m h, m % 2 = 1 → (n, Event.batchExecuted m h) ∈ w.log →
      ∃ s h' txs, (n, Event.cipherDone s (m / 2) h' txs) ∈ w'.log ∧ h = chainHashes E txs) ∧
    (∀ n m h, m % 2 = 0 → (n, Event.batchExecuted m h) ∈ w.log →
      w'.BatchOver (m / 2 - 1) ∧ h = w'.batcher.hashes (m / 2 - 1) .plain) ∧
    (∀ n s b txs, (n, Event.plainDone s b txs) ∈ w.log →
      (n, Event.batchExecuted (2 * b + 2) (chainHashes E txs)) ∈ w'.log ∧ w'.BatchOver b ∧
        chainHashes E txs = w'.batcher.hashes b .plain) ∧
    (∀ k, (w.executor.receipts k).executed = true → ∃ n s b h txs, (n, Event.cipherDone s b h txs) ∈ w'.log ∧ k = 2 * b) ∧
    (∀ n s b h txs, (n, Event.cipherDone s b h txs) ∈ w.log → 2 * b < w'.executor.halfSteps) := by
  have hi := hr.inv
  have hblocks := preach_log_block hr
  obtain ⟨hblk, hlat⟩ := prim_config p
  have hmono := halfSteps_prim p
  have keep : ∀ {b bc st e t}, w.HasBatch b bc st e t → e ≤ w.block → w'.HasBatch b bc st e t :=
    fun h1 h2 => hasBatch_mono hi hlat h1 (le_trans (HasBatch.order h1).1 h2)
  have keepO : ∀ {b}, w.BatchOver b → w'.BatchOver b := fun h => batchOver_mono hi (le_of_eq hblk.symm) hlat h
  have keepH : ∀ {b bc st e t} ty, w.HasBatch b bc st e t → e ≤ w.block → w'.batcher.hashes b ty = w.batcher.hashes b ty :=
    fun ty h1 h2 => hashes_prim p ⟨_, _, _, _, h1, h2⟩ ty
  have hlog : ∀ x ∈ w.log, x ∈ w'.log := by
    obtain ⟨l, hl, _⟩ := prim_log p
    intro x hx; rw [hl]; simp [hx]
  refine ⟨?_, ?_, ?_, ?_, ?_, ?_, ?_, ?_⟩
  · intro n ev m hm he
    obtain ⟨h1, h2, bc, st, e, t, h3, h4⟩ := ih.ended n ev m hm he
    exact ⟨h1, le_trans h2 hmono, bc, st, e, t, keep h3 (le_trans h4 (hblocks _ hm)), h4⟩
  · intro n m hm
    obtain ⟨h1, bc, st, e, t, h3, h4, h5⟩ := ih.skipped n m hm
    have h6 := le_trans h4 (hblocks _ hm)
    exact ⟨h1, bc, st, e, t, keep h3 h6, h4, by rw [keepH _ h3 h6]; exact h5⟩
  · intro n s b h txs hm
    obtain ⟨h1, h2, bc, st, e, t, h3, h4, h5, h6, h7, h8⟩ := ih.cipher n s b h txs hm
    have h9 := le_trans h4 (hblocks _ hm)
    exact ⟨hlog _ h1, by rw [hrec _ (ih.bound n s b h txs hm)]; exact h2, bc, st, e, t, keep h3 h9, h4, h5, h6,
      by rw [keepH _ h3 h9]; exact h7, h8⟩
  · intro n m h hodd hm
    obtain ⟨s, h', txs, h1, h2⟩ := ih.executedCipher n m h hodd hm
    exact ⟨s, h', txs, hlog _ h1, h2⟩
  · intro n m h hev hm
    obtain ⟨h1, h2⟩ := ih.executedPlain n m h hev hm
    exact ⟨keepO h1, by rw [hashes_prim p h1]; exact h2⟩
  · intro n s b txs hm
    obtain ⟨h1, h2, h3⟩ := ih.plain n s b txs hm
    exact ⟨hlog _ h1, keepO h2, by rw [hashes_prim p h2]; exact h3⟩
  · intro k hk
    obtain ⟨n, s, b, h, txs, h1, h2⟩ := ih.receipts k hk
    exact ⟨n, s, b, h, txs, hlog _ h1, h2⟩
  · intro n s b h txs hm
    exact lt_of_lt_of_le (ih.bound n s b h txs hm) hmono

set_option maxHeartbeats 2000000 in
theorem execInv {E w} (h : PReach true E w) : ExecInv E w := by
  refine PReach.induct (I := ExecInv E) ?_ ?_ ?_ h
  · rintro w ⟨_, _, _, _, _, _, _, _, _, _, rfl⟩
    constructor <;> simp [World.deployed, Receipt.zero]
  · intro w b ih hb h64
    have ov : ∀ {x}, w.BatchOver x → World.BatchOver { w with block := b } x := by
      rintro x ⟨bc, st, e, t, h1, h2⟩
      exact ⟨bc, st, e, t, h1, le_trans h2 hb⟩
    exact ⟨fun h => ov (ih.over h), ih.ended, ih.skipped, ih.cipher, ih.executedCipher,
      fun n m h h1 h2 => ⟨ov (ih.executedPlain n m h h1 h2).1, (ih.executedPlain n m h h1 h2).2⟩,
      fun n s b txs hm => ⟨(ih.plain n s b txs hm).1, ov (ih.plain n s b txs hm).2.1, (ih.plain n s b txs hm).2.2⟩,
      ih.receipts, ih.bound⟩
  · intro w w' hr ih p
    have hi := hr.inv
    obtain ⟨hblk, hlat⟩ := prim_config p
    have keep : ∀ {b bc st e t}, w.HasBatch b bc st e t → e ≤ w.block → w'.HasBatch b bc st e t :=
      fun h1 h2 => hasBatch_mono hi hlat h1 (le_trans (HasBatch.order h1).1 h2)
    have keepO : ∀ {b}, w.BatchOver b → w'.BatchOver b := fun h => batchOver_mono hi (le_of_eq hblk.symm) hlat h
    cases prim_exec p with
    | other l h0 h1 h2 =>
      obtain ⟨k1, k2, k3, k4, k5, k6, k7, k8⟩ := execInv_keep hr ih p (fun k _ => by rw [h0])
      have old : ∀ {n ev}, (n, ev) ∈ w'.log → ev.quiet = false → (n, ev) ∈ w.log := by
        intro n ev hm hq
        rw [h1, List.mem_append] at hm
        rcases hm with hm | hm
        · exact hm
        · have := h2 _ hm; simp [hq] at this
      refine ⟨?_, ?_, ?_, ?_, ?_, ?_, ?_, ?_, ?_⟩
      · rw [h0]; exact fun h => keepO (ih.over h)
      · intro n ev m hm he
        exact k1 n ev m (old hm (reported_quiet_false he)) he
      · intro n m hm; exact k2 n m (old hm rfl)
      · intro n s b h txs hm; exact k3 n s b h txs (old hm rfl)
      · intro n m h hodd hm; exact k4 n m h hodd (old hm rfl)
      · intro n m h hodd hm; exact k5 n m h hodd (old hm rfl)
      · intro n s b txs hm; exact k6 n s b txs (old hm rfl)
      · intro k hk; rw [h0] at hk; exact k7 k hk
      · intro n s b h txs hm; exact k8 n s b h txs (old hm rfl)
    | set n0 h1 h2 h3 h4 h5 =>
      obtain ⟨k1, k2, k3, k4, k5, k6, k7, k8⟩ := execInv_keep hr ih p (fun k _ => by rw [h4])
      have old : ∀ {n ev}, (n, ev) ∈ w'.log → (∀ n, ev ≠ .halfStepsSet n) → (n, ev) ∈ w.log := by
        intro n ev hm hq
        rw [h5, List.mem_append, List.mem_singleton, Prod.mk.injEq] at hm
        rcases hm with hm | hm
        · exact hm
        · exact absurd hm.2 (hq _)
      refine ⟨?_, ?_, ?_, ?_, ?_, ?_, ?_, ?_, ?_⟩
      · intro _; rw [h3]; exact keepO h2
      · intro n ev m hm he
        refine k1 n ev m (old hm ?_) he
        rintro n rfl; simp [Event.halfStepsReported] at he
      · intro n m hm; exact k2 n m (old hm (by simp))
      · intro n s b h txs hm; exact k3 n s b h txs (old hm (by simp))
      · intro n m h hodd hm; exact k4 n m h hodd (old hm (by simp))
      · intro n m h hodd hm; exact k5 n m h hodd (old hm (by simp))
      · intro n s b txs hm; exact k6 n s b txs (old hm (by simp))
      · intro k hk; rw [h4] at hk; exact k7 k hk
      · intro n s b h txs hm; exact k8 n s b h txs (old hm (by simp))
    | skipped h1 h2 h3 h4 h5 h6 =>
      obtain ⟨k1, k2, k3, k4, k5, k6, k7, k8⟩ := execInv_keep hr ih p (fun k _ => by rw [h5])
      have split : ∀ {n ev}, (n, ev) ∈ w'.log → (n, ev) ∈ w.log ∨
          (n = w.block ∧ ev = .cipherSkipped (w.executor.halfSteps + 1)) := by
        intro n ev hm
        rw [h6, List.mem_append, List.mem_singleton, Prod.mk.injEq] at hm
        exact hm
      have h2' := h2
      obtain ⟨bc, st, e, t, g1, g2⟩ := h2'
      refine ⟨?_, ?_, ?_, ?_, ?_, ?_, ?_, ?_, ?_⟩
      · intro _; rw [h4, show (w.executor.halfSteps + 1) / 2 = w.executor.halfSteps / 2 by omega]; exact keepO h2
      · intro n ev m hm he
        rcases split hm with hm | ⟨rfl, rfl⟩
        · exact k1 n ev m hm he
        · simp only [Event.halfStepsReported, Option.some.injEq] at he
          subst he
          exact ⟨by omega, by omega, bc, st, e, t, by simpa using keep g1 g2, g2⟩
      · intro n m hm
        rcases split hm with hm | ⟨rfl, hq⟩
        · exact k2 n m hm
        · injection hq with hm
          subst hm
          refine ⟨by omega, bc, st, e, t, by simpa using keep g1 g2, g2, ?_⟩
          simp only [Nat.add_sub_cancel]
          rw [hashes_prim p h2]
          rcases h3 with ⟨_, _, _, _, g3, g4⟩ | h3
          · obtain ⟨-, -, -, rfl⟩ := HasBatch.unique g1 g3
            exact .inl g4
          · exact .inr h3
      · intro n s b h txs hm
        rcases split hm with hm | ⟨rfl, hq⟩
        · exact k3 n s b h txs hm
        · cases hq
      · intro n m h hodd hm
        rcases split hm with hm | ⟨rfl, hq⟩
        · exact k4 n m h hodd hm
        · cases hq
      · intro n m h hodd hm
        rcases split hm with hm | ⟨rfl, hq⟩
        · exact k5 n m h hodd hm
        · cases hq
      · intro n s b txs hm
        rcases split hm with hm | ⟨rfl, hq⟩
        · exact k6 n s b txs hm
        · cases hq
      · intro k hk; rw [h5] at hk; exact k7 k hk
      · intro n s b h txs hm
        rcases split hm with hm | ⟨rfl, hq⟩
        · exact k8 n s b h txs hm
        · cases hq
    | plainSkipped h1 h2 h4 h5 h6 =>
      obtain ⟨k1, k2, k3, k4, k5, k6, k7, k8⟩ := execInv_keep hr ih p (fun k _ => by rw [h5])
      have split : ∀ {n ev}, (n, ev) ∈ w'.log → (n, ev) ∈ w.log ∨
          (n = w.block ∧ ev = .batchExecuted (w.executor.halfSteps + 1) zeroHash) := by
        intro n ev hm
        rw [h6, List.mem_append, List.mem_singleton, Prod.mk.injEq] at hm
        exact hm
      have ho := ih.over h1
      have ho' := ho
      obtain ⟨bc, st, e, t, g1, g2⟩ := ho'
      refine ⟨?_, ?_, ?_, ?_, ?_, ?_, ?_, ?_, ?_⟩
      · intro h; omega
      · intro n ev m hm he
        rcases split hm with hm | ⟨rfl, rfl⟩
        · exact k1 n ev m hm he
        · simp only [Event.halfStepsReported, Option.some.injEq] at he
          subst he
          exact ⟨by omega, by omega, bc, st, e, t, by simpa using keep g1 g2, g2⟩
      · intro n m hm
        rcases split hm with hm | ⟨rfl, hq⟩
        · exact k2 n m hm
        · cases hq
      · intro n s b h txs hm
        rcases split hm with hm | ⟨rfl, hq⟩
        · exact k3 n s b h txs hm
        · cases hq
      · intro n m h hodd hm
        rcases split hm with hm | ⟨rfl, hq⟩
        · exact k4 n m h hodd hm
        · injection hq with hm _; omega
      · intro n m h hodd hm
        rcases split hm with hm | ⟨rfl, hq⟩
        · exact k5 n m h hodd hm
        · injection hq with hm hm'
          subst hm hm'
          rw [show (w.executor.halfSteps + 1) / 2 - 1 = w.executor.halfSteps / 2 by omega]
          exact ⟨keepO ho, by rw [hashes_prim p ho]; exact h2.symm⟩
      · intro n s b txs hm
        rcases split hm with hm | ⟨rfl, hq⟩
        · exact k6 n s b txs hm
        · cases hq
      · intro k hk; rw [h5] at hk; exact k7 k hk
      · intro n s b h txs hm
        rcases split hm with hm | ⟨rfl, hq⟩
        · exact k8 n s b h txs hm
        · cases hq
    | cipherDone s0 b0 h0 txs0 bc st e t kk g1 g2 g3 g4 g5 g6 g7 h4 h5 h6 =>
      have hb : w.executor.halfSteps = 2 * b0 := g7 rfl
      rw [hb] at h4 h5 h6
      obtain ⟨k1, k2, k3, k4, k5, k6, k7, k8⟩ := execInv_keep hr ih p
        (fun k hk => by rw [h5]; exact if_neg (by omega))
      have split : ∀ {n ev}, (n, ev) ∈ w'.log → (n, ev) ∈ w.log ∨
          (n = w.block ∧ (ev = .batchExecuted (2 * b0 + 1) (chainHashes E txs0) ∨ ev = .cipherDone s0 b0 h0 txs0)) := by
        intro n ev hm
        rw [h6] at hm
        simp only [List.mem_append, List.mem_cons, Prod.mk.injEq, List.not_mem_nil, or_false] at hm
        tauto
      refine ⟨?_, ?_, ?_, ?_, ?_, ?_, ?_, ?_, ?_⟩
      · intro _
        rw [h4, show (2 * b0 + 1) / 2 = b0 by omega]
        exact keepO ⟨bc, st, e, t, g1, g2⟩
      · intro n ev m hm he
        rcases split hm with hm | ⟨rfl, rfl | rfl⟩
        · exact k1 n ev m hm he
        · simp only [Event.halfStepsReported, Option.some.injEq] at he
          subst he
          exact ⟨by omega, by omega, bc, st, e, t, by simpa using keep g1 g2, g2⟩
        · simp [Event.halfStepsReported] at he
      · intro n m hm
        rcases split hm with hm | ⟨rfl, hq | hq⟩
        · exact k2 n m hm
        · cases hq
        · cases hq
      · intro n s b h txs hm
        rcases split hm with hm | ⟨rfl, hq | hq⟩
        · exact k3 n s b h txs hm
        · cases hq
        · injection hq with q1 q2 q3 q4
          subst q1 q2 q3 q4
          refine ⟨by rw [h6]; simp, by rw [h5]; simp [upd], bc, st, e, t, keep g1 g2, g2, g3,
            List.mem_of_getElem? g4, by rw [hashes_prim p ⟨bc, st, e, t, g1, g2⟩]; exact g5, fun hz => ?_⟩
          rcases g6 with g6 | g6
          · exact absurd hz g6
          · exact g6
      · intro n m h hodd hm
        rcases split hm with hm | ⟨rfl, hq | hq⟩
        · exact k4 n m h hodd hm
        · injection hq with hm hm'
          subst hm hm'
          refine ⟨s0, h0, txs0, ?_, rfl⟩
          rw [h6, show (2 * b0 + 1) / 2 = b0 by omega]; simp
        · cases hq
      · intro n m h hodd hm
        rcases split hm with hm | ⟨rfl, hq | hq⟩
        · exact k5 n m h hodd hm
        · injection hq with hm hm'; omega
        · cases hq
      · intro n s b txs hm
        rcases split hm with hm | ⟨rfl, hq | hq⟩
        · exact k6 n s b txs hm
        · cases hq
        · cases hq
      · intro k hk
        rw [h5] at hk
        by_cases hkk : k = 2 * b0
        · exact ⟨w.block, s0, b0, h0, txs0, by rw [h6]; simp, hkk⟩
        · simp only [upd, if_neg hkk] at hk
          exact k7 k hk
      · intro n s b h txs hm
        rcases split hm with hm | ⟨rfl, hq | hq⟩
        · exact k8 n s b h txs hm
        · cases hq
        · injection hq with q1 q2 q3 q4
          omega
    | plainDone s0 b0 txs0 g1 g2 g3 h4 h5 h6 =>
      have hb : w.executor.halfSteps = 2 * b0 + 1 := g3 rfl
      rw [hb] at h4 h6
      obtain ⟨k1, k2, k3, k4, k5, k6, k7, k8⟩ := execInv_keep hr ih p (fun k _ => by rw [h5])
      have split : ∀ {n ev}, (n, ev) ∈ w'.log → (n, ev) ∈ w.log ∨
          (n = w.block ∧ (ev = .batchExecuted (2 * b0 + 1 + 1) (chainHashes E txs0) ∨ ev = .plainDone s0 b0 txs0)) := by
        intro n ev hm
        rw [h6] at hm
        simp only [List.mem_append, List.mem_cons, Prod.mk.injEq, List.not_mem_nil, or_false] at hm
        tauto
      have ho' := g1
      obtain ⟨bc, st, e, t, g4, g5⟩ := ho'
      refine ⟨?_, ?_, ?_, ?_, ?_, ?_, ?_, ?_, ?_⟩
      · intro h; omega
      · intro n ev m hm he
        rcases split hm with hm | ⟨rfl, rfl | rfl⟩
        · exact k1 n ev m hm he
        · simp only [Event.halfStepsReported, Option.some.injEq] at he
          subst he
          refine ⟨by omega, by omega, bc, st, e, t, ?_, g5⟩
          rw [show (2 * b0 + 1 + 1 - 1) / 2 = b0 by omega]
          exact keep g4 g5
        · simp [Event.halfStepsReported] at he
      · intro n m hm
        rcases split hm with hm | ⟨rfl, hq | hq⟩
        · exact k2 n m hm
        · cases hq
        · cases hq
      · intro n s b h txs hm
        rcases split hm with hm | ⟨rfl, hq | hq⟩
        · exact k3 n s b h txs hm
        · cases hq
        · cases hq
      · intro n m h hodd hm
        rcases split hm with hm | ⟨rfl, hq | hq⟩
        · exact k4 n m h hodd hm
        · injection hq with hm hm'; omega
        · cases hq
      · intro n m h hodd hm
        rcases split hm with hm | ⟨rfl, hq | hq⟩
        · exact k5 n m h hodd hm
        · injection hq with hm hm'
          subst hm hm'
          rw [show (2 * b0 + 1 + 1) / 2 - 1 = b0 by omega]
          exact ⟨keepO g1, by rw [hashes_prim p g1]; exact g2⟩
        · cases hq
      · intro n s b txs hm
        rcases split hm with hm | ⟨rfl, hq | hq⟩
        · exact k6 n s b txs hm
        · cases hq
        · injection hq with q1 q2 q3
          subst q1 q2 q3
          exact ⟨by rw [h6]; simp, keepO g1, by rw [hashes_prim p g1]; exact g2⟩
      · intro k hk; rw [h5] at hk; exact k7 k hk
      · intro n s b h txs hm
        rcases split hm with hm | ⟨rfl, hq | hq⟩
        · exact k8 n s b h txs hm
        · cases hq
        · cases hq

end Shutter.Sol
