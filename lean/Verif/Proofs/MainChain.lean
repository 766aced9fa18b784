import Verif.Spec.MainChain
import Verif.Proofs.SolBatcher
import Verif.Proofs.SolSlash

/-! # The observed main chain -/

namespace Shutter.Main
open Shutter.Sol Shutter.GoConfig

theorem plater_logs {tame E} {w w' : World} (p : PLater tame E w w') :
    ∃ l, w'.log = w.log ++ l ∧ ∀ x ∈ l, w.block ≤ x.1 ∧ x.1 ≤ w'.block := by
  induction p with
  | refl => exact ⟨[], by simp, by simp⟩
  | @tail w1 w2 p st ih =>
    obtain ⟨l, h1, h2⟩ := ih
    obtain ⟨l', h3, h4⟩ := pstep_log st
    have hb := plater_block p
    have hb' := plater_block (Relation.ReflTransGen.single st)
    refine ⟨l ++ l', by rw [h3, h1, List.append_assoc], fun x hx => ?_⟩
    rcases List.mem_append.mp hx with hx | hx
    · exact ⟨(h2 x hx).1, le_trans (h2 x hx).2 hb'⟩
    · rw [h4 x hx]; exact ⟨hb, hb'⟩

namespace Chain

variable {E : Env} {hist : Nat → World}

theorem blk (c : Chain E hist) {n : Nat} (h : n < two64) : (hist n).block = n := by
  cases n with
  | zero => exact c.zero
  | succ n => exact c.block n h

theorem mine (c : Chain E hist) {n : Nat} (h : n + 1 < two64) : WorldLater E (hist n) (hist (n + 1)) :=
  (Relation.ReflTransGen.single (WorldStep.mine (by rw [c.blk (by omega)]; omega) h)).trans (c.txs n h)

theorem later (c : Chain E hist) {n m : Nat} (h : n ≤ m) (hm : m < two64) : WorldLater E (hist n) (hist m) := by
  induction m with
  | zero => obtain rfl : n = 0 := by omega
            exact .refl
  | succ m ih =>
    by_cases hn : n = m + 1
    · subst hn; exact .refl
    · exact (ih (by omega) (by omega)).trans (c.mine hm)

theorem reach (c : Chain E hist) {n : Nat} (h : n < two64) : WorldReach E (hist n) :=
  ⟨hist 0, c.start, c.later (Nat.zero_le n) h⟩

theorem plater (c : Chain E hist) {n m : Nat} (h : n ≤ m) (hm : m < two64) : PLater false E (hist n) (hist m) :=
  worldLater_plater (c.reach (by omega : n < two64)).preach.inv (c.later h hm)

theorem log (c : Chain E hist) {n m : Nat} (h : n ≤ m) (hm : m < two64) :
    ∃ l, (hist m).log = (hist n).log ++ l ∧ ∀ x ∈ l, n + 1 ≤ x.1 ∧ x.1 ≤ m := by
  induction m with
  | zero => obtain rfl : n = 0 := by omega
            exact ⟨[], by simp, by simp⟩
  | succ m ih =>
    by_cases hn : n = m + 1
    · subst hn; exact ⟨[], by simp, by simp⟩
    · obtain ⟨l, h1, h2⟩ := ih (by omega) (by omega)
      have hi : ({ hist m with block := m + 1 } : World).config.Inv := (c.reach (by omega : m < two64)).preach.inv
      obtain ⟨l', h3, h4⟩ := plater_logs (worldLater_plater hi (c.txs m hm))
      refine ⟨l ++ l', by rw [h3, ← List.append_assoc, ← h1], fun x hx => ?_⟩
      rcases List.mem_append.mp hx with hx | hx
      · have := h2 x hx; omega
      · have := h4 x hx
        rw [c.block m hm] at this
        simp only at this
        omega

theorem log_blocks (c : Chain E hist) {n : Nat} (h : n < two64) : ∀ x ∈ (hist n).log, x.1 ≤ n := by
  have := preach_log_block (c.reach h).preach
  rwa [c.blk h] at this

/-- A node's answer to the filter is what was logged in between. -/
theorem logsIn (c : Chain E hist) {n m k : Nat} (h : n ≤ m) (hk : m ≤ k) (h64 : k < two64) :
    (hist m).log = (hist n).log ++ logsIn (hist k) (n + 1) m := by
  obtain ⟨l, h1, h2⟩ := c.log h (by omega : m < two64)
  obtain ⟨l', h3, h4⟩ := c.log hk h64
  rw [Main.logsIn, h3, h1, List.filter_append, List.filter_append]
  have e1 : (hist n).log.filter (fun e => decide (n + 1 ≤ e.1) && decide (e.1 ≤ m)) = [] := by
    rw [List.filter_eq_nil_iff]
    intro x hx
    have := c.log_blocks (by omega : n < two64) x hx
    simp; omega
  have e2 : l.filter (fun e => decide (n + 1 ≤ e.1) && decide (e.1 ≤ m)) = l := by
    rw [List.filter_eq_self]
    intro x hx
    have := h2 x hx
    simp; omega
  have e3 : l'.filter (fun e => decide (n + 1 ≤ e.1) && decide (e.1 ≤ m)) = [] := by
    rw [List.filter_eq_nil_iff]
    intro x hx
    have := h4 x hx
    simp; omega
  rw [e1, e2, e3]
  simp

theorem logsIn_back (c : Chain E hist) {n m k : Nat} (h : m ≤ n) : Main.logsIn (hist k) (n + 1) m = [] := by
  rw [Main.logsIn, List.filter_eq_nil_iff]
  intro x _
  simp; omega

end Chain

theorem syncUntil_le (mc : MainChain) (head : Nat) : syncUntil mc head ≤ head := by
  unfold syncUntil; split <;> omega

/-- The parts of a successful sync. -/
theorem syncToHead_spec {mc mc' : MainChain} {hist head synced} (h : syncToHead mc hist head synced = some mc') :
    mc' = mc ∨ (mc'.currentBlock = syncUntil mc head ∧ mc'.followDistance = mc.followDistance ∧ mc'.nodeSynced = synced ∧
      (∃ new, (List.range' mc.configs.length ((hist (syncUntil mc head)).config.numConfigs - mc.configs.length)).mapM
        (getConfigByIndex (hist (syncUntil mc head)).config) = some new ∧ mc'.configs = mc.configs ++ new) ∧
      mc'.batches = (logsIn (hist head) (mc.currentBlock + 1) (syncUntil mc head)).foldl (fun m e => addTransaction m e.2) mc.batches ∧
      mc'.numHalfSteps = (hist (syncUntil mc head)).executor.halfSteps ∧
      mc'.receipts = (List.range' mc.numHalfSteps ((hist (syncUntil mc head)).executor.halfSteps - mc.numHalfSteps)).foldl
        (syncReceipt (hist (syncUntil mc head))) mc.receipts ∧
      mc'.deposits = (logsIn (hist head) (mc.currentBlock + 1) (syncUntil mc head)).foldl (fun m e => syncDeposit m e.2) mc.deposits ∧
      (logsIn (hist head) (mc.currentBlock + 1) (syncUntil mc head)).foldlM syncAppealed
        ((logsIn (hist head) (mc.currentBlock + 1) (syncUntil mc head)).foldl syncAccused mc.accusations) =
          some mc'.accusations) := by
  unfold syncToHead at h
  split at h
  · left; simpa using h.symm
  · right
    simp only [syncConfigs, syncSlashings, syncDeposits, syncExecutionState, syncBatches, Option.bind_eq_some_iff,
      Option.map_eq_some_iff] at h
    obtain ⟨mc1, ⟨new, h1, rfl⟩, mc2, ⟨a, h2, rfl⟩, rfl⟩ := h
    exact ⟨rfl, rfl, rfl, ⟨new, h1, rfl⟩, rfl, rfl, rfl, rfl, h2⟩

section inductions

variable {E : Env} {fd : Nat} {back : Bool}

theorem Observed.chain {mc hist} (o : Observed E fd back mc hist) : Chain E hist := by
  induction o with
  | start c => exact c
  | sync _ _ _ _ ih => exact ih
  | reorg _ c _ _ => exact c

theorem Observed.current {mc hist} (o : Observed E fd back mc hist) : mc.currentBlock < two64 := by
  induction o with
  | start _ => exact Nat.two_pow_pos 64
  | sync _ h _ hs ih =>
    rcases syncToHead_spec hs with rfl | h'
    · exact ih
    · rw [h'.1]; exact lt_of_le_of_lt (syncUntil_le _ _) h
  | reorg _ _ _ ih => exact ih

/-- Induction over forward syncs: the sync appends what was logged in between. -/
theorem Observed.induct {I : MainChain → World → Prop} (start : ∀ w, Deployed w → I (MainChain.new fd) w)
    (sync : ∀ (mc mc' : MainChain) (w w' : World) (l : List (Nat × Event)), I mc w → WorldReach E w → WorldReach E w' →
      PLater false E w w' → w'.log = w.log ++ l → 
      (∃ new, (List.range' mc.configs.length (w'.config.numConfigs - mc.configs.length)).mapM
        (getConfigByIndex w'.config) = some new ∧ mc'.configs = mc.configs ++ new) →
      mc'.batches = l.foldl (fun m e => addTransaction m e.2) mc.batches →
      mc'.numHalfSteps = w'.executor.halfSteps →
      mc'.receipts = (List.range' mc.numHalfSteps (w'.executor.halfSteps - mc.numHalfSteps)).foldl
        (syncReceipt w') mc.receipts →
      mc'.deposits = l.foldl (fun m e => syncDeposit m e.2) mc.deposits →
      l.foldlM syncAppealed (l.foldl syncAccused mc.accusations) = some mc'.accusations → I mc' w')
    {mc hist} (o : Observed E fd false mc hist) : I mc (hist mc.currentBlock) := by
  induction o with
  | start c => exact start _ c.start
  | @sync mc mc' hist head synced o h64 hb hs ih =>
    rcases syncToHead_spec hs with rfl | ⟨h1, _, _, h2, h3, h4, h5, h6, h7⟩
    · exact ih
    · have hb := hb rfl
      have hle := syncUntil_le mc head
      rw [h1]
      exact sync mc mc' _ _ _ ih (o.chain.reach o.current) (o.chain.reach (by omega)) (o.chain.plater hb (by omega))
        (o.chain.logsIn hb hle h64) h2 h3 h4 h5 h6 h7
  | reorg o c he ih => rw [he _ le_rfl]; exact ih

end inductions

end Shutter.Main
