import Verif.Proofs.MainChainDemo

/-! # What a keyper knows of the main chain (C37, C55-C59) -/

namespace Shutter.Main.Props
open Shutter.Sol Shutter.GoConfig
set_option maxRecDepth 100000

/-- C37, as long as the heads reported by the node never go back behind the block synced to: for each batch, the keyper
knows exactly the transactions accepted by the batcher contract up to the block it has synced to, each of them once and in
order, and the batch hashes are those of the contract. What is missing: heads that go back (see `C37_double_count`). -/
theorem C37_exact_partial {E fd mc hist} (o : Observed E fd false mc hist) (b : Nat) :
    (∀ ty, mc.txs b ty = (hist mc.currentBlock).accepted b ty ∧
      mc.hash b ty = (hist mc.currentBlock).batcher.hashes b ty) ∧
    (mc.batches b = none ↔ ∀ ty, (hist mc.currentBlock).accepted b ty = []) := by
  have v := batchView o
  refine ⟨fun ty => ⟨by rw [txs_eq, v.txs], by rw [hash_eq, v.hash]⟩, fun h ty => ?_, fun h => ?_⟩
  · rw [← v.txs b ty, h]; rfl
  · cases hb : mc.batches b with
    | none => rfl
    | some x =>
      have h1 := v.txs b .cipher
      have h2 := v.txs b .plain
      rw [h, hb] at h1 h2
      simp only [txsOf] at h1 h2
      rcases v.some b x hb with h3 | h3
      · exact absurd h1 h3
      · exact absurd h2 h3

/-- The hypotheses of the theorems about forward syncs are met by a history with syncs to various heads. -/
theorem C37_example : Observed Sol.Demo.env 3 false (Demo.view 3 [2, 50, 108, 121, 165]) Demo.hist ∧
    (Demo.view 3 [2, 50, 108, 121, 165]).currentBlock = 162 ∧
    (Demo.view 3 [2, 50, 108, 121, 165]).txs 0 .cipher = [[1, 2], [4]] ∧
    (Demo.view 3 [2, 50, 108]).txs 0 .cipher = [[1, 2]] :=
  ⟨Demo.view_observed false 3 _ (by decide) (by decide +kernel) (fun _ => by decide +kernel), by decide +kernel,
    by decide +kernel, by decide +kernel⟩

/-- Whatever heads the node reports: no accepted transaction is missing, and their order is kept. -/
theorem C37_nothing_lost {E fd back mc hist} (o : Observed E fd back mc hist) (b : Nat) (ty : TxType) :
    ((hist mc.currentBlock).accepted b ty).Sublist (mc.txs b ty) := batches_sublist o b ty

/-- C37 fails for heads that go back: after syncs to the heads 113, 108 and 121, one of the two transactions of the batch is
counted twice, forever. -/
theorem C37_double_count : ∃ mc, Observed Sol.Demo.env 3 true mc Demo.hist ∧
    (Demo.hist mc.currentBlock).accepted 0 .cipher = [[1, 2], [4]] ∧ mc.txs 0 .cipher = [[1, 2], [4], [4]] :=
  ⟨Demo.view 3 [50, 113, 108, 121],
    Demo.view_observed true 3 _ (by decide) (by decide +kernel) (fun h => by simp at h), by decide +kernel, by decide +kernel⟩

/-- C58: two keypers of any follow distances, syncing whenever they want, agree on all batches that are over (at the earlier
of the two blocks they have synced to). In particular, a keyper's knowledge of a batch is final once the batch is over. -/
theorem C58_closed_batches_agree {E fd fd' mc mc' hist} (o : Observed E fd false mc hist)
    (o' : Observed E fd' false mc' hist) (hle : mc.currentBlock ≤ mc'.currentBlock) {b : Nat}
    (hb : (hist mc.currentBlock).BatchOver b) : mc.batches b = mc'.batches b := batches_agree o o' hle hb

/-- The hypotheses are met: batch 0 is over at block 112. -/
theorem C58_example : Observed Sol.Demo.env 3 false (Demo.view 3 [50, 115]) Demo.hist ∧
    Observed Sol.Demo.env 0 false (Demo.view 0 [110, 111, 170]) Demo.hist ∧
    (Demo.hist (Demo.view 3 [50, 115]).currentBlock).BatchOver 0 ∧
    (Demo.view 3 [50, 115]).batches 0 = some ⟨World.chainHashes Sol.Demo.env [[1, 2], [4]], [[1, 2], [4]], [[3], [5]],
      World.chainHashes Sol.Demo.env [[3], [5]]⟩ := by
  refine ⟨Demo.view_observed false 3 _ (by decide) (by decide +kernel) (fun _ => by decide +kernel),
    Demo.view_observed false 0 _ (by decide) (by decide +kernel) (fun _ => by decide +kernel),
    ⟨Sol.Demo.config, 100, 110, 140, ⟨1, by decide +kernel, by decide +kernel, by decide +kernel⟩, by decide +kernel⟩,
    by decide +kernel⟩

/-- C55, as long as no scheduled config is taken back: the keyper knows exactly the scheduled configs at the block it has
synced to (with duplicate keypers removed). Before the first sync it knows none. What is missing: unscheduled configs (see
`C55_unscheduled_config_stays`). -/
theorem C55_configs_partial {E fd mc hist} (o : Observed E fd false mc hist)
    (ho : ∀ n m, n ≤ m → m ≤ mc.currentBlock → (hist n).config.scheduled <+: (hist m).config.scheduled) :
    mc.configs = [] ∨
    mc.configs = (hist mc.currentBlock).config.scheduled.map (fun bc => { bc with keypers := dedupGo [] bc.keypers }) :=
  configView o ho

/-- The hypotheses are met: a config is scheduled in block 4. -/
theorem C55_example : (Demo.view 3 [5, 8]).configs = [zeroConfig, Sol.Demo.config] ∧ (Demo.view 3 [5]).configs = [zeroConfig] ∧
    ∀ n m, n ≤ m → m ≤ (Demo.view 3 [5, 8]).currentBlock →
      (Demo.hist n).config.scheduled <+: (Demo.hist m).config.scheduled := by
  refine ⟨by decide +kernel, by decide +kernel, ?_⟩
  have h : (Demo.view 3 [5, 8]).currentBlock = 5 := by decide +kernel
  rw [h]
  have key : ∀ m, m < 6 → ∀ n, n < 6 → n ≤ m → (Demo.hist n).config.scheduled.isPrefixOf (Demo.hist m).config.scheduled = true := by
    decide +kernel
  intro n m hn hm
  exact List.isPrefixOf_iff_prefix.mp (key m (by omega) n (by omega) hn)

/-- C55 fails otherwise: a config that was seen and then taken back is never forgotten, and the config scheduled in its
place is never seen, even when it is in use. -/
theorem C55_unscheduled_config_stays : ∃ mc, Observed Sol.Demo.env 0 false mc Demo.swapped ∧ mc.currentBlock = 105 ∧
    ((mc.configs[1]?).map (fun c => (c.startBlockNumber, c.keypers)) = some (100, [5, 6, 7])) ∧
    (((Demo.swapped 105).config.scheduled[1]?).map (fun c => (c.startBlockNumber, c.keypers)) = some (100, [8])) :=
  ⟨Demo.swappedView [8, 15, 105], Demo.swapped_observed _ (by decide) (by decide +kernel) (by decide +kernel),
    by decide +kernel, by decide +kernel, by decide +kernel⟩

/-- C56: the number of half steps the keyper knows of is that of the executor contract at the block it has synced to. -/
theorem C56_half_steps {E fd mc hist} (o : Observed E fd false mc hist) :
    mc.numHalfSteps = (hist mc.currentBlock).executor.halfSteps := (receiptView o).num

/-- C56: for all even half steps but the first, the keyper knows exactly the receipts of the executor contract. What is missing:
the receipt of half step 0 (see `C56_first_receipt_lost`). -/
theorem C56_receipts_partial {E fd mc hist} (o : Observed E fd false mc hist) {h : Nat} (h0 : h ≠ 0) :
    mc.receipts h = if h % 2 = 0 ∧ ((hist mc.currentBlock).executor.receipts h).executed = true
      then some ((hist mc.currentBlock).executor.receipts h) else none := by
  have hp := (o.chain.reach o.current).preach
  rw [(receiptView o).receipt h h0]
  by_cases he : ((hist mc.currentBlock).executor.receipts h).executed = true
  · simp [he, ((receiptInv hp).spec h he).1]
  · simp [he]

/-- C56: the receipt of half step 0 is known if it was executed and no encrypted part of a batch was skipped so far. -/
theorem C56_first_receipt_partial {E fd mc hist} (o : Observed E fd false mc hist) (hn : 0 < mc.numHalfSteps)
    (hall : ∀ k, k < mc.numHalfSteps → k % 2 = 0 → ((hist mc.currentBlock).executor.receipts k).executed = true) :
    mc.receipts 0 = some ((hist mc.currentBlock).executor.receipts 0) := by
  rw [receiptView_zero o hall, if_pos hn]

/-- The hypotheses are met before block 160. -/
theorem C56_example : (Demo.view 3 [121]).currentBlock = 118 ∧ (Demo.view 3 [121]).numHalfSteps = 2 ∧
    ((Demo.view 3 [121]).receipts 0).map (fun r => (r.executed, r.executor, r.halfStep)) = some (true, 6, 0) ∧
    ∀ k, k < 2 → k % 2 = 0 → ((Demo.hist 118).executor.receipts k).executed = true :=
  ⟨by decide +kernel, by decide +kernel, by decide +kernel, by decide +kernel⟩

/-- C56 fails for half step 0: when the encrypted part of a later batch is skipped, the receipt of half step 0 is overwritten
by the empty receipt of the skipped half step. -/
theorem C56_first_receipt_lost : ∃ mc, Observed Sol.Demo.env 3 false mc Demo.hist ∧
    ((Demo.hist mc.currentBlock).executor.receipts 0).executed = true ∧ mc.receipts 0 = some Receipt.zero :=
  ⟨Demo.view 3 [121, 165], Demo.view_observed false 3 _ (by decide) (by decide +kernel) (fun _ => by decide +kernel),
    by decide +kernel, by decide +kernel⟩

/-- C57: the keyper knows exactly the accusations registered in the slasher contract at the block it has synced to: the
accused executor, the half step, the block, whether there was an appeal; and who accused. -/
theorem C57_accusations {E fd mc hist} (o : Observed E fd false mc hist) (h : Nat) :
    (mc.accusations h = none ↔ ((hist mc.currentBlock).slasher.accusations h).accused = false) ∧
    ∀ a, mc.accusations h = some a → a.halfStep = h ∧
      a.executor = ((hist mc.currentBlock).slasher.accusations h).executor ∧
      a.appealed = ((hist mc.currentBlock).slasher.accusations h).appealed ∧
      a.blockNumber = ((hist mc.currentBlock).slasher.accusations h).blockNumber ∧
      (a.blockNumber, Event.accused h a.executor a.accuser) ∈ (hist mc.currentBlock).log := by
  have v := accView o
  have i := accInv (o.chain.reach o.current).preach
  refine ⟨?_, fun a ha => ?_⟩
  · rw [v.none]
    constructor
    · intro hno
      cases hc : ((hist mc.currentBlock).slasher.accusations h).accused with
      | false => rfl
      | true =>
        obtain ⟨s, hs⟩ := (i.acc h hc).2.2.2.2.2
        exact absurd hs (hno _ _ _)
    · intro hf n e s hx
      rw [(i.logged n h e s hx).1] at hf
      simp at hf
  · obtain ⟨h1, h2, h3⟩ := v.some h a ha
    obtain ⟨_, h5, h6⟩ := i.logged _ _ _ _ h2
    refine ⟨h1, h5.symm, ?_, h6.symm, h2⟩
    rw [Bool.eq_iff_iff, h3, i.appealed]

/-- The hypotheses are met by an accusation with an appeal. -/
theorem C57_example : (Demo.view 3 [50, 120]).accusations 0 = some ⟨6, 5, false, 0, 117⟩ ∧
    (Demo.view 3 [50, 120, 121]).accusations 0 = some ⟨6, 5, true, 0, 117⟩ := ⟨by decide +kernel, by decide +kernel⟩

/-- C57: the deposit of an account the keyper knows of is the one of the latest `DepositChanged` event. -/
theorem C57_deposits {E fd mc hist} (o : Observed E fd false mc hist) (a : Address) :
    (∀ n am d r wd sl mv, mc.deposits a = none → (n, Event.depositChanged a am d r wd sl mv) ∉ (hist mc.currentBlock).log) ∧
    ∀ x, mc.deposits a = some x → ∃ pre n wd mv post,
      (hist mc.currentBlock).log = pre ++ (n, .depositChanged a x.amount x.delay x.requested wd x.slashed mv) :: post ∧
      ∀ n am d r wd sl mv, (n, Event.depositChanged a am d r wd sl mv) ∉ post := by
  have v := depositView o a
  refine ⟨fun n am d r wd sl mv h hx => ?_, fun x h => ?_⟩
  · rw [v, List.getLast?_eq_none_iff, List.filterMap_eq_nil_iff] at h
    simpa [depositOf] using h _ hx
  · rw [v] at h
    exact last_deposit a _ x h

/-- The hypotheses are met: a deposit of 500 tokens. -/
theorem C57_deposit_example : (Demo.view 3 [50, 120]).deposits 6 = some ⟨false, 500, 50, 0⟩ := by decide +kernel

/-- C59: a sync does not fail by itself, whatever heads the node has reported before: if the node answers, `SyncToHead`
succeeds. -/
theorem C59_sync_succeeds {E fd back mc hist} (o : Observed E fd back mc hist) {head : Nat} (h64 : head < two64)
    (synced : Bool) : ∃ mc', syncToHead mc hist head synced = some mc' := sync_ok o h64 synced

/-- The hypotheses are met by a history in which heads went back, before a sync that sees an accusation and the appeal. -/
theorem C59_example : Observed Sol.Demo.env 3 true (Demo.view 3 [50, 119, 80]) Demo.hist ∧
    ((syncToHead (Demo.view 3 [50, 119, 80]) Demo.hist 130 true).bind (fun mc => mc.accusations 0)) =
      some ⟨6, 5, true, 0, 117⟩ :=
  ⟨Demo.view_observed true 3 _ (by decide) (by decide +kernel) (fun h => by simp at h), by decide +kernel⟩

end Shutter.Main.Props
