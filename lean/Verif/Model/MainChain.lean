import Verif.Model.SolWorld
import Verif.Model.GoConfig

/-!
# shuttermint/keyper/observe/mainchain.go: how a keyper observes the contracts

The node is modelled by the chain it follows: `hist n` are the contracts at the end of block `n`. A request that fails
(no connection, the contracts are not deployed yet, an empty block range that the node refuses) makes `SyncToHead` fail
as a whole; it works on a copy, so that the observed state stays as it was. (Line 349 would wrap around at block 2^64 - 1.)
-/

namespace Shutter.Main
open Shutter.Sol Shutter.GoConfig

/-- mainchain.go:45-51 `Batch` (the batch index is the key in the map) -/
structure Batch where
  encryptedBatchHash : Bytes
  encryptedTransactions : List Bytes
  plainTransactions : List Bytes
  plainBatchHash : Bytes
deriving DecidableEq, Repr

/-- mainchain.go:63-69 `Accusation` -/
structure Accusation where
  executor : Address
  accuser : Address
  appealed : Bool
  halfStep : Nat
  blockNumber : Nat
deriving DecidableEq, Repr

/-- mainchain.go:54-60 `Deposit` -/
structure Deposit where
  slashed : Bool
  amount : Nat
  delay : Nat
  requested : Nat
deriving DecidableEq, Repr

/-- mainchain.go:30-40 `MainChain`. `nodeSynced` stands for `NodeSyncProgress == nil`. -/
structure MainChain where
  followDistance : Nat
  currentBlock : Nat
  nodeSynced : Bool
  configs : List BatchConfig
  batches : Nat → Option Batch
  numHalfSteps : Nat
  receipts : Nat → Option Receipt
  deposits : Address → Option Deposit
  accusations : Nat → Option Accusation

/-- mainchain.go:72-81 `NewMainChain` -/
def MainChain.new (followDistance : Nat) : MainChain :=
  ⟨followDistance, 0, true, [], fun _ => none, 0, fun _ => none, fun _ => none, fun _ => none⟩

/-- mainchain.go:189 `&Batch{BatchIndex: …}`: the zero values -/
def Batch.empty : Batch := ⟨zeroHash, [], [], zeroHash⟩

/-- mainchain.go:185-205 `addTransaction`, for one event of the main chain (181-183); other events do not pass the
filter of line 168. -/
def addTransaction (batches : Nat → Option Batch) (ev : Event) : Nat → Option Batch :=
  match ev with
  | .transactionAdded b .cipher tx h _ =>
    let batch := (batches b).getD Batch.empty
    upd batches b (some { batch with
      encryptedTransactions := batch.encryptedTransactions ++ [tx]
      encryptedBatchHash := h })
  | .transactionAdded b .plain tx h _ =>
    let batch := (batches b).getD Batch.empty
    upd batches b (some { batch with
      plainTransactions := batch.plainTransactions ++ [tx]
      plainBatchHash := h })
  | _ => batches

/-- The events in a range of blocks, in order: `eth_getLogs` (the filters of lines 168, 231, 256, 260; set up in 348-351). -/
def logsIn (w : World) (first last : Nat) : List (Nat × Event) :=
  w.log.filter (fun e => decide (first ≤ e.1) && decide (e.1 ≤ last))

/-- mainchain.go:151-164 `syncConfigs`; `w` are the contracts at the block of the call options (344-347). -/
def syncConfigs (mc : MainChain) (w : World) : Option MainChain :=
  ((List.range' mc.configs.length (w.config.numConfigs - mc.configs.length)).mapM (getConfigByIndex w.config)).map
    (fun new => { mc with configs := mc.configs ++ new })

/-- mainchain.go:166-183 `syncBatches` -/
def syncBatches (mc : MainChain) (events : List (Nat × Event)) : MainChain :=
  { mc with batches := events.foldl (fun m e => addTransaction m e.2) mc.batches }

/-- mainchain.go:215-226: one round of the loop of `syncExecutionState` -/
def syncReceipt (w : World) (receipts : Nat → Option Receipt) (halfStep : Nat) : Nat → Option Receipt :=
  if halfStep % 2 ≠ 0 then receipts
  else
    let receipt := w.executor.receipts halfStep
    upd receipts receipt.halfStep (some receipt)

/-- mainchain.go:207-229 `syncExecutionState` -/
def syncExecutionState (mc : MainChain) (w : World) : MainChain :=
  { mc with
    receipts := (List.range' mc.numHalfSteps (w.executor.halfSteps - mc.numHalfSteps)).foldl (syncReceipt w) mc.receipts
    numHalfSteps := w.executor.halfSteps }

/-- mainchain.go:244-251: one event of `syncDeposits` -/
def syncDeposit (deposits : Address → Option Deposit) (ev : Event) : Address → Option Deposit :=
  match ev with
  | .depositChanged a amount delay requested _ isSlashed _ => upd deposits a (some ⟨isSlashed, amount, delay, requested⟩)
  | _ => deposits

/-- mainchain.go:231-254 `syncDeposits` -/
def syncDeposits (mc : MainChain) (events : List (Nat × Event)) : MainChain :=
  { mc with deposits := events.foldl (fun m e => syncDeposit m e.2) mc.deposits }

/-- mainchain.go:285-294: one `Accused` event -/
def syncAccused (accusations : Nat → Option Accusation) (ev : Nat × Event) : Nat → Option Accusation :=
  match ev.2 with
  | .accused h executor accuser => upd accusations h (some ⟨executor, accuser, false, h, ev.1⟩)
  | _ => accusations

/-- mainchain.go:295-301: one `Appealed` event; `none` is the error. -/
def syncAppealed (accusations : Nat → Option Accusation) (ev : Nat × Event) : Option (Nat → Option Accusation) :=
  match ev.2 with
  | .appealed h _ =>
    match accusations h with
    | none => none
    | some a => some (upd accusations h (some { a with appealed := true }))
  | _ => some accusations

/-- mainchain.go:256-304 `syncSlashings` -/
def syncSlashings (mc : MainChain) (events : List (Nat × Event)) : Option MainChain :=
  (events.foldlM syncAppealed (events.foldl syncAccused mc.accusations)).map (fun a => { mc with accusations := a })

/-- mainchain.go:337-342: the block to sync to -/
def syncUntil (mc : MainChain) (head : Nat) : Nat := if mc.followDistance ≤ head then head - mc.followDistance else 0

/-- mainchain.go:319-380 `SyncToHead`, connected to a node that follows the chain `hist`, reports `head` as its latest
block, and is or is not `synced`; `none` is an error. (All requests of one call of `SyncToHead` see the same chain.) -/
def syncToHead (mc : MainChain) (hist : Nat → World) (head : Nat) (synced : Bool) : Option MainChain :=
  if head = mc.currentBlock then some mc
  else
    let u := syncUntil mc head
    let w := hist u
    let events := logsIn (hist head) (mc.currentBlock + 1) u
    (syncConfigs mc w).bind fun mc =>
    (syncSlashings (syncDeposits (syncExecutionState (syncBatches mc events) w) events) events).map fun mc =>
    { mc with
      currentBlock := u
      nodeSynced := synced }

/-- mainchain.go:98-105 `ActiveConfigIndex`; `none` is a panic. -/
def activeConfigIndex (mc : MainChain) (block : Nat) : Option Nat :=
  (List.range mc.configs.length).reverse.find?
    (fun i => (mc.configs[i]?).any (fun c => decide (c.startBlockNumber ≤ block)))

/-- mainchain.go:108-111 `ActiveConfig` and 114-116 `CurrentConfig` -/
def activeConfig (mc : MainChain) (block : Nat) : Option BatchConfig :=
  (activeConfigIndex mc block).bind (fun i => mc.configs[i]?)

/-- mainchain.go:119-121 `ActiveConfigs` -/
def activeConfigs (mc : MainChain) : Option (List BatchConfig) :=
  (activeConfigIndex mc mc.currentBlock).map (fun i => mc.configs.drop i)

/-- mainchain.go:86-95 `IsActiveKeyper`; `none` is a panic. -/
def isActiveKeyper (mc : MainChain) (a : Address) : Option Bool :=
  (activeConfigs mc).map (fun cs => cs.any (fun c => c.keypers.contains a))

/-- mainchain.go:125-138 `ConfigIndexForBatchIndex`: the outer `none` is a panic, the inner one `ok = false`. -/
def configIndexForBatchIndex (mc : MainChain) (batchIndex : Nat) : Option (Option Nat) :=
  match (List.range mc.configs.length).reverse.find?
      (fun i => (mc.configs[i]?).any (fun c => decide (c.startBatchIndex ≤ batchIndex))) with
  | none => none
  | some i => if (mc.configs[i]?).any isActive then some (some i) else some none

/-- mainchain.go:142-148 `ConfigForBatchIndex` -/
def configForBatchIndex (mc : MainChain) (batchIndex : Nat) : Option (Option BatchConfig) :=
  (configIndexForBatchIndex mc batchIndex).map (fun o => o.bind (fun i => mc.configs[i]?))

end Shutter.Main
