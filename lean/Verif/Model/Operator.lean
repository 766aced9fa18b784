import Verif.Model.GoConfig

/-!
# The operator's commands: shuttermint/cmd/config/setnext.go, schedule.go, shuttermint/medley/txbatch,
`SetNextBatchConfig` of shuttermint/contract/config.go

The commands read the config contract, send transactions to it, and wait for the receipts. Reading and parsing the file
with the config is not modelled: a file is the config in it. The contract does not change between the several
requests with which a command reads it (only the operator can change it). Requests to the node that fail end the command.
-/

namespace Shutter.Operator
open Shutter.Sol GoConfig

/-- Go `uint64` subtraction -/
def wsub (a b : Nat) : Nat := (a + two64 - b) % two64

/-- config.go:72-83 `validateThreshold`; `true` when no error -/
def validateThreshold (threshold numKeypers : Nat) : Bool :=
  if numKeypers = 0 then false
  else if threshold > numKeypers then false
  else if threshold = 0 then false
  else true

/-- config.go:106-155 `UnmarshalJSON`, `ReadJSONFile`: the check of the config that was parsed. `none` is the error. -/
def readFile (file : BatchConfig) : Option BatchConfig :=
  if validateThreshold file.threshold file.keypers.length then some file else none

/-- config.go:254-280 `GetNextConfig` -/
def getNextConfig (c : Config) : BatchConfig := { c.next with keypers := dedupGo [] c.next.keypers }

/-- setnext.go:46-90 `chooseStartBlockAndBatch`: the start block and the start batch index; `header` is the number of the
newest block. -/
def chooseStart (c : Config) (header : Nat) : Option (Nat × Nat) := do
  let last ← if c.numConfigs ≠ 0 then getConfigByIndex c (c.numConfigs - 1) else some zeroConfig
  let minStartBlock := wadd (wadd header c.headsUp) 20
  if last.batchSpan = 0 then some (minStartBlock, last.startBatchIndex)
  else
    let delta := wsub minStartBlock last.startBlockNumber
    let numStartedBatches := wadd (wadd delta last.batchSpan) 1 / last.batchSpan
    some (wadd last.startBlockNumber (wmul numStartedBatches last.batchSpan),
      wadd last.startBatchIndex numStartedBatches)

/-- setnext.go:92-107: the config to set. -/
def chosenConfig (c : Config) (header : Nat) (file : BatchConfig) : Option BatchConfig := do
  let bc ← readFile file
  if bc.startBlockNumber = 0 then do
    let (startBlock, startBatch) ← chooseStart c header
    some { bc with startBlockNumber := startBlock, startBatchIndex := startBatch }
  else some bc

/-- A call of `SetNextBatchConfig` that is made if two values differ. -/
def whenDiff {α : Type} [DecidableEq α] (new cur : α) (ops : List Config.SetOp) : List Config.SetOp :=
  if new ≠ cur then ops else []

/-- config.go:309-408 `SetNextBatchConfig`: the calls that turn the config `cur`, as read, into `new`. -/
def setCalls (cur new : BatchConfig) : List Config.SetOp :=
  whenDiff new.startBatchIndex cur.startBatchIndex [.startBatchIndex new.startBatchIndex] ++
  whenDiff new.startBlockNumber cur.startBlockNumber [.startBlockNumber new.startBlockNumber] ++
  whenDiff new.threshold cur.threshold [.threshold new.threshold] ++
  whenDiff new.batchSpan cur.batchSpan [.batchSpan new.batchSpan] ++
  whenDiff new.batchSizeLimit cur.batchSizeLimit [.batchSizeLimit new.batchSizeLimit] ++
  whenDiff new.transactionSizeLimit cur.transactionSizeLimit [.transactionSizeLimit new.transactionSizeLimit] ++
  whenDiff new.transactionGasLimit cur.transactionGasLimit [.transactionGasLimit new.transactionGasLimit] ++
  whenDiff new.feeReceiver cur.feeReceiver [.feeReceiver new.feeReceiver] ++
  whenDiff new.targetAddress cur.targetAddress [.targetAddress new.targetAddress] ++
  whenDiff new.targetFunctionSelector cur.targetFunctionSelector [.targetFunctionSelector new.targetFunctionSelector] ++
  whenDiff new.executionTimeout cur.executionTimeout [.executionTimeout new.executionTimeout] ++
  whenDiff new.keypers cur.keypers [.removeKeypers cur.keypers.length, .addKeypers new.keypers]

/-- A transaction of the operator's account to the config contract. -/
structure Tx where
  nonce : Nat
  call : Config.Call
deriving DecidableEq, Repr

/-- txbatch.go:41-44 `Add`: each transaction of a batch has the nonce of the one before plus one. -/
def number (nonce : Nat) : List Config.Call → List Tx
  | [] => []
  | c :: cs => ⟨nonce, c⟩ :: number (nonce + 1) cs

/-- setnext.go:92-122 `setNext`: the transactions sent, one after the other, the first one with the pending nonce of the
account (txbatch.go:73-91 `InitTransactOpts`). `none`: the command fails before it sends any. -/
def setNextTxs (c : Config) (header pendingNonce : Nat) (file : BatchConfig) : Option (List Tx) := do
  let new ← chosenConfig c header file
  some (number pendingNonce ((setCalls (getNextConfig c) new).map .set))

/-- schedule.go:50-72 `schedule`: its transaction. -/
def scheduleTxs (pendingNonce : Nat) : List Tx := [⟨pendingNonce, .schedule⟩]

end Shutter.Operator
