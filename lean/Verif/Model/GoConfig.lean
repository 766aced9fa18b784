import Verif.Model.SolConfig

/-!
# shuttermint/contract/config.go: the batch arithmetic of the keypers

Go's `uint64` arithmetic wraps around; `none` is a panic.
-/

namespace Shutter.GoConfig
open Shutter.Sol

/-- Go `uint64` addition -/
def wadd (a b : Nat) : Nat := (a + b) % two64
/-- Go `uint64` multiplication -/
def wmul (a b : Nat) : Nat := (a * b) % two64

/-- config.go:43-49 `BatchStartBlock` -/
def batchStartBlock (bc : BatchConfig) (batchIndex : Nat) : Option Nat :=
  if batchIndex < bc.startBatchIndex then none
  else some (wadd bc.startBlockNumber (wmul (batchIndex - bc.startBatchIndex) bc.batchSpan))

/-- config.go:53-55 `BatchEndBlock` -/
def batchEndBlock (bc : BatchConfig) (batchIndex : Nat) : Option Nat :=
  (batchStartBlock bc batchIndex).map (fun s => wadd s bc.batchSpan)

/-- config.go:60-68 `BatchIndex` -/
def batchIndex (bc : BatchConfig) (blockNumber : Nat) : Option Nat :=
  if blockNumber < bc.startBlockNumber then none
  else if bc.batchSpan = 0 then some bc.startBatchIndex
  else some (wadd bc.startBatchIndex ((blockNumber - bc.startBlockNumber) / bc.batchSpan))

/-- config.go:36-38 `IsActive` -/
def isActive (bc : BatchConfig) : Bool := decide (bc.batchSpan > 0)

/-- config.go:21-28 `KeyperIndex` -/
def keyperIndex (bc : BatchConfig) (a : Address) : Option Nat :=
  let i := bc.keypers.findIdx (fun k => k == a)
  if i < bc.keypers.length then some i else none

/-- config.go:158-185 `NextBatchIndex`, on the list of all scheduled configs; `none` is the error. -/
def nextBatchIndex (cs : List BatchConfig) (blockNumber : Nat) : Option Nat :=
  match cs.reverse.find? (fun bc => decide (bc.startBlockNumber ≤ blockNumber)) with
  | none => none
  | some bc =>
    if bc.batchSpan = 0 then some bc.startBatchIndex
    else some (wadd (wadd bc.startBatchIndex ((blockNumber - bc.startBlockNumber) / bc.batchSpan)) 1)

/-- medley.go:106-119 `DedupAddresses` on these addresses -/
def dedupGo (seen : List Address) : List Address → List Address
  | [] => []
  | a :: as => if seen.contains a then dedupGo seen as else a :: dedupGo (a :: seen) as

/-- config.go:223-252 `GetConfigByIndex`: the config as stored in the contract, with duplicate keypers removed. -/
def getConfigByIndex (c : Config) (i : Nat) : Option BatchConfig :=
  (c.scheduledConfig i).map (fun bc => { bc with keypers := dedupGo [] bc.keypers })

end Shutter.GoConfig
