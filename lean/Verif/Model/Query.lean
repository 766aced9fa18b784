import Verif.Model.Files
import Verif.Model.Tx
import Verif.Model.GoConfig

/-!
# Looking at configs: shuttermint/cmd/config/query.go, list.go, and `CurrentAndFutureConfigs` of shuttermint/contract/config.go

Flags other than the index, and connections, are not modelled. All calls of a command are answered for the same block.
-/

namespace Shutter.Query
open Shutter.Files
open Shutter.Events (Codecs Text parseUint)
open Shutter.Sol (Config)

/-- A config as Go has it, with addresses as bytes. -/
def goConfig (bc : Sol.BatchConfig) : FileConfig :=
  ⟨bc.startBatchIndex, bc.startBlockNumber, bc.keypers.map Tx.addrBytes, bc.threshold, bc.batchSpan, bc.batchSizeLimit,
    bc.transactionSizeLimit, bc.transactionGasLimit, Tx.addrBytes bc.feeReceiver, Tx.addrBytes bc.targetAddress,
    bc.targetFunctionSelector, bc.executionTimeout⟩

/-- query.go:18-22, 50-53: what the flag `index` asks for. -/
inductive Index
  | next
  | last
  | all
  | at (i : Nat)
deriving DecidableEq, Repr

/-- query.go:28-39 `PreRunE`; `none` is the error. -/
def readIndex (flag : Text) : Option Index :=
  if flag = "next".toList then some .next
  else if flag = "last".toList then some .last
  else if flag = "all".toList then some .all
  else (parseUint flag).map .at

/-- What is printed: a config, or a list of configs. Simplified: of a list only the members of its objects, not the text. -/
inductive Output
  | one (text : Text)
  | many (objects : List (List (Text × Json)))
deriving DecidableEq, Repr

/-- query.go:82-133 `query`, 71-79 `printjson`; `none` is the error. -/
def query (cx : Codecs) (c : Config) (flag : Text) : Option Output :=
  (readIndex flag).bind fun
    | .next => some (.one ((goConfig (Operator.getNextConfig c)).save cx))
    | .all => ((List.range c.numConfigs).mapM (GoConfig.getConfigByIndex c)).map fun l => .many (l.map fun bc => (goConfig bc).members cx)
    | .last =>
      if c.numConfigs = 0 then none
      else (GoConfig.getConfigByIndex c (c.numConfigs - 1)).map fun bc => .one ((goConfig bc).save cx)
    | .at i => (GoConfig.getConfigByIndex c i).map fun bc => .one ((goConfig bc).save cx)

/-- list.go:34-72 `list`: the lines after the first: the index (none for the next config), the start batch and the start block. -/
def list (c : Config) : Option (List (Option Nat × Nat × Nat)) :=
  ((List.range c.numConfigs).mapM (GoConfig.getConfigByIndex c)).map fun l =>
    l.mapIdx (fun i bc => (some i, bc.startBatchIndex, bc.startBlockNumber)) ++
      [(none, (Operator.getNextConfig c).startBatchIndex, (Operator.getNextConfig c).startBlockNumber)]

/-- config.go:292-304: the loop; `i` configs are left, `acc` are those fetched. -/
def fetch (c : Config) (blockNumber : Nat) : Nat → List Sol.BatchConfig → Option (List Sol.BatchConfig)
  | 0, acc => some acc
  | i + 1, acc => (GoConfig.getConfigByIndex c i).bind fun bc =>
    if bc.startBlockNumber ≤ blockNumber then some (bc :: acc) else fetch c blockNumber i (bc :: acc)

/-- config.go:282-307 `CurrentAndFutureConfigs`; `none` is the error. -/
def currentAndFuture (c : Config) (blockNumber : Nat) : Option (List Sol.BatchConfig) := fetch c blockNumber c.numConfigs []

end Shutter.Query
