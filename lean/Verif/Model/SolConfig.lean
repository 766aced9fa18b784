import Verif.Model.SolBase

/-!
# contracts/contracts/ConfigContract.sol
-/

namespace Shutter.Sol

/-- ConfigContract.sol:7-20 `struct BatchConfig` -/
structure BatchConfig where
  startBatchIndex : Nat
  startBlockNumber : Nat
  keypers : List Address
  threshold : Nat
  batchSpan : Nat
  batchSizeLimit : Nat
  transactionSizeLimit : Nat
  transactionGasLimit : Nat
  feeReceiver : Address
  targetAddress : Address
  targetFunctionSelector : Bytes
  executionTimeout : Nat
deriving DecidableEq, Repr

/-- ConfigContract.sol:50-66 `_zeroConfig` -/
def zeroConfig : BatchConfig := ⟨0, 0, [], 0, 0, 0, 0, 0, 0, 0, [0, 0, 0, 0], 0⟩

/-- Storage of `ConfigContract` (ConfigContract.sol:29-40). The array `configs` of the contract is
`scheduled ++ [next]`: "Stores all scheduled configs, plus the next config at the end". -/
structure Config where
  scheduled : List BatchConfig
  next : BatchConfig
  headsUp : Nat
  owner : Address
deriving DecidableEq, Repr

namespace Config

/-- The storage array `configs`. -/
def configs (c : Config) : List BatchConfig := c.scheduled ++ [c.next]

/-- ConfigContract.sol:42-47 `constructor`: a guard and an empty next config. -/
def init (headsUp : Nat) (owner : Address) : Config := ⟨[zeroConfig], zeroConfig, headsUp, owner⟩

/-- ConfigContract.sol:68-70 `numConfigs` -/
def numConfigs (c : Config) : Nat := c.configs.length - 1

/-- ConfigContract.sol:80-82 `lastScheduledConfigIndex` -/
def lastScheduledConfigIndex (c : Config) : Nat := c.configs.length - 2

/-- ConfigContract.sol:84-86 `lastScheduledConfig`; array access out of bounds reverts. -/
def lastScheduledConfig (c : Config) : Option BatchConfig := c.configs[c.lastScheduledConfigIndex]?

/-- ConfigContract.sol:95-99: the loop `for (uint256 i = configs.length - 2; i >= 0; i--)`. Decrementing `i` below
zero reverts. -/
def indexLoop (cs : List BatchConfig) (batchIndex : Nat) : Nat → Option Nat
  | 0 =>
    match cs[0]? with
    | none => none
    | some c => if c.startBatchIndex ≤ batchIndex then some 0 else none
  | i + 1 =>
    match cs[i + 1]? with
    | none => none
    | some c => if c.startBatchIndex ≤ batchIndex then some (i + 1) else indexLoop cs batchIndex i

/-- ConfigContract.sol:90-102 `configIndexForBatchIndex` -/
def configIndexForBatchIndex (c : Config) (batchIndex : Nat) : Option Nat :=
  indexLoop c.configs batchIndex (c.configs.length - 2)

/-- ConfigContract.sol:106-113 `configForBatchIndex` -/
def configForBatchIndex (c : Config) (batchIndex : Nat) : Option BatchConfig := do
  let i ← c.configIndexForBatchIndex batchIndex
  c.configs[i]?

/-- ConfigContract.sol:115-121 `configForConfigIndex` -/
def configForConfigIndex (c : Config) (i : Nat) : Option BatchConfig := c.configs[i]?

/-- The field getters ConfigContract.sol:126-268 (`configNumKeypers`, `configThreshold`, …) all have this shape: the
index must be one of a scheduled config. The getter of a field is `scheduledConfig` followed by the projection. -/
def scheduledConfig (c : Config) (i : Nat) : Option BatchConfig := do
  require (i < c.numConfigs)
  c.configs[i]?

/-- ConfigContract.sol:520-522 `batchingActive` -/
def batchingActive (c : Config) (i : Nat) : Option Bool := (c.configs[i]?).map (fun b => decide (b.batchSpan > 0))

/-- ConfigContract.sol:547-549: `if (relativeBatchIndex >= 1) start -= batchSpan;` -/
def earlierStart (rel start span : Nat) : Option Nat := if rel ≥ 1 then subU64 start span else some start

/-- ConfigContract.sol:524-553 `batchBoundaryBlocks`: start, end and timeout. -/
def batchBoundaryBlocks (c : Config) (i : Nat) (batchIndex : Nat) : Option (Nat × Nat × Nat) := do
  let b ← c.configs[i]?
  require (b.batchSpan > 0)
  require (batchIndex ≥ b.startBatchIndex)
  let rel := batchIndex - b.startBatchIndex
  let t ← mulU64 rel b.batchSpan
  let t ← addU64 b.startBlockNumber t
  let e ← addU64 t b.batchSpan
  let start ← subU64 e b.batchSpan
  let start ← earlierStart rel start b.batchSpan
  let timeout ← addU64 e b.executionTimeout
  some (start, e, timeout)

/-- ConfigContract.sol:435-482 `scheduleNextConfig` (without the owner check) -/
def scheduleNextConfig (c : Config) (block : Nat) : Option Config := do
  require (c.configs.length < two64 - 1 - 1)
  let c1 ← c.lastScheduledConfig
  let c2 := c.next
  require (c2.threshold ≤ c2.keypers.length)
  let headsUp := if c1.batchSpan > c.headsUp then c1.batchSpan else c.headsUp
  let e ← addU64 block headsUp
  let earliestStart ← addU64 e 1
  require (c2.startBlockNumber ≥ earliestStart)
  if c1.batchSpan > 0 then do
    require (c2.startBatchIndex > c1.startBatchIndex)
    let batchDelta ← subU64 c2.startBatchIndex c1.startBatchIndex
    let m ← mulU64 c1.batchSpan batchDelta
    let s ← addU64 c1.startBlockNumber m
    require (s = c2.startBlockNumber)
    some { c with scheduled := c.scheduled ++ [c2], next := zeroConfig }
  else do
    require (c2.startBatchIndex = c1.startBatchIndex)
    some { c with scheduled := c.scheduled ++ [c2], next := zeroConfig }

/-- ConfigContract.sol:502-509, the loop `for (uint256 i = configs.length - 1; i > 0; i--)`, on the array from which the
next config has been popped. -/
def unscheduleLoop (fromBlock : Nat) : Nat → List BatchConfig → List BatchConfig
  | 0, cs => cs
  | i + 1, cs =>
    match cs[i + 1]? with
    | none => cs
    | some b => if b.startBlockNumber ≥ fromBlock then unscheduleLoop fromBlock i cs.dropLast else cs

/-- ConfigContract.sol:491-518 `unscheduleConfigs` (without the owner check) -/
def unscheduleConfigs (c : Config) (block fromBlock : Nat) : Option Config := do
  require (fromBlock > block + c.headsUp)
  let cs := unscheduleLoop fromBlock (c.scheduled.length - 1) c.scheduled
  require (cs.length + 1 < c.configs.length)
  some { c with scheduled := cs }

/-- ConfigContract.sol:273-365: the setters of the next config. -/
inductive SetOp
  | startBatchIndex (n : Nat)
  | startBlockNumber (n : Nat)
  | threshold (n : Nat)
  | batchSpan (n : Nat)
  | batchSizeLimit (n : Nat)
  | transactionSizeLimit (n : Nat)
  | transactionGasLimit (n : Nat)
  | feeReceiver (a : Address)
  | targetAddress (a : Address)
  | targetFunctionSelector (b : Bytes)
  | executionTimeout (n : Nat)
  | addKeypers (ks : List Address)
  | removeKeypers (n : Nat)
deriving DecidableEq, Repr

/-- ConfigContract.sol:273-365 -/
def setNext (b : BatchConfig) : SetOp → Option BatchConfig
  | .startBatchIndex n => (u64 n).map fun n => { b with startBatchIndex := n }
  | .startBlockNumber n => (u64 n).map fun n => { b with startBlockNumber := n }
  | .threshold n => (u64 n).map fun n => { b with threshold := n }
  | .batchSpan n => (u64 n).map fun n => { b with batchSpan := n }
  | .batchSizeLimit n => (u64 n).map fun n => { b with batchSizeLimit := n }
  | .transactionSizeLimit n => (u64 n).map fun n => { b with transactionSizeLimit := n }
  | .transactionGasLimit n => (u64 n).map fun n => { b with transactionGasLimit := n }
  | .feeReceiver a => some { b with feeReceiver := a }
  | .targetAddress a => some { b with targetAddress := a }
  | .targetFunctionSelector s => some { b with targetFunctionSelector := s }
  | .executionTimeout n => (u64 n).map fun n => { b with executionTimeout := n }
  | .addKeypers ks =>
    -- the constant minus the length is itself checked, so this is the sum of both lengths
    if b.keypers.length + ks.length ≤ two64 - 1 then some { b with keypers := b.keypers ++ ks } else none
  | .removeKeypers n =>
    (u64 n).map fun n =>
      if n ≤ b.keypers.length then { b with keypers := b.keypers.take (b.keypers.length - n) }
      else { b with keypers := [] }

/-- The transactions of the contract. -/
inductive Call
  | set (o : SetOp)
  | schedule
  | unschedule (fromBlock : Nat)
  | transferOwnership (newOwner : Address)
deriving DecidableEq, Repr

/-- Every state changing function is `onlyOwner`. `transferOwnership` is OpenZeppelin's `Ownable` (contract dependency):
the zero address is refused; `renounceOwnership` is the call with address zero. -/
def call (c : Config) (block : Nat) (sender : Address) : Call → Option Config
  | .set o => do
    require (sender = c.owner)
    let n ← setNext c.next o
    some { c with next := n }
  | .schedule => do
    require (sender = c.owner)
    c.scheduleNextConfig block
  | .unschedule f => do
    require (sender = c.owner)
    let f ← u64 f
    c.unscheduleConfigs block f
  | .transferOwnership a => do
    require (sender = c.owner)
    some { c with owner := a }

end Config
end Shutter.Sol
