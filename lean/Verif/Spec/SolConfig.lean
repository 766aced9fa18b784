import Verif.Model.SolConfig
import Mathlib.Logic.Relation

/-! # Vocabulary for the config contract -/

namespace Shutter.Sol

/-- The config contract at a block. -/
structure ConfigAt where
  block : Nat
  config : Config
deriving DecidableEq

/-- Time passes, or a transaction succeeds. (Failed transactions change nothing.) Block numbers fit into 64 bits. -/
inductive ConfigStep : ConfigAt → ConfigAt → Prop
  | mine {b b' : Nat} {c : Config} : b ≤ b' → b' < two64 → ConfigStep ⟨b, c⟩ ⟨b', c⟩
  | call {b : Nat} {c c' : Config} {sender : Address} {o : Config.Call} :
      c.call b sender o = some c' → ConfigStep ⟨b, c⟩ ⟨b, c'⟩

/-- Any number of steps. -/
abbrev ConfigLater : ConfigAt → ConfigAt → Prop := Relation.ReflTransGen ConfigStep

/-- A history of the contract from its deployment. -/
def ConfigReach (s : ConfigAt) : Prop :=
  ∃ headsUp owner b, headsUp < two64 ∧ b < two64 ∧ ConfigLater ⟨b, Config.init headsUp owner⟩ s

/-- `next` follows `prev` seamlessly: it begins with the batch after the last one of `prev`, at the block where that one
ends. A config that follows an inactive one takes over its batch index. -/
def Seamless (prev next : BatchConfig) : Prop :=
  (prev.batchSpan > 0 → prev.startBatchIndex < next.startBatchIndex ∧
    prev.startBlockNumber + (next.startBatchIndex - prev.startBatchIndex) * prev.batchSpan = next.startBlockNumber) ∧
  (prev.batchSpan = 0 → next.startBatchIndex = prev.startBatchIndex)

/-- Config number `i` is responsible for batch `b`: it is the last one starting at or before `b`. -/
def Responsible (c : Config) (i b : Nat) : Prop :=
  (∃ bc, c.scheduled[i]? = some bc ∧ bc.startBatchIndex ≤ b) ∧
  ∀ j bc, i < j → c.scheduled[j]? = some bc → b < bc.startBatchIndex

/-- Batch `b` has started at `block`: its config is active, and the block in which submission opens was reached. -/
def Started (c : Config) (block b : Nat) : Prop :=
  ∃ i start e t, c.configIndexForBatchIndex b = some i ∧ c.batchBoundaryBlocks i b = some (start, e, t) ∧ start ≤ block

/-- The nominal first block and the block after the last of a batch (shuttermint/contract/config.go:43-57). -/
def BatchConfig.nominalStart (bc : BatchConfig) (b : Nat) : Nat :=
  bc.startBlockNumber + (b - bc.startBatchIndex) * bc.batchSpan
def BatchConfig.nominalEnd (bc : BatchConfig) (b : Nat) : Nat := bc.nominalStart b + bc.batchSpan

end Shutter.Sol
