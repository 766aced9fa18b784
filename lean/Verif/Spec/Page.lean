import Verif.Model.Page
import Verif.Spec.SolWorld

/-! # Vocabulary for the example page -/

namespace Shutter.Page
open Shutter.Sol

/-- No further config begins up to the given block, after the config that is in force at an earlier one. -/
def NoFurtherConfig (c : Config) (bc : BatchConfig) (block : Nat) : Prop :=
  ∀ (i : Nat) next, c.scheduled[i]? = some bc → c.scheduled[i + 1]? = some next → block < next.startBlockNumber

/-- The batch has room for a transaction, which need not pay. -/
def HasRoom (w : World) (bc : BatchConfig) (b : Nat) (tx : Bytes) : Prop :=
  1 ≤ tx.length ∧ tx.length ≤ bc.transactionSizeLimit ∧ w.acceptedSize b + tx.length ≤ bc.batchSizeLimit ∧ w.batcher.minFee = 0

/-- No two strings hashed have the same hash, and none has hash zero. -/
def NoCollision (E : Env) (l1 l2 : List Bytes) : Prop :=
  (∀ x ∈ chainPreimages E l1, ∀ y ∈ chainPreimages E l2, E.keccak x = E.keccak y → x = y) ∧
  ∀ x ∈ chainPreimages E l1 ++ chainPreimages E l2, E.keccak x ≠ zeroHash

end Shutter.Page
