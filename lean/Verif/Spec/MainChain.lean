import Verif.Model.MainChain
import Verif.Spec.SolWorld

/-! # Vocabulary for the observation of the main chain -/

namespace Shutter.Main
open Shutter.Sol

/-- A main chain: `hist n` are the contracts at the end of block `n`; in each block, arbitrary transactions are made. -/
structure Chain (E : Env) (hist : Nat → World) : Prop where
  start : Deployed (hist 0)
  zero : (hist 0).block = 0
  block : ∀ n, n + 1 < two64 → (hist (n + 1)).block = n + 1
  txs : ∀ n, n + 1 < two64 → WorldLater E { hist n with block := n + 1 } (hist (n + 1))

/-- What a keyper with the given follow distance observes of a main chain: it syncs whenever it wants, to whatever head its
node reports. The chain of the node may be reorganized, but only above the block up to which the keyper has synced. If
`back` is false, the reported heads never go back behind that block plus the follow distance. -/
inductive Observed (E : Env) (followDistance : Nat) (back : Bool) : MainChain → (Nat → World) → Prop
  | start {hist : Nat → World} : Chain E hist → Observed E followDistance back (MainChain.new followDistance) hist
  | sync {mc mc' : MainChain} {hist : Nat → World} {head : Nat} {synced : Bool} : Observed E followDistance back mc hist →
      head < two64 → (back = false → mc.currentBlock ≤ syncUntil mc head) → syncToHead mc hist head synced = some mc' →
      Observed E followDistance back mc' hist
  | reorg {mc : MainChain} {hist hist' : Nat → World} : Observed E followDistance back mc hist → Chain E hist' →
      (∀ n, n ≤ mc.currentBlock → hist' n = hist n) → Observed E followDistance back mc hist'

/-- The transactions of a kind the keyper knows of for a batch. -/
def MainChain.txs (mc : MainChain) (b : Nat) (ty : TxType) : List Bytes :=
  match mc.batches b, ty with
  | none, _ => []
  | some x, .cipher => x.encryptedTransactions
  | some x, .plain => x.plainTransactions

/-- The batch hash of a kind the keyper knows of for a batch. -/
def MainChain.hash (mc : MainChain) (b : Nat) (ty : TxType) : Bytes :=
  match mc.batches b, ty with
  | none, _ => zeroHash
  | some x, .cipher => x.encryptedBatchHash
  | some x, .plain => x.plainBatchHash

end Shutter.Main
