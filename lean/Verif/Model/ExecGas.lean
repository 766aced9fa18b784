import Verif.Model.Targets
import Verif.Model.Channels

/-!
# Gas for the execution of batches: ExecutorContract.sol `executeTransactions`, shuttermint/keyper/fx/actions.go

What the contracts check and record is in `Model/SolContracts.lean`, where gas is left out. Here it is the other way round: the checks of the executor
contract are assumed to pass, and only the gas is followed.
-/

namespace Shutter.ExecGas
open Shutter.Crypto

/-! ### The keyper's transaction -/

/-- actions.go:18-21 -/
def baseLimit : Nat := 250000

/-- actions.go:85-87 and 112-114 `gasLimit`, in uint64 -/
def gasLimit (numTxs transactionGasLimit : Nat) : Nat := (baseLimit + numTxs * transactionGasLimit) % 2 ^ 64

/-- The positions of the elements of a `bytes[]`, behind its length. -/
def positions : Nat → List Bytes → Bytes
  | _, [] => []
  | o, t :: ts => Target.word o ++ positions (o + (Target.bytesTail t).length) ts

/-- Contract ABI: `bytes[]` -/
def bytesArray (txs : List Bytes) : Bytes :=
  Target.word txs.length ++ positions (32 * txs.length) txs ++ txs.flatMap Target.bytesTail

/-- The call data of `executePlainBatch(uint64,bytes[])` (actions.go:116-119); the selector is a parameter. -/
def plainData (selector : Bytes) (batchIndex : Nat) (txs : List Bytes) : Bytes :=
  selector ++ Target.word batchIndex ++ Target.word 64 ++ bytesArray txs

/-- The call data of `executeCipherBatch(uint64,bytes32,bytes[],uint64)` (actions.go:89-94) -/
def cipherData (selector : Bytes) (batchIndex : Nat) (hash : Bytes) (txs : List Bytes) (keyperIndex : Nat) : Bytes :=
  selector ++ Target.word batchIndex ++ hash ++ Target.word 128 ++ Target.word keyperIndex ++ bytesArray txs

/-! ### Ethereum -/

/-- EIP-2028: the gas for a byte of call data -/
def byteGas (b : UInt8) : Nat := if b = 0 then 4 else 16

/-- The gas for a transaction, apart from what the contract uses. -/
def intrinsic (data : Bytes) : Nat := 21000 + (data.map byteGas).sum

/-- EIP-150: a call gets the gas that is asked for, but one part in 64 of what is left stays with the caller. -/
def given (asked left : Nat) : Nat := min asked (left - left / 64)

/-- What comes of a call of the target: the gas used, whether it was successful, the length of the returned data, and the state of the target. -/
structure Outcome (S : Type) where
  used : Nat
  ok : Bool
  ret : Nat
  state : S

/-- A target: any function of its state, the transaction, and the gas. -/
abbrev Target (S : Type) := S → Bytes → Nat → Outcome S

/-- The gas the executor contract uses itself: before the loop; for each transaction, before and after the call of the target (the latter depends on
whether `TransactionFailed` is emitted, and how much data is copied); and after the loop. Any numbers, which may depend on the batch. -/
structure Costs where
  first : Nat
  before : Nat → Nat
  after : Nat → Bool → Nat → Nat
  last : Nat

/-- ExecutorContract.sol:354-374, the loop in `executeTransactions` from transaction `i` on, with the gas left: the state of the target, the gas
left, and for each transaction the gas it was given and whether it was successful. `none`: out of gas. Nothing checks how much gas is left. -/
def loop {S : Type} (C : Costs) (T : Target S) (limit : Nat) : Nat → List Bytes → S → Nat → Option (S × Nat × List (Nat × Bool))
  | _, [], s, g => some (s, g, [])
  | i, tx :: txs, s, g =>
    if g < C.before i then none
    else
      let left := g - C.before i
      let r := T s tx (given limit left)
      if left - r.used < C.after i r.ok r.ret then none
      else
        (loop C T limit (i + 1) txs r.state (left - r.used - C.after i r.ok r.ret)).map
          (fun x => (x.1, x.2.1, (given limit left, r.ok) :: x.2.2))

/-- What comes of a transaction that executes a batch. -/
inductive Result (S : Type)
  /-- the node does not take it -/
  | refused
  /-- it is included, without effect -/
  | outOfGas
  /-- the batch counts as executed -/
  | executed (state : S) (calls : List (Nat × Bool))
deriving DecidableEq

/-- A transaction with call data `data` and some gas, whose checks pass. The node refuses it if the gas is less than the intrinsic gas or more than that of
a block. -/
def execute {S : Type} (C : Costs) (T : Target S) (limit blockGas : Nat) (data : Bytes) (txs : List Bytes) (s : S) (gas : Nat) : Result S :=
  if gas < intrinsic data ∨ blockGas < gas then .refused
  else if gas - intrinsic data < C.first then .outOfGas
  else
    match loop C T limit 0 txs s (gas - intrinsic data - C.first) with
    | none => .outOfGas
    | some (s', left, calls) => if left < C.last then .outOfGas else .executed s' calls

/-- `SendTX` of the actions (actions.go:89-94, 116-119) against a node that refuses transactions with less gas than the intrinsic gas; the error is
not a `NonRetriableError` (actions.go:89-94, 116-119; runenv.go:210-222), so the worker tries again. `sel`: the selectors of both functions. -/
def answer {G1 G2 : Type} (sel : Bytes × Bytes) (E : Sol.Env) (own : Sol.Address) (w : Sol.World) (a : Decide.Action G1 G2) : Fx.Answer :=
  match a with
  | .executeCipherBatch b hash txs k limit => if gasLimit txs.length limit < intrinsic (cipherData sel.1 b hash txs k) then .retry else .ok
  | .executePlainBatch b txs limit => if gasLimit txs.length limit < intrinsic (plainData sel.2 b txs) then .retry else .ok
  | _ => a.answer E own w

end Shutter.ExecGas
