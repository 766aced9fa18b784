import Verif.Model.DecideDkg

/-! # The contract calls behind the actions of a keyper (shuttermint/keyper/fx/actions.go) -/

namespace Shutter.Decide
open Shutter.Crypto Shutter.GoConfig

/-- actions.go:89-94, 116-119, 135-138, 168-181, 197-203, 224-232: `SendTX` of the actions for the main chain: the contract function called
by the account `own`. Gas limits are left out. `inner` are the calls which the targets of executed transactions make. Actions for
shuttermint have no contract call. -/
def Action.call {G1 G2 : Type} (own : Sol.Address) (marshal : G2 → Bytes) (inner : List (List Sol.Op)) : Action G1 G2 → Option Sol.Op
  | .executeCipherBatch b hash txs k _ => some (.executeCipherBatch own b hash txs k inner)
  | .executePlainBatch b txs _ => some (.executePlainBatch own b txs inner)
  | .skipCipherBatch b => some (.skipCipherExecution own b)
  | .accuse h k => some (.accuse own h k)
  | .appeal a => some (.appeal own a)
  | .eonKeyBroadcast k b key => some (.vote own k b (marshal key))
  | _ => none

/-- actions.go:77-79, 100-103, 125-128, 144-147, 187-190, 209-215, 238-240: `IsExpired` of the actions, for a view of the main chain. The
half steps are computed with 64 bits. -/
def Action.isExpired {G1 G2 : Type} (mc : Main.MainChain) : Action G1 G2 → Bool
  | .executeCipherBatch b _ _ _ _ => mc.numHalfSteps > wmul 2 b
  | .executePlainBatch b _ _ => mc.numHalfSteps > wadd (wmul 2 b) 1
  | .skipCipherBatch b => mc.numHalfSteps > wmul 2 b
  | .accuse h _ => (mc.accusations h).isSome
  | .appeal a => match mc.accusations a.halfStep with
    | none => true
    | some acc => acc.appealed
  | _ => false

/-! ## Errors

The reasons with which the slasher contract refuses a call. Calls are tried out on the node before they are sent (go-ethereum estimates
the gas), so the keyper sees the reason. -/

/-- KeyperSlasher.sol:60-85, 106-108, 152-187; `other` are all reverts without one of these messages. -/
inductive Reason
  | notCipher | alreadyAccused | indexOutOfRange | notKeyper | notExecuted | emptyBatch
  | noAccusation | alreadyAppealed | notEnoughSignatures | numbersDiffer | signerOutOfRange | notOrdered | wrongSigner
  | other
deriving DecidableEq, Repr

/-- Go on if the condition holds, else refuse with a reason. -/
def require' (r : Reason) (c : Prop) [Decidable c] : Except Reason Unit := if c then .ok () else .error r

/-- Go on with a value, else refuse with a reason. -/
def get' {α : Type} (r : Reason) : Option α → Except Reason α
  | none => .error r
  | some a => .ok a

/-- KeyperSlasher.sol:59-103 `accuse`, once more, up to the reason of a refusal. -/
def accuseReason (w : Sol.World) (sender : Sol.Address) (halfStep keyperIndex : Nat) : Except Reason Unit := do
  let halfStep ← get' .other (Sol.u64 halfStep)
  let keyperIndex ← get' .other (Sol.u64 keyperIndex)
  require' .notCipher (halfStep % 2 = 0)
  require' .alreadyAccused ((w.slasher.accusations halfStep).accused = false)
  let i ← get' .other (w.config.configIndexForBatchIndex (halfStep / 2))
  let bc ← get' .other (w.config.scheduledConfig i)
  let keyper ← get' .indexOutOfRange bc.keypers[keyperIndex]?
  require' .notKeyper (sender = keyper)
  let r := w.executor.receipts halfStep
  require' .notExecuted (r.executed = true)
  require' .emptyBatch (r.cipherBatchHash ≠ Sol.zeroHash)

/-- KeyperSlasher.sol:168-188, once more: the loop over the signatures. -/
def signersReason (E : Sol.Env) (bc : Sol.BatchConfig) (hash : Bytes) : Option Nat → List (Nat × Bytes) → Except Reason Unit
  | _, [] => .ok ()
  | prev, (index, sig) :: rest => do
    let keyper ← get' .signerOutOfRange bc.keypers[index]?
    require' .notOrdered (∀ p, prev = some p → p < index)
    let signer ← get' .other (E.recover hash sig)
    require' .wrongSigner (signer = keyper)
    signersReason E bc hash (some index) rest

/-- KeyperSlasher.sol:105-122, 143-189 `appeal`, once more, up to the reason of a refusal. -/
def appealReason (E : Sol.Env) (w : Sol.World) (a : Sol.Authorization) : Except Reason Unit := do
  let h ← get' .other (Sol.u64 a.halfStep)
  require' .noAccusation ((w.slasher.accusations h).accused = true)
  require' .alreadyAppealed ((w.slasher.accusations h).appealed = false)
  let r := w.executor.receipts h
  let i ← get' .other (w.config.configIndexForBatchIndex (r.halfStep / 2))
  let bc ← get' .other (w.config.scheduledConfig i)
  require' .notEnoughSignatures (a.signatures.length ≥ bc.threshold)
  require' .numbersDiffer (a.signatures.length = a.signerIndices.length)
  signersReason E bc (E.keccak (Sol.World.signaturePreimage w.batcherAddr r)) none (a.signerIndices.zip a.signatures)

/-- actions.go:168-181 (`Accuse`), 197-203 (`Appeal`), runenv.go:216-220 with messagesender.go:51-58: whether a refused action is
given up for good (else it is tried again). -/
def Action.givenUp {G1 G2 : Type} (E : Sol.Env) (w : Sol.World) (own : Sol.Address) : Action G1 G2 → Bool
  | .accuse h k => match accuseReason w own h k with
    | .error r => r = .emptyBatch ∨ r = .alreadyAccused
    | .ok _ => false
  | .appeal a => match appealReason E w a with
    | .error r => r = .wrongSigner
    | .ok _ => false
  | _ => false

end Shutter.Decide
