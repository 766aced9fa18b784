import Verif.Spec.Life

/-! # Vocabulary for the decryption and execution of batches -/

namespace Shutter.Decide
open Shutter.Crypto Shutter.Dkg Shutter.Observe Shutter.Main
open Shutter.Sol (World)

variable {G1 G2 GT R : Type}

/-- The half step an action executes or skips: `2 b` for the encrypted part of batch `b`, `2 b + 1` for the plain part. -/
def Action.halfStep? : Action G1 G2 → Option Nat
  | .executeCipherBatch b _ _ _ _ => some (2 * b)
  | .executePlainBatch b _ _ => some (2 * b + 1)
  | .skipCipherBatch b => some (2 * b)
  | _ => none

/-- The half steps executed or skipped by some actions. -/
def halfStepsOf (acts : List (Action G1 G2)) : List Nat := acts.filterMap Action.halfStep?

/-- The keyper has `key` as the secret key of epoch `k` (of one of its eons). -/
def HasKey (st : State G1 G2) (k : Nat) (key : G1) : Prop := ∃ ekg ∈ st.ekgs, ekg.kg.secretKeys k = some (some key)

/-- The transactions `txs` are what a keyper gets when it decrypts the given encrypted transactions with a key. -/
def DecryptedWith [AddCommGroup G2] [DecidableEq G2] (cx : Cfg G1 G2 GT R) (key : G1) (encrypted txs : List Bytes) : Prop :=
  txs = Crypto.decryptTransactions cx.crypto cx.codec cx.marshalKey cx.newSource cx.next encrypted key

/-- `sigs` are signatures of different accounts on batch `b` with the given hashes over encrypted and decrypted transactions. -/
structure Signed (cx : Cfg G1 G2 GT R) (b : Nat) (cipherBatchHash : Bytes) (txs : List Bytes) (sigs : List (Sol.Address × Bytes)) : Prop where
  distinct : (sigs.map Prod.fst).Nodup
  valid : ∀ a sig, (a, sig) ∈ sigs →
    cx.goRecover (decryptionSignatureHash cx b cipherBatchHash (transactionsHash cx txs)) sig = some a

end Shutter.Decide

namespace Shutter.Sol

/-- The block arithmetic for batch `b` does not overflow, and there are not absurdly many keypers. -/
def World.Fits (w : World) (b : Nat) : Prop :=
  ∀ i bc, Responsible w.config i b → w.config.scheduled[i]? = some bc →
    bc.keypers.length ≤ 2 ^ 63 ∧ bc.nominalEnd b + bc.executionTimeout < two64

end Shutter.Sol
