import Verif.Spec.Turn
import Verif.Spec.Keys

/-! # Vocabulary for decryption signatures -/

namespace Shutter.Decide
open Shutter.Crypto Shutter.Dkg Shutter.Observe Shutter.Main Shutter.Decide.Spec
open Shutter.Events (Codecs)
open Shutter.Sol (World BatchConfig)

variable {G1 G2 GT R : Type}

/-- In this round the keyper gets the key of batch `b` for eon `e`. -/
structure Moment.Gets (r : Moment G1 G2) (e b : Nat) (key : G1) : Prop where
  has : HasEonKey r.after e b key
  new : ∀ key', ¬ HasEonKey r.before e b key'

/-- `sig` is the signature of the keyper for batch `b` in `w`: on the hash of the encrypted transactions, and on the transactions that were accepted, decrypted
with `key`. -/
def SignatureFor [AddCommGroup G2] [DecidableEq G2] (cx : Cfg G1 G2 GT R) (w : World) (b : Nat) (key : G1) (sig : Bytes) : Prop :=
  ∃ txs, DecryptedWith cx key (w.accepted b .cipher) txs ∧
    sig = cx.sign (decryptionSignatureHash cx b (w.batcher.hashes b .cipher) (transactionsHash cx txs))

/-- At least threshold many keypers of the batch have signed what `key` gives, at height `upTo` of shuttermint. -/
def SignedByEnough [AddCommGroup G2] [DecidableEq G2] (cx : Cfg G1 G2 GT R) (codecs : Codecs) (chain : Observe.Chain) (upTo : Int) (w : World)
    (bc : BatchConfig) (b : Nat) (key : G1) : Prop :=
  ∃ txs, DecryptedWith cx key (w.accepted b .cipher) txs ∧ EnoughSignatures cx codecs chain upTo bc b (w.batcher.hashes b .cipher) txs

/-- The keyper signs hashes (of 32 bytes) with the key of its address. -/
def SignsItself (cx : Cfg G1 G2 GT R) : Prop := ∀ hash : Bytes, hash.length = 32 → cx.goRecover hash (cx.sign hash) = some (addrNat cx.own)

/-- Two keypers decrypt alike, sign for the same batcher contract, and verify signatures alike. -/
structure SameRules (cx cx' : Cfg G1 G2 GT R) : Prop where
  crypto : cx'.crypto = cx.crypto
  codec : cx'.codec = cx.codec
  marshalKey : cx'.marshalKey = cx.marshalKey
  newSource : cx'.newSource = cx.newSource
  next : cx'.next = cx.next
  batcher : cx'.batcher = cx.batcher
  goRecover : cx'.goRecover = cx.goRecover

end Shutter.Decide
