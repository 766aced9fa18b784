import Verif.Model.Tx
import Verif.Spec.Proto
import Verif.Spec.Net

/-! # Vocabulary for transactions as bytes -/

namespace Shutter.Tx
open Shutter.App Shutter.Net Shutter.Decide Shutter.Decide.Spec

/-- Numbers are those of protocol buffers, and byte strings those of a Go program. -/
def Fits (m : MessageWithNonce) : Prop := Proto.Numbers m.msg ∧ m.randomNonce < 2 ^ 64 ∧ (Proto.marshal m).length < 2 ^ 63

/-- `sign` signs hashes with the key of account `own` (`crypto.Sign`). -/
def SignsFor (E : Env) (sign : Crypto.Bytes → Crypto.Bytes) (own : Sol.Address) : Prop :=
  own < 2 ^ 160 ∧ ∀ h, (sign h).length = 65 ∧ Ecdsa.goRecover E.core h (sign h) = some own

/-- Accounts have 160 bits. -/
def Env.Accounts (E : Env) : Prop := ∀ h r s v a, E.core h r s v = some a → a < 2 ^ 160

/-- `sig` is a signature of `own` for the data. -/
def Valid (E : Env) (own : Sol.Address) (data sig : Crypto.Bytes) : Prop :=
  sig.length = 65 ∧ Ecdsa.goRecover E.core (digest E data) sig = some own

/-- The two byte strings do not have the same hash by accident. -/
def NoCollision (E : Env) (a b : Crypto.Bytes) : Prop := digest E a = digest E b → a = b

/-- The transaction does not carry a forged signature of `own`: if it carries one, it is for the hash of the encoding of a message `own` has signed, and it is not
one for other data with the same hash. -/
def Unforged (E : Env) (own : Sol.Address) (signed : MessageWithNonce → Prop) (tx : Crypto.Bytes) : Prop :=
  ∀ sig data, unbase64 tx = some (sig ++ data) → Valid E own data sig →
    ∃ m, signed m ∧ digest E data = digest E (Proto.marshal m) ∧ NoCollision E data (Proto.marshal m)

/-- The call delivers the transaction with these bytes (app.go:294-295). -/
def RawDelivers (E : Env) (r : Rec) (b : Crypto.Bytes) : Prop := ∃ tx, decodeTx E b = some tx ∧ r.op = .deliverTx tx

/-- Every transaction of the log came as bytes. -/
def Raw (E : Env) (log : List Rec) : Prop := ∀ r ∈ log, isDelivery r.op = true → ∃ b, RawDelivers E r b

/-- A message a keyper has signed when it has made the rounds up to the block being processed after `pre`: a message of the key generation of eon `e` is one it has decided to
send in one of these rounds. -/
def SignedBefore {G1 G2 : Type} (w : Wire G1 G2) (rs : List (Round G1 G2)) (e : Nat) (pre : List Rec) (m : MessageWithNonce) : Prop :=
  Fits m ∧ (dkgEon m.msg = some e → ∃ x ∈ rs, ∃ act ∈ x.sent, message w act = some m.msg ∧ x.next ≤ heightAfter pre)

end Shutter.Tx
