import Verif.Model.Targets
import Verif.Spec.SolWorld

/-! # Vocabulary for the target contracts -/

namespace Shutter.Target
open Shutter.Crypto

/-- The wallet's signature on a hash is one of its address (a fact about ECDSA), in the format of ethers. -/
structure Wallet.Genuine (lib : Lib) (w : Wallet) (h : Bytes) : Prop where
  v : (w.sign h).1 = 27 ∨ (w.sign h).1 = 28
  r : (w.sign h).2.1 < 2 ^ 256
  s : (w.sign h).2.2 < 2 ^ 256
  recovers : lib.core h (w.sign h).2.1 (w.sign h).2.2 ((w.sign h).1 - 27) = some w.address
  address : w.address ≠ 0

/-- The data of a call contains a signature on a payload, for the test target itself or to be forwarded to it. -/
def Carries (data payload : Bytes) (v r s : Nat) : Prop :=
  (argument data).bind decodeSigned = some (payload, v, r, s) ∨
  ∃ receiver inner, (argument data).bind (decodeNatBytes (2 ^ 160)) = some (receiver, inner) ∧ (argument inner).bind decodeSigned = some (payload, v, r, s)

/-- Nobody but the owner of the address makes signatures of it: signatures in the calls are on payloads that were signed by the owner. -/
def Unforged (lib : Lib) (signed : Bytes → Prop) (a : Sol.Address) (cs : List Call) : Prop :=
  ∀ c ∈ cs, ∀ payload v r s, Carries c.data payload v r s → lib.core (lib.signedHash (lib.keccak payload)) r s (v - 27) = some a → signed payload

/-- The message in a payload, with its nonce. -/
def Means (payload : Bytes) (nonce : Nat) (message : Bytes) : Prop := decodeNatBytes Sol.two64 payload = some (nonce, message)

/-- Of the calls, those of the executor are the calls that it made according to its history, in order. -/
def FromExecutor (d : Deployment) (w : Sol.World) (cs : List Call) : Prop :=
  (cs.filter (fun c => decide (c.sender = d.proxyExecutor))).map (fun c => (c.callee, c.data)) = w.targetTxs.map (fun t => (t.1, callData t.2.1 t.2.2))

end Shutter.Target
