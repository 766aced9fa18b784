import Mathlib.Data.Finset.Dedup
import Verif.Model.Dkg

/-! Vocabulary for the DKG properties. -/

namespace Shutter.Dkg.Spec
open Shutter.Dkg

/-- The messages that are broadcast to all keypers through the chain. -/
def IsBroadcast {G2 : Type} : Op G2 → Prop
  | .commitment _ => True
  | .accusation _ => True
  | .apology _ => True
  | _ => False

/-- The calls that process a received message. -/
def IsMessage {G2 : Type} : Op G2 → Prop
  | .commitment _ => True
  | .eval _ => True
  | .accusation _ => True
  | .apology _ => True
  | _ => False

/-- Two keypers accepted the same broadcast messages (as sets: the order may differ). -/
def SameBroadcasts {G2 : Type} (w₁ w₂ : World G2) : Prop :=
  ∀ op, IsBroadcast op → (op ∈ w₁.accepted ↔ op ∈ w₂.accepted)

/-- Every broadcast message the keyper was told to send has been accepted by `w'`. -/
def BroadcastsDelivered {G2 : Type} (w w' : World G2) : Prop :=
  ∀ op ∈ w.emitted, IsBroadcast op → op ∈ w'.accepted

/-- The distinct senders of correct shares for epoch `e` among the messages `msgs`, when keyper `j` holds the
secret key share `val j`: its correct share is `val j · H(e)`. -/
def correctSenders {G1 G2 GT : Type} [AddCommGroup G1] [DecidableEq G1] (env : Crypto.Env G1 G2 GT) (val : Nat → Nat)
    (msgs : List (EpochShare G1)) (e : Nat) : Finset Nat :=
  ((msgs.filter fun m => m.epoch = e ∧ m.share = val m.sender • epochIDOf env e).map (·.sender)).toFinset

end Shutter.Dkg.Spec
