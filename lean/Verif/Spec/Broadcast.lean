import Verif.Model.KeyViews
import Verif.Model.Calls
import Verif.Spec.SolWorld
import Verif.Spec.Net

/-! # Vocabulary for the votes on eon keys -/

namespace Shutter.Net
open Shutter.App Shutter.Decide Shutter.Decide.Spec
open Shutter.Sol (World)

variable {G1 G2 : Type}

/-- The key broadcast contract has recorded a vote of the account for the key. -/
def VotedFor (w : World) (account : Sol.Address) (b : Nat) (key : Crypto.Bytes) : Prop := ∃ n m, (n, Sol.Event.voted account b key m) ∈ w.log

/-- Nobody else signs for the keyper: all votes of its account are transactions for actions it has decided on. -/
def GenuineKeyVotes (marshal : G2 → Crypto.Bytes) (own : Addr) (rs : List (Round G1 G2)) (w : World) (b : Nat) : Prop :=
  ∀ key, VotedFor w (addrNat own) b key →
    ∃ x ∈ rs, ∃ act ∈ x.sent, ∃ k, act.call (addrNat own) marshal [] = some (.vote (addrNat own) k b key)

/-- The keyper has decided to vote for no more than one key for the batches from `b` on. -/
def OneKey (rs : List (Round G1 G2)) (b : Nat) : Prop :=
  ∀ x ∈ rs, ∀ y ∈ rs, ∀ k key k' key', .eonKeyBroadcast k b key ∈ x.sent → .eonKeyBroadcast k' b key' ∈ y.sent → key = key'

end Shutter.Net
