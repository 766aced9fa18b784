import Verif.Model.Bootstrap
import Verif.Model.Message
import Verif.Spec.Validators

/-! # Vocabulary for the bootstrapping of a chain -/

namespace Shutter.Bootstrap
open Shutter.App

/-- The command `bootstrap` of `g`, run with the config contract in the state `c`, has reported success: first the config of index `index` was
accepted, as `m` (call `r`), then the message that it has started (call `r'`). -/
structure Succeeds (log : List Rec) (c : Sol.Config) (contract : Addr) (flag : Int) (g : Addr) (m : BatchConfigMsg) (index : Nat)
    (pre : List Rec) (r : Rec) (mid : List Rec) (r' : Rec) (post : List Rec) : Prop where
  sent : bootstrapMessages c contract flag = some (m, index)
  split : log = pre ++ r :: mid ++ r' :: post
  first : r.Accepts g (.batchConfig m)
  second : r'.Accepts g (.batchConfigStarted index)

/-- All messages delivered in the calls are ones that keyper programs send (with whatever keys). -/
def OnlyPrograms (log : List Rec) : Prop :=
  ∀ r ∈ log, ∀ a m, r.Delivers a m → ∃ (G1 G2 : Type) (w : Decide.Wire G1 G2) (act : Decide.Action G1 G2), Decide.message w act = some m.msg

/-- No report that a config has started is pending: since the latest of them a config was started. -/
def NoReportPending (log : List Rec) : Prop :=
  ∀ pre r post a ci, log = pre ++ r :: post → r.StartedReport a ci → ∃ x ∈ post, x.Starts

/-- How many of the keypers have registered a validator key. -/
def registeredOf (s : App.State) (keypers : List Addr) : Nat := keypers.countP (fun a => (s.identities a).isSome)

/-- The power of a key when each of the keypers has power 10 under the key it has registered (or under one nobody holds). -/
def powerOf (s : App.State) (keypers : List Addr) (key : ValidatorPubkey) : Int :=
  10 * (keypers.countP (fun a => decide (keyOf s a = key)) : Int)

end Shutter.Bootstrap
