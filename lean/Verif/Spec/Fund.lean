import Verif.Model.Fund

/-! # Vocabulary for funding -/

namespace Shutter.Fund
open Shutter.Sol (Address)

/-- Before the command `fund` has done anything. -/
def Funding.start (net : Net) : Funding := ⟨net, [], none, 0, fun _ => none⟩

/-- Before the command `unfund` has done anything. -/
def Draining.start (net : Net) : Draining := ⟨net, 0, [], [], fun _ => none⟩

/-- Others do not take anything from these accounts. -/
def Spares (accounts : List Address) (net net' : Net) : Prop := ∀ a ∈ accounts, net.balance a ≤ net'.balance a

/-- Others leave these accounts alone. Nonces never go back. -/
def LeavesAlone (accounts : List Address) (net net' : Net) : Prop :=
  ∀ a ∈ accounts, net'.balance a = net.balance a ∧ net.nonce a ≤ net'.nonce a

/-- The sum over a list of accounts. -/
def total (f : Address → Nat) (accounts : List Address) : Nat := (accounts.map f).sum

end Shutter.Fund
