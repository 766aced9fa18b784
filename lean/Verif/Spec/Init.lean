import Verif.Model.Init

/-!
# What the operator may expect of `init`
-/

namespace Shutter.Init.Spec

open Shutter.Init
open Shutter.App (Addr)

/-- A text is the address of this port: something, a colon, the number in decimal digits. -/
def PortOf (address : Events.Text) (port : Nat) : Prop :=
  ∃ host, address = host ++ [':'] ++ Events.formatUint port ∧ ':' ∉ Events.formatUint port

/-- All files are there. -/
structure Complete (d : Dir) : Prop where
  config : d.config.isSome
  key : d.key.isSome
  signState : d.signState = true
  nodeKey : d.nodeKey.isSome
  genesis : d.genesis.isSome
  app : d.app.isSome

/-- The node's identity: what was there before is still the same. -/
structure Kept (d d' : Dir) : Prop where
  key : ∀ k, d.key = some k → d'.key = some k
  nodeKey : ∀ k, d.nodeKey = some k → d'.nodeKey = some k
  genesis : ∀ g, d.genesis = some g → d'.genesis = some g

/-- The validator key and the file that goes with it are both there or both missing. -/
def Paired (d : Dir) : Prop := d.key.isSome ↔ d.signState = true

/-- An empty directory -/
def empty : Dir := ⟨none, none, false, none, none, none⟩

end Shutter.Init.Spec
