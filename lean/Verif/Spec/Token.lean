import Verif.Model.Token
import Verif.Spec.SolWorld
import Mathlib.Algebra.BigOperators.Finprod

/-! # Vocabulary for the deposit token -/

namespace Shutter.Token
open Shutter.Sol

/-- Any number of steps. -/
abbrev Later (E : Env) (P : Address → Prop) : Chain → Chain → Prop := Relation.ReflTransGen (Step E P)

/-- The situation after deployment (contracts/contracts/DepositContract.sol:38-46, TestDepositTokenContract.sol:8-10): the contracts are as in
`Deployed`; the deposit contract is registered as recipient of tokens for itself and for nobody else, is its own manager and has no tokens yet;
the token has no default operators, and the balances add up to the total supply, a `uint256`. -/
structure Ready (c : Chain) : Prop where
  world : Deployed c.world
  address : c.dep ≠ 0
  recipient : ∀ a, c.registry.recipient a = c.dep ↔ a = c.dep
  sender : ∀ a, c.registry.sender a ≠ c.dep
  noHook : c.registry.sender c.dep = 0
  manager : c.registry.manager c.dep = c.dep
  balance : c.token.balances c.dep = 0
  noDefaultOperators : ∀ a, c.token.defaultOperators a = false
  noOperators : ∀ a, c.token.operators c.dep a = false
  noAllowances : ∀ a, c.token.allowances c.dep a = 0
  holders : (Function.support c.token.balances).Finite
  supply : c.token.totalSupply = ∑ᶠ a, c.token.balances a
  fits : c.token.totalSupply < 2 ^ 256

/-- A history from the deployment: anybody calls anything. -/
def Reach (E : Env) (c : Chain) : Prop := ∃ c0, Ready c0 ∧ Later E (fun _ => True) c0 c

/-- The account can receive tokens without anybody's cooperation: it has no code and no hook. -/
def PlainReceiver (c : Chain) (a : Address) : Prop := a ≠ 0 ∧ c.isContract a = false ∧ c.registry.recipient a = 0

/-- The delay blocks as data of a transfer: `abi.encode(uint64)`. -/
def delayData (delay : Nat) : Sol.Bytes := World.beBytes delay 32

end Shutter.Token
