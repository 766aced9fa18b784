import Verif.Model.ExecGas

/-! # Vocabulary for the gas of executions -/

namespace Shutter.ExecGas
open Shutter.Crypto

/-- How the target goes on if each transaction gets the gas limit of the config: the states, and whether the transactions are successful. -/
def promised {S : Type} (T : Target S) (limit : Nat) : List Bytes → S → S × List Bool
  | [], s => (s, [])
  | tx :: txs, s => ((promised T limit txs (T s tx limit).state).1, (T s tx limit).ok :: (promised T limit txs (T s tx limit).state).2)

/-- A call uses no more than it is given. -/
def Lawful {S : Type} (T : Target S) : Prop := ∀ s tx g, (T s tx g).used ≤ g

/-- What the executor contract itself needs for one transaction is at most `c`, if the transaction gets its gas limit. -/
def PerTx {S : Type} (C : Costs) (T : Target S) (limit c : Nat) : Prop :=
  ∀ i s tx, C.before i + C.after i (T s tx limit).ok (T s tx limit).ret ≤ c

/-- The number of bytes that are not zero. -/
def nonZero (b : Bytes) : Nat := (b.filter (· ≠ 0)).length

/-- What the transactions of a batch cost from transaction `i` on, if the calls get the gas in the list: what the executor contract itself needs,
and what the target uses. -/
def spent {S : Type} (C : Costs) (T : Target S) : Nat → List Bytes → List (Nat × Bool) → S → Nat
  | i, tx :: txs, (g, _) :: calls, s =>
    C.before i + (T s tx g).used + C.after i (T s tx g).ok (T s tx g).ret + spent C T (i + 1) txs calls (T s tx g).state
  | _, _, _, _ => 0

end Shutter.ExecGas
