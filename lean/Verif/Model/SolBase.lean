import Mathlib.Data.List.Basic

/-!
# Solidity basics

Solidity 0.8.4 integers: arithmetic on `uint64` reverts on overflow. A call that reverts has no effect; the model
of a function returns `none` then. Values are natural numbers, bounded where they are produced.
-/

namespace Shutter.Sol

/-- An account or contract address; `0` is `address(0)`. -/
abbrev Address := Nat
abbrev Bytes := List UInt8

/-- `type(uint64).max + 1` -/
def two64 : Nat := 2 ^ 64

/-- `require(c)` / `assert(c)` -/
def require (c : Prop) [Decidable c] : Option Unit := if c then some () else none

/-- A `uint64` argument: the ABI decoder reverts on values that do not fit. -/
def u64 (n : Nat) : Option Nat := if n < two64 then some n else none

/-- checked `a + b` on `uint64` -/
def addU64 (a b : Nat) : Option Nat := u64 (a + b)
/-- checked `a * b` on `uint64` -/
def mulU64 (a b : Nat) : Option Nat := u64 (a * b)
/-- checked `a - b` -/
def subU64 (a b : Nat) : Option Nat := if b ≤ a then some (a - b) else none

@[simp] theorem require_eq_some {c : Prop} [Decidable c] {u : Unit} : require c = some u ↔ c := by
  unfold require; split <;> simp [*]
@[simp] theorem require_eq_none {c : Prop} [Decidable c] : require c = none ↔ ¬ c := by
  unfold require; split <;> simp [*]
@[simp] theorem u64_eq_some {a b : Nat} : u64 a = some b ↔ a = b ∧ a < two64 := by
  unfold u64; split <;> simp [*]
@[simp] theorem u64_eq_none {a : Nat} : u64 a = none ↔ two64 ≤ a := by
  unfold u64; split
  · simp; omega
  · simp; omega
@[simp] theorem addU64_eq_some {a b c : Nat} : addU64 a b = some c ↔ a + b = c ∧ a + b < two64 := by simp [addU64]
@[simp] theorem mulU64_eq_some {a b c : Nat} : mulU64 a b = some c ↔ a * b = c ∧ a * b < two64 := by simp [mulU64]
@[simp] theorem subU64_eq_some {a b c : Nat} : subU64 a b = some c ↔ b ≤ a ∧ a - b = c := by
  unfold subU64; split
  · simp [*]
  · simp; omega

end Shutter.Sol
