import Mathlib.Data.Nat.Size

/-!
# Gas prices: shuttermint/keyper/gaspricer/gaspricer.go, with math/big
-/

namespace Shutter.Gas

/-- A float64: `mant · 2^exp` with a sign, infinity, or not a number. -/
inductive F64
  | finite (neg : Bool) (mant : Nat) (exp : Int)
  | inf (neg : Bool)
  | nan
deriving DecidableEq, Repr

/-- A big.Float that is not negative: `mant · 2^exp`, or infinity. -/
inductive Multiplier
  | finite (mant : Nat) (exp : Int)
  | inf
deriving DecidableEq, Repr

/-- gaspricer.go:12 -/
def defaultMultiplier : Multiplier := .finite 3 (-1)

inductive SetResult
  | set (m : Multiplier)
  | refused
  | panics
deriving DecidableEq, Repr

/-- gaspricer.go:14-21 `SetMultiplier`. Comparisons with NaN are false; `big.NewFloat` panics for NaN. Minus zero is not below zero. -/
def setMultiplier : F64 → SetResult
  | .nan => .panics
  | .inf true => .refused
  | .inf false => .set .inf
  | .finite true mant exp => if mant = 0 then .set (.finite 0 exp) else .refused
  | .finite false mant exp => .set (.finite mant exp)

/-- math/big `Float.round` with mode ToNearestEven: `N` rounded to `prec` binary digits. -/
def round (prec N : Nat) : Nat :=
  let s := N.size - prec
  let q := N / 2 ^ s
  let r := N % 2 ^ s
  (if 2 ^ s < 2 * r ∨ (2 ^ s = 2 * r ∧ q % 2 = 1) then q + 1 else q) * 2 ^ s

/-- math/big `Float.SetInt`: the precision of the price, 64 or more. -/
def precision (price : Nat) : Nat := max price.size 64

/-- gaspricer.go:23-30 `Adjust`. Outer `none`: `Float.Mul` panics (zero times infinity). Inner `none`: `Float.Int` of infinity is nil. The
product has the precision of the price; `Float.Int` cuts off the fraction. -/
def adjust (m : Multiplier) (price : Nat) : Option (Option Nat) :=
  match m with
  | .inf => if price = 0 then none else some none
  | .finite mant exp => some (some (round (precision price) (price * mant) * 2 ^ exp.toNat / 2 ^ (-exp).toNat))

end Shutter.Gas
