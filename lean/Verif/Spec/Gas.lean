import Verif.Model.Gas
import Mathlib.Data.Rat.Defs
import Mathlib.Algebra.Field.Rat

/-! # Vocabulary for gas prices -/

namespace Shutter.Gas

/-- The exact product of a price and a multiplier. -/
def exact (mant : Nat) (exp : Int) (price : Nat) : ℚ := price * (mant * (2 : ℚ) ^ exp)

end Shutter.Gas
