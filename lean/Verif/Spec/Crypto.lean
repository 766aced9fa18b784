import Verif.Model.Crypto

/-! Small specifications used in the statements about shlib/shcrypto. -/

namespace Shutter.Crypto.Spec

/-- The value `Σ cᵢ·xⁱ` of the polynomial with coefficients `c₀, c₁, …` over the integers. -/
def polyValue (p : List Nat) (x : Nat) : Nat := (p.mapIdx fun i c => c * x ^ i).sum

/-- The secret shared by a polynomial: its constant coefficient. -/
def secret (p : List Nat) : Nat := p.headD 0

end Shutter.Crypto.Spec
