import Verif.Model.Ecdsa

/-! # Vocabulary for signatures -/

namespace Shutter.Ecdsa
open Shutter.Crypto

/-- Of the two values of `s` that are valid together, the smaller one; and the recovery id 0 or 1, in the format of the contracts. Signatures
made with `crypto.Sign` are of this kind. -/
def Canonical (sig : Bytes) : Prop :=
  beNat ((sig.drop 32).take 32) ≤ halfOrder ∧ (sig[64]? = some 27 ∨ sig[64]? = some 28)

/-- The zero address has signed nothing, and if `(r, s)` is a signature with recovery id 0 or 1, then `(r, order - s)` is one by the same
signer with the other recovery id: facts about secp256k1. -/
structure Core.Lawful (core : Core) : Prop where
  zero : ∀ h r s v, core h r s v ≠ some 0
  range : ∀ h r s v a, core h r s v = some a → 0 < s ∧ s < order
  mirror : ∀ h r s v, 0 < s → s < order → v < 2 → core h r (order - s) (1 - v) = core h r s v

/-- The other signature of the same signer on the same hash. -/
def mirrored (sig : Bytes) : Bytes :=
  sig.take 32 ++ Sol.World.beBytes (order - beNat ((sig.drop 32).take 32)) 32 ++ [1 - (sig[64]?).getD 0]

end Shutter.Ecdsa
