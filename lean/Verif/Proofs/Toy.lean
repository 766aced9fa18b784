import Mathlib.Algebra.Group.TypeTags.Basic
import Verif.Proofs.Shares

/-! A concrete instance of the abstract groups, used only to show that hypotheses are satisfiable. -/

namespace Shutter.Crypto

/-- `G1 = G2 = ZMod order`, `GT` its multiplicative copy, pairing = product. -/
def toyEnv : Env F F (Multiplicative F) where
  g1 := 1
  g2 := 1
  pair q p := Multiplicative.ofAdd (q * p)
  keccak b := fun i => b.getD i 7
  hashToG1 b := (beNat b : F)
  gtBytes g := [UInt8.ofNat (ZMod.val (Multiplicative.toAdd g))]

theorem toyLawful : Lawful toyEnv where
  order_smul_G1 p := by simp
  order_smul_G2 p := by simp
  g2_generates p := ⟨ZMod.val p, by simp [toyEnv]⟩
  g2_ne_zero := by simp [toyEnv]
  pair_add_left q q' p := by simp [toyEnv, add_mul, ofAdd_add]
  pair_add_right q p p' := by simp [toyEnv, mul_add, ofAdd_add]
  nondegenerate p h := by
    simp only [toyEnv, one_mul] at h
    exact Multiplicative.ofAdd.injective (by simpa using h)

end Shutter.Crypto
