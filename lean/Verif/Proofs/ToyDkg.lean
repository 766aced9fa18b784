import Mathlib.Algebra.Group.TypeTags.Basic
import Verif.Proofs.Shares

/-! A second concrete instance of the groups on which the kernel can evaluate whole protocol runs: residues modulo the
group order with fast scalar multiplication. Used only in examples. -/

namespace Shutter.Crypto

/-- Residues modulo the order. -/
structure Zq where
  val : Nat
  lt : val < order
deriving DecidableEq

theorem Zq.ext' {a b : Zq} (h : a.val = b.val) : a = b := by
  cases a; cases b; simp at h; subst h; rfl

def Zq.of (n : Nat) : Zq := ⟨n % order, Nat.mod_lt _ order_pos⟩

instance : Zero Zq := ⟨Zq.of 0⟩
instance : Add Zq := ⟨fun a b => Zq.of (a.val + b.val)⟩
instance : Neg Zq := ⟨fun a => Zq.of (order - a.val)⟩

instance : AddCommGroup Zq where
  add a b := Zq.of (a.val + b.val)
  zero := Zq.of 0
  neg a := Zq.of (order - a.val)
  nsmul n a := Zq.of (n * a.val)
  zsmul := zsmulRec (fun n a => Zq.of (n * a.val))
  zsmul_zero' a := Zq.ext' (by show (0 * a.val) % order = 0 % order; simp)
  zsmul_succ' n a := Zq.ext' (by
    show ((n + 1) * a.val) % order = ((n * a.val) % order + a.val) % order
    rw [Nat.mod_add_mod, Nat.add_mul, Nat.one_mul])
  zsmul_neg' n a := rfl
  add_assoc a b c := Zq.ext' (by
    show ((a.val + b.val) % order + c.val) % order = (a.val + (b.val + c.val) % order) % order
    simp [Nat.add_assoc])
  zero_add a := Zq.ext' (by
    show (0 % order + a.val) % order = a.val
    simp [Nat.mod_eq_of_lt a.lt])
  add_zero a := Zq.ext' (by
    show (a.val + 0 % order) % order = a.val
    simp [Nat.mod_eq_of_lt a.lt])
  neg_add_cancel a := Zq.ext' (by
    show ((order - a.val) % order + a.val) % order = 0 % order
    have := a.lt
    rw [Nat.mod_add_mod, Nat.sub_add_cancel this.le]; simp)
  add_comm a b := Zq.ext' (by
    show (a.val + b.val) % order = (b.val + a.val) % order
    rw [Nat.add_comm])
  nsmul_zero a := Zq.ext' (by show (0 * a.val) % order = 0 % order; simp)
  nsmul_succ n a := Zq.ext' (by
    show ((n + 1) * a.val) % order = ((n * a.val) % order + a.val) % order
    rw [Nat.mod_add_mod, Nat.add_mul, Nat.one_mul])

theorem Zq.smul_val (n : Nat) (a : Zq) : (n • a).val = n * a.val % order := rfl
theorem Zq.add_val (a b : Zq) : (a + b).val = (a.val + b.val) % order := rfl
theorem Zq.zero_val : (0 : Zq).val = 0 := by show 0 % order = 0; simp

/-- `G1 = G2 = Zq`, `GT` its multiplicative copy, pairing = product. -/
def zEnv : Env Zq Zq (Multiplicative Zq) where
  g1 := Zq.of 1
  g2 := Zq.of 1
  pair q p := Multiplicative.ofAdd (q.val • p)
  keccak b := fun i => b.getD i 7
  hashToG1 b := Zq.of (beNat b)
  gtBytes g := [UInt8.ofNat (Multiplicative.toAdd g).val]

theorem zLawful : Lawful zEnv where
  order_smul_G1 p := Zq.ext' (by rw [Zq.smul_val, Zq.zero_val]; simp)
  order_smul_G2 p := Zq.ext' (by rw [Zq.smul_val, Zq.zero_val]; simp)
  g2_generates p := ⟨p.val, Zq.ext' (by
    rw [Zq.smul_val]
    show p.val = p.val * (1 % order) % order
    rw [Nat.mod_eq_of_lt order_prime'.one_lt, Nat.mul_one, Nat.mod_eq_of_lt p.lt])⟩
  g2_ne_zero := by decide +kernel
  pair_add_left q q' p := by
    show Multiplicative.ofAdd _ = Multiplicative.ofAdd _ * Multiplicative.ofAdd _
    rw [← ofAdd_add]
    congr 1
    apply Zq.ext'
    show ((q.val + q'.val) % order * p.val) % order = (q.val * p.val % order + q'.val * p.val % order) % order
    rw [Nat.mod_mul_mod, Nat.add_mul]
    simp
  pair_add_right q p p' := by
    show Multiplicative.ofAdd _ = Multiplicative.ofAdd _ * Multiplicative.ofAdd _
    rw [← ofAdd_add, nsmul_add]
  nondegenerate p h := by
    have h1 : (zEnv.g2.val • p) = 0 := Multiplicative.ofAdd.injective (by simpa [zEnv] using h)
    have h2 : zEnv.g2.val = 1 := by decide +kernel
    rw [h2, one_nsmul] at h1
    exact h1

instance : DecidableEq (Multiplicative Zq) := inferInstanceAs (DecidableEq Zq)

end Shutter.Crypto
