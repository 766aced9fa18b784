import Mathlib.NumberTheory.LucasPrimality
import Mathlib.Tactic.NormNum.Prime
import Mathlib.Tactic.IntervalCases
import Verif.Model.Crypto

/-! The group order is prime: a Lucas certificate checked by kernel evaluation. -/

namespace Shutter.Crypto

/-- Modular exponentiation with fuel, evaluated by the kernel on `Nat` literals. -/
def powMod (m : Nat) : Nat → Nat → Nat → Nat → Nat
  | 0, _, _, acc => acc
  | fuel + 1, b, e, acc =>
    powMod m fuel (b * b % m) (e / 2) (if e % 2 = 1 then acc * b % m else acc)

theorem powMod_spec (m : Nat) : ∀ (fuel b e acc : Nat), e < 2 ^ fuel →
    ((powMod m fuel b e acc : Nat) : ZMod m) = (acc : ZMod m) * (b : ZMod m) ^ e := by
  intro fuel
  induction fuel with
  | zero => intro b e acc h; simp at h; subst h; simp [powMod]
  | succ n ih =>
    intro b e acc h
    rw [powMod, ih _ _ _ (by rw [Nat.pow_succ] at h; omega)]
    have he := Nat.div_add_mod e 2
    conv_rhs => rw [← he]
    rw [pow_add, pow_mul]
    have h2 : e % 2 < 2 := Nat.mod_lt _ (by norm_num)
    have : (((b * b % m : ℕ)) : ZMod m) = (b : ZMod m) ^ 2 := by
      rw [ZMod.natCast_mod]; push_cast; ring
    rw [this]
    split
    · next h1 => rw [h1, ZMod.natCast_mod]; push_cast; ring
    · next h1 =>
      have : e % 2 = 0 := by omega
      rw [this]; simp

/-- Lucas test for `m` with witness `a` and the list `fs` of the prime divisors of `m - 1`. -/
theorem prime_of_cert (m a : Nat) (fs : List (Nat × Nat)) (hm : 1 < m)
    (hprod : (fs.map fun f => f.1 ^ f.2).prod = m - 1)
    (hfs : ∀ f ∈ fs, f.1.Prime)
    (hb : m < 2 ^ 256)
    (h1 : powMod m 256 a (m - 1) 1 % m = 1)
    (h2 : ∀ f ∈ fs, powMod m 256 a ((m - 1) / f.1) 1 % m ≠ 1) : m.Prime := by
  have hone : ((1 : ℕ) : ZMod m) = 1 := by simp
  refine lucas_primality m (a : ZMod m) ?_ ?_
  · have := powMod_spec m 256 a (m - 1) 1 (by omega)
    rw [hone, one_mul] at this
    rw [← this, ← ZMod.natCast_mod, h1, hone]
  · intro q hq hd heq
    rw [← hprod] at hd
    obtain ⟨x, hx, hqx⟩ := (Nat.Prime.prime hq).dvd_prod_iff.1 hd
    obtain ⟨f, hf, rfl⟩ := List.mem_map.1 hx
    have hqf : q ∣ f.1 := hq.dvd_of_dvd_pow hqx
    have : q = f.1 := (Nat.prime_dvd_prime_iff_eq hq (hfs f hf)).1 hqf
    subst this
    have hs := powMod_spec m 256 a ((m - 1) / f.1) 1
      (lt_of_le_of_lt (Nat.div_le_self _ _) (by omega))
    rw [hone, one_mul, heq] at hs
    apply h2 f hf
    have h3 : ((powMod m 256 a ((m - 1) / f.1) 1 : ℕ) : ZMod m) = ((1 : ℕ) : ZMod m) := by rw [hs, hone]
    rw [ZMod.natCast_eq_natCast_iff] at h3
    rw [h3]; exact Nat.mod_eq_of_lt hm

theorem order_prime' : Nat.Prime order := by
  refine prime_of_cert order 7
    [(2, 32), (3, 1), (11, 1), (19, 1), (10177, 1), (125527, 1), (859267, 1), (906349, 2), (2508409, 1),
     (2529403, 1), (52437899, 1), (254760293, 2)] ?_ ?_ ?_ ?_ ?_ ?_
  · decide +kernel
  · decide +kernel
  · intro f hf
    simp only [List.mem_cons, List.not_mem_nil, or_false] at hf
    rcases hf with h | h | h | h | h | h | h | h | h | h | h | h <;> subst h <;> norm_num
  · decide +kernel
  · decide +kernel
  · decide +kernel

instance : Fact (Nat.Prime order) := ⟨order_prime'⟩

end Shutter.Crypto
