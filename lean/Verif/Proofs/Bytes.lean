import Verif.Proofs.Encoding
import Verif.Model.SolContracts

/-! Big endian byte strings. -/

namespace Shutter.Crypto
open Shutter.Sol.World (beBytes)

theorem beNat_be8 {n : Nat} (h : n < 2 ^ 64) : beNat (be8 n) = n := by
  simp only [be8, beNat, List.foldl, UInt8.toNat_ofNat']
  omega

theorem be8_injective {a b : Nat} (ha : a < 2 ^ 64) (hb : b < 2 ^ 64) (h : be8 a = be8 b) : a = b := by
  rw [← beNat_be8 ha, h, beNat_be8 hb]

theorem beNat_injective : ∀ (a b : Bytes), a.length = b.length → beNat a = beNat b → a = b := by
  intro a
  induction a using List.reverseRecOn with
  | nil => intro b h _; simpa [eq_comm] using h
  | append_singleton a x ih =>
    intro b
    induction b using List.reverseRecOn with
    | nil => intro h; simp at h
    | append_singleton b y =>
      intro hl h
      rw [beNat_append, beNat_append] at h
      simp only [List.length_append, List.length_cons, List.length_nil, Nat.add_right_cancel_iff] at hl
      simp only [List.length_cons, List.length_nil, beNat, List.foldl_cons, List.foldl_nil] at h
      have hx := x.toNat_lt
      have hy := y.toNat_lt
      have h1 : beNat a = beNat b := by unfold beNat; omega
      have h2 : x.toNat = y.toNat := by unfold beNat at h1; omega
      rw [ih b hl h1, UInt8.toNat_inj.1 h2]

@[simp] theorem beBytes_length (n k : Nat) : (beBytes n k).length = k := by simp [beBytes]

theorem beBytes_succ (n k : Nat) : beBytes n (k + 1) = UInt8.ofNat (n / 256 ^ k) :: beBytes n k := by
  simp [beBytes, List.range_succ]

theorem beNat_cons (x : UInt8) (b : Bytes) : beNat (x :: b) = x.toNat * 256 ^ b.length + beNat b := by
  rw [← List.singleton_append, beNat_append]
  simp [beNat]

theorem beNat_beBytes (n k : Nat) : beNat (beBytes n k) = n % 256 ^ k := by
  induction k with
  | zero => simp [beBytes, beNat, Nat.mod_one]
  | succ k ih =>
    rw [beBytes_succ, beNat_cons, ih, beBytes_length, UInt8.toNat_ofNat', show (2 : Nat) ^ 8 = 256 from rfl, Nat.pow_succ, Nat.mod_mul]
    rw [Nat.mul_comm, Nat.add_comm]

theorem beBytes_8 (n : Nat) : beBytes n 8 = be8 n := by
  simp [beBytes, be8, List.range_succ]

/-- Addresses as numbers and as 20 bytes. -/
theorem beBytes_beNat (a : Bytes) : beBytes (beNat a) a.length = a := by
  refine beNat_injective _ _ (by simp) ?_
  rw [beNat_beBytes, Nat.mod_eq_of_lt (beNat_lt a)]

end Shutter.Crypto
