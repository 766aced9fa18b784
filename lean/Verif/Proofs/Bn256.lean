import Verif.Proofs.Prime
import Verif.Model.Bls

/-! The order of bn256 is prime (Pratt certificate). -/

namespace Shutter.Crypto

theorem p639533339 : Nat.Prime 639533339 := by
  refine prime_of_cert _ 2 [(2, 1), (229, 1), (853, 1), (1637, 1)] ?_ ?_ ?_ ?_ ?_ ?_
  · decide +kernel
  · decide +kernel
  · intro f hf
    simp only [List.mem_cons, List.not_mem_nil, or_false] at hf
    rcases hf with h | h | h | h <;> subst h <;> norm_num
  · decide +kernel
  · decide +kernel
  · decide +kernel

theorem p405928799 : Nat.Prime 405928799 := by
  refine prime_of_cert _ 22 [(2, 1), (11, 1), (3691, 1), (4999, 1)] ?_ ?_ ?_ ?_ ?_ ?_
  · decide +kernel
  · decide +kernel
  · intro f hf
    simp only [List.mem_cons, List.not_mem_nil, or_false] at hf
    rcases hf with h | h | h | h <;> subst h <;> norm_num
  · decide +kernel
  · decide +kernel
  · decide +kernel

theorem p12048837557 : Nat.Prime 12048837557 := by
  refine prime_of_cert _ 2 [(2, 2), (7, 2), (661, 1), (93001, 1)] ?_ ?_ ?_ ?_ ?_ ?_
  · decide +kernel
  · decide +kernel
  · intro f hf
    simp only [List.mem_cons, List.not_mem_nil, or_false] at hf
    rcases hf with h | h | h | h <;> subst h <;> norm_num
  · decide +kernel
  · decide +kernel
  · decide +kernel

theorem p5156902474397 : Nat.Prime 5156902474397 := by
  refine prime_of_cert _ 2 [(2, 2), (107, 1), (12048837557, 1)] ?_ ?_ ?_ ?_ ?_ ?_
  · decide +kernel
  · decide +kernel
  · intro f hf
    simp only [List.mem_cons, List.not_mem_nil, or_false] at hf
    rcases hf with h | h | h <;> subst h
    · norm_num
    · norm_num
    · exact p12048837557
  · decide +kernel
  · decide +kernel
  · decide +kernel

theorem p1670836401704629 : Nat.Prime 1670836401704629 := by
  refine prime_of_cert _ 2 [(2, 2), (3, 4), (5156902474397, 1)] ?_ ?_ ?_ ?_ ?_ ?_
  · decide +kernel
  · decide +kernel
  · intro f hf
    simp only [List.mem_cons, List.not_mem_nil, or_false] at hf
    rcases hf with h | h | h <;> subst h
    · norm_num
    · norm_num
    · exact p5156902474397
  · decide +kernel
  · decide +kernel
  · decide +kernel

theorem p65865678001877903 : Nat.Prime 65865678001877903 := by
  refine prime_of_cert _ 5 [(2, 1), (83, 1), (379, 1), (1637, 1), (639533339, 1)] ?_ ?_ ?_ ?_ ?_ ?_
  · decide +kernel
  · decide +kernel
  · intro f hf
    simp only [List.mem_cons, List.not_mem_nil, or_false] at hf
    rcases hf with h | h | h | h | h <;> subst h
    · norm_num
    · norm_num
    · norm_num
    · norm_num
    · exact p639533339
  · decide +kernel
  · decide +kernel
  · decide +kernel

theorem p13818364434197438864469338081 : Nat.Prime 13818364434197438864469338081 := by
  refine prime_of_cert _ 3 [(2, 5), (5, 1), (823, 1), (1593227, 1), (65865678001877903, 1)] ?_ ?_ ?_ ?_ ?_ ?_
  · decide +kernel
  · decide +kernel
  · intro f hf
    simp only [List.mem_cons, List.not_mem_nil, or_false] at hf
    rcases hf with h | h | h | h | h <;> subst h
    · norm_num
    · norm_num
    · norm_num
    · norm_num
    · exact p65865678001877903
  · decide +kernel
  · decide +kernel
  · decide +kernel

theorem bn256Order_prime : Nat.Prime bn256Order := by
  refine prime_of_cert _ 5 [(2, 28), (3, 2), (13, 1), (29, 1), (983, 1), (11003, 1), (237073, 1), (405928799, 1),
    (1670836401704629, 1), (13818364434197438864469338081, 1)] ?_ ?_ ?_ ?_ ?_ ?_
  · decide +kernel
  · decide +kernel
  · intro f hf
    simp only [List.mem_cons, List.not_mem_nil, or_false] at hf
    rcases hf with h | h | h | h | h | h | h | h | h | h <;> subst h
    · norm_num
    · norm_num
    · norm_num
    · norm_num
    · norm_num
    · norm_num
    · norm_num
    · exact p405928799
    · exact p1670836401704629
    · exact p13818364434197438864469338081
  · decide +kernel
  · decide +kernel
  · decide +kernel

end Shutter.Crypto
