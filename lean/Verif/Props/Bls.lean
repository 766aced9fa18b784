import Mathlib.Algebra.Group.TypeTags.Basic
import Mathlib.Data.ZMod.Basic
import Mathlib.Data.Nat.Prime.Basic
import Verif.Proofs.Bn256
import Verif.Model.Bls

/-! Property theorems C11, C12 (shbls). -/

namespace Shutter.Bls

section lemmas
variable {G1 G2 GT : Type} [AddCommGroup G1] [AddCommGroup G2] [CommGroup GT] {env : Env G1 G2 GT}

theorem Lawful.pair_zero_left (h : Lawful env) (q : G2) : env.pair 0 q = 1 := by
  have := h.pair_add_left 0 0 q; simpa using this
theorem Lawful.pair_zero_right (h : Lawful env) (p : G1) : env.pair p 0 = 1 := by
  have := h.pair_add_right p 0 0; simpa using this
theorem Lawful.pair_neg_left (h : Lawful env) (p : G1) (q : G2) : env.pair (-p) q = (env.pair p q)⁻¹ := by
  have := h.pair_add_left (-p) p q
  rw [neg_add_cancel, h.pair_zero_left] at this
  exact eq_inv_of_mul_eq_one_left this.symm
theorem Lawful.pair_neg_right (h : Lawful env) (p : G1) (q : G2) : env.pair p (-q) = (env.pair p q)⁻¹ := by
  have := h.pair_add_right p (-q) q
  rw [neg_add_cancel, h.pair_zero_right] at this
  exact eq_inv_of_mul_eq_one_left this.symm
theorem Lawful.pair_smul_left (h : Lawful env) (n : Nat) (p : G1) (q : G2) :
    env.pair (n • p) q = env.pair p q ^ n := by
  induction n with
  | zero => simp [h.pair_zero_left]
  | succ n ih => rw [succ_nsmul, h.pair_add_left, ih, pow_succ]
theorem Lawful.pair_smul_right (h : Lawful env) (n : Nat) (p : G1) (q : G2) :
    env.pair p (n • q) = env.pair p q ^ n := by
  induction n with
  | zero => simp [h.pair_zero_right]
  | succ n ih => rw [succ_nsmul, h.pair_add_right, ih, pow_succ]

theorem foldl_add_start {G : Type} [AddCommGroup G] : ∀ (l : List G) (a : G), l.foldl (fun a s => a + s) a = a + l.sum := by
  intro l
  induction l with
  | nil => simp
  | cons x xs ih => intro a; rw [List.foldl_cons, ih, List.sum_cons, add_assoc]

end lemmas

namespace Props
variable {G1 G2 GT : Type} [AddCommGroup G1] [AddCommGroup G2] [CommGroup GT] [DecidableEq GT]

/-- **C11** A signature verifies under the public key of secret key `sk` exactly if it is the signature made with `sk`. -/
theorem C11_verify_exact (env : Env G1 G2 GT) (law : Lawful env) (sk : Nat) (msg : Shutter.Crypto.Bytes) (sig : G2) :
    verify env sig (secretToPublicKey env sk) msg = true ↔ sig = sign env msg sk := by
  unfold verify secretToPublicKey sign
  rw [beq_iff_eq, one_nsmul, law.pair_neg_left, law.pair_smul_left, ← law.pair_smul_right, inv_mul_eq_one]
  constructor
  · intro h
    have h1 : env.pair env.g1 (sig + -(sk • hashToG2 env msg)) = 1 := by
      rw [law.pair_add_right, h, ← law.pair_add_right, add_neg_cancel, law.pair_zero_right]
    exact add_neg_eq_zero.1 (law.nondegenerate _ h1)
  · rintro rfl; rfl

/-- **C11** The aggregate of the signatures of any group of signers on the same message verifies under the aggregate of
their public keys. -/
theorem C11_aggregate_verifies (env : Env G1 G2 GT) (law : Lawful env) (sks : List Nat) (msg : Shutter.Crypto.Bytes) :
    verify env (aggregateSignatures env (sks.map (sign env msg)))
      (aggregatePublicKeys env (sks.map (secretToPublicKey env))) msg = true := by
  have h1 : aggregateSignatures env (sks.map (sign env msg)) = sign env msg sks.sum := by
    unfold aggregateSignatures sign
    rw [foldl_add_start, zero_nsmul, zero_add]
    induction sks with
    | nil => simp
    | cons x xs ih => rw [List.map_cons, List.sum_cons, List.sum_cons, ih, add_nsmul]
  have h2 : aggregatePublicKeys env (sks.map (secretToPublicKey env)) = secretToPublicKey env sks.sum := by
    clear h1
    unfold aggregatePublicKeys secretToPublicKey
    rw [foldl_add_start, zero_nsmul, zero_add]
    induction sks with
    | nil => simp
    | cons x xs ih => rw [List.map_cons, List.sum_cons, List.sum_cons, ih, add_nsmul]
  rw [h1, h2, C11_verify_exact env law]

/-- **C12** (finding: the property is false of the code) Because messages are hashed to a *known multiple* of the generator,
anyone holding one signature on a message `m` (whose hash is not a multiple of the order) can compute, from public data
only, a factor `k` such that `k·sig` is a valid signature of the same signer on any other message `m'`. -/
theorem C12_forgery_counterexample (env : Env G1 G2 GT) (law : Lawful env) (m m' : Shutter.Crypto.Bytes)
    (hm : ¬ Shutter.Crypto.bn256Order ∣ Shutter.Crypto.beNat (env.keccak m).toBytes) :
    ∃ k : Nat, ∀ (sk : Nat) (sig : G2), verify env sig (secretToPublicKey env sk) m = true →
      verify env (k • sig) (secretToPublicKey env sk) m' = true := by
  have hc : Nat.Coprime (Shutter.Crypto.beNat (env.keccak m).toBytes) Shutter.Crypto.bn256Order :=
    Nat.Coprime.symm ((Nat.Prime.coprime_iff_not_dvd Shutter.Crypto.bn256Order_prime).2 hm)
  obtain ⟨inv, hinv⟩ := Nat.exists_mul_mod_eq_one_of_coprime hc Shutter.Crypto.bn256Order_prime.one_lt
  refine ⟨inv * Shutter.Crypto.beNat (env.keccak m').toBytes, ?_⟩
  intro sk sig hs
  rw [C11_verify_exact env law] at hs ⊢
  subst hs
  unfold sign hashToG2
  have hmod : ∀ (n : Nat) (p : G2), (n % Shutter.Crypto.bn256Order) • p = n • p := by
    intro n p
    conv_rhs => rw [← Nat.div_add_mod n Shutter.Crypto.bn256Order]
    rw [add_nsmul, mul_comm, mul_nsmul, smul_comm, law.order_smul_G2, smul_zero, zero_add]
  set h := Shutter.Crypto.beNat (env.keccak m).toBytes
  set h' := Shutter.Crypto.beNat (env.keccak m').toBytes
  rw [← mul_nsmul, ← mul_nsmul, ← mul_nsmul]
  have e1 : h * (sk * (inv * h')) = (h * inv) * (h' * sk) := by ring
  rw [e1]
  rw [mul_nsmul, ← hmod (h * inv), hinv.2, one_nsmul]

/-- A concrete instance of bn256-like groups. -/
def toyEnv : Env (ZMod Shutter.Crypto.bn256Order) (ZMod Shutter.Crypto.bn256Order)
    (Multiplicative (ZMod Shutter.Crypto.bn256Order)) where
  g1 := 1
  g2 := 1
  pair p q := Multiplicative.ofAdd (p * q)
  keccak b := fun i => b.getD i 7

theorem toyLawful : Lawful toyEnv where
  order_smul_G2 p := by simp
  pair_add_left p p' q := by simp [toyEnv, add_mul, ofAdd_add]
  pair_add_right p q q' := by simp [toyEnv, mul_add, ofAdd_add]
  nondegenerate q h := by
    simp only [toyEnv, one_mul] at h
    exact Multiplicative.ofAdd.injective (by simpa using h)

example : ¬ Shutter.Crypto.bn256Order ∣ Shutter.Crypto.beNat (toyEnv.keccak [1]).toBytes := by decide +kernel

end Props
end Shutter.Bls
