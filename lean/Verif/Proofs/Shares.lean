import Mathlib.LinearAlgebra.Lagrange
import Mathlib.FieldTheory.Finite.Basic
import Verif.Proofs.Prime
import Verif.Proofs.Encryption
import Verif.Spec.Crypto

/-! Helper lemmas about Feldman/Shamir sharing and Lagrange interpolation. -/

namespace Shutter.Crypto
open Spec

/-- The residue field of the scalars. -/
abbrev F := ZMod order

theorem cast_mod (n : Nat) : ((n % order : Nat) : F) = (n : F) := ZMod.natCast_mod n order

theorem order_pos : 0 < order := order_prime'.pos

section smul
variable {G : Type} [AddCommGroup G]

theorem smul_mod (h : ∀ p : G, order • p = 0) (n : Nat) (p : G) : (n % order) • p = n • p := by
  conv_rhs => rw [← Nat.div_add_mod n order]
  rw [add_nsmul, mul_comm, mul_nsmul, smul_comm, h, smul_zero, zero_add]

theorem smul_congr (h : ∀ p : G, order • p = 0) {n m : Nat} (e : (n : F) = (m : F)) (p : G) :
    n • p = m • p := by
  rw [ZMod.natCast_eq_natCast_iff] at e
  rw [← smul_mod h n, ← smul_mod h m, e]

/-- A nonzero element of a group of prime exponent is not killed by a nonzero residue. -/
theorem cast_eq_of_smul_eq (h : ∀ p : G, order • p = 0) {g : G} (hg : g ≠ 0) {n m : Nat}
    (e : n • g = m • g) : (n : F) = (m : F) := by
  rw [ZMod.natCast_eq_natCast_iff]
  have ho : addOrderOf g = order := addOrderOf_eq_prime (h g) hg
  rw [← ho]
  exact (nsmul_eq_nsmul_iff_modEq).1 e

end smul

/-! ### polynomials -/

/-- Recursive evaluation in the field. -/
def fval : List Nat → F → F
  | [], _ => 0
  | c :: cs, x => c + x * fval cs x

theorem polyValue_cons (c : Nat) (cs : List Nat) (x : Nat) :
    polyValue (c :: cs) x = c + x * polyValue cs x := by
  unfold polyValue
  have h : (cs.mapIdx fun i c => c * x ^ (i + 1)) = (cs.mapIdx fun i c => c * x ^ i).map fun y => x * y := by
    apply List.ext_getElem (by simp)
    intro i h1 h2
    simp [pow_succ]; ring
  rw [List.mapIdx_cons, List.sum_cons, h, List.sum_map_mul_left]
  simp

theorem polyValue_cast (p : List Nat) (x : Nat) : ((polyValue p x : Nat) : F) = fval p (x : F) := by
  induction p with
  | nil => simp [polyValue, fval]
  | cons c cs ih => rw [polyValue_cons]; push_cast; rw [ih]; rfl

theorem fval_append (p : List Nat) (c : Nat) (x : F) : fval (p ++ [c]) x = fval p x + x ^ p.length * c := by
  induction p with
  | nil => simp [fval]
  | cons d ds ih => simp [fval, ih, pow_succ]; ring

theorem horner_cast (x : Nat) : ∀ (cs : List Nat) (c : Nat),
    ((cs.foldl (fun res a => (res * x + a) % order) c : Nat) : F) =
      fval (cs.reverse ++ [c]) (x : F) := by
  intro cs
  induction cs with
  | nil => intro c; simp [fval]
  | cons a cs ih =>
    intro c
    rw [List.foldl_cons, ih, fval_append, cast_mod, List.reverse_cons, fval_append, fval_append]
    push_cast
    simp [pow_succ]; ring

theorem polyEvalAt_cast {p : List Nat} {x v : Nat} (h : polyEvalAt p x = some v) :
    (v : F) = fval p (x : F) := by
  unfold polyEvalAt at h
  cases hr : p.reverse with
  | nil => rw [hr] at h; simp at h
  | cons c cs =>
    rw [hr] at h
    simp only [Option.some.injEq] at h
    have := horner_cast x cs c
    rw [h] at this
    rw [this]
    have hp : p = (c :: cs).reverse := by rw [← hr, List.reverse_reverse]
    rw [hp]; simp

theorem polyEvalAt_lt {p : List Nat} {x v : Nat} (hp : ∀ c ∈ p, c < order) (h : polyEvalAt p x = some v) :
    v < order := by
  unfold polyEvalAt at h
  cases hr : p.reverse with
  | nil => rw [hr] at h; simp at h
  | cons c cs =>
    rw [hr] at h
    simp only [Option.some.injEq] at h
    have hc : c < order := hp c (by rw [← List.mem_reverse, hr]; simp)
    rw [← h]
    clear h hr
    induction cs generalizing c with
    | nil => simpa
    | cons a cs ih => exact ih _ (Nat.mod_lt _ order_pos)

theorem polyEvalAt_isSome {p : List Nat} (x : Nat) (h : p ≠ []) : ∃ v, polyEvalAt p x = some v := by
  unfold polyEvalAt
  cases hr : p.reverse with
  | nil => simp at hr; exact absurd hr h
  | cons c cs => exact ⟨_, rfl⟩

/-- Closed form of the evaluation. -/
theorem polyEvalAt_eq {p : List Nat} (x : Nat) (hp : ∀ c ∈ p, c < order) (hne : p ≠ []) :
    polyEvalAt p x = some (polyValue p x % order) := by
  obtain ⟨v, hv⟩ := polyEvalAt_isSome x hne
  have h1 := polyEvalAt_cast hv
  have h2 := polyEvalAt_lt hp hv
  rw [← polyValue_cast, ZMod.natCast_eq_natCast_iff] at h1
  rw [hv, ← h1, Nat.mod_eq_of_lt h2]

/-! ### gammas -/

section pi
variable {G2 : Type} [AddCommGroup G2]

theorem pi_fold (h : ∀ p : G2, order • p = 0) (xi : Nat) : ∀ (gs : List G2) (k : Nat) (acc : G2) (e : Nat),
    (k : F) = (xi : F) ^ e →
    (gs.foldl (fun (st : Nat × G2) gamma => (st.1 * xi % order, st.2 + st.1 • gamma)) (k, acc)).2 =
      acc + (gs.mapIdx fun i γ => (xi ^ (e + i)) • γ).sum := by
  intro gs
  induction gs with
  | nil => intro k acc e _; simp
  | cons g gs ih =>
    intro k acc e hk
    rw [List.foldl_cons, ih _ _ (e + 1) (by rw [cast_mod]; push_cast; rw [hk]; ring), List.mapIdx_cons,
      List.sum_cons]
    rw [smul_congr h (n := k) (m := xi ^ e) (by push_cast; exact hk), add_assoc]
    congr 2
    congr 1
    apply List.ext_getElem (by simp)
    intro i h1 h2
    simp [add_comm, add_left_comm]

theorem gammasPi_eq (h : ∀ p : G2, order • p = 0) (gs : List G2) (xi : Nat) :
    gammasPi gs xi = (gs.mapIdx fun i γ => (xi ^ i) • γ).sum := by
  unfold gammasPi
  rw [pi_fold h xi gs 1 0 0 (by simp)]
  simp

theorem sum_mapIdx_smul (g : G2) (p : List Nat) (x : Nat) : ∀ e,
    ((p.map fun c => c • g).mapIdx fun i γ => (x ^ (e + i)) • γ).sum =
      (x ^ e * polyValue p x) • g := by
  induction p with
  | nil => intro e; simp [polyValue]
  | cons c cs ih =>
    intro e
    rw [List.map_cons, List.mapIdx_cons, List.sum_cons, polyValue_cons]
    have := ih (e + 1)
    have h2 : ((cs.map fun c => c • g).mapIdx fun i γ => (x ^ (e + (i + 1))) • γ) =
      ((cs.map fun c => c • g).mapIdx fun i γ => (x ^ (e + 1 + i)) • γ) := by
      apply List.ext_getElem (by simp)
      intro i h1 h2
      simp [add_comm, add_left_comm]
    rw [h2, this, ← mul_nsmul', ← add_nsmul]
    congr 1
    ring

theorem gammasPi_polyGammas {G1 GT : Type} (env : Env G1 G2 GT) (h : ∀ p : G2, order • p = 0) (p : List Nat)
    (x : Nat) : gammasPi (polyGammas env p) x = polyValue p x • env.g2 := by
  rw [gammasPi_eq h]
  have := sum_mapIdx_smul env.g2 p x 0
  simpa [polyGammas] using this

end pi

/-! ### interpolation at zero -/

/-- The list as a Mathlib polynomial. -/
noncomputable def toPoly : List Nat → Polynomial F
  | [] => 0
  | c :: cs => Polynomial.C (c : F) + Polynomial.X * toPoly cs

theorem toPoly_eval (p : List Nat) (x : F) : (toPoly p).eval x = fval p x := by
  induction p with
  | nil => simp [toPoly, fval]
  | cons c cs ih => simp [toPoly, fval, ih]

theorem toPoly_degree (p : List Nat) : (toPoly p).degree < (p.length : WithBot ℕ) := by
  rw [Polynomial.degree_lt_iff_coeff_zero]
  induction p with
  | nil => simp [toPoly]
  | cons c cs ih =>
    intro m hm
    obtain ⟨k, rfl⟩ : ∃ k, m = k + 1 := ⟨m - 1, by simp at hm; omega⟩
    rw [toPoly, Polynomial.coeff_add, Polynomial.coeff_X_mul, ih k (by simpa using hm),
      Polynomial.coeff_C, if_neg (by omega), add_zero]

theorem modExp_eq (m : Nat) : ∀ bits x e, e < 2 ^ bits → modExp m bits x e = x ^ e % m := by
  intro bits
  induction bits with
  | zero => intro x e h; obtain rfl : e = 0 := by omega
            simp [modExp]
  | succ bits ih =>
    intro x e h
    have h2 : e / 2 < 2 ^ bits := by rw [pow_succ] at h; omega
    unfold modExp
    rw [ih _ _ h2]
    have hp : (x * x % m) ^ (e / 2) % m = x ^ (2 * (e / 2)) % m := by rw [← Nat.pow_mod, pow_mul, pow_two]
    rw [hp]
    split
    · rw [Nat.mul_mod_mod, ← pow_succ']
      congr 2; omega
    · congr 2; omega

theorem invert_eq (x : Nat) : invert x = x ^ (order - 2) % order := modExp_eq _ _ _ _ (by decide)

theorem invert_cast (x : Nat) : ((invert x : Nat) : F) = (x : F)⁻¹ := by
  rw [invert_eq]
  rw [cast_mod]
  push_cast
  by_cases hx : (x : F) = 0
  · rw [hx, inv_zero, zero_pow]
    decide +kernel
  · apply eq_inv_of_mul_eq_one_left
    rw [← pow_succ]
    have h1 : order - 2 + 1 = order - 1 := by decide +kernel
    rw [h1]
    exact ZMod.pow_card_sub_one_eq_one hx

theorem factor_cast (k i : Nat) :
    ((lagrangeCoefficientFactor k i : Nat) : F) = (keyperX k : F) * ((keyperX k : F) - (keyperX i : F))⁻¹ := by
  unfold lagrangeCoefficientFactor
  simp only
  rw [cast_mod]
  push_cast
  rw [invert_cast]
  have hpos : (0 : Int) < (order : Int) := by exact_mod_cast order_pos
  have h1 : (((((keyperX k : Int) - (keyperX i : Int)) % (order : Int)).toNat : Nat) : F) =
      (keyperX k : F) - (keyperX i : F) := by
    have h2 := Int.toNat_of_nonneg (Int.emod_nonneg ((keyperX k : Int) - (keyperX i : Int)) hpos.ne')
    have h3 : (((((keyperX k : Int) - (keyperX i : Int)) % (order : Int)).toNat : Int) : F) =
      ((((keyperX k : Int) - (keyperX i : Int)) % (order : Int) : Int) : F) := by rw [h2]
    rw [ZMod.intCast_mod] at h3
    push_cast at h3
    exact_mod_cast h3
  rw [h1]

theorem lagrange_cast (i : Nat) (l : List Nat) : ((lagrangeCoefficient i l : Nat) : F) =
    ((l.filter (· ≠ i)).map fun k => (keyperX k : F) * ((keyperX k : F) - (keyperX i : F))⁻¹).prod := by
  unfold lagrangeCoefficient
  have : ∀ (l : List Nat) (a : Nat), ((l.foldl (fun lambda k =>
      if k = i then lambda else lambda * lagrangeCoefficientFactor k i % order) a : Nat) : F) =
      a * ((l.filter (· ≠ i)).map fun k => (keyperX k : F) * ((keyperX k : F) - (keyperX i : F))⁻¹).prod := by
    intro l
    induction l with
    | nil => simp
    | cons k ks ih =>
      intro a
      rw [List.foldl_cons, ih]
      by_cases hk : k = i
      · simp [hk]
      · simp only [hk, if_false, ne_eq, not_false_eq_true, decide_true, List.filter_cons_of_pos,
          List.map_cons, List.prod_cons]
        rw [cast_mod]
        push_cast
        rw [factor_cast]; ring
  rw [this]; simp

theorem lagrange_at_zero (p : List Nat) (l : List Nat) (hl : l.Nodup) (hb : ∀ i ∈ l, i + 1 < order)
    (hlen : p.length ≤ l.length) :
    (l.map fun i => ((lagrangeCoefficient i l : Nat) : F) * fval p (keyperX i : F)).sum = fval p 0 := by
  set v : Nat → F := fun i => (keyperX i : F) with hv
  have hinj : Set.InjOn v (l.toFinset : Set Nat) := by
    intro a ha b hb' hab
    simp only [List.coe_toFinset, Set.mem_ofPred_eq] at ha hb'
    simp only [hv, keyperX] at hab
    rw [ZMod.natCast_eq_natCast_iff] at hab
    have h1 := hb a ha
    have h2 := hb b hb'
    have := Nat.ModEq.eq_of_lt_of_lt hab (by omega) (by omega)
    omega
  have hdeg : (toPoly p).degree < (l.toFinset.card : WithBot ℕ) := by
    rw [List.toFinset_card_of_nodup hl]
    refine lt_of_lt_of_le (toPoly_degree p) ?_
    exact_mod_cast hlen
  have hint := Lagrange.eq_interpolate hinj hdeg
  have h0 : fval p 0 = ((Lagrange.interpolate l.toFinset v) fun i => (toPoly p).eval (v i)).eval 0 := by
    rw [← hint, toPoly_eval]
  rw [h0, Lagrange.interpolate_apply, Polynomial.eval_finsetSum, List.sum_toFinset _ hl]
  congr 1
  apply List.map_congr_left
  intro i hi
  rw [Polynomial.eval_mul, Polynomial.eval_C, toPoly_eval, mul_comm]
  congr 1
  rw [Lagrange.basis, Polynomial.eval_prod, lagrange_cast]
  have : l.toFinset.erase i = (l.filter (· ≠ i)).toFinset := by
    ext x; simp [and_comm]
  rw [this, List.prod_toFinset _ (hl.filter _)]
  congr 1
  apply List.map_congr_left
  intro k _
  simp only [Lagrange.basisDivisor, Polynomial.eval_mul, Polynomial.eval_C, Polynomial.eval_sub,
    Polynomial.eval_X]
  rw [← neg_sub (v k) (v i), inv_neg]
  simp [hv]; ring

theorem foldl_add_smul {G1 : Type} [AddCommGroup G1] : ∀ (l : List (G1 × Nat)) (a : G1),
    l.foldl (fun sk (sl : G1 × Nat) => sk + sl.2 • sl.1) a = a + (l.map fun sl => sl.2 • sl.1).sum := by
  intro l
  induction l with
  | nil => simp
  | cons x xs ih => intro a; rw [List.foldl_cons, ih, List.map_cons, List.sum_cons, add_assoc]

theorem sum_smul_nat {G1 : Type} [AddCommGroup G1] (l : List Nat) (f : Nat → Nat) (g : G1) :
    (l.map fun i => f i • g).sum = (l.map f).sum • g := by
  induction l with
  | nil => simp
  | cons x xs ih => simp [ih, add_nsmul]

/-- Reconstruction: any list of distinct keypers with shares on `p` yields the secret times the epoch id. -/
theorem reconstruct {G1 : Type} [AddCommGroup G1] (h : ∀ p : G1, order • p = 0) (p : List Nat)
    (idxs : List Nat) (hnd : idxs.Nodup) (hb : ∀ i ∈ idxs, i + 1 < order) (hlen : p.length ≤ idxs.length)
    (sk : Nat → Nat) (hsk : ∀ i ∈ idxs, (sk i : F) = fval p (keyperX i : F)) (E : G1) :
    computeEpochSecretKey idxs (idxs.map fun i => sk i • E) idxs.length = some (secret p • E) := by
  unfold computeEpochSecretKey lagrangeComputeEpochSecretKey newLagrangeCoeffs
  rw [if_neg (by simp), if_neg (by simp), if_neg (by simp)]
  congr 1
  rw [foldl_add_smul, zero_add, List.zip_map', List.map_map]
  have h1 : (idxs.map ((fun sl : G1 × Nat => sl.2 • sl.1) ∘
      fun i => (sk i • E, lagrangeCoefficient i idxs))) =
      idxs.map fun i => (lagrangeCoefficient i idxs * sk i) • E := by
    apply List.map_congr_left
    intro i _
    simp [mul_nsmul']
  rw [h1, sum_smul_nat]
  apply smul_congr h
  have h2 := lagrange_at_zero p idxs hnd hb hlen
  rw [Nat.cast_list_sum, List.map_map]
  have h3 : (idxs.map ((fun n : Nat => (n : F)) ∘ fun i => lagrangeCoefficient i idxs * sk i)) =
      idxs.map fun i => ((lagrangeCoefficient i idxs : Nat) : F) * fval p (keyperX i : F) := by
    apply List.map_congr_left
    intro i hi
    simp [hsk i hi]
  rw [h3, h2]
  cases p with
  | nil => simp [fval, secret]
  | cons c cs => simp [fval, secret]

theorem foldl_addmod_cast : ∀ (l : List Nat) (a : Nat),
    ((l.foldl (fun res si => (res + si) % order) a : Nat) : F) = a + (l.map fun n : Nat => (n : F)).sum := by
  intro l
  induction l with
  | nil => simp
  | cons x xs ih => intro a; rw [List.foldl_cons, ih, cast_mod]; push_cast; simp [add_assoc]

theorem eonSecretKeyShare_cast (l : List Nat) :
    ((computeEonSecretKeyShare l : Nat) : F) = (l.map fun n : Nat => (n : F)).sum := by
  unfold computeEonSecretKeyShare; rw [foldl_addmod_cast]; simp

end Shutter.Crypto
