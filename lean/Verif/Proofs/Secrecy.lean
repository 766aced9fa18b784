import Verif.Proofs.Shares
import Verif.Spec.Secrecy
import Mathlib.GroupTheory.Index

/-! Helper lemmas for what is seen of a dealer's secret. -/

namespace Shutter.Crypto
open Spec Polynomial Shutter.Dkg

/-- The points: zero, for the secret, and those of the keypers. -/
def points (J : Finset Nat) : Finset Nat := insert 0 (J.image keyperX)

theorem points_card (J : Finset Nat) : (points J).card = J.card + 1 := by
  unfold points
  rw [Finset.card_insert_of_notMem, Finset.card_image_of_injective]
  · intro a b h; unfold keyperX at h; omega
  · simp [keyperX]

theorem points_injOn {J : Finset Nat} (small : ∀ j ∈ J, j + 1 < order) : Set.InjOn (fun x : Nat => (x : F)) (points J) := by
  have lt : ∀ x ∈ points J, x < order := by
    intro x hx
    simp only [points, Finset.mem_insert, Finset.mem_image] at hx
    rcases hx with rfl | ⟨j, hj, rfl⟩
    · exact order_pos
    · have := small j hj; unfold keyperX; omega
  intro x hx y hy h
  have := (ZMod.natCast_eq_natCast_iff' x y order).1 h
  rwa [Nat.mod_eq_of_lt (lt x hx), Nat.mod_eq_of_lt (lt y hy)] at this

theorem sum_points {M : Type} [AddCommMonoid M] (J : Finset Nat) (f : Nat → M) : ∑ x ∈ points J, f x = f 0 + ∑ j ∈ J, f (keyperX j) := by
  unfold points
  rw [Finset.sum_insert (by simp [keyperX]), Finset.sum_image]
  intro a _ b _ h; unfold keyperX at h; omega

theorem interp {J : Finset Nat} (small : ∀ j ∈ J, j + 1 < order) {p : List Nat} (hp : p.length ≤ J.card + 1) :
    toPoly p = ∑ x ∈ points J, C (fval p (x : F)) * Lagrange.basis (points J) (fun x : Nat => (x : F)) x := by
  have hdeg : (toPoly p).degree < ((points J).card : WithBot ℕ) := by
    refine lt_of_lt_of_le (toPoly_degree p) ?_
    rw [points_card]
    exact_mod_cast hp
  have := Lagrange.eq_interpolate (points_injOn small) hdeg
  rw [Lagrange.interpolate_apply] at this
  refine this.trans (Finset.sum_congr rfl fun x _ => ?_)
  rw [toPoly_eval]

theorem toPoly_coeff (p : List Nat) (k : Nat) : (toPoly p).coeff k = ((p.getD k 0 : Nat) : F) := by
  induction p generalizing k with
  | nil => simp [toPoly]
  | cons c cs ih =>
    cases k with
    | zero => simp [toPoly]
    | succ k => rw [toPoly, coeff_add, coeff_X_mul, coeff_C, if_neg (by omega), zero_add, ih]; simp

theorem fval_zero (p : List Nat) : fval p 0 = ((secret p : Nat) : F) := by
  cases p <;> simp [fval, secret]

/-- The coefficients and values of a polynomial are fixed linear combinations of the secret and the evaluations of `J`. -/
theorem coeff_lin {J : Finset Nat} (small : ∀ j ∈ J, j + 1 < order) (k : Nat) : ∃ (a : Nat) (b : Nat → Nat), ∀ p : List Nat, p.length ≤ J.card + 1 →
    ((p.getD k 0 : Nat) : F) = a * (secret p : F) + ∑ j ∈ J, (b j : F) * fval p (keyperX j : F) := by
  let B := fun x => Lagrange.basis (points J) (fun x : Nat => (x : F)) x
  refine ⟨((B 0).coeff k).val, fun j => ((B (keyperX j)).coeff k).val, fun p hp => ?_⟩
  rw [← toPoly_coeff, interp small hp, sum_points, coeff_add, finset_sum_coeff, coeff_C_mul]
  simp only [coeff_C_mul, ZMod.natCast_val, ZMod.cast_id', id_eq]
  rw [Nat.cast_zero, fval_zero, mul_comm]
  congr 1
  exact Finset.sum_congr rfl fun j _ => mul_comm _ _

theorem value_lin {J : Finset Nat} (small : ∀ j ∈ J, j + 1 < order) (y : F) : ∃ (a : Nat) (b : Nat → Nat), ∀ p : List Nat, p.length ≤ J.card + 1 →
    fval p y = a * (secret p : F) + ∑ j ∈ J, (b j : F) * fval p (keyperX j : F) := by
  let B := fun x => Lagrange.basis (points J) (fun x : Nat => (x : F)) x
  refine ⟨((B 0).eval y).val, fun j => ((B (keyperX j)).eval y).val, fun p hp => ?_⟩
  rw [← toPoly_eval, interp small hp, sum_points, eval_add, eval_finset_sum, eval_mul, eval_C]
  simp only [eval_mul, eval_C, ZMod.natCast_val, ZMod.cast_id', id_eq]
  rw [Nat.cast_zero, fval_zero, mul_comm]
  congr 1
  exact Finset.sum_congr rfl fun j _ => mul_comm _ _

/-! ### Counting -/

/-- The values at the points of a polynomial with the given coefficients. -/
def valuesAt (t : Nat) (X : Finset Nat) : (Fin t → F) →+ (X → F) where
  toFun c x := ∑ i, c i * (x.1 : F) ^ (i : Nat)
  map_zero' := by ext x; simp
  map_add' c d := by ext x; simp [add_mul, Finset.sum_add_distrib]

theorem valuesAt_surjective {t : Nat} {X : Finset Nat} (inj : Set.InjOn (fun x : Nat => (x : F)) X) (h : X.card ≤ t) : Function.Surjective (valuesAt t X) := by
  classical
  intro r
  let r' : Nat → F := fun x => if hx : x ∈ X then r ⟨x, hx⟩ else 0
  let P := Lagrange.interpolate X (fun x : Nat => (x : F)) r'
  have hd : P.degree < (X.card : WithBot ℕ) := Lagrange.degree_interpolate_lt r' inj
  have hd' : P.degree < (t : WithBot ℕ) := lt_of_lt_of_le hd (by exact_mod_cast h)
  refine ⟨fun i => P.coeff i, funext fun x => ?_⟩
  show ∑ i : Fin t, P.coeff i * (x.1 : F) ^ (i : Nat) = r x
  rw [Fin.sum_univ_eq_sum_range (fun i => P.coeff i * (x.1 : F) ^ i) t]
  have h1 : P.eval (x.1 : F) = ∑ i ∈ Finset.range t, P.coeff i * (x.1 : F) ^ i := by
    rcases Nat.eq_zero_or_pos t with rfl | ht
    · have : P = 0 := by
        have : X = ∅ := Finset.card_eq_zero.1 (by omega)
        subst this
        exact absurd x.2 (Finset.notMem_empty _)
      simp [this]
    · refine eval_eq_sum_range' ?_ _
      by_cases h0 : P = 0
      · rw [h0]; simpa using ht
      · exact (natDegree_lt_iff_degree_lt h0).2 hd'
  rw [← h1, Lagrange.eval_interpolate_at_node r' inj x.2]
  simp [r']

instance : Fintype F := @ZMod.fintype order ⟨order_pos.ne'⟩

theorem card_F : Fintype.card F = order := by
  have := ZMod.card order
  convert this

theorem fiber_card {t : Nat} {X : Finset Nat} (inj : Set.InjOn (fun x : Nat => (x : F)) X) (h : X.card ≤ t) (r : X → F) :
    Nat.card {c : Fin t → F // valuesAt t X c = r} = order ^ (t - X.card) := by
  classical
  have sur := valuesAt_surjective inj h
  have hall : ∀ r', (Finset.univ.filter (fun c => valuesAt t X c = r')).card = (Finset.univ.filter (fun c => valuesAt t X c = r)).card := fun r' =>
    AddMonoidHom.card_fiber_eq_of_mem_range (valuesAt t X) (sur r') (sur r)
  have hsum := Finset.card_eq_sum_card_fiberwise (s := (Finset.univ : Finset (Fin t → F))) (t := (Finset.univ : Finset (X → F))) (f := valuesAt t X) (fun _ _ => Finset.mem_univ _)
  rw [Finset.sum_congr rfl (fun r' _ => hall r'), Finset.sum_const, smul_eq_mul, Finset.card_univ, Finset.card_univ, Fintype.card_fun, Fintype.card_fun,
    card_F, Fintype.card_fin, Fintype.card_coe] at hsum
  rw [Nat.card_eq_fintype_card, Fintype.card_subtype]
  have hpos : 0 < order ^ X.card := pow_pos order_pos _
  apply Nat.eq_of_mul_eq_mul_left hpos
  rw [← hsum, ← pow_add, Nat.add_sub_cancel' h]

/-- Polynomials are lists of residues. -/
def polyEquiv (t : Nat) : {p : List Nat // IsPoly t p} ≃ (Fin t → F) where
  toFun p i := ((p.1.getD i 0 : Nat) : F)
  invFun c := ⟨List.ofFn (fun i => (c i).val), by simp, by
    intro x hx
    rw [List.mem_ofFn] at hx
    obtain ⟨i, rfl⟩ := hx
    have : NeZero order := ⟨order_pos.ne'⟩
    exact ZMod.val_lt _⟩
  left_inv := by
    rintro ⟨p, hl, hp⟩
    apply Subtype.ext
    apply List.ext_getElem
    · simp [hl]
    · intro i h1 h2
      simp only [List.getElem_ofFn, List.getD_eq_getElem?_getD, List.getElem?_eq_getElem h2, Option.getD_some]
      exact ZMod.val_natCast_of_lt (hp _ (List.getElem_mem h2))
  right_inv := by
    intro c
    ext i
    have : NeZero order := ⟨order_pos.ne'⟩
    simp

theorem fval_eq_sum (p : List Nat) (x : F) : fval p x = ∑ i : Fin p.length, ((p.getD i 0 : Nat) : F) * x ^ (i : Nat) := by
  induction p with
  | nil => simp [fval]
  | cons c cs ih =>
    rw [fval, ih, List.length_cons, Fin.sum_univ_succ, Finset.mul_sum]
    simp only [Fin.val_zero, pow_zero, mul_one, Fin.val_succ, List.getD_cons_zero, List.getD_cons_succ]
    congr 1
    refine Finset.sum_congr rfl fun i _ => ?_
    rw [pow_succ]; ring

theorem valuesAt_poly {t : Nat} (X : Finset Nat) (p : {p : List Nat // IsPoly t p}) (x : X) : valuesAt t X (polyEquiv t p) x = fval p.1 (x.1 : F) := by
  obtain ⟨p, hl, hp⟩ := p
  subst hl
  rw [fval_eq_sum]
  rfl

end Shutter.Crypto
