import Verif.Spec.Observe
import Mathlib.Data.List.Induction

/-! Lemmas about the observed shuttermint state (Model/Observe). -/

namespace Shutter.Observe
open Shutter.App
open Shutter.Events (Codecs AbciEvent makeEvent)

/-! ## `sort.Search` -/

theorem searchLoop_spec (f : Nat → Bool) (n : Nat) (mono : ∀ i j, i ≤ j → j < n → f i = true → f j = true) :
    ∀ m i j, j - i = m → i ≤ j → j ≤ n → (∀ k, k < i → f k = false) → (∀ k, j ≤ k → k < n → f k = true) →
      searchLoop f i j ≤ n ∧ (∀ k, k < searchLoop f i j → f k = false) ∧
        (∀ k, searchLoop f i j ≤ k → k < n → f k = true) := by
  intro m
  induction m using Nat.strong_induction_on with
  | _ m ih =>
    intro i j hm hij hjn hlo hhi
    rw [searchLoop]
    split
    · rename_i hlt
      split
      · rename_i hf
        refine ih ((i + j) / 2 - i) (by omega) i ((i + j) / 2) rfl (by omega) (by omega) hlo ?_
        intro k hk hkn
        exact mono _ _ hk hkn hf
      · rename_i hf
        refine ih (j - ((i + j) / 2 + 1)) (by omega) _ j rfl (by omega) hjn ?_ hhi
        intro k hk
        cases hfk : f k with
        | false => rfl
        | true => exact absurd (mono k ((i + j) / 2) (by omega) (by omega) hfk) hf
    · have : i = j := by omega
      subst this
      exact ⟨hjn, hlo, hhi⟩

theorem goSearch_spec (f : Nat → Bool) (n : Nat) (mono : ∀ i j, i ≤ j → j < n → f i = true → f j = true) :
    goSearch n f ≤ n ∧ (∀ k, k < goSearch n f → f k = false) ∧ (∀ k, goSearch n f ≤ k → k < n → f k = true) :=
  searchLoop_spec f n mono _ 0 n rfl (Nat.zero_le _) (Nat.le_refl _) (fun k hk => absurd hk (Nat.not_lt_zero _))
    (fun k hk hk' => absurd hk' (by omega))

/-- Events sorted by height. -/
def Sorted (l : List Stamped) : Prop := l.Pairwise (fun a b => a.height ≤ b.height)

theorem filter_eq_drop {α : Type} (p : α → Bool) (l : List α) (n : Nat) (h1 : ∀ i : Nat, i < n → ∀ x, l[i]? = some x → p x = false)
    (h2 : ∀ i : Nat, n ≤ i → ∀ x, l[i]? = some x → p x = true) : l.filter p = l.drop n := by
  induction l generalizing n with
  | nil => simp
  | cons a l ih =>
    cases n with
    | zero =>
      rw [List.drop_zero, List.filter_eq_self]
      intro x hx
      obtain ⟨i, hi⟩ := List.mem_iff_getElem?.1 hx
      exact h2 i (Nat.zero_le _) x hi
    | succ n =>
      have := h1 0 (Nat.succ_pos _) a rfl
      rw [List.filter_cons, this, List.drop_succ_cons]
      simp only [Bool.false_eq_true, if_false]
      exact ih n (fun i hi x hx => h1 (i + 1) (by omega) x (by simpa using hx))
        (fun i hi x hx => h2 (i + 1) (by omega) x (by simpa using hx))

theorem getFrom_eq_filter {l : List Stamped} (hs : Sorted l) (h : Int) :
    getFrom l h = l.filter (fun x => decide (x.height ≥ h)) := by
  have sp := goSearch_spec (fun (i : Nat) => l[i]?.any (fun x => decide (x.height ≥ h))) l.length (by
      intro i j hij hj hi
      have hi' : i < l.length := by omega
      simp only [List.getElem?_eq_getElem hi', List.getElem?_eq_getElem hj, Option.any_some, decide_eq_true_eq] at hi ⊢
      rcases Nat.lt_or_eq_of_le hij with hlt | rfl
      · have := List.pairwise_iff_getElem.1 hs i j hi' hj hlt
        omega
      · exact hi)
  obtain ⟨s1, s2, s3⟩ := sp
  have hd : getFrom l h = l.drop (goSearch l.length (fun (i : Nat) => l[i]?.any (fun x => decide (x.height ≥ h)))) := by
    unfold getFrom
    simp only
    split
    · rename_i he
      rw [List.drop_of_length_le (by omega)]
    · rfl
  rw [hd, filter_eq_drop _ l _ ?_ ?_]
  · intro i hi x hx
    simpa [hx] using s2 i hi
  · intro i hi x hx
    have hil : i < l.length := by
      rw [List.getElem?_eq_some_iff] at hx
      exact hx.1
    simpa [hx] using s3 i hi hil

/-! ## Finding eons -/

def EonsInc (l : List Eon) : Prop := l.Pairwise (fun a b => a.eon < b.eon)

theorem searchEon_spec {s : Shutter} (hs : EonsInc s.eons) (e : Nat) :
    searchEon s e ≤ s.eons.length ∧ (∀ i, i < searchEon s e → ∀ x, s.eons[i]? = some x → x.eon < e) ∧
      ∀ i, searchEon s e ≤ i → ∀ x, s.eons[i]? = some x → e ≤ x.eon := by
  have sp := goSearch_spec (fun (i : Nat) => s.eons[i]?.any (fun x => decide (e ≤ x.eon))) s.eons.length (by
      intro i j hij hj hi
      have hi' : i < s.eons.length := by omega
      simp only [List.getElem?_eq_getElem hi', List.getElem?_eq_getElem hj, Option.any_some, decide_eq_true_eq] at hi ⊢
      rcases Nat.lt_or_eq_of_le hij with hlt | rfl
      · have := List.pairwise_iff_getElem.1 hs i j hi' hj hlt
        omega
      · exact hi)
  obtain ⟨s1, s2, s3⟩ := sp
  refine ⟨s1, fun i hi x hx => ?_, fun i hi x hx => ?_⟩
  · have := s2 i hi
    rw [hx] at this
    simpa using this
  · have := s3 i hi (by rw [List.getElem?_eq_some_iff] at hx; exact hx.1)
    rw [hx] at this
    simpa using this

theorem findEonIdx_eq_some {s : Shutter} (hs : EonsInc s.eons) {e i : Nat} :
    findEonIdx s e = some i ↔ ∃ x, s.eons[i]? = some x ∧ x.eon = e := by
  obtain ⟨s1, s2, s3⟩ := searchEon_spec hs e
  unfold findEonIdx
  simp only
  constructor
  · intro h
    split at h
    · exact absurd h (by simp)
    · rename_i x hx
      split at h
      · exact absurd h (by simp)
      · cases h
        have := s3 _ (Nat.le_refl _) x hx
        exact ⟨x, hx, by omega⟩
  · rintro ⟨x, hx, rfl⟩
    have hge : ¬ i < searchEon s x.eon := fun h => absurd (s2 i h x hx) (by omega)
    have hil : i < s.eons.length := by rw [List.getElem?_eq_some_iff] at hx; exact hx.1
    have hle : searchEon s x.eon = i := by
      rcases Nat.lt_trichotomy (searchEon s x.eon) i with h | h | h
      · have hl : searchEon s x.eon < s.eons.length := by omega
        have h1 := s3 _ (Nat.le_refl _) _ (List.getElem?_eq_getElem hl)
        have h2 := List.pairwise_iff_getElem.1 hs _ i hl hil h
        rw [List.getElem?_eq_getElem hil] at hx
        cases hx
        omega
      · exact h
      · exact absurd h (by omega)
    rw [hle, hx]
    simp

theorem findEon_eq_some {s : Shutter} (hs : EonsInc s.eons) {e : Nat} {x : Eon} :
    findEon s e = some x ↔ x ∈ s.eons ∧ x.eon = e := by
  unfold findEon
  rw [Option.bind_eq_some_iff]
  constructor
  · rintro ⟨i, hi, hx⟩
    obtain ⟨y, hy, rfl⟩ := (findEonIdx_eq_some hs).1 hi
    rw [hx] at hy
    cases hy
    exact ⟨List.mem_of_getElem? hx, rfl⟩
  · rintro ⟨hx, rfl⟩
    obtain ⟨i, hi⟩ := List.mem_iff_getElem?.1 hx
    exact ⟨i, (findEonIdx_eq_some hs).2 ⟨x, hi, rfl⟩, hi⟩

/-- Updating the eon found. -/
theorem updateEon_eons {s : Shutter} (hs : EonsInc s.eons) (e : Nat) (f : Eon → Eon) :
    (updateEon s e f).eons = s.eons.map (fun x => if x.eon = e then f x else x) := by
  unfold updateEon
  cases h : findEonIdx s e with
  | none =>
    simp only
    refine (List.map_id _).symm.trans (List.map_congr_left ?_)
    intro x hx
    rw [if_neg]
    · rfl
    intro he
    obtain ⟨i, hi⟩ := List.mem_iff_getElem?.1 hx
    rw [(findEonIdx_eq_some hs).2 ⟨x, hi, he⟩] at h
    cases h
  | some i =>
    obtain ⟨x, hx, rfl⟩ := (findEonIdx_eq_some hs).1 h
    simp only
    apply List.ext_getElem?
    intro j
    rw [List.getElem?_modify, List.getElem?_map]
    cases hj : s.eons[j]? with
    | none => simp
    | some y =>
      by_cases hij : i = j
      · subst hij
        rw [hx] at hj
        cases hj
        simp
      · have : y.eon ≠ x.eon := by
          intro he
          have h1 := (findEonIdx_eq_some hs).2 ⟨y, hj, he⟩
          rw [h] at h1
          exact hij (Option.some.inj h1)
        simp [hij, this]

end Shutter.Observe
