import Verif.Proofs.AppInv

/-!
# C34: address list utilities (shuttermint/medley/medley.go)

The statements mention only core list notions (`Nodup`, `∈`, `take`, `getElem?`).
-/

namespace Shutter.Medley.Props

open Shutter.App

/-- **C34** `EnsureUniqueAddresses` accepts exactly the duplicate-free lists. -/
theorem C34_ensure_unique (as : List Addr) : ensureUniqueAddresses as = true ↔ as.Nodup := by
  simp [ensureUniqueAddresses, ensureUniqueGo_iff]

theorem dedupGo_eq (pre as : List Addr) (seen : List Addr) (hs : ∀ x, x ∈ seen ↔ x ∈ pre) :
    dedupGo seen as = ((as.zipIdx pre.length).filter
      (fun p => decide (p.1 ∉ (pre ++ as).take p.2))).map Prod.fst := by
  induction as generalizing pre seen with
  | nil => rfl
  | cons a as ih =>
    have h1 := ih (pre ++ [a]) seen
    have h2 := ih (pre ++ [a]) (a :: seen)
    simp only [List.append_assoc, List.singleton_append, List.length_append, List.length_singleton] at h1 h2
    rw [dedupGo, List.zipIdx_cons]
    by_cases ha : a ∈ pre
    · have hsa : seen.contains a = true := by simpa using (hs a).2 ha
      rw [if_pos hsa, List.filter_cons_of_neg (by simpa using ha)]
      apply h1
      intro x
      simp only [List.mem_append, List.mem_singleton, hs]
      constructor
      · exact Or.inl
      · rintro (h | rfl); exact h; exact ha
    · have hsa : a ∉ seen := fun h => ha ((hs a).1 h)
      rw [if_neg (by simpa using hsa), List.filter_cons_of_pos (by simpa using ha), List.map_cons]
      congr 1
      apply h2
      intro x
      rw [List.mem_cons, List.mem_append, List.mem_singleton, hs, or_comm]

/-- **C34** `DedupAddresses` keeps exactly the entries that occur at no earlier position, in order. -/
theorem C34_dedup_first_occurrences (as : List Addr) :
    dedupAddresses as =
      (as.zipIdx.filter (fun p => decide (p.1 ∉ as.take p.2))).map Prod.fst := by
  have := dedupGo_eq [] as [] (by simp)
  simpa [dedupAddresses] using this

theorem dedupGo_props (seen as : List Addr) :
    (∀ x, x ∈ dedupGo seen as ↔ x ∈ as ∧ x ∉ seen) ∧ (dedupGo seen as).Nodup ∧
      (dedupGo seen as).Sublist as := by
  induction as generalizing seen with
  | nil => simp [dedupGo]
  | cons a as ih =>
    rw [dedupGo]
    by_cases ha : a ∈ seen
    · rw [if_pos (by simpa using ha)]
      obtain ⟨h1, h2, h3⟩ := ih seen
      refine ⟨fun x => ?_, h2, h3.cons _⟩
      rw [h1, List.mem_cons]
      constructor
      · rintro ⟨h, h'⟩; exact ⟨.inr h, h'⟩
      · rintro ⟨rfl | h, h'⟩
        · exact absurd ha h'
        · exact ⟨h, h'⟩
    · rw [if_neg (by simpa using ha)]
      obtain ⟨h1, h2, h3⟩ := ih (a :: seen)
      refine ⟨fun x => ?_, ?_, h3.cons_cons _⟩
      · rw [List.mem_cons, h1, List.mem_cons, List.mem_cons]
        constructor
        · rintro (rfl | ⟨h, h'⟩)
          · exact ⟨.inl rfl, ha⟩
          · exact ⟨.inr h, fun hx => h' (.inr hx)⟩
        · rintro ⟨rfl | h, h'⟩
          · exact .inl rfl
          · by_cases hx : x = a
            · exact .inl hx
            · exact .inr ⟨h, by rintro (h'' | h''); exact hx h''; exact h' h''⟩
      · rw [List.nodup_cons]
        exact ⟨fun h => ((h1 a).1 h).2 List.mem_cons_self, h2⟩

/-- **C34** … so the result has the same members, no duplicates, the original order, and is the input itself
when that was already free of duplicates. -/
theorem C34_dedup (as : List Addr) :
    (∀ x, x ∈ dedupAddresses as ↔ x ∈ as) ∧ (dedupAddresses as).Nodup ∧
      (dedupAddresses as).Sublist as ∧ (as.Nodup → dedupAddresses as = as) := by
  obtain ⟨h1, h2, h3⟩ := dedupGo_props [] as
  refine ⟨by simpa [dedupAddresses] using h1, h2, h3, fun h => ?_⟩
  rw [C34_dedup_first_occurrences, List.filter_eq_self.2, List.zipIdx_map_fst]
  rintro ⟨a, i⟩ hp
  rw [List.mem_zipIdx_iff_getElem?] at hp
  simp only [decide_eq_true_eq]
  intro hm
  obtain ⟨j, hj, hja⟩ := List.getElem_of_mem hm
  rw [List.getElem_take] at hja
  rw [List.length_take] at hj
  have hi : i < as.length := by
    by_contra hc
    rw [List.getElem?_eq_none (by omega)] at hp; simp at hp
  have : as[j]'(by omega) = as[i] := by
    rw [hja]; rw [List.getElem?_eq_getElem hi] at hp; simpa using hp.symm
  have := (List.Nodup.getElem_inj_iff h).1 this
  omega

/-- **C34** `FindAddressIndex` returns `i` iff the address is at `i` and at no earlier position … -/
theorem C34_find_index (as : List Addr) (b : Addr) (i : Nat) :
    findAddressIndex as b = some i ↔ as[i]? = some b ∧ ∀ j < i, as[j]? ≠ some b := by
  induction as generalizing i with
  | nil => simp [findAddressIndex]
  | cons a as ih =>
    rw [findAddressIndex]
    by_cases hab : a = b
    · subst hab
      simp only [beq_self_eq_true, if_true, Option.some.injEq]
      constructor
      · rintro rfl; simp
      · rintro ⟨_, h⟩
        by_contra hc
        exact h 0 (by omega) (by simp)
    · rw [if_neg (by simpa using hab)]
      cases i with
      | zero => simp [hab]
      | succ i =>
        simp only [Option.map_eq_some_iff, List.getElem?_cons_succ]
        constructor
        · rintro ⟨k, hk, hki⟩
          have : k = i := by omega
          subst this
          obtain ⟨h1, h2⟩ := (ih k).1 hk
          refine ⟨h1, fun j hj => ?_⟩
          cases j with
          | zero => simpa using hab
          | succ j => simpa using h2 j (by omega)
        · rintro ⟨h1, h2⟩
          refine ⟨i, (ih i).2 ⟨h1, fun j hj => ?_⟩, rfl⟩
          simpa using h2 (j + 1) (by omega)

/-- **C34** … and an error iff the address is missing. -/
theorem C34_find_index_error (as : List Addr) (b : Addr) : findAddressIndex as b = none ↔ b ∉ as := by
  induction as with
  | nil => simp [findAddressIndex]
  | cons a as ih =>
    rw [findAddressIndex]
    by_cases hab : a = b
    · subst hab; simp
    · rw [if_neg (by simpa using hab)]
      simp [ih, Ne.symm hab, eq_comm]

example : dedupAddresses [[1], [2], [1], [3], [2]] = [[1], [2], [3]] ∧
    findAddressIndex [[1], [2], [1], [3]] [3] = some 3 ∧ findAddressIndex [[1]] [2] = none ∧
    ensureUniqueAddresses [[1], [2], [1]] = false := by decide

end Shutter.Medley.Props
