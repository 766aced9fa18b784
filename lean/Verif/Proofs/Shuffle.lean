import Mathlib.Data.List.Perm.Basic
import Verif.Model.Shuffle

namespace Shutter.Crypto

theorem swapAt_eq {α : Type} (l : List α) (i j : Nat) (hi : i < l.length) (hj : j < l.length) :
    swapAt l i j = (l.set i l[j]).set j l[i] := by
  simp [swapAt, hi, hj]

theorem swapAt_length {α : Type} (l : List α) (i j : Nat) : (swapAt l i j).length = l.length := by
  unfold swapAt; split <;> simp

theorem swapAt_getElem? {α : Type} (l : List α) (i j k : Nat) (hi : i < l.length) (hj : j < l.length) :
    (swapAt l i j)[k]? = if k = i then l[j]? else if k = j then l[i]? else l[k]? := by
  rw [swapAt_eq l i j hi hj, List.getElem?_set, List.getElem?_set]
  by_cases h1 : k = i
  · subst h1
    by_cases h2 : j = k
    · subst h2; simp [hi]
    · simp [h2, hi, hj]
  · by_cases h2 : k = j
    · subst h2; simp [h1, hi, hj]
    · simp [h1, h2, Ne.symm h1, Ne.symm h2]

theorem swapAt_perm {α : Type} (l : List α) (i j : Nat) : (swapAt l i j).Perm l := by
  unfold swapAt
  split
  · next a b ha hb =>
    obtain ⟨hi, rfl⟩ := List.getElem?_eq_some_iff.1 ha
    obtain ⟨hj, rfl⟩ := List.getElem?_eq_some_iff.1 hb
    exact List.set_set_perm hi hj
  · exact List.Perm.refl _

theorem shuffleLoop_perm {α σ : Type} (next : σ → Nat → Nat × σ) :
    ∀ (i : Nat) (s : σ) (l : List α), (shuffleLoop next i s l).Perm l := by
  intro i
  induction i with
  | zero => intro s l; exact List.Perm.refl _
  | succ i ih => intro s l; exact (ih _ _).trans (swapAt_perm _ _ _)

theorem shuffleLoop_length {α σ : Type} (next : σ → Nat → Nat × σ) (i : Nat) (s : σ) (l : List α) :
    (shuffleLoop next i s l).length = l.length := (shuffleLoop_perm next i s l).length_eq

/-- Positions above the loop variable are never touched again. -/
theorem shuffleLoop_above {α σ : Type} (next : σ → Nat → Nat × σ) (hn : ∀ s b, 0 < b → (next s b).1 < b) :
    ∀ (i : Nat) (s : σ) (l : List α), i < l.length → ∀ k, i < k → (shuffleLoop next i s l)[k]? = l[k]? := by
  intro i
  induction i with
  | zero => intro s l _ k _; rfl
  | succ i ih =>
    intro s l hl k hk
    have hj := hn s (i + 2) (by omega)
    rw [shuffleLoop, ih _ _ (by rw [swapAt_length]; omega) k (by omega), swapAt_getElem? _ _ _ _ hl (by omega)]
    rw [if_neg (by omega), if_neg (by omega)]

/-- A random source that replays a fixed list of choices. -/
def nextChoice (cs : List Nat) (_ : Nat) : Nat × List Nat := (cs.headD 0, cs.tail)

/-- `cs` is a possible list of choices for the loop starting at `i`: the first is at most `i`, the next at most `i-1`, … -/
def ValidChoices : Nat → List Nat → Prop
  | 0, cs => cs = []
  | i + 1, cs => ∃ c cs', cs = c :: cs' ∧ c ≤ i + 1 ∧ ValidChoices i cs'

/-- The same, with numbers always in range. -/
def nextBounded (cs : List Nat) (b : Nat) : Nat × List Nat := (cs.headD 0 % b, cs.tail)

theorem shuffleLoop_bounded {α : Type} : ∀ (i : Nat) (cs : List Nat) (l : List α), ValidChoices i cs →
    shuffleLoop nextBounded i cs l = shuffleLoop nextChoice i cs l := by
  intro i
  induction i with
  | zero => intro cs l _; rfl
  | succ i ih =>
    rintro cs l ⟨c, cs', rfl, hc, hv⟩
    rw [shuffleLoop, shuffleLoop]
    simp only [nextChoice, nextBounded, List.headD_cons, List.tail_cons]
    rw [Nat.mod_eq_of_lt (by omega), ih _ _ hv]

theorem shuffleChoices_above {α : Type} :
    ∀ (i : Nat) (cs : List Nat) (l : List α), ValidChoices i cs → i < l.length → ∀ k, i < k →
      (shuffleLoop nextChoice i cs l)[k]? = l[k]? := by
  intro i
  induction i with
  | zero => intro cs l _ _ k _; rfl
  | succ i ih =>
    rintro cs l ⟨c, cs', rfl, hc, hv⟩ hl k hk
    rw [shuffleLoop]
    simp only [nextChoice, List.headD_cons, List.tail_cons]
    rw [ih _ _ hv (by rw [swapAt_length]; omega) k (by omega), swapAt_getElem? _ _ _ _ hl (by omega)]
    rw [if_neg (by omega), if_neg (by omega)]

theorem shuffle_injective {α : Type} : ∀ (i : Nat) (cs cs' : List Nat) (l : List α), l.Nodup → i < l.length →
    ValidChoices i cs → ValidChoices i cs' →
    shuffleLoop nextChoice i cs l = shuffleLoop nextChoice i cs' l → cs = cs' := by
  intro i
  induction i with
  | zero => intro cs cs' l _ _ h h' _; rw [h, h']
  | succ i ih =>
    rintro _ _ l hnd hl ⟨c, cs, rfl, hc, hv⟩ ⟨c', cs', rfl, hc', hv'⟩ he
    rw [shuffleLoop, shuffleLoop] at he
    simp only [nextChoice, List.headD_cons, List.tail_cons] at he
    have h1 := shuffleChoices_above i cs (swapAt l (i + 1) c) hv (by rw [swapAt_length]; omega) (i + 1) (by omega)
    have h2 := shuffleChoices_above i cs' (swapAt l (i + 1) c') hv' (by rw [swapAt_length]; omega) (i + 1) (by omega)
    rw [he, h2, swapAt_getElem? _ _ _ _ hl (by omega), swapAt_getElem? _ _ _ _ hl (by omega), if_pos rfl,
      if_pos rfl] at h1
    have hcc : c = c' := by
      rw [List.getElem?_eq_getElem (by omega), List.getElem?_eq_getElem (by omega), Option.some.injEq] at h1
      exact ((List.Nodup.getElem_inj_iff hnd).1 h1).symm
    subst hcc
    rw [ih cs cs' _ ((swapAt_perm l (i + 1) c).nodup_iff.2 hnd) (by rw [swapAt_length]; omega) hv hv' he]

theorem shuffle_surjective {α : Type} : ∀ (i : Nat) (l l' : List α), i < l.length → l'.Perm l →
    (∀ k, i < k → l'[k]? = l[k]?) → ∃ cs, ValidChoices i cs ∧ shuffleLoop nextChoice i cs l = l' := by
  intro i
  induction i with
  | zero =>
    intro l l' hl hp hk
    refine ⟨[], rfl, ?_⟩
    rw [shuffleLoop]
    match l, l', hl with
    | a :: l, [], _ => have := hp.length_eq; simp at this
    | a :: l, b :: l', _ =>
      have htl : l' = l := by
        apply List.ext_getElem?
        intro k
        have := hk (k + 1) (by omega)
        simpa using this
      subst htl
      have hab : a = b := by
        have h1 : [b].Perm [a] := by
          have h2 : (l' ++ [b]).Perm (l' ++ [a]) :=
            (List.perm_append_singleton b l').trans (hp.trans (List.perm_append_singleton a l').symm)
          exact (List.perm_append_left_iff l').1 h2
        simpa [eq_comm] using h1
      rw [hab]
  | succ i ih =>
    intro l l' hl hp hk
    have hlen := hp.length_eq
    -- the element that must end at position i+1 is somewhere at or below i+1
    have hx : ∃ c, c ≤ i + 1 ∧ l[c]? = l'[i + 1]? := by
      have hsplit : (l'.take (i + 2)).Perm (l.take (i + 2)) := by
        have hd : l'.drop (i + 2) = l.drop (i + 2) := by
          apply List.ext_getElem?
          intro k
          rw [List.getElem?_drop, List.getElem?_drop]
          exact hk _ (by omega)
        have h1 := hp
        rw [← List.take_append_drop (i + 2) l', ← List.take_append_drop (i + 2) l, hd] at h1
        exact (List.perm_append_right_iff _).1 h1
      have hm : l'[i + 1]'(by omega) ∈ l'.take (i + 2) := by
        rw [List.mem_iff_getElem]
        exact ⟨i + 1, by simp; omega, by simp⟩
      have hm2 := hsplit.subset hm
      obtain ⟨c, hc, he⟩ := List.mem_iff_getElem.1 hm2
      refine ⟨c, by simp at hc; omega, ?_⟩
      rw [List.getElem_take] at he
      rw [List.getElem?_eq_getElem (by simp at hc; omega), List.getElem?_eq_getElem (by omega), he]
    obtain ⟨c, hc, he⟩ := hx
    obtain ⟨cs, hv, hs⟩ := ih (swapAt l (i + 1) c) l' (by rw [swapAt_length]; omega)
      (hp.trans (swapAt_perm _ _ _).symm) (by
        intro k hk'
        rw [swapAt_getElem? _ _ _ _ hl (by omega)]
        by_cases h1 : k = i + 1
        · subst h1; rw [if_pos rfl, he]
        · rw [if_neg h1, if_neg (by omega)]; exact hk k (by omega))
    refine ⟨c :: cs, ⟨c, cs, rfl, hc, hv⟩, ?_⟩
    rw [shuffleLoop]
    simpa [nextChoice] using hs

end Shutter.Crypto
