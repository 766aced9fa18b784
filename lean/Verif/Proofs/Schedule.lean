import Verif.Model.MainChain
import Verif.Spec.SolConfig
import Verif.Proofs.SolConfig

/-! # The arithmetic of a schedule of configs -/

namespace Shutter.Sol
open Shutter.GoConfig

/-- A schedule in which later configs do not start earlier. -/
structure Schedule (cs : List BatchConfig) : Prop where
  guard : ∃ g, cs[0]? = some g ∧ g.startBatchIndex = 0 ∧ g.startBlockNumber = 0 ∧ g.batchSpan = 0
  link : ∀ i c1 c2, cs[i]? = some c1 → cs[i + 1]? = some c2 → Seamless c1 c2
  order : ∀ (i j : Nat) (c1 c2 : BatchConfig), i ≤ j → cs[i]? = some c1 → cs[j]? = some c2 → c1.startBlockNumber ≤ c2.startBlockNumber

variable {cs : List BatchConfig}

theorem get_lt {α : Type} {l : List α} {i : Nat} {x : α} (h : l[i]? = some x) : i < l.length := by
  by_contra hc
  rw [List.getElem?_eq_none (by omega)] at h
  cases h

theorem Schedule.mono (h : Schedule cs) {i j : Nat} {c1 c2 : BatchConfig} (hij : i ≤ j) (h1 : cs[i]? = some c1)
    (h2 : cs[j]? = some c2) : c1.startBatchIndex ≤ c2.startBatchIndex := by
  induction j, hij using Nat.le_induction generalizing c2 with
  | base => rw [h1] at h2; cases h2; exact le_refl _
  | succ j hij ih =>
    have hj : j < cs.length := by have := get_lt h2; omega
    have h3 := List.getElem?_eq_getElem hj
    refine le_trans (ih h3) ?_
    obtain ⟨ha, hb⟩ := h.link j _ _ h3 h2
    by_cases hs : (cs[j]).batchSpan = 0
    · rw [hb hs]
    · exact le_of_lt (ha (by omega)).1

/-- A config starts at least as many blocks after the beginning as there were batches before it. -/
theorem Schedule.index_le (h : Schedule cs) {i : Nat} {c : BatchConfig} (hi : cs[i]? = some c) :
    c.startBatchIndex ≤ c.startBlockNumber := by
  induction i generalizing c with
  | zero =>
    obtain ⟨g, hg, h1, h2, _⟩ := h.guard
    rw [hg] at hi; cases hi; omega
  | succ i ih =>
    have hj : i < cs.length := by have := get_lt hi; omega
    have h3 := List.getElem?_eq_getElem hj
    have h4 := ih h3
    obtain ⟨ha, hb⟩ := h.link i _ _ h3 hi
    by_cases hs : (cs[i]).batchSpan = 0
    · rw [hb hs]
      exact le_trans h4 (h.order i (i + 1) _ _ (by omega) h3 hi)
    · obtain ⟨h5, h6⟩ := ha (by omega)
      have : c.startBatchIndex - cs[i].startBatchIndex ≤ (c.startBatchIndex - cs[i].startBatchIndex) * cs[i].batchSpan :=
        Nat.le_mul_of_pos_right _ (by omega)
      omega

/-- Config number `i` is the last one that has started at block `n`. -/
def ActiveAt (cs : List BatchConfig) (n i : Nat) : Prop :=
  (∃ c, cs[i]? = some c ∧ c.startBlockNumber ≤ n) ∧ ∀ j c, i < j → cs[j]? = some c → n < c.startBlockNumber

/-- `r` is the last number of a config with the property. -/
def LastWith (cs : List BatchConfig) (p : BatchConfig → Bool) : Option Nat → Prop
  | none => ∀ c ∈ cs, p c = false
  | some i => (∃ c, cs[i]? = some c ∧ p c = true) ∧ ∀ (j : Nat) c, i < j → cs[j]? = some c → p c = false

theorem last_find (cs : List BatchConfig) (p : BatchConfig → Bool) :
    LastWith cs p ((List.range cs.length).reverse.find? (fun i => (cs[i]?).any p)) := by
  induction cs using List.reverseRecOn with
  | nil => simp [LastWith]
  | append_singleton l x ih =>
    have hx : (l ++ [x])[l.length]? = some x := by simp
    rw [List.length_append, List.length_singleton, List.range_succ, List.reverse_append, List.reverse_singleton,
      List.singleton_append, List.find?_cons, hx]
    by_cases hp : p x = true
    · simp only [Option.any_some, hp]
      refine ⟨⟨x, hx, hp⟩, fun j c hj hc => ?_⟩
      have := get_lt hc
      simp at this; omega
    · have hp' : p x = false := by simpa using hp
      simp only [Option.any_some, hp']
      have heq : (List.range l.length).reverse.find? (fun i => ((l ++ [x])[i]?).any p) =
          (List.range l.length).reverse.find? (fun i => (l[i]?).any p) := by
        have hg : ∀ r : List Nat, (∀ i ∈ r, i < l.length) → r.find? (fun i => ((l ++ [x])[i]?).any p) =
            r.find? (fun i => (l[i]?).any p) := by
          intro r
          induction r with
          | nil => intro _; rfl
          | cons i r ihr =>
            intro hr
            rw [List.find?_cons, List.find?_cons, ihr (fun j hj => hr j (List.mem_cons_of_mem _ hj)),
              List.getElem?_append_left (hr i List.mem_cons_self)]
        exact hg _ (fun i hi => by rwa [List.mem_reverse, List.mem_range] at hi)
      rw [heq]
      generalize (List.range l.length).reverse.find? (fun i => (l[i]?).any p) = r at ih
      cases r with
      | none =>
        intro c hc
        rw [List.mem_append, List.mem_singleton] at hc
        rcases hc with hc | rfl
        · exact ih c hc
        · exact hp'
      | some i =>
        obtain ⟨⟨c, h1, h2⟩, h3⟩ := ih
        refine ⟨⟨c, by rw [List.getElem?_append_left (get_lt h1)]; exact h1, h2⟩, fun j c' hj hc => ?_⟩
        by_cases hjl : j < l.length
        · rw [List.getElem?_append_left hjl] at hc
          exact h3 j c' hj hc
        · have := get_lt hc
          have hj0 : j = l.length := by simp at this; omega
          subst hj0
          rw [hx] at hc; cases hc; exact hp'

theorem activeAt_of {cs : List BatchConfig} {n i : Nat}
    (h : (List.range cs.length).reverse.find? (fun i => (cs[i]?).any (fun c => decide (c.startBlockNumber ≤ n))) = some i) :
    ActiveAt cs n i := by
  have := last_find cs (fun c => decide (c.startBlockNumber ≤ n))
  rw [h] at this
  obtain ⟨⟨c, h1, h2⟩, h3⟩ := this
  exact ⟨⟨c, h1, by simpa using h2⟩, fun j c hj hc => by have := h3 j c hj hc; simpa using this⟩

theorem Schedule.active (h : Schedule cs) (n : Nat) : ∃ i, ActiveAt cs n i := by
  have := last_find cs (fun c => decide (c.startBlockNumber ≤ n))
  cases hr : (List.range cs.length).reverse.find? (fun i => (cs[i]?).any (fun c => decide (c.startBlockNumber ≤ n))) with
  | none =>
    rw [hr] at this
    obtain ⟨g, hg, _, h2, _⟩ := h.guard
    have := this g (List.mem_of_getElem? hg)
    simp [h2] at this
  | some i => exact ⟨i, activeAt_of hr⟩

theorem ActiveAt.unique {n i j : Nat} (hi : ActiveAt cs n i) (hj : ActiveAt cs n j) : i = j := by
  obtain ⟨⟨b1, h1, h1'⟩, h2⟩ := hi
  obtain ⟨⟨b2, h3, h3'⟩, h4⟩ := hj
  rcases lt_trichotomy i j with h | h | h
  · have := h2 j b2 h h3; omega
  · exact h
  · have := h4 i b1 h h1; omega

/-- The batch current at block `n`: the batch whose nominal blocks contain `n`. -/
def currentIn (c : BatchConfig) (n : Nat) : Nat :=
  if c.batchSpan = 0 then c.startBatchIndex else c.startBatchIndex + (n - c.startBlockNumber) / c.batchSpan

theorem currentIn_le {c : BatchConfig} {n : Nat} (h : c.startBatchIndex ≤ c.startBlockNumber) (hn : c.startBlockNumber ≤ n) :
    currentIn c n ≤ n := by
  unfold currentIn
  split
  · omega
  · have := Nat.div_le_self (n - c.startBlockNumber) c.batchSpan
    omega

theorem batchIndex_eq {c : BatchConfig} {n r : Nat} (h : c.startBatchIndex ≤ c.startBlockNumber) (h64 : n < two64)
    (hr : batchIndex c n = some r) : c.startBlockNumber ≤ n ∧ r = currentIn c n := by
  unfold batchIndex at hr
  split at hr
  · cases hr
  · next hn =>
    have hle := currentIn_le (n := n) h (by omega)
    unfold currentIn at hle ⊢
    split at hr
    · next h0 => cases hr; rw [if_pos h0]; exact ⟨by omega, rfl⟩
    · next h0 =>
      cases hr
      rw [if_neg h0] at hle ⊢
      refine ⟨by omega, ?_⟩
      rw [wadd, Nat.mod_eq_of_lt (by omega)]

/-- A batch before the current one has ended, and its config is active. -/
theorem Schedule.closed (h : Schedule cs) {n i : Nat} {c : BatchConfig} (ha : ActiveAt cs n i) (hc : cs[i]? = some c) {b : Nat}
    (hb : b < currentIn c n) {j : Nat} {bc : BatchConfig} (hj : cs[j]? = some bc) (hjb : bc.startBatchIndex ≤ b)
    (hlast : ∀ k x, j < k → cs[k]? = some x → b < x.startBatchIndex) :
    0 < bc.batchSpan ∧ bc.nominalEnd b ≤ n := by
  obtain ⟨⟨c0, hc0, hcn⟩, hafter⟩ := ha
  rw [hc] at hc0; cases hc0
  unfold BatchConfig.nominalEnd BatchConfig.nominalStart
  rcases lt_trichotomy j i with hji | rfl | hji
  · have hj1 : j + 1 < cs.length := by have := get_lt hc; omega
    have h1 := List.getElem?_eq_getElem hj1
    have h2 := hlast (j + 1) _ (by omega) h1
    obtain ⟨l1, l2⟩ := h.link j _ _ hj h1
    have hspan : 0 < bc.batchSpan := by
      by_contra h0
      rw [l2 (by omega)] at h2; omega
    refine ⟨hspan, ?_⟩
    obtain ⟨_, l3⟩ := l1 hspan
    have h3 := h.order (j + 1) i _ _ (by omega) h1 hc
    have h4 : (b - bc.startBatchIndex) * bc.batchSpan + bc.batchSpan ≤ (cs[j + 1].startBatchIndex - bc.startBatchIndex) * bc.batchSpan := by
      rw [← Nat.succ_mul]
      exact Nat.mul_le_mul_right _ (by omega)
    omega
  · rw [hc] at hj; cases hj
    unfold currentIn at hb
    split at hb
    · omega
    · next h0 =>
      refine ⟨by omega, ?_⟩
      have h4 : (b - c.startBatchIndex) * c.batchSpan + c.batchSpan ≤ (n - c.startBlockNumber) / c.batchSpan * c.batchSpan := by
        rw [← Nat.succ_mul]
        exact Nat.mul_le_mul_right _ (by omega)
      have := Nat.div_mul_le_self (n - c.startBlockNumber) c.batchSpan
      omega
  · exfalso
    have hi1 : i + 1 < cs.length := by have := get_lt hj; omega
    have h1 := List.getElem?_eq_getElem hi1
    have h2 := h.mono (by omega : i + 1 ≤ j) h1 hj
    have h3 := hafter (i + 1) _ (by omega) h1
    obtain ⟨l1, l2⟩ := h.link i _ _ hc h1
    unfold currentIn at hb
    split at hb
    · next h0 => rw [l2 h0] at h2; omega
    · next h0 =>
      obtain ⟨l3, l4⟩ := l1 (by omega)
      have : (n - c.startBlockNumber) / c.batchSpan < cs[i + 1].startBatchIndex - c.startBatchIndex := by
        rw [Nat.div_lt_iff_lt_mul (by omega)]; omega
      omega

/-- The current batch never goes back. -/
theorem Schedule.current_mono (h : Schedule cs) {n n' i i' : Nat} {c c' : BatchConfig} (hn : n ≤ n') (ha : ActiveAt cs n i)
    (hc : cs[i]? = some c) (ha' : ActiveAt cs n' i') (hc' : cs[i']? = some c') : currentIn c n ≤ currentIn c' n' := by
  obtain ⟨⟨c0, hc0, hcn⟩, hafter⟩ := ha
  rw [hc] at hc0; cases hc0
  obtain ⟨⟨c0, hc0, hcn'⟩, hafter'⟩ := ha'
  rw [hc'] at hc0; cases hc0
  have hle : i ≤ i' := by
    by_contra hlt
    have := hafter' i c (by omega) hc
    omega
  rcases Nat.lt_or_ge i i' with hlt | hge
  · have hi1 : i + 1 < cs.length := by have := get_lt hc'; omega
    have h1 := List.getElem?_eq_getElem hi1
    have h2 := h.mono (by omega : i + 1 ≤ i') h1 hc'
    have h3 := hafter (i + 1) _ (by omega) h1
    obtain ⟨l1, l2⟩ := h.link i _ _ hc h1
    have h4 : currentIn c n ≤ cs[i + 1].startBatchIndex := by
      unfold currentIn
      split
      · next h0 => rw [l2 h0]
      · next h0 =>
        obtain ⟨l3, l4⟩ := l1 (by omega)
        have : (n - c.startBlockNumber) / c.batchSpan < cs[i + 1].startBatchIndex - c.startBatchIndex := by
          rw [Nat.div_lt_iff_lt_mul (by omega)]; omega
        omega
    have h5 : c'.startBatchIndex ≤ currentIn c' n' := by
      unfold currentIn
      split
      · exact le_refl _
      · exact Nat.le_add_right _ _
    omega
  · have : i = i' := by omega
    subst this
    rw [hc] at hc'; cases hc'
    unfold currentIn
    split
    · exact le_refl _
    · have := Nat.div_le_div_right (c := c.batchSpan) (show n - c.startBlockNumber ≤ n' - c.startBlockNumber by omega)
      omega

/-- Configs added with later start blocks do not matter. -/
theorem ActiveAt.extend {cs' : List BatchConfig} {n i : Nat} (ha : ActiveAt cs n i) (hp : cs <+: cs')
    (hnew : ∀ (j : Nat) (c : BatchConfig), cs'[j]? = some c → cs[j]? = some c ∨ n < c.startBlockNumber) : ActiveAt cs' n i := by
  obtain ⟨⟨c, hc, hcn⟩, hafter⟩ := ha
  obtain ⟨t, rfl⟩ := hp
  refine ⟨⟨c, by rw [List.getElem?_append_left (get_lt hc)]; exact hc, hcn⟩, fun j x hj hx => ?_⟩
  rcases hnew j x hx with h | h
  · exact hafter j x hj h
  · exact h

theorem Config.Inv.schedule {c : Config} (h : c.Inv) (ho : c.scheduled.Pairwise (fun a b => a.startBlockNumber ≤ b.startBlockNumber)) :
    Schedule c.scheduled := by
  refine ⟨⟨zeroConfig, h.guard, rfl, rfl, rfl⟩, h.link, fun i j c1 c2 hij h1 h2 => ?_⟩
  rcases Nat.lt_or_ge i j with hlt | hge
  · rw [List.pairwise_iff_getElem] at ho
    have := ho i j (get_lt h1) (get_lt h2) hlt
    rw [List.getElem?_eq_getElem (get_lt h1), Option.some.injEq] at h1
    rw [List.getElem?_eq_getElem (get_lt h2), Option.some.injEq] at h2
    rw [h1, h2] at this
    exact this
  · have : i = j := by omega
    subst this
    rw [h1] at h2; cases h2; exact le_refl _

/-- The configs scheduled after a block start after it. -/
theorem Config.new_later {s s' : ConfigAt} (h : s.config.Inv) (l : ConfigLater s s') :
    ∀ (j : Nat) (c : BatchConfig), s'.config.scheduled[j]? = some c → s.config.scheduled[j]? = some c ∨ s.block < c.startBlockNumber := by
  induction l with
  | refl => exact fun j c hc => .inl hc
  | @tail t t' l st ih =>
    cases st with
    | mine => exact ih
    | @call b c c' sender o hc =>
      have hinv := inv_later h l
      have hb := block_mono l
      intro j x hx
      cases eff_of hc with
      | other => exact ih j x hx
      | schedule hs =>
        change c'.scheduled[j]? = _ at hx
        rw [hs.eq] at hx
        change (c.scheduled ++ [c.next])[j]? = _ at hx
        by_cases hjl : j < c.scheduled.length
        · rw [List.getElem?_append_left hjl] at hx
          exact ih j x hx
        · rw [List.getElem?_append_right (by omega)] at hx
          have hj0 : j - c.scheduled.length = 0 := by
            have := get_lt hx
            simp at this; omega
          rw [hj0] at hx
          cases hx
          have := hs.early
          change s.block ≤ b at hb
          right; omega
      | unschedule f hu =>
        obtain ⟨hf, k, hk, rfl, hA, _⟩ := unscheduled_of hinv.pos hu
        change (c.scheduled.take (k + 1))[j]? = _ at hx
        have hjk : j < k + 1 := by
          have := get_lt hx
          rw [List.length_take] at this; omega
        rw [List.getElem?_take_of_lt hjk] at hx
        exact ih j x hx

end Shutter.Sol
