import Verif.Model.Page
import Verif.Proofs.SolPrim
import Verif.Proofs.SolLog
import Mathlib.Data.Nat.Digits.Defs
import Mathlib.Data.Nat.Digits.Lemmas

/-! # Lemmas about the example page -/

namespace Shutter.Page
open Shutter.Sol Shutter.Sol.Config

/-! ### Comparison of numbers as strings -/

theorem stringLess_iff (l1 l2 : List Nat) (hl : l1.length = l2.length) (h1 : ∀ d ∈ l1, d < 10) (h2 : ∀ d ∈ l2, d < 10) :
    stringLess l1 l2 = true ↔ Nat.ofDigits 10 l1.reverse < Nat.ofDigits 10 l2.reverse := by
  induction l1 generalizing l2 with
  | nil =>
    cases l2 with
    | nil => simp [stringLess]
    | cons b bs => simp at hl
  | cons a as ih =>
    cases l2 with
    | nil => simp at hl
    | cons b bs =>
      have hl' : as.length = bs.length := by simpa using hl
      have ih' := ih bs hl' (fun d hd => h1 d (by simp [hd])) (fun d hd => h2 d (by simp [hd]))
      have la : Nat.ofDigits 10 as.reverse < 10 ^ as.length := by
        have := Nat.ofDigits_lt_base_pow_length (b := 10) (l := as.reverse) (by decide) (fun d hd => h1 d (by simp at hd; simp [hd]))
        simpa using this
      have lb : Nat.ofDigits 10 bs.reverse < 10 ^ bs.length := by
        have := Nat.ofDigits_lt_base_pow_length (b := 10) (l := bs.reverse) (by decide) (fun d hd => h2 d (by simp at hd; simp [hd]))
        simpa using this
      rw [List.reverse_cons, List.reverse_cons, Nat.ofDigits_append, Nat.ofDigits_append, Nat.ofDigits_singleton, Nat.ofDigits_singleton,
        List.length_reverse, List.length_reverse, stringLess]
      rw [← hl'] at lb ⊢
      simp only [Bool.or_eq_true, Bool.and_eq_true, decide_eq_true_eq, ih']
      constructor
      · rintro (h | ⟨rfl, h⟩)
        · have : 10 ^ as.length * (a + 1) ≤ 10 ^ as.length * b := Nat.mul_le_mul_left _ h
          rw [Nat.mul_add, Nat.mul_one] at this
          omega
        · omega
      · intro h
        by_cases hab : a < b
        · exact .inl hab
        · right
          have : a = b := by
            by_contra hne
            have : 10 ^ as.length * (b + 1) ≤ 10 ^ as.length * a := Nat.mul_le_mul_left _ (by omega)
            rw [Nat.mul_add, Nat.mul_one] at this
            omega
          subst this
          exact ⟨rfl, by omega⟩

theorem decimal_value (n : Nat) : Nat.ofDigits 10 (decimal n).reverse = n ∧ ∀ d ∈ decimal n, d < 10 := by
  unfold decimal
  split
  · next h => subst h; simp
  · refine ⟨by rw [List.reverse_reverse]; exact Nat.ofDigits_digits 10 n, fun d hd => ?_⟩
    exact Nat.digits_lt_base (by decide) (List.mem_reverse.1 hd)

theorem bigNumberGe_iff {a b : Nat} (h : (decimal a).length = (decimal b).length) : bigNumberGe a b = true ↔ b ≤ a := by
  have := stringLess_iff (decimal a) (decimal b) h (decimal_value a).2 (decimal_value b).2
  rw [(decimal_value a).1, (decimal_value b).1] at this
  unfold bigNumberGe
  cases hs : stringLess (decimal a) (decimal b)
  · rw [hs] at this; simp at this; simp; exact this
  · rw [hs] at this; simp at this; simp; exact this

theorem stringLess_append (l t : List Nat) : stringLess l (l ++ t) = !t.isEmpty ∧ stringLess (l ++ t) l = false := by
  induction l with
  | nil => cases t <;> simp [stringLess]
  | cons a as ih => simpa [stringLess] using ih

theorem decimal_prefix {a b : Nat} {t : List Nat} (h : decimal b = decimal a ++ t) (ht : t ≠ []) : a < b := by
  have hv := (decimal_value b).1
  rw [h, List.reverse_append, Nat.ofDigits_append, (decimal_value a).1, List.length_reverse] at hv
  rcases Nat.eq_zero_or_pos a with rfl | ha
  · have hb : b ≠ 0 := by
      rintro rfl
      have := congrArg List.length h
      simp only [decimal, if_true, List.length_append, List.length_singleton] at this
      have := List.length_pos_iff.2 ht
      omega
    omega
  · have : 10 ≤ 10 ^ t.length := Nat.le_self_pow (List.length_pos_iff.2 ht).ne' 10
    have := Nat.mul_le_mul_right a this
    omega

/-- Two decimal representations of which neither has an earlier difference than its end, or that are equally long. -/
theorem bigNumberGe_iff' {a b : Nat} (h : (decimal a).length = (decimal b).length ∨ decimal a <+: decimal b ∨ decimal b <+: decimal a) :
    bigNumberGe a b = true ↔ b ≤ a := by
  rcases h with h | ⟨t, h⟩ | ⟨t, h⟩
  · exact bigNumberGe_iff h
  · cases t with
    | nil => exact bigNumberGe_iff (by rw [← h]; simp)
    | cons x xs =>
      have := decimal_prefix h.symm (by simp)
      unfold bigNumberGe
      rw [← h, (stringLess_append _ _).1]
      simpa using this
  · cases t with
    | nil => exact bigNumberGe_iff (by rw [← h]; simp)
    | cons x xs =>
      have := decimal_prefix h.symm (by simp)
      unfold bigNumberGe
      rw [← h, (stringLess_append _ _).2]
      simpa using this.le

/-! ### The config -/

theorem indexLoop_some {c : Config} {b n i : Nat} (h : indexLoop c b n = some i) :
    i < n ∧ (∃ bc, c.configForConfigIndex i = some bc ∧ bc.startBlockNumber ≤ b) ∧
    ∀ j bc, i < j → j < n → c.configForConfigIndex j = some bc → b < bc.startBlockNumber := by
  induction n with
  | zero => simp [indexLoop] at h
  | succ n ih =>
    rw [indexLoop] at h
    cases hc : c.configForConfigIndex n with
    | none => rw [hc] at h; simp at h
    | some bc =>
      rw [hc] at h
      simp only at h
      split at h
      · next hs =>
        simp only [Option.some.injEq] at h
        subst h
        exact ⟨by omega, ⟨bc, hc, hs⟩, fun j bc' h1 h2 => by omega⟩
      · next hs =>
        obtain ⟨h1, h2, h3⟩ := ih h
        refine ⟨by omega, h2, fun j bc' hj hjn hjc => ?_⟩
        by_cases hjn' : j = n
        · subst hjn'
          rw [hc] at hjc
          simp only [Option.some.injEq] at hjc
          subst hjc
          omega
        · exact h3 j bc' hj (by omega) hjc

/-- A config that has begun is never unscheduled. -/
theorem kept_later {s s' : ConfigAt} (h : s.config.Inv) (l : ConfigLater s s') {i : Nat} {bc : BatchConfig}
    (hbc : s.config.scheduled[i]? = some bc) (hst : bc.startBlockNumber ≤ s.block) : s'.config.scheduled[i]? = some bc := by
  suffices hg : s'.config.scheduled[i]? = some bc ∧ bc.startBlockNumber ≤ s'.block ∧ s'.config.Inv from hg.1
  induction l with
  | refl => exact ⟨hbc, hst, h⟩
  | tail _ st ih =>
    obtain ⟨h1, h2, h3⟩ := ih
    cases st with
    | mine hb => exact ⟨h1, le_trans h2 hb, h3⟩
    | call hc =>
      have e := eff_of hc
      refine ⟨?_, h2, inv_eff h3 e⟩
      have hlt := (List.getElem?_eq_some_iff.1 h1).1
      cases e with
      | other => exact h1
      | schedule hs => rw [hs.eq]; rw [List.getElem?_append_left hlt]; exact h1
      | unschedule f hu =>
        obtain ⟨hf, k, hk, heq, hA, _⟩ := unscheduled_of h3.pos hu
        rw [heq]
        simp only
        rw [List.getElem?_take_of_lt]
        · exact h1
        · by_contra hc
          have := hA i bc (by omega) h1
          simp only at h2
          omega

/-! ### The batch -/

theorem batchIndexAtBlock_eq {bc : BatchConfig} (active : 0 < bc.batchSpan) {block : Nat} (hb : bc.startBlockNumber ≤ block) :
    batchIndexAtBlock block bc = some ((bc.startBatchIndex + (block - bc.startBlockNumber) / bc.batchSpan : Nat) : Int) := by
  unfold batchIndexAtBlock
  rw [if_neg (by omega)]
  rw [show ((block : Int) - bc.startBlockNumber) = ((block - bc.startBlockNumber : Nat) : Int) by omega, ← Int.ofNat_tdiv]
  push_cast
  rfl

theorem nominal_window {bc : BatchConfig} (active : 0 < bc.batchSpan) {block : Nat} (hb : bc.startBlockNumber ≤ block) :
    bc.nominalStart (bc.startBatchIndex + (block - bc.startBlockNumber) / bc.batchSpan) ≤ block ∧
    block < bc.nominalEnd (bc.startBatchIndex + (block - bc.startBlockNumber) / bc.batchSpan) := by
  obtain ⟨q, hq⟩ : ∃ q, q = (block - bc.startBlockNumber) / bc.batchSpan := ⟨_, rfl⟩
  have h1 : q * bc.batchSpan ≤ block - bc.startBlockNumber := by rw [hq]; exact Nat.div_mul_le_self _ _
  have h2 : block - bc.startBlockNumber < q * bc.batchSpan + bc.batchSpan := by
    rw [hq]
    exact Nat.lt_div_mul_add (a := block - bc.startBlockNumber) active
  rw [← hq]
  unfold BatchConfig.nominalEnd BatchConfig.nominalStart
  rw [show bc.startBatchIndex + q - bc.startBatchIndex = q by omega]
  omega

/-- The config at hand until the next one begins is responsible for the batches of that time. -/
theorem responsible_of {c : Config} (h : c.Inv) {i b : Nat} {bc : BatchConfig} (hbc : c.scheduled[i]? = some bc) (active : 0 < bc.batchSpan)
    (hb : bc.startBatchIndex ≤ b) (hn : ∀ next, c.scheduled[i + 1]? = some next → bc.nominalStart b < next.startBlockNumber) :
    Responsible c i b := by
  refine ⟨⟨bc, hbc, hb⟩, fun j bc' hj hj' => ?_⟩
  have hjl := (List.getElem?_eq_some_iff.1 hj').1
  have hn1 := List.getElem?_eq_getElem (l := c.scheduled) (i := i + 1) (by omega)
  have h1 := hn _ hn1
  obtain ⟨h2, h3⟩ := (h.link i bc _ hbc hn1).1 active
  have h4 := h.mono (show i + 1 ≤ j by omega) hn1 hj'
  have : b < c.scheduled[i + 1].startBatchIndex := by
    by_contra hc
    have : (c.scheduled[i + 1].startBatchIndex - bc.startBatchIndex) * bc.batchSpan ≤ (b - bc.startBatchIndex) * bc.batchSpan :=
      Nat.mul_le_mul_right _ (by omega)
    unfold BatchConfig.nominalStart at h1
    omega
  omega

end Shutter.Page
