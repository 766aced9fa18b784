import Verif.Proofs.Observe

/-! Fetching: every block between the current and the target height is read once. -/

namespace Shutter.Observe
open Shutter.App
open Shutter.Events (Codecs AbciEvent makeEvent)
variable (cx : Codecs) (chain : Chain)

/-- Apply events in order. -/
def applyAll (s : Shutter) (evs : List Stamped) : Shutter := evs.foldl applyEvent s

theorem applyAll_append (s : Shutter) (a b : List Stamped) : applyAll s (a ++ b) = applyAll (applyAll s a) b :=
  List.foldl_append

/-- The well-formed events of a transaction. -/
def txEvents (tx : Int × List AbciEvent) : List Stamped :=
  tx.2.filterMap (fun ev => (makeEvent cx ev).map (fun e => ⟨tx.1, e⟩))

theorem applyTxEvents_eq (s : Shutter) (h : Int) (events : List AbciEvent) :
    applyTxEvents cx s h events = applyAll s (txEvents cx (h, events)) := by
  unfold applyTxEvents applyAll txEvents
  induction events generalizing s with
  | nil => rfl
  | cons ev events ih =>
    simp only [List.foldl_cons, List.filterMap_cons]
    cases makeEvent cx ev with
    | none => exact ih s
    | some x => exact ih _

theorem foldl_txs (s : Shutter) (txs : List (Int × List AbciEvent)) :
    txs.foldl (fun s tx => applyTxEvents cx s tx.1 tx.2) s = applyAll s (txs.flatMap (txEvents cx)) := by
  induction txs generalizing s with
  | nil => rfl
  | cons tx txs ih => rw [List.foldl_cons, ih, List.flatMap_cons, applyAll_append, applyTxEvents_eq]

theorem flatMap_txsBetween (lo hi : Int) : (txsBetween chain lo hi).flatMap (txEvents cx) = chainEvents cx chain lo hi := by
  unfold txsBetween chainEvents
  rw [List.flatMap_assoc]
  congr 1
  funext i
  rw [List.flatMap_map]
  induction chain (lo + i) with
  | nil => rfl
  | cons tx txs ih => rw [List.flatMap_cons, ih, List.flatten_cons, List.filterMap_append]; rfl

theorem chainEvents_append {lo m hi : Int} (h1 : lo ≤ m + 1) (h2 : m ≤ hi) :
    chainEvents cx chain lo m ++ chainEvents cx chain (m + 1) hi = chainEvents cx chain lo hi := by
  unfold chainEvents
  have e : (hi + 1 - lo).toNat = (m + 1 - lo).toNat + (hi + 1 - (m + 1)).toNat := by omega
  rw [e, List.range_add, List.flatMap_append, List.flatMap_map]
  congr 2
  funext i
  have : m + 1 + (i : Int) = lo + (((m + 1 - lo).toNat + i : Nat) : Int) := by omega
  rw [this]

theorem chainEvents_empty {lo hi : Int} (h : hi < lo) : chainEvents cx chain lo hi = [] := by
  unfold chainEvents
  rw [show (hi + 1 - lo).toNat = 0 by omega]
  rfl

theorem chainEvents_heights {lo hi : Int} {x : Stamped} (h : x ∈ chainEvents cx chain lo hi) :
    lo ≤ x.height ∧ x.height ≤ hi := by
  unfold chainEvents at h
  rw [List.mem_flatMap] at h
  obtain ⟨i, hi', hx⟩ := h
  rw [List.mem_filterMap] at hx
  obtain ⟨ev, _, hx⟩ := hx
  rw [Option.map_eq_some_iff] at hx
  obtain ⟨e, _, rfl⟩ := hx
  rw [List.mem_range] at hi'
  constructor <;> simp only <;> omega

theorem chainEvents_sorted (lo hi : Int) : Sorted (chainEvents cx chain lo hi) := by
  unfold chainEvents Sorted
  rw [List.pairwise_flatMap]
  constructor
  · intro i _
    rw [List.pairwise_filterMap]
    refine List.pairwise_of_forall (fun a b => ?_)
    intro x hx y hy
    rw [Option.map_eq_some_iff] at hx hy
    obtain ⟨_, _, rfl⟩ := hx
    obtain ⟨_, _, rfl⟩ := hy
    exact le_refl _
  · refine (List.pairwise_lt_range).imp ?_
    intro i j hij x hx y hy
    rw [List.mem_filterMap] at hx hy
    obtain ⟨_, _, hx⟩ := hx
    obtain ⟨_, _, hy⟩ := hy
    rw [Option.map_eq_some_iff] at hx hy
    obtain ⟨_, _, rfl⟩ := hx
    obtain ⟨_, _, rfl⟩ := hy
    simp only
    omega

/-! ## The page loop -/

theorem pageLoop_spec (lo hi : Int) : ∀ n page s, (txsBetween chain lo hi).length - page * perPage = n → 1 ≤ page →
    (page = 1 ∨ (page - 1) * perPage < (txsBetween chain lo hi).length) →
    ∃ qs, pageLoop cx chain lo hi page ((page - 1) * perPage) s =
        some (applyAll s (((txsBetween chain lo hi).drop ((page - 1) * perPage)).flatMap (txEvents cx)), qs) ∧
      (∃ p, qs = (lo, hi, page) :: p ∧ ∀ q ∈ p, q.2.2 ≠ 1) ∧ ∀ q ∈ qs, q.1 = lo ∧ q.2.1 = hi := by
  intro n
  induction n using Nat.strong_induction_on with
  | _ n ih =>
    intro page s hn hp1 hp
    generalize hall : txsBetween chain lo hi = all at *
    rw [pageLoop]
    have hts : txSearch chain lo hi page perPage =
        some (all.length, (all.drop ((page - 1) * perPage)).take perPage) := by
      unfold txSearch
      simp only [hall, perPage, Nat.min_self]
      rw [if_neg]
      simp only [perPage] at hp
      rw [not_or]
      refine ⟨by omega, ?_⟩
      rcases hp with rfl | hp
      · omega
      · omega
    rw [hts]
    simp only [hall]
    rw [foldl_txs]
    split
    · rename_i hend
      have hlen : ((all.drop ((page - 1) * perPage)).take perPage) = all.drop ((page - 1) * perPage) := by
        apply List.take_of_length_le
        rw [List.length_drop]
        simp only [perPage] at hend hp ⊢
        omega
      rw [hlen, if_neg]
      · exact ⟨_, rfl, ⟨[], rfl, by simp⟩, by simp⟩
      · rw [List.length_drop]
        simp only [perPage] at hend hp ⊢
        omega
    · rename_i hend
      have hlt : page * perPage < all.length := by omega
      have htot : (page - 1) * perPage + ((all.drop ((page - 1) * perPage)).take perPage).length = (page + 1 - 1) * perPage := by
        simp only [perPage, List.length_take, List.length_drop] at hlt ⊢
        omega
      obtain ⟨qs, h1, ⟨p, rfl, h2⟩, h3⟩ := ih (all.length - (page + 1) * perPage)
        (by simp only [perPage] at *; omega) (page + 1) (applyAll s (((all.drop ((page - 1) * perPage)).take perPage).flatMap (txEvents cx)))
        rfl (by omega) (Or.inr (by simpa using hlt))
      rw [htot, h1]
      refine ⟨(lo, hi, page) :: (lo, hi, page + 1) :: p, ?_, ⟨_, rfl, ?_⟩, ?_⟩
      · simp only [Option.map_some]
        congr 2
        rw [← applyAll_append, ← List.flatMap_append]
        congr 2
        have e : (page + 1 - 1) * perPage = (page - 1) * perPage + perPage := by
          simp only [perPage]
          omega
        rw [e, ← List.drop_drop, List.take_append_drop]
      · intro q hq
        rcases List.mem_cons.1 hq with rfl | hq
        · simp only; omega
        · exact h2 q hq
      · intro q hq
        rcases List.mem_cons.1 hq with rfl | hq
        · exact ⟨rfl, rfl⟩
        · exact h3 q hq

/-! ## The window loop -/

theorem windowLoop_spec (target : Int) : ∀ n c s, (target - c).toNat = n → c ≤ target →
    ∃ qs, windowLoop cx chain c target s = some (applyAll s (chainEvents cx chain (c + 1) target), qs) ∧
      Tiles 500 target (c + 1) (windows qs) := by
  intro n
  induction n using Nat.strong_induction_on with
  | _ n ih =>
    intro c s hn hc
    rw [windowLoop]
    obtain ⟨qs, h1, ⟨p, hp, hp'⟩, h3⟩ := pageLoop_spec cx chain (c + 1) (windowEnd c target) _ 1 s rfl (le_refl _) (Or.inl rfl)
    simp only [Nat.sub_self, Nat.zero_mul, List.drop_zero] at h1
    rw [h1]
    simp only
    have hw : windows qs = [(c + 1, windowEnd c target)] := by
      subst hp
      unfold windows
      rw [List.filter_cons]
      simp only [decide_true, if_true]
      rw [List.filter_eq_nil_iff.2 (by simpa using fun a b c hq => hp' (a, b, c) hq)]
      rfl
    rw [flatMap_txsBetween]
    split
    · rename_i he
      rw [he]
      refine ⟨qs, rfl, ?_⟩
      rw [hw, he]
      simp only [Tiles, true_and, le_refl]
      unfold windowEnd perQuery at he
      split at he <;> omega
    · rename_i hne
      obtain ⟨he, hle⟩ := windowEnd_lt hne
      rw [he] at hw h1 hne ⊢
      simp only [perQuery] at *
      obtain ⟨qs', g1, g2⟩ := ih (target - (c + 500)).toNat (by omega) (c + 500) (applyAll s (chainEvents cx chain (c + 1) (c + 500)))
        rfl (by omega)
      rw [g1]
      refine ⟨qs ++ qs', ?_, ?_⟩
      · simp only [Option.map_some]
        congr 2
        rw [← applyAll_append, chainEvents_append cx chain (by omega) (by omega)]
      · have : windows (qs ++ qs') = windows qs ++ windows qs' := by simp [windows]
        rw [this, hw, List.singleton_append]
        simp only [Tiles, true_and]
        exact ⟨by omega, by omega, by omega, g2⟩

theorem fetch_spec (s : Shutter) {target : Int} (h : s.currentBlock ≤ target) :
    ∃ qs, fetchAndApplyEvents cx chain s target =
        some (applyAll s (chainEvents cx chain (s.currentBlock + 1) target), qs) ∧
      Tiles 500 target (s.currentBlock + 1) (windows qs) := by
  unfold fetchAndApplyEvents
  rw [if_neg (by omega)]
  exact windowLoop_spec cx chain target _ _ s rfl h

end Shutter.Observe
