import Verif.Spec.SolConfig
import Mathlib.Tactic.Ring
import Mathlib.Tactic.Linarith
import Mathlib.Data.List.Chain

/-! # Proofs about the config contract -/

namespace Shutter.Sol
namespace Config

theorem configs_len (c : Config) : c.configs.length = c.scheduled.length + 1 := by simp [configs]

theorem configs_get {c : Config} {i : Nat} (h : i < c.scheduled.length) : c.configs[i]? = c.scheduled[i]? := by
  rw [configs, List.getElem?_append_left h]

/-- The invariant of all histories. -/
structure Inv (c : Config) : Prop where
  guard : c.scheduled[0]? = some zeroConfig
  link : ∀ i c1 c2, c.scheduled[i]? = some c1 → c.scheduled[i + 1]? = some c2 → Seamless c1 c2
  thr : ∀ bc ∈ c.scheduled, bc.threshold ≤ bc.keypers.length

theorem Inv.pos {c : Config} (h : c.Inv) : 0 < c.scheduled.length := by
  rcases c with ⟨_ | ⟨a, l⟩, n, hu, o⟩
  · have := h.guard; simp at this
  · simp

theorem inv_init (hu : Nat) (o : Address) : (init hu o).Inv := by
  constructor
  · rfl
  · intro i c1 c2 _ h2; simp [init] at h2
  · intro bc hb; simp [init] at hb; subst hb; simp [zeroConfig]

/-! ## What the calls do -/

/-- The effect of a successful `scheduleNextConfig`. -/
structure Scheduled (c : Config) (block : Nat) (c' : Config) (lst : BatchConfig) : Prop where
  last : c.lastScheduledConfig = some lst
  seamless : Seamless lst c.next
  thr : c.next.threshold ≤ c.next.keypers.length
  early : block + c.headsUp + 1 ≤ c.next.startBlockNumber
  early' : block + lst.batchSpan + 1 ≤ c.next.startBlockNumber
  eq : c' = { c with scheduled := c.scheduled ++ [c.next], next := zeroConfig }

theorem scheduled_of {c c' : Config} {block : Nat} (h : c.scheduleNextConfig block = some c') :
    ∃ last, Scheduled c block c' last := by
  unfold scheduleNextConfig at h
  simp only [Option.bind_eq_bind, Option.bind_eq_some_iff, require_eq_some, addU64_eq_some] at h
  obtain ⟨_, _, last, hl, _, hthr, e, ⟨he, _⟩, e', ⟨he', _⟩, _, hstart, h⟩ := h
  refine ⟨last, hl, ?_, hthr, ?_, ?_, ?_⟩
  · split at h
    · next hs =>
      simp only [Option.bind_eq_bind, Option.bind_eq_some_iff, require_eq_some, subU64_eq_some, mulU64_eq_some,
        addU64_eq_some] at h
      obtain ⟨_, hlt, d, ⟨_, hd⟩, m, ⟨hm, _⟩, s, ⟨hs', _⟩, _, hse, _⟩ := h
      refine ⟨fun _ => ⟨hlt, ?_⟩, fun h0 => by omega⟩
      rw [← hse, ← hs', ← hm, ← hd, Nat.mul_comm]
    · next hs =>
      simp only [Option.bind_eq_bind, Option.bind_eq_some_iff, require_eq_some] at h
      obtain ⟨_, heq, _⟩ := h
      exact ⟨fun h0 => absurd h0 hs, fun _ => heq⟩
  · split at he <;> omega
  · split at he <;> omega
  · split at h
    · simp only [Option.bind_eq_bind, Option.bind_eq_some_iff, Option.some.injEq] at h
      obtain ⟨_, _, _, _, _, _, _, _, _, _, h⟩ := h
      exact h.symm
    · simp only [Option.bind_eq_bind, Option.bind_eq_some_iff, Option.some.injEq] at h
      obtain ⟨_, _, h⟩ := h
      exact h.symm

theorem lastScheduled_eq (c : Config) (hp : 0 < c.scheduled.length) :
    c.lastScheduledConfig = c.scheduled[c.scheduled.length - 1]? := by
  rw [lastScheduledConfig, lastScheduledConfigIndex, configs_len, ← configs_get (by omega)]
  congr 1

/-- The unscheduling loop removes a (possibly empty) tail of configs starting at or after `fromBlock`. -/
theorem unscheduleLoop_spec (f : Nat) (i : Nat) (cs : List BatchConfig) (h : cs.length = i + 1) :
    ∃ k, k ≤ i ∧ unscheduleLoop f i cs = cs.take (k + 1) ∧
      (∀ j bc, k < j → cs[j]? = some bc → f ≤ bc.startBlockNumber) ∧
      (∀ bc, 0 < k → cs[k]? = some bc → bc.startBlockNumber < f) := by
  induction i generalizing cs with
  | zero =>
    refine ⟨0, le_refl _, by simp [unscheduleLoop, List.take_of_length_le (by omega : cs.length ≤ 1)], ?_, by simp⟩
    intro j bc hj hb
    rw [List.getElem?_eq_none (by omega)] at hb; simp at hb
  | succ i ih =>
    have hi : i + 1 < cs.length := by omega
    rw [unscheduleLoop, List.getElem?_eq_getElem hi]
    dsimp only
    split
    · next hf =>
      obtain ⟨k, hk, heq, hA, hB⟩ := ih cs.dropLast (by simp; omega)
      refine ⟨k, by omega, ?_, ?_, ?_⟩
      · rw [heq, List.dropLast_eq_take, List.take_take]
        congr 1; omega
      · intro j bc hj hb
        by_cases hji : j = i + 1
        · subst hji
          rw [List.getElem?_eq_getElem hi] at hb
          simp at hb; subst hb; exact hf
        · have hjl : j < cs.length := by
            by_contra hc
            rw [List.getElem?_eq_none (by omega)] at hb; simp at hb
          apply hA j bc hj
          rw [List.dropLast_eq_take, List.getElem?_take_of_lt (by omega)]
          exact hb
      · intro bc hk0 hb
        apply hB bc hk0
        rw [List.dropLast_eq_take, List.getElem?_take_of_lt (by omega)]
        exact hb
    · next hf =>
      refine ⟨i + 1, le_refl _, by rw [List.take_of_length_le (by omega)], ?_, ?_⟩
      · intro j bc hj hb
        rw [List.getElem?_eq_none (by omega)] at hb; simp at hb
      · intro bc _ hb
        rw [List.getElem?_eq_getElem hi] at hb
        simp at hb; subst hb; omega

/-- The effect of a successful `unscheduleConfigs`. -/
theorem unscheduled_of {c c' : Config} {block f : Nat} (hp : 0 < c.scheduled.length)
    (h : c.unscheduleConfigs block f = some c') :
    block + c.headsUp < f ∧ ∃ k, k + 1 < c.scheduled.length ∧ c' = { c with scheduled := c.scheduled.take (k + 1) } ∧
      (∀ j bc, k < j → c.scheduled[j]? = some bc → f ≤ bc.startBlockNumber) ∧
      (∀ bc, 0 < k → c.scheduled[k]? = some bc → bc.startBlockNumber < f) := by
  unfold unscheduleConfigs at h
  simp only [Option.bind_eq_bind, Option.bind_eq_some_iff, require_eq_some, Option.some.injEq] at h
  obtain ⟨_, hf, _, hlen, h⟩ := h
  obtain ⟨k, hk, heq, hA, hB⟩ := unscheduleLoop_spec f (c.scheduled.length - 1) c.scheduled (by omega)
  refine ⟨hf, k, ?_, by rw [← h, heq], hA, hB⟩
  rw [heq, configs_len, List.length_take] at hlen
  omega

/-- The four kinds of changes. -/
inductive Eff (block : Nat) (c : Config) : Config → Prop
  | other {n o} : Eff block c { c with next := n, owner := o }
  | schedule {c' last} : Scheduled c block c' last → Eff block c c'
  | unschedule {c'} (f : Nat) : c.unscheduleConfigs block f = some c' → Eff block c c'

theorem eff_of {c c' : Config} {block : Nat} {s : Address} {o : Call} (h : c.call block s o = some c') : Eff block c c' := by
  cases o with
  | set o =>
    simp only [call, Option.bind_eq_bind, Option.bind_eq_some_iff, Option.some.injEq] at h
    obtain ⟨_, _, n, _, rfl⟩ := h
    exact .other
  | schedule =>
    simp only [call, Option.bind_eq_bind, Option.bind_eq_some_iff] at h
    obtain ⟨_, _, h⟩ := h
    obtain ⟨_, h⟩ := scheduled_of h
    exact .schedule h
  | unschedule f =>
    simp only [call, Option.bind_eq_bind, Option.bind_eq_some_iff] at h
    obtain ⟨_, _, f', _, h⟩ := h
    exact .unschedule f' h
  | transferOwnership a =>
    simp only [call, Option.bind_eq_bind, Option.bind_eq_some_iff, Option.some.injEq] at h
    obtain ⟨_, _, rfl⟩ := h
    exact .other

theorem inv_eff {block : Nat} {c c' : Config} (h : c.Inv) (e : Eff block c c') : c'.Inv := by
  cases e with
  | other => exact ⟨h.guard, h.link, h.thr⟩
  | schedule hs =>
    rename_i last
    have hp := h.pos
    rw [hs.eq]
    have hl := hs.last
    rw [lastScheduled_eq c hp] at hl
    refine ⟨?_, ?_, ?_⟩
    · change (c.scheduled ++ [c.next])[0]? = _
      rw [List.getElem?_append_left hp]; exact h.guard
    · intro i c1 c2 h1 h2
      change (c.scheduled ++ [c.next])[i]? = _ at h1
      change (c.scheduled ++ [c.next])[i + 1]? = _ at h2
      by_cases hi : i + 1 < c.scheduled.length
      · rw [List.getElem?_append_left (by omega)] at h1 h2
        exact h.link i c1 c2 h1 h2
      · by_cases hi' : i + 1 = c.scheduled.length
        · rw [List.getElem?_append_left (by omega)] at h1
          rw [List.getElem?_append_right (by omega), hi'] at h2
          simp at h2; subst h2
          rw [show c.scheduled.length - 1 = i by omega, h1] at hl
          simp at hl; subst hl
          exact hs.seamless
        · rw [List.getElem?_append_right (by omega)] at h2
          rw [List.getElem?_eq_none (by simp; omega)] at h2; simp at h2
    · intro bc hb
      rcases List.mem_append.1 (show bc ∈ c.scheduled ++ [c.next] from hb) with hb | hb
      · exact h.thr bc hb
      · simp at hb; subst hb; exact hs.thr
  | unschedule f hu =>
    obtain ⟨_, k, hk, rfl, _⟩ := unscheduled_of h.pos hu
    refine ⟨?_, ?_, ?_⟩
    · change (c.scheduled.take (k + 1))[0]? = _
      rw [List.getElem?_take_of_lt (by omega)]; exact h.guard
    · intro i c1 c2 h1 h2
      change (c.scheduled.take (k + 1))[i]? = _ at h1
      change (c.scheduled.take (k + 1))[i + 1]? = _ at h2
      have hik : i + 1 < k + 1 := by
        by_contra hc
        rw [List.getElem?_eq_none (by simp; omega)] at h2; simp at h2
      rw [List.getElem?_take_of_lt (by omega)] at h1 h2
      exact h.link i c1 c2 h1 h2
    · intro bc hb
      exact h.thr bc (List.mem_of_mem_take hb)

theorem inv_step {s s' : ConfigAt} (h : s.config.Inv) (st : ConfigStep s s') : s'.config.Inv := by
  cases st with
  | mine => exact h
  | call hc => exact inv_eff h (eff_of hc)

theorem inv_later {s s' : ConfigAt} (h : s.config.Inv) (st : ConfigLater s s') : s'.config.Inv := by
  induction st with
  | refl => exact h
  | tail _ st ih => exact inv_step ih st

theorem inv_reach {s : ConfigAt} (h : ConfigReach s) : s.config.Inv := by
  obtain ⟨hu, o, b, _, _, h⟩ := h
  exact inv_later (inv_init hu o) h

/-! ## Order -/

theorem Inv.mono_step {c : Config} (h : c.Inv) {i : Nat} {c1 c2 : BatchConfig} (h1 : c.scheduled[i]? = some c1)
    (h2 : c.scheduled[i + 1]? = some c2) : c1.startBatchIndex ≤ c2.startBatchIndex := by
  obtain ⟨ha, hb⟩ := h.link i c1 c2 h1 h2
  by_cases hs : c1.batchSpan = 0
  · rw [hb hs]
  · exact le_of_lt (ha (by omega)).1

theorem Inv.mono {c : Config} (h : c.Inv) {i j : Nat} {c1 c2 : BatchConfig} (hij : i ≤ j) (h1 : c.scheduled[i]? = some c1)
    (h2 : c.scheduled[j]? = some c2) : c1.startBatchIndex ≤ c2.startBatchIndex := by
  induction j, hij using Nat.le_induction generalizing c2 with
  | base => rw [h1] at h2; simp at h2; subst h2; exact le_refl _
  | succ j hij ih =>
    have hj : j < c.scheduled.length := by
      by_contra hc
      rw [List.getElem?_eq_none (by omega)] at h2; simp at h2
    have h3 := List.getElem?_eq_getElem hj
    exact le_trans (ih h3) (h.mono_step h3 h2)

/-! ## The lookup -/

theorem indexLoop_spec (cs : List BatchConfig) (b n : Nat) (hn : n < cs.length) {c0 : BatchConfig} (h0 : cs[0]? = some c0)
    (hg : c0.startBatchIndex = 0) :
    ∃ i, i ≤ n ∧ indexLoop cs b n = some i ∧ (∃ bc, cs[i]? = some bc ∧ bc.startBatchIndex ≤ b) ∧
      ∀ j bc, i < j → j ≤ n → cs[j]? = some bc → b < bc.startBatchIndex := by
  induction n with
  | zero =>
    refine ⟨0, le_refl _, ?_, ⟨c0, h0, by omega⟩, fun j bc h1 h2 => by omega⟩
    simp [indexLoop, h0, hg]
  | succ n ih =>
    obtain ⟨i, hi, h1, h2, h3⟩ := ih (by omega)
    have hg' := List.getElem?_eq_getElem hn
    rw [indexLoop, hg']
    dsimp only
    split
    · next hle =>
      exact ⟨n + 1, le_refl _, rfl, ⟨_, hg', hle⟩, fun j bc h1 h2 => by omega⟩
    · next hle =>
      refine ⟨i, by omega, h1, h2, fun j bc hj1 hj2 hb => ?_⟩
      by_cases hj : j = n + 1
      · subst hj
        rw [hg'] at hb; simp at hb; subst hb; omega
      · exact h3 j bc hj1 (by omega) hb

theorem Inv.lookup {c : Config} (h : c.Inv) (b : Nat) :
    ∃ i, c.configIndexForBatchIndex b = some i ∧ i < c.scheduled.length ∧ Responsible c i b := by
  have hp := h.pos
  have hlen := configs_len c
  obtain ⟨i, hi, h1, ⟨bc, h2, h2'⟩, h3⟩ := indexLoop_spec c.configs b (c.configs.length - 2) (by omega)
    (c0 := zeroConfig) (by rw [configs_get hp]; exact h.guard) rfl
  have hi' : i < c.scheduled.length := by omega
  refine ⟨i, h1, hi', ⟨bc, by rw [← configs_get hi']; exact h2, h2'⟩, fun j bc hj hb => ?_⟩
  have hjl : j < c.scheduled.length := by
    by_contra hc
    rw [List.getElem?_eq_none (by omega)] at hb; simp at hb
  exact h3 j bc hj (by omega) (by rw [configs_get hjl]; exact hb)

theorem responsible_unique {c : Config} {i j b : Nat} (hi : Responsible c i b) (hj : Responsible c j b) : i = j := by
  obtain ⟨⟨b1, h1, h1'⟩, h2⟩ := hi
  obtain ⟨⟨b2, h3, h3'⟩, h4⟩ := hj
  rcases lt_trichotomy i j with h | h | h
  · have := h2 j b2 h h3; omega
  · exact h
  · have := h4 i b1 h h1; omega

theorem Inv.lookup_iff {c : Config} (h : c.Inv) (b i : Nat) :
    c.configIndexForBatchIndex b = some i ↔ Responsible c i b := by
  obtain ⟨k, h1, _, h2⟩ := h.lookup b
  constructor
  · intro hi
    rw [h1] at hi; simp at hi; subst hi; exact h2
  · intro hi
    rw [responsible_unique hi h2]; exact h1

/-- The block numbers of a batch. -/
theorem boundary_iff {c : Config} {i b : Nat} {st e t : Nat} :
    c.batchBoundaryBlocks i b = some (st, e, t) ↔ ∃ bc, c.configs[i]? = some bc ∧ 0 < bc.batchSpan ∧
      bc.startBatchIndex ≤ b ∧ e = bc.nominalEnd b ∧ t = e + bc.executionTimeout ∧ t < two64 ∧
      st = if b = bc.startBatchIndex then bc.nominalStart b else bc.nominalStart b - bc.batchSpan := by
  unfold batchBoundaryBlocks earlierStart BatchConfig.nominalEnd BatchConfig.nominalStart
  simp only [Option.bind_eq_bind, Option.bind_eq_some_iff, require_eq_some, mulU64_eq_some, addU64_eq_some, subU64_eq_some,
    Option.some.injEq, Prod.mk.injEq]
  constructor
  · rintro ⟨bc, hbc, _, hs, _, hge, _, ⟨rfl, _⟩, _, ⟨rfl, _⟩, e', ⟨rfl, h64⟩, s1, ⟨_, rfl⟩, s2, hs2, t', ⟨rfl, ht⟩, rfl, rfl, rfl⟩
    refine ⟨bc, hbc, hs, hge, rfl, rfl, ht, ?_⟩
    split at hs2
    · next hr =>
      rw [subU64_eq_some] at hs2
      rw [if_neg (by omega)]; omega
    · next hr =>
      simp at hs2
      rw [if_pos (by omega)]; omega
  · rintro ⟨bc, hbc, hs, hge, rfl, rfl, ht, rfl⟩
    refine ⟨bc, hbc, (), hs, (), hge, _, ⟨rfl, by omega⟩, _, ⟨rfl, by omega⟩, _, ⟨rfl, by omega⟩, _, ⟨by omega, rfl⟩,
      if b = bc.startBatchIndex then bc.startBlockNumber + (b - bc.startBatchIndex) * bc.batchSpan
        else bc.startBlockNumber + (b - bc.startBatchIndex) * bc.batchSpan - bc.batchSpan, ?_, _, ⟨rfl, by omega⟩, rfl, rfl, rfl⟩
    by_cases hr : b = bc.startBatchIndex
    · rw [if_neg (by omega), if_pos hr]; simp
    · rw [if_pos (by omega), if_neg hr, subU64_eq_some]
      have : bc.batchSpan ≤ (b - bc.startBatchIndex) * bc.batchSpan := Nat.le_mul_of_pos_left _ (by omega)
      omega

/-! ## Started batches are safe -/

/-- `c'` keeps the configs up to number `i` and only has later ones for batches after `b`. -/
structure Frozen (c : Config) (i b : Nat) (c' : Config) : Prop where
  prefix_eq : ∀ j ≤ i, c'.scheduled[j]? = c.scheduled[j]?
  later : ∀ j bc, i < j → c'.scheduled[j]? = some bc → b < bc.startBatchIndex

theorem frozen_eff {c c' c'' : Config} {i b block block' : Nat} (hinv' : c'.Inv) (hle : block ≤ block')
    {bc : BatchConfig} (hbc : c.scheduled[i]? = some bc) (hspan : 0 < bc.batchSpan) (hb : bc.startBatchIndex ≤ b)
    (hst : (if b = bc.startBatchIndex then bc.nominalStart b else bc.nominalStart b - bc.batchSpan) ≤ block)
    (fz : Frozen c i b c') (e : Eff block' c' c'') : Frozen c i b c'' := by
  have hbc' : c'.scheduled[i]? = some bc := by rw [fz.prefix_eq i (le_refl _)]; exact hbc
  have hil : i < c'.scheduled.length := by
    by_contra hc
    rw [List.getElem?_eq_none (by omega)] at hbc'; simp at hbc'
  have hge : bc.startBlockNumber ≤ block := by
    unfold BatchConfig.nominalStart at hst
    split at hst
    · omega
    · have : bc.batchSpan ≤ (b - bc.startBatchIndex) * bc.batchSpan := Nat.le_mul_of_pos_left _ (by omega)
      omega
  cases e with
  | other => exact ⟨fz.prefix_eq, fz.later⟩
  | schedule hs =>
    rename_i last
    have hl := hs.last
    rw [lastScheduled_eq c' (by omega)] at hl
    rw [hs.eq]
    constructor
    · intro j hj
      change (c'.scheduled ++ [c'.next])[j]? = _
      rw [List.getElem?_append_left (by omega)]
      exact fz.prefix_eq j hj
    · intro j x hj hx
      change (c'.scheduled ++ [c'.next])[j]? = _ at hx
      by_cases hjl : j < c'.scheduled.length
      · rw [List.getElem?_append_left hjl] at hx
        exact fz.later j x hj hx
      · rw [List.getElem?_append_right (by omega)] at hx
        have hj0 : j - c'.scheduled.length = 0 := by
          by_contra hc
          rw [List.getElem?_eq_none (by simp; omega)] at hx; simp at hx
        rw [hj0] at hx
        simp at hx; subst hx
        by_cases hlast : i = c'.scheduled.length - 1
        · rw [← hlast, hbc'] at hl
          simp at hl; subst hl
          obtain ⟨hlt, heq⟩ := hs.seamless.1 hspan
          have hE := hs.early'
          by_contra hc
          have hmul : (c'.next.startBatchIndex - bc.startBatchIndex) * bc.batchSpan ≤
              (b - bc.startBatchIndex) * bc.batchSpan := Nat.mul_le_mul_right _ (by omega)
          unfold BatchConfig.nominalStart at hst
          rw [if_neg (by omega)] at hst
          omega
        · have h1 := fz.later (c'.scheduled.length - 1) last (by omega) hl
          have h2 : last.startBatchIndex ≤ c'.next.startBatchIndex := by
            by_cases h0 : last.batchSpan = 0
            · rw [hs.seamless.2 h0]
            · exact le_of_lt (hs.seamless.1 (by omega)).1
          omega
  | unschedule f hu =>
    obtain ⟨hf, k, hk, rfl, hA, _⟩ := unscheduled_of hinv'.pos hu
    have hik : i ≤ k := by
      by_contra hc
      have := hA i bc (by omega) hbc'
      omega
    constructor
    · intro j hj
      change (c'.scheduled.take (k + 1))[j]? = _
      rw [List.getElem?_take_of_lt (by omega)]
      exact fz.prefix_eq j hj
    · intro j x hj hx
      change (c'.scheduled.take (k + 1))[j]? = _ at hx
      have hjk : j < k + 1 := by
        by_contra hc
        rw [List.getElem?_eq_none (by simp; omega)] at hx; simp at hx
      rw [List.getElem?_take_of_lt hjk] at hx
      exact fz.later j x hj hx

theorem block_mono {s s' : ConfigAt} (st : ConfigLater s s') : s.block ≤ s'.block := by
  induction st with
  | refl => exact le_refl _
  | tail _ st ih =>
    cases st with
    | mine h => exact le_trans ih h
    | call => exact ih

/-- The config responsible for a started batch. -/
theorem started_config {c : Config} (h : c.Inv) {block b : Nat} (st : Started c block b) :
    ∃ i bc, c.configIndexForBatchIndex b = some i ∧ c.scheduled[i]? = some bc ∧ 0 < bc.batchSpan ∧ bc.startBatchIndex ≤ b ∧
      (if b = bc.startBatchIndex then bc.nominalStart b else bc.nominalStart b - bc.batchSpan) ≤ block ∧
      bc.nominalEnd b + bc.executionTimeout < two64 := by
  obtain ⟨i, start, e, t, hi, hbd, hle⟩ := st
  obtain ⟨k, hk, hkl, _⟩ := h.lookup b
  rw [hi] at hk; simp at hk; subst hk
  obtain ⟨bc, h1, h2, h3, rfl, rfl, ht, rfl⟩ := boundary_iff.1 hbd
  exact ⟨i, bc, hi, by rw [← configs_get hkl]; exact h1, h2, h3, hle, ht⟩

theorem frozen_later {s s' : ConfigAt} {i b : Nat} (h : s.config.Inv) {bc : BatchConfig}
    (hbc : s.config.scheduled[i]? = some bc) (hspan : 0 < bc.batchSpan) (hb : bc.startBatchIndex ≤ b)
    (hst : (if b = bc.startBatchIndex then bc.nominalStart b else bc.nominalStart b - bc.batchSpan) ≤ s.block)
    (hr : Responsible s.config i b) (l : ConfigLater s s') : Frozen s.config i b s'.config := by
  induction l with
  | refl => exact ⟨fun _ _ => rfl, hr.2⟩
  | tail l st ih =>
    cases st with
    | mine => exact ih
    | call hc => exact frozen_eff (inv_later h l) (block_mono l) hbc hspan hb hst ih (eff_of hc)

theorem frozen_lookup {c c' : Config} {i b : Nat} (h : c.Inv) (h' : c'.Inv) (hr : Responsible c i b)
    (fz : Frozen c i b c') (b' : Nat) (hb : b' ≤ b) :
    ∃ j bc, j ≤ i ∧ c.configIndexForBatchIndex b' = some j ∧ c'.configIndexForBatchIndex b' = some j ∧
      c.scheduled[j]? = some bc ∧ c'.scheduled[j]? = some bc := by
  obtain ⟨j, h1, h2, h3⟩ := h.lookup b'
  have hj : j ≤ i := by
    by_contra hc
    obtain ⟨⟨bc, hx, hy⟩, _⟩ := h3
    have := hr.2 j bc (by omega) hx
    omega
  obtain ⟨⟨bc, hx, hy⟩, hz⟩ := h3
  refine ⟨j, bc, hj, h1, ?_, hx, by rw [fz.prefix_eq j hj]; exact hx⟩
  rw [h'.lookup_iff]
  refine ⟨⟨bc, by rw [fz.prefix_eq j hj]; exact hx, hy⟩, fun k bc' hk hk' => ?_⟩
  by_cases hki : k ≤ i
  · rw [fz.prefix_eq k hki] at hk'
    exact hz k bc' hk hk'
  · have := fz.later k bc' (by omega) hk'
    omega

end Config
end Shutter.Sol
