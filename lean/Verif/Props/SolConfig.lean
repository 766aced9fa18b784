import Verif.Proofs.SolConfig
import Verif.Model.GoConfig

/-! Property theorems C38, C43 and C44: batch arithmetic and the config contract. -/

namespace Shutter.Sol.Props
open Shutter.Sol Shutter.Sol.Config Shutter.GoConfig

/-! ### C43 -/

/-- **C43** (all but the order of start blocks) In every history the first config is the guard, configs follow each
other seamlessly, batch indexes do not decrease, an active config starts strictly before its successor, and no threshold
exceeds the number of keypers. Missing: start blocks after an inactive config, see `C43_start_block_counterexample`. -/
theorem C43_schedule_partial {s : ConfigAt} (h : ConfigReach s) :
    s.config.scheduled[0]? = some zeroConfig ∧
    (∀ (i : Nat) (c1 c2 : BatchConfig), s.config.scheduled[i]? = some c1 → s.config.scheduled[i + 1]? = some c2 →
      Seamless c1 c2 ∧ (c1.batchSpan > 0 → c1.startBlockNumber < c2.startBlockNumber)) ∧
    (∀ (i j : Nat) (c1 c2 : BatchConfig), i ≤ j → s.config.scheduled[i]? = some c1 → s.config.scheduled[j]? = some c2 →
      c1.startBatchIndex ≤ c2.startBatchIndex) ∧
    (∀ bc ∈ s.config.scheduled, bc.threshold ≤ bc.keypers.length) := by
  have hi := inv_reach h
  refine ⟨hi.guard, fun i c1 c2 h1 h2 => ⟨hi.link i c1 c2 h1 h2, fun hs => ?_⟩, fun i j c1 c2 hij h1 h2 => hi.mono hij h1 h2,
    hi.thr⟩
  obtain ⟨hlt, heq⟩ := (hi.link i c1 c2 h1 h2).1 hs
  have : 0 < (c2.startBatchIndex - c1.startBatchIndex) * c1.batchSpan := Nat.mul_pos (by omega) hs
  omega

/-- **C43** Every batch index has exactly one responsible config, and it is the one the contract finds. -/
theorem C43_lookup {s : ConfigAt} (h : ConfigReach s) (b : Nat) :
    (∃ i, s.config.configIndexForBatchIndex b = some i) ∧
    ∀ i, s.config.configIndexForBatchIndex b = some i ↔ Responsible s.config i b := by
  have hi := inv_reach h
  obtain ⟨i, h1, _⟩ := hi.lookup b
  exact ⟨⟨i, h1⟩, hi.lookup_iff b⟩

/-- **C43** The boundaries of a batch of an active config are defined (unless they exceed 64 bits): it ends one span after
its nominal start and submission opens at the nominal start of the preceding batch of the same config. -/
theorem C43_boundaries {s : ConfigAt} (h : ConfigReach s) {b i : Nat} {bc : BatchConfig} (hr : Responsible s.config i b)
    (hbc : s.config.scheduled[i]? = some bc) (active : bc.batchSpan > 0)
    (fits : bc.nominalEnd b + bc.executionTimeout < two64) :
    s.config.configIndexForBatchIndex b = some i ∧
    s.config.batchBoundaryBlocks i b = some
      (if b = bc.startBatchIndex then bc.nominalStart b else bc.nominalStart (b - 1), bc.nominalEnd b,
        bc.nominalEnd b + bc.executionTimeout) := by
  have hi := inv_reach h
  have hil : i < s.config.scheduled.length := by
    by_contra hc
    rw [List.getElem?_eq_none (by omega)] at hbc; simp at hbc
  obtain ⟨⟨bc', h1, h1'⟩, _⟩ := id hr
  rw [hbc] at h1; simp at h1; subst h1
  refine ⟨(hi.lookup_iff b i).2 hr, boundary_iff.2 ⟨bc, by rw [configs_get hil]; exact hbc, active, h1', rfl, rfl, fits, ?_⟩⟩
  by_cases hb : b = bc.startBatchIndex
  · rw [if_pos hb, if_pos hb]
  · rw [if_neg hb, if_neg hb]
    unfold BatchConfig.nominalStart
    have : b - bc.startBatchIndex = (b - 1 - bc.startBatchIndex) + 1 := by omega
    rw [this, Nat.add_mul]; omega

/-- **C43** Consecutive batches meet: the next batch of the same config, or of an active config that directly follows,
nominally starts where the batch ends. -/
theorem C43_batches_meet {s : ConfigAt} (h : ConfigReach s) {b i j : Nat} {bc bc' : BatchConfig}
    (hi : Responsible s.config i b) (hj : Responsible s.config j (b + 1)) (hij : j = i ∨ j = i + 1)
    (hbc : s.config.scheduled[i]? = some bc) (hbc' : s.config.scheduled[j]? = some bc') (active : bc.batchSpan > 0) :
    bc'.nominalStart (b + 1) = bc.nominalEnd b := by
  have hinv := inv_reach h
  obtain ⟨⟨x, hx, hx'⟩, hi2⟩ := hi
  rw [hbc] at hx; simp at hx; subst hx
  obtain ⟨⟨y, hy, hy'⟩, hj2⟩ := hj
  rw [hbc'] at hy; simp at hy; subst hy
  rcases hij with rfl | rfl
  · rw [hbc] at hbc'; simp at hbc'; subst hbc'
    unfold BatchConfig.nominalEnd BatchConfig.nominalStart
    rw [show b + 1 - bc.startBatchIndex = (b - bc.startBatchIndex) + 1 by omega, Nat.add_mul]; omega
  · obtain ⟨hlt, heq⟩ := (hinv.link i bc bc' hbc hbc').1 active
    have hb := hi2 (i + 1) bc' (by omega) hbc'
    have : bc'.startBatchIndex = b + 1 := by omega
    unfold BatchConfig.nominalEnd BatchConfig.nominalStart
    rw [this] at heq ⊢
    rw [show b + 1 - bc.startBatchIndex = (b - bc.startBatchIndex) + 1 by omega, Nat.add_mul] at heq
    simp; omega

/-- Runs a list of calls, each at a block. -/
def runCalls (s : ConfigAt) : List (Nat × Address × Call) → Option ConfigAt
  | [] => some s
  | (b, a, o) :: rest =>
    if s.block ≤ b ∧ b < two64 then
      match s.config.call b a o with
      | none => none
      | some c' => runCalls ⟨b, c'⟩ rest
    else none

theorem runCalls_later {s s' : ConfigAt} {l} (h : runCalls s l = some s') : ConfigLater s s' := by
  induction l generalizing s with
  | nil => simp [runCalls] at h; subst h; exact .refl
  | cons x rest ih =>
    obtain ⟨b, a, o⟩ := x
    rw [runCalls] at h
    split at h
    · next hb =>
      split at h
      · simp at h
      · next c' hc =>
        exact (Relation.ReflTransGen.single (ConfigStep.mine hb.1 hb.2)).trans
          ((Relation.ReflTransGen.single (ConfigStep.call hc)).trans (ih h))
    · simp at h

namespace Demo

/-- Sets up and schedules a config. -/
def sched (block n start span : Nat) : List (Nat × Address × Call) :=
  [(block, 1, .set (.startBatchIndex n)), (block, 1, .set (.startBlockNumber start)), (block, 1, .set (.batchSpan span)),
    (block, 1, .set (.addKeypers [5, 6, 7])), (block, 1, .set (.threshold 2)), (block, 1, .set (.executionTimeout 30)),
    (block, 1, .schedule)]

def start : ConfigAt := ⟨3, Config.init 10 1⟩

/-- Two active configs: batches 0..19 of ten blocks from block 100, batches 20.. of five blocks from block 300. -/
def calls : List (Nat × Address × Call) := sched 4 0 100 10 ++ sched 50 20 300 5

def state : ConfigAt := (runCalls start calls).getD start

theorem later : ConfigLater start state := runCalls_later (l := calls) (by decide +kernel)
theorem reach : ConfigReach state := ⟨10, 1, 3, by decide, by decide, later⟩

/-- The same with an inactive config in between: config 3 starts at block 60, config 1 at block 100. -/
def badCalls : List (Nat × Address × Call) := sched 4 0 100 10 ++ sched 4 20 300 0 ++ sched 4 20 60 10

def badState : ConfigAt := (runCalls start badCalls).getD start

theorem badReach : ConfigReach badState :=
  ⟨10, 1, 3, by decide, by decide, runCalls_later (l := badCalls) (by decide +kernel)⟩

end Demo

/-- **C43** The order of start blocks fails: after scheduling an inactive config for a future block, another config may be
scheduled for an earlier one. Here batch 20 ends at block 70, before batch 0 opens at block 100. -/
theorem C43_start_block_counterexample : ∃ s, ConfigReach s ∧
    (∃ c1 c3, s.config.scheduled[1]? = some c1 ∧ s.config.scheduled[3]? = some c3 ∧
      c3.startBlockNumber < c1.startBlockNumber) ∧
    s.config.configIndexForBatchIndex 0 = some 1 ∧ s.config.batchBoundaryBlocks 1 0 = some (100, 110, 140) ∧
    s.config.configIndexForBatchIndex 20 = some 3 ∧ s.config.batchBoundaryBlocks 3 20 = some (60, 70, 100) :=
  ⟨Demo.badState, Demo.badReach, ⟨_, _, rfl, rfl, by decide +kernel⟩, by decide +kernel, by decide +kernel,
    by decide +kernel, by decide +kernel⟩

/-- The demo history: batches 19 and 20 meet at block 300. -/
example : Responsible Demo.state.config 1 19 ∧ Responsible Demo.state.config 2 20 ∧
    Demo.state.config.batchBoundaryBlocks 1 19 = some (280, 300, 330) ∧
    Demo.state.config.batchBoundaryBlocks 2 20 = some (300, 305, 335) := by
  refine ⟨(C43_lookup Demo.reach 19).2 1 |>.1 (by decide +kernel), (C43_lookup Demo.reach 20).2 2 |>.1 (by decide +kernel),
    by decide +kernel, by decide +kernel⟩

/-! ### C44 -/

/-- **C44** Once a batch has started, its config and its boundaries, and those of all earlier batches, stay as they are,
whatever the owner does. -/
theorem C44_started_batches_fixed {s s' : ConfigAt} (h : ConfigReach s) (l : ConfigLater s s') {b : Nat}
    (st : Started s.config s.block b) (b' : Nat) (hb : b' ≤ b) :
    ∃ i bc, s.config.configIndexForBatchIndex b' = some i ∧ s'.config.configIndexForBatchIndex b' = some i ∧
      s.config.scheduledConfig i = some bc ∧ s'.config.scheduledConfig i = some bc ∧
      s'.config.configForBatchIndex b' = s.config.configForBatchIndex b' ∧
      s'.config.batchBoundaryBlocks i b' = s.config.batchBoundaryBlocks i b' := by
  have hi := inv_reach h
  have hi' := inv_later hi l
  obtain ⟨i, bc, h1, h2, h3, h4, h5, _⟩ := started_config hi st
  have hr := (hi.lookup_iff b i).1 h1
  have fz := frozen_later hi h2 h3 h4 h5 hr l
  obtain ⟨j, bc', _, g1, g2, g3, g4⟩ := frozen_lookup hi hi' hr fz b' hb
  have hl : ∀ {c : Config}, c.scheduled[j]? = some bc' → j < c.scheduled.length := by
    intro c hc
    by_contra hcc
    rw [List.getElem?_eq_none (by omega)] at hc; simp at hc
  have e1 : s.config.configs[j]? = some bc' := by rw [configs_get (hl g3)]; exact g3
  have e2 : s'.config.configs[j]? = some bc' := by rw [configs_get (hl g4)]; exact g4
  have hsc : ∀ {c : Config}, c.scheduled[j]? = some bc' → c.configs[j]? = some bc' → c.scheduledConfig j = some bc' := by
    intro c hc hc'
    have := hl hc
    rw [scheduledConfig, show require (j < c.numConfigs) = some () by
      rw [require_eq_some, numConfigs, configs_len]; omega]
    exact hc'
  refine ⟨j, bc', g1, g2, hsc g3 e1, hsc g4 e2, ?_, ?_⟩
  · simp only [configForBatchIndex, g1, g2, Option.bind_eq_bind, Option.bind_some, e1, e2]
  · unfold batchBoundaryBlocks
    rw [e1, e2]

/-- At block 285 batch 19 of the demo history has started; the owner then still removes the second config, so that batch 20
is changed but batch 19 is not. -/
example : ConfigReach ⟨285, Demo.state.config⟩ ∧ Started Demo.state.config 285 19 ∧
    (Demo.state.config.call 285 1 (.unschedule 300)).map (·.configIndexForBatchIndex 20) = some (some 1) ∧
    Demo.state.config.configIndexForBatchIndex 20 = some 2 := by
  refine ⟨⟨10, 1, 3, by decide, by decide, Demo.later.tail (ConfigStep.mine ?_ (by decide))⟩,
    ⟨1, 280, 300, 330, by decide +kernel, by decide +kernel, by decide⟩, by decide +kernel, by decide +kernel⟩
  decide +kernel

/-! ### C38 -/

/-- **C38** The keypers' block arithmetic is exact as long as it fits into 64 bits: `BatchIndex` returns the batch whose
half-open interval of blocks contains the block, and there is only one. -/
theorem C38_partition (bc : BatchConfig) (active : bc.batchSpan > 0) (block : Nat) (hb : bc.startBlockNumber ≤ block)
    (fits : block + bc.batchSpan < two64) (fits' : bc.startBatchIndex + block < two64) :
    ∃ b s e, batchIndex bc block = some b ∧ bc.startBatchIndex ≤ b ∧ batchStartBlock bc b = some s ∧
      batchEndBlock bc b = some e ∧ s ≤ block ∧ block < e ∧ e = s + bc.batchSpan ∧
      ∀ b', bc.startBatchIndex ≤ b' →
        bc.startBlockNumber + (b' - bc.startBatchIndex) * bc.batchSpan ≤ block →
        block < bc.startBlockNumber + (b' - bc.startBatchIndex) * bc.batchSpan + bc.batchSpan → b' = b := by
  obtain ⟨q, hq⟩ : ∃ q, q = (block - bc.startBlockNumber) / bc.batchSpan := ⟨_, rfl⟩
  have h1 : q * bc.batchSpan ≤ block - bc.startBlockNumber := by rw [hq]; exact Nat.div_mul_le_self _ _
  have h2 : block - bc.startBlockNumber < q * bc.batchSpan + bc.batchSpan := by
    rw [hq]
    have := Nat.lt_div_mul_add (a := block - bc.startBlockNumber) active
    omega
  have hqle : q ≤ block := by
    have : q ≤ q * bc.batchSpan := Nat.le_mul_of_pos_right _ active
    omega
  have hbi : batchIndex bc block = some (bc.startBatchIndex + q) := by
    rw [batchIndex, if_neg (by omega), if_neg (by omega), ← hq, wadd, Nat.mod_eq_of_lt (by omega)]
  have hs : batchStartBlock bc (bc.startBatchIndex + q) = some (bc.startBlockNumber + q * bc.batchSpan) := by
    rw [batchStartBlock, if_neg (by omega), show bc.startBatchIndex + q - bc.startBatchIndex = q by omega, wmul, wadd,
      Nat.mod_eq_of_lt (by omega : q * bc.batchSpan < two64), Nat.mod_eq_of_lt (by omega)]
  refine ⟨_, _, _, hbi, by omega, hs, by rw [batchEndBlock, hs, Option.map_some], by omega, ?_, ?_, ?_⟩
  · rw [wadd, Nat.mod_eq_of_lt (by omega)]; omega
  · rw [wadd, Nat.mod_eq_of_lt (by omega)]
  · intro b' hb' hle hlt
    have : b' - bc.startBatchIndex = q := by
      rw [hq]
      symm
      rw [Nat.div_eq_iff active]
      have : bc.batchSpan * (b' - bc.startBatchIndex) = (b' - bc.startBatchIndex) * bc.batchSpan := Nat.mul_comm _ _
      omega
    omega

/-- **C38** The end of a batch computed by the keypers is the one of the contract, and the contract opens the batch at the
start computed by the keypers, or one batch earlier (except for the first batch of a config). -/
theorem C38_agrees_with_contract (c : Config) {i b st e t : Nat} {bc : BatchConfig}
    (hbc : c.configForConfigIndex i = some bc) (h : c.batchBoundaryBlocks i b = some (st, e, t)) :
    batchEndBlock bc b = some e ∧ (batchEndBlock bc b).map (· + bc.executionTimeout) = some t ∧
    (if b = bc.startBatchIndex then batchStartBlock bc b = some st
      else batchStartBlock bc (b - 1) = some st ∧ batchStartBlock bc b = some (st + bc.batchSpan)) := by
  obtain ⟨bc', h1, h2, h3, rfl, rfl, ht, rfl⟩ := boundary_iff.1 h
  rw [configForConfigIndex] at hbc
  rw [hbc] at h1; simp at h1; subst h1
  unfold BatchConfig.nominalEnd BatchConfig.nominalStart at *
  have hs : batchStartBlock bc b = some (bc.startBlockNumber + (b - bc.startBatchIndex) * bc.batchSpan) := by
    rw [batchStartBlock, if_neg (by omega), wmul, wadd,
      Nat.mod_eq_of_lt (by omega : (b - bc.startBatchIndex) * bc.batchSpan < two64), Nat.mod_eq_of_lt (by omega)]
  have he : batchEndBlock bc b = some (bc.startBlockNumber + (b - bc.startBatchIndex) * bc.batchSpan + bc.batchSpan) := by
    rw [batchEndBlock, hs, Option.map_some, wadd, Nat.mod_eq_of_lt (by omega)]
  refine ⟨he, by rw [he]; rfl, ?_⟩
  split
  · exact hs
  · next hb =>
    have hmul : (b - bc.startBatchIndex) * bc.batchSpan = (b - 1 - bc.startBatchIndex) * bc.batchSpan + bc.batchSpan := by
      rw [show b - bc.startBatchIndex = (b - 1 - bc.startBatchIndex) + 1 by omega, Nat.add_mul]; omega
    refine ⟨?_, ?_⟩
    · rw [batchStartBlock, if_neg (by omega), wmul, wadd,
        Nat.mod_eq_of_lt (by omega : (b - 1 - bc.startBatchIndex) * bc.batchSpan < two64), Nat.mod_eq_of_lt (by omega)]
      congr 1; omega
    · rw [hs]; congr 1; omega

/-- **C38** Outside the 64 bit range the contract reverts while the keypers' arithmetic silently wraps around. -/
theorem C38_overflow_differs : ∃ (c : Config) (bc : BatchConfig) (b : Nat), c.configForConfigIndex 0 = some bc ∧
    c.batchBoundaryBlocks 0 b = none ∧ batchEndBlock bc b = some 0 :=
  ⟨⟨[{ zeroConfig with batchSpan := 2 ^ 63 }], zeroConfig, 0, 0⟩, { zeroConfig with batchSpan := 2 ^ 63 }, 1, rfl,
    by decide +kernel, by decide +kernel⟩

example : batchIndex { zeroConfig with batchSpan := 10, startBlockNumber := 100, startBatchIndex := 7 } 125 = some 9 ∧
    batchStartBlock { zeroConfig with batchSpan := 10, startBlockNumber := 100, startBatchIndex := 7 } 9 = some 120 ∧
    Demo.state.config.batchBoundaryBlocks 1 5 = some (140, 160, 190) := by decide +kernel

/-- Batch indexes that do not exist yet in the contract's schedule: how a user finds the next batch. -/
theorem C38_next_batch_index (cs : List BatchConfig) (bc : BatchConfig) (block : Nat)
    (hlast : cs.getLast? = some bc) (hb : bc.startBlockNumber ≤ block) (active : bc.batchSpan > 0)
    (fits : bc.startBatchIndex + block + 1 < two64) :
    ∃ b, nextBatchIndex cs block = some b ∧ bc.startBatchIndex < b ∧
      bc.nominalStart (b - 1) ≤ block ∧ block < bc.nominalStart b := by
  have hf : cs.reverse.find? (fun bc => decide (bc.startBlockNumber ≤ block)) = some bc := by
    rw [List.getLast?_eq_head?_reverse] at hlast
    cases hr : cs.reverse with
    | nil => rw [hr] at hlast; simp at hlast
    | cons x xs =>
      rw [hr] at hlast; simp at hlast; subst hlast
      rw [List.find?_cons_of_pos (by simpa using hb)]
  obtain ⟨q, hq⟩ : ∃ q, q = (block - bc.startBlockNumber) / bc.batchSpan := ⟨_, rfl⟩
  have h1 : q * bc.batchSpan ≤ block - bc.startBlockNumber := by rw [hq]; exact Nat.div_mul_le_self _ _
  have h2 : block - bc.startBlockNumber < q * bc.batchSpan + bc.batchSpan := by
    rw [hq]
    have := Nat.lt_div_mul_add (a := block - bc.startBlockNumber) active
    omega
  have hqle : q ≤ block := by
    have : q ≤ q * bc.batchSpan := Nat.le_mul_of_pos_right _ active
    omega
  refine ⟨bc.startBatchIndex + q + 1, ?_, by omega, ?_, ?_⟩
  · rw [nextBatchIndex, hf]
    simp only [show ¬ bc.batchSpan = 0 by omega, if_false]
    rw [← hq, wadd, wadd, Nat.mod_eq_of_lt (by omega : bc.startBatchIndex + q < two64), Nat.mod_eq_of_lt (by omega)]
  · unfold BatchConfig.nominalStart
    rw [show bc.startBatchIndex + q + 1 - 1 - bc.startBatchIndex = q by omega]; omega
  · unfold BatchConfig.nominalStart
    rw [show bc.startBatchIndex + q + 1 - bc.startBatchIndex = q + 1 by omega, Nat.add_mul]; omega

/-- **C43** Removing keypers from the next config takes away those added last; in particular it undoes adding them. -/
theorem C43_remove_keypers (b b' : BatchConfig) (n : Nat) (h : Config.setNext b (.removeKeypers n) = some b') :
    b'.keypers <+: b.keypers ∧ b'.keypers.length = b.keypers.length - n ∧ { b' with
      keypers := b.keypers } = b := by
  simp only [Config.setNext, Option.map_eq_some_iff] at h
  obtain ⟨m, hm, rfl⟩ := h
  rw [u64_eq_some] at hm
  obtain ⟨rfl, _⟩ := hm
  split
  · exact ⟨List.take_prefix _ _, by simp, rfl⟩
  · exact ⟨List.nil_prefix, by simp; omega, rfl⟩

theorem C43_remove_undoes_add (b b' b'' : BatchConfig) (ks : List Address) (h : Config.setNext b (.addKeypers ks) = some b')
    (h' : Config.setNext b' (.removeKeypers ks.length) = some b'') : b'' = b := by
  simp only [Config.setNext] at h
  split at h
  · cases h
    obtain ⟨h1, h2, h3⟩ := C43_remove_keypers _ _ _ h'
    simp only [List.length_append, Nat.add_sub_cancel] at h2
    have hk : b''.keypers = b.keypers :=
      (List.prefix_of_prefix_length_le h1 (List.prefix_append b.keypers ks) (by omega)).eq_of_length h2
    cases b
    cases b''
    simp_all
  · cases h

example : (Config.setNext zeroConfig (.addKeypers [1, 2, 3])).bind (fun b => Config.setNext b (.removeKeypers 1)) =
    some { zeroConfig with
      keypers := [1, 2] } := by decide

end Shutter.Sol.Props
