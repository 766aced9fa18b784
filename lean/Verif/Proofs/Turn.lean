import Verif.Spec.Turn
import Verif.Proofs.Exec

/-! # A keyper executes when it is its turn -/

namespace Shutter.Decide
open Shutter.Crypto Shutter.Dkg Shutter.Observe Shutter.Main Shutter.GoConfig
open Shutter.Sol (BatchConfig zeroHash World two64 NoneTakenBack Responsible ActiveAt)

variable {G1 G2 GT R : Type}

/-- The config of a batch, as the keyper sees it. -/
theorem configFor_of {E fd mc hist} (o : Observed E fd false mc hist) (hn : NoneTakenBack hist mc.currentBlock) (hne : mc.configs ≠ []) {b : Nat}
    {bc : BatchConfig} {start stop timeout : Nat} (hb : (hist mc.currentBlock).HasBatch b bc start stop timeout) :
    configForBatchIndex mc b = some (some (known bc)) ∧ batchEndBlock (known bc) b = some stop ∧ timeout = stop + bc.executionTimeout ∧
      timeout < two64 ∧ 0 < bc.batchSpan ∧ ∃ i, Responsible (hist mc.currentBlock).config i b ∧
        (hist mc.currentBlock).config.scheduled[i]? = some bc ∧ stop = bc.nominalEnd b := by
  have hinv := (o.chain.reach o.current).preach.inv
  obtain ⟨i, h1, h2, h3⟩ := hb
  have hr := (hinv.lookup_iff _ i).1 h1
  obtain ⟨⟨x, hx, hx'⟩, hlast⟩ := id hr
  have hil := (List.getElem?_eq_some_iff.1 hx).1
  obtain ⟨x', g1, g2, g3, g4, g5, g6, g7⟩ := Sol.Config.boundary_iff.1 h3
  rw [Sol.Config.configs_get hil, hx] at g1
  cases g1
  have hbc : x = bc := by
    unfold Sol.Config.scheduledConfig at h2
    simp only [Option.bind_eq_bind, Option.bind_eq_some_iff] at h2
    obtain ⟨_, _, h2⟩ := h2
    rw [Sol.Config.configs_get hil, hx] at h2
    exact Option.some.inj h2
  subst hbc
  have hv := (configView o hn).resolve_left hne
  refine ⟨?_, ?_, g5, g6, g2, i, hr, hx, g4⟩
  · unfold configForBatchIndex configIndexForBatchIndex
    have g := Sol.last_find mc.configs (fun c => decide (c.startBatchIndex ≤ b))
    have hk : mc.configs[i]? = some (known x) := by rw [hv, List.getElem?_map, hx]; rfl
    cases hf : (List.range mc.configs.length).reverse.find? (fun i => (mc.configs[i]?).any (fun c => decide (c.startBatchIndex ≤ b))) with
    | none =>
      rw [hf] at g
      have := g _ (List.mem_of_getElem? hk)
      simp only [decide_eq_false_iff_not] at this
      exact absurd hx' this
    | some j =>
      rw [hf] at g
      obtain ⟨⟨c, c1, c2⟩, c3⟩ := g
      have hij : j = i := by
        rcases lt_trichotomy i j with h | h | h
        · rw [hv, List.getElem?_map, Option.map_eq_some_iff] at c1
          obtain ⟨y, y1, rfl⟩ := c1
          have := hlast j y h y1
          have c2 := of_decide_eq_true c2
          have : (known y).startBatchIndex = y.startBatchIndex := rfl
          omega
        · exact h.symm
        · have := c3 i _ h hk
          simp only [decide_eq_false_iff_not] at this
          exact absurd hx' this
      subst hij
      simp only [hk, Option.any_some, isActive, (known_fields x).2.2.1, gt_iff_lt, g2, decide_true, if_true, Option.map_some, Option.bind_some]
  · unfold batchEndBlock batchStartBlock
    rw [if_neg (by rw [(known_fields x).1]; omega)]
    simp only [Option.map_some, Option.some.injEq, (known_fields x).1, (known_fields x).2.1, (known_fields x).2.2.1]
    unfold BatchConfig.nominalEnd BatchConfig.nominalStart at g4
    have a0 : stop < two64 := by omega
    have a1 : (b - x.startBatchIndex) * x.batchSpan < two64 := by omega
    have a2 : x.startBlockNumber + (b - x.startBatchIndex) * x.batchSpan < two64 := by omega
    unfold wadd wmul
    rw [Nat.mod_eq_of_lt a1, Nat.mod_eq_of_lt a2, Nat.mod_eq_of_lt (by omega), g4]

/-- Batches that are over are before the current one, if batching is on. -/
theorem before_current {E fd mc hist} (o : Observed E fd false mc hist) (hn : NoneTakenBack hist mc.currentBlock) (hne : mc.configs ≠ [])
    (on : BatchingOn (hist mc.currentBlock)) (mod : Moderate (hist mc.currentBlock)) :
    ∃ config current, activeConfig mc mc.currentBlock = some config ∧ isActive config = true ∧
      batchIndex config mc.currentBlock = some current ∧ current < 2 ^ 62 ∧
      ∀ b bc start stop timeout, (hist mc.currentBlock).HasBatch b bc start stop timeout → stop ≤ mc.currentBlock → b < current := by
  have hw : (hist mc.currentBlock).block = mc.currentBlock := o.chain.blk o.current
  have hv := (configView o hn).resolve_left hne
  obtain ⟨i, bc, h1, h2, h3, h4⟩ := on
  rw [hw] at h2 h4
  have hk : mc.configs[i]? = some (known bc) := by rw [hv, List.getElem?_map, h1]; rfl
  have hai : activeConfigIndex mc mc.currentBlock = some i := by
    unfold activeConfigIndex
    have g := Sol.last_find mc.configs (fun c => decide (c.startBlockNumber ≤ mc.currentBlock))
    cases hf : (List.range mc.configs.length).reverse.find? (fun i => (mc.configs[i]?).any (fun c => decide (c.startBlockNumber ≤ mc.currentBlock))) with
    | none =>
      rw [hf] at g
      have := g _ (List.mem_of_getElem? hk)
      simp only [decide_eq_false_iff_not] at this
      exact absurd h2 this
    | some j =>
      rw [hf] at g
      obtain ⟨⟨c, c1, c2⟩, c3⟩ := g
      congr 1
      rcases lt_trichotomy i j with h | h | h
      · rw [hv, List.getElem?_map, Option.map_eq_some_iff] at c1
        obtain ⟨y, y1, rfl⟩ := c1
        have := h4 j y h y1
        have c2 := of_decide_eq_true c2
        have : (known y).startBlockNumber = y.startBlockNumber := rfl
        omega
      · exact h.symm
      · have := c3 i _ h hk
        simp only [decide_eq_false_iff_not] at this
        exact absurd h2 this
  obtain ⟨m1, m2, m3⟩ := mod.configs bc (List.mem_of_getElem? h1)
  have m0 := mod.block
  rw [hw] at m0
  have hdiv : (mc.currentBlock - bc.startBlockNumber) / bc.batchSpan ≤ mc.currentBlock := le_trans (Nat.div_le_self _ _) (Nat.sub_le _ _)
  refine ⟨known bc, bc.startBatchIndex + (mc.currentBlock - bc.startBlockNumber) / bc.batchSpan, ?_, ?_, ?_, by omega, ?_⟩
  · unfold activeConfig
    rw [hai]
    exact hk
  · simp only [isActive, (known_fields bc).2.2.1, gt_iff_lt, h3, decide_true]
  · unfold batchIndex
    rw [if_neg (by rw [(known_fields bc).2.1]; omega), if_neg (by rw [(known_fields bc).2.2.1]; omega)]
    simp only [(known_fields bc).1, (known_fields bc).2.1, (known_fields bc).2.2.1]
    unfold wadd
    rw [Nat.mod_eq_of_lt (by unfold two64; omega)]
  · intro b bc' start stop timeout hb hstop
    obtain ⟨_, _, _, _, hs, j, hr, hj, hend⟩ := configFor_of o hn hne hb
    obtain ⟨⟨x, hx, hx'⟩, hlast⟩ := hr
    rw [hj] at hx
    cases hx
    unfold BatchConfig.nominalEnd BatchConfig.nominalStart at hend
    rcases lt_trichotomy j i with h | h | h
    · exact Nat.lt_of_lt_of_le (hlast i bc h h1) (Nat.le_add_right _ _)
    · subst h
      rw [hj] at h1
      obtain rfl := Option.some.inj h1
      have : (b - bc'.startBatchIndex + 1) * bc'.batchSpan ≤ mc.currentBlock - bc'.startBlockNumber := by
        rw [Nat.add_mul, Nat.one_mul]; omega
      have := (Nat.le_div_iff_mul_le h3).2 this
      omega
    · have := h4 j bc' h hj
      omega

/-- The delay, in the words of the specification. -/
theorem delay_eq {cx : Cfg G1 G2 GT R} {bc : BatchConfig} (nd : bc.keypers.Nodup) (hne : bc.keypers ≠ []) (hlen : bc.keypers.length < 2 ^ 61) {h : Nat}
    (hh : h < 2 ^ 63 + 2 ^ 62) (ht : bc.executionTimeout < 2 ^ 61) :
    executionDelay cx (known bc) h = some (turnDelay cx.staggering (addrNat cx.own) bc h) ∧
      (keyperIndex (known bc) (addrNat cx.own) = if addrNat cx.own ∈ bc.keypers then some (bc.keypers.idxOf (addrNat cx.own)) else none) ∧
      turnDelay cx.staggering (addrNat cx.own) bc h ≤ bc.executionTimeout / 2 := by
  have hk : (known bc).keypers = bc.keypers := by rw [(known_fields bc).2.2.2.2.2.2, dedupGo_nodup _ _ (by simp) nd]
  have hidx : keyperIndex (known bc) (addrNat cx.own) = if addrNat cx.own ∈ bc.keypers then some (bc.keypers.idxOf (addrNat cx.own)) else none := by
    unfold keyperIndex
    rw [hk]
    have : bc.keypers.findIdx (fun k => k == addrNat cx.own) = bc.keypers.idxOf (addrNat cx.own) := rfl
    rw [this]
    simp only
    by_cases hm : addrNat cx.own ∈ bc.keypers
    · rw [if_pos hm, if_pos (List.idxOf_lt_length_of_mem hm)]
    · rw [if_neg hm, if_neg (by rw [List.idxOf_eq_length_iff.2 hm]; omega)]
  obtain ⟨n, hn⟩ : ∃ n, bc.keypers.length = n + 1 := ⟨bc.keypers.length - 1, by have := List.length_pos_of_ne_nil hne; omega⟩
  have hgetD : (keyperIndex (known bc) (addrNat cx.own)).getD 0 = if addrNat cx.own ∈ bc.keypers then bc.keypers.idxOf (addrNat cx.own) else 0 := by
    rw [hidx]; split <;> rfl
  have hi : (if addrNat cx.own ∈ bc.keypers then bc.keypers.idxOf (addrNat cx.own) else 0) ≤ n := by
    split
    · next hm => have := List.idxOf_lt_length_of_mem hm; omega
    · omega
  have hstag : ∀ m, (if cx.staggering ≥ m then m else cx.staggering) = min cx.staggering m := by
    intro m
    rw [Nat.min_def]
    split <;> split <;> omega
  have hle : turnDelay cx.staggering (addrNat cx.own) bc h ≤ bc.executionTimeout / 2 := by
    unfold turnDelay
    rw [hn]
    generalize (if addrNat cx.own ∈ bc.keypers then bc.keypers.idxOf (addrNat cx.own) else 0) = i
    have h1 : (h + i) % (n + 1) ≤ n := by have := Nat.mod_lt (h + i) (show 0 < n + 1 by omega); omega
    refine le_trans (Nat.mul_le_mul h1 (Nat.min_le_right _ _)) ?_
    rw [Nat.add_sub_cancel, ← Nat.div_div_eq_div_mul]
    exact Nat.mul_div_le _ _
  refine ⟨?_, hidx, hle⟩
  unfold executionDelay
  rw [hgetD, hk, hn, (known_fields bc).2.2.2.1]
  have hdiv : (n + 1 + (two64 - 1)) % two64 = n := by unfold two64; omega
  simp only [hdiv]
  unfold turnDelay
  rw [hn]
  generalize hiv : (if addrNat cx.own ∈ bc.keypers then bc.keypers.idxOf (addrNat cx.own) else 0) = i at hi
  have w1 : wadd h i = h + i := by unfold wadd two64; exact Nat.mod_eq_of_lt (by omega)
  simp only [Nat.add_eq_zero_iff, one_ne_zero, and_false, if_false, w1, Nat.add_sub_cancel]
  by_cases h0 : n = 0
  · subst h0
    simp [hstag, wmul]
  · have h2 : wmul 2 n = 2 * n := by unfold wmul two64; exact Nat.mod_eq_of_lt (by omega)
    rw [if_neg h0, h2, if_neg (show ¬ 2 * n = 0 by omega)]
    simp only [Option.bind_some, hstag, Option.some.injEq]
    unfold wmul
    refine Nat.mod_eq_of_lt ?_
    have := hle
    unfold turnDelay at this
    rw [hn, hiv, Nat.add_sub_cancel] at this
    unfold two64
    omega

/-- The loop goes on until a half step is not executed. -/
theorem executeLoop_stops {cx : Cfg G1 G2 GT R} {mc : MainChain} : ∀ {n h : Nat} {d d' : Decider G1 G2}, executeLoop cx mc n h d = some d' →
    ∃ new, d'.actions = d.actions ++ new ∧ new.length ≤ n ∧ (new.length < n → ∃ p, maybeExecuteHalfStep cx mc { d.st with pendingHalfStep := p } (h + new.length) = some none) := by
  intro n
  induction n with
  | zero => intro h d d' hr; cases hr; exact ⟨[], by simp, by simp, by simp⟩
  | succ n ih =>
    intro h d d' hr
    unfold executeLoop at hr
    split at hr
    · cases hr
    · next hno => cases hr; exact ⟨[], by simp, by simp, fun _ => ⟨_, hno⟩⟩
    · next a ha =>
      obtain ⟨new, g1, g2, g3⟩ := ih hr
      refine ⟨a :: new, by rw [g1]; simp [Decider.add], by simpa using g2, fun hlt => ?_⟩
      obtain ⟨p, hp⟩ := g3 (by simpa using hlt)
      refine ⟨p, ?_⟩
      rw [List.length_cons, show h + (new.length + 1) = h + 1 + new.length by omega]
      exact hp

end Shutter.Decide
