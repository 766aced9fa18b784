import Verif.Proofs.DemoTurn
import Verif.Props.Exec

/-! Property theorems C73 (shuttermint/keyper/decide.go: a keyper executes or skips what it is its turn to). -/

namespace Shutter.Decide.Props
open Shutter.Crypto Shutter.Dkg Shutter.Observe Shutter.Decide Shutter.Main Shutter.GoConfig Shutter.Decide.Spec
open Shutter.Events (Codecs)
open Shutter.Sol (World TxType BatchConfig Responsible NoneTakenBack two64 zeroHash)

variable {G1 G2 GT R : Type} [AddCommGroup G1] [AddCommGroup G2] [DecidableEq G2] [DecidableEq GT]
variable {cx : Cfg G1 G2 GT R} {codecs : Codecs} {chain : Observe.Chain} {E : Sol.Env} {fd : Nat}
variable {s : Observe.Shutter} {st : State G1 G2} {mc : MainChain} {hist : Nat → World} {log : List (Moment G1 G2)} {r : Moment G1 G2}

/-- **C73** In every round of every life of a keyper that gets past the first checks, with no half step of its own still waiting: it executes or skips
half steps from the next one on, up to the first one that it is not its turn to, and at most ten. Missing: batching that is switched off
(see `C73_off_counterexample`), keys for batches that are not over, configs taken back by the owner, and numbers that overflow. -/
theorem C73_runs_partial (w : Watch cx codecs chain E fd s st mc hist log) (hr : r ∈ log)
    (free : r.Free cx (hist r.main.currentBlock).executor.halfSteps) (on : BatchingOn (hist r.main.currentBlock))
    (hn : NoneTakenBack hist r.main.currentBlock) (mod : Moderate (hist r.main.currentBlock)) (hk : KeysInTime hist log) :
    ∃ n, n ≤ 10 ∧ halfStepsOf r.acts = List.range' (hist r.main.currentBlock).executor.halfSteps n ∧
      (n < 10 → ¬ Ready cx codecs chain (hist r.main.currentBlock) r ((hist r.main.currentBlock).executor.halfSteps + n)) := by
  obtain ⟨hist', log', keys, w', hlog, hr', hdec, heq⟩ := watch_at w hr
  have o := (watch_observed w').1
  rw [heq _ (le_refl _)] at free on mod ⊢
  have hh := Main.Props.C56_half_steps o
  rw [← hh] at free ⊢
  refine runs_last w' hr' rfl rfl rfl hdec free on ?_ mod ?_
  · intro x y hxy hy
    rw [← heq _ (le_trans hxy hy), ← heq _ hy]
    exact hn x y hxy hy
  · intro m hm b key h
    rw [← heq _ ((watch_observed w').2 m hm).2]
    exact hk m (hlog m hm) b key h

/-- If it is the keyper's turn with the next half step and all up to `h`, it decides on `h`. -/
theorem C73_decides_partial (w : Watch cx codecs chain E fd s st mc hist log) (hr : r ∈ log)
    (free : r.Free cx (hist r.main.currentBlock).executor.halfSteps) (on : BatchingOn (hist r.main.currentBlock))
    (hn : NoneTakenBack hist r.main.currentBlock) (mod : Moderate (hist r.main.currentBlock)) (hk : KeysInTime hist log) {h : Nat}
    (lo : (hist r.main.currentBlock).executor.halfSteps ≤ h) (hi : h < (hist r.main.currentBlock).executor.halfSteps + 10)
    (ready : ∀ h', (hist r.main.currentBlock).executor.halfSteps ≤ h' → h' ≤ h → Ready cx codecs chain (hist r.main.currentBlock) r h') :
    ∃ a ∈ r.acts, a.halfStep? = some h := by
  obtain ⟨n, h1, h2, h3⟩ := C73_runs_partial w hr free on hn mod hk
  have : h ∈ halfStepsOf r.acts := by
    rw [h2, List.mem_range'_1]
    refine ⟨lo, ?_⟩
    by_contra hlt
    exact h3 (by omega) (ready _ (by omega) (by omega))
  unfold halfStepsOf at this
  rw [List.mem_filterMap] at this
  exact this

omit [AddCommGroup G1] [AddCommGroup G2] [DecidableEq G2] [DecidableEq GT] in
theorem fits_of {w : World} (hi : w.config.Inv) {b : Nat} {bc : BatchConfig} {x y z : Nat} (hb : w.HasBatch b bc x y z) (mod : Moderate w) : w.Fits b := by
  intro i bc' hr hbc'
  obtain ⟨i', h1, h2, h3⟩ := hb
  obtain rfl := Sol.Config.responsible_unique ((hi.lookup_iff b i').1 h1) hr
  obtain ⟨x', g1, g2, g3, g4, g5, g6, g7⟩ := Sol.Config.boundary_iff.1 h3
  rw [Sol.Config.configs_get (Sol.get_lt hbc'), hbc'] at g1
  cases g1
  have := (mod.configs bc' (List.mem_of_getElem? hbc')).2.1
  exact ⟨by omega, by rw [← g4, ← g5]; exact g6⟩

/-- **C73** The encrypted part of the next batch: in the time between the end of the batch and the timeout, at the latest after half of it, the keyper executes it, with
the hash of the batcher contract and all transactions accepted for the batch, decrypted with a key of its own. -/
theorem C73_cipher_partial (w : Watch cx codecs chain E fd s st mc hist log) (hr : r ∈ log) {b start stop timeout : Nat} {bc : BatchConfig}
    (next : (hist r.main.currentBlock).executor.halfSteps = 2 * b) (free : r.Free cx (2 * b)) (on : BatchingOn (hist r.main.currentBlock))
    (hn : NoneTakenBack hist r.main.currentBlock) (mod : Moderate (hist r.main.currentBlock)) (hk : KeysInTime hist log)
    (hb : (hist r.main.currentBlock).HasBatch b bc start stop timeout) (nd : bc.keypers.Nodup) (hmem : addrNat cx.own ∈ bc.keypers)
    (late : stop + turnDelay cx.staggering (addrNat cx.own) bc (2 * b) ≤ (hist r.main.currentBlock).block)
    (early : (hist r.main.currentBlock).block < timeout) (able : Able cx codecs chain (hist r.main.currentBlock) bc b r) :
    ∃ txs k gas key, .executeCipherBatch b ((hist r.main.currentBlock).batcher.hashes b .cipher) txs k gas ∈ r.acts ∧
      bc.keypers[k]? = some (addrNat cx.own) ∧ HasKey r.after b key ∧ DecryptedWith cx key ((hist r.main.currentBlock).accepted b .cipher) txs := by
  obtain ⟨a, ha, hh⟩ := C73_decides_partial w hr (by rw [next]; exact free) on hn mod hk (h := 2 * b) (by omega) (by omega) (fun h' l1 l2 => by
    obtain rfl : h' = 2 * b := by omega
    exact .cipher hb nd hmem late early able)
  have l := watch_life w
  have hm : (r.main, r.acts) ∈ log.map (fun r => (r.main, r.acts)) := List.mem_map.2 ⟨r, hr, rfl⟩
  have o := ((watch_observed w).2 r hr).1
  have hf := fits_of (o.chain.reach o.current).preach.inv hb mod
  cases a <;> simp only [Action.halfStep?, Option.some.injEq, reduceCtorEq] at hh
  case executeCipherBatch b' hash txs k gas =>
    obtain rfl : b' = b := by omega
    obtain ⟨bc', x, y, z, g1, g2, g3, g4, g5, g6, e, key, g7, g8, g9, _⟩ := C40_cipher_partial l hm ha hn hf
    obtain ⟨rfl, _⟩ := Sol.HasBatch.unique hb g1
    subst g6
    obtain ⟨key', m1, m2⟩ := executed_made w hr free.awake hn hk ha (by rw [Main.Props.C56_half_steps o, next]; omega)
    exact ⟨txs, k, gas, key', ha, g4 nd, m1, m2⟩
  case executePlainBatch => omega
  case skipCipherBatch b' =>
    obtain rfl : b' = b := by omega
    obtain ⟨bc', x, y, z, g1, g2⟩ := C40_skip_partial l hm ha hn hf
    obtain ⟨_, _, _, rfl⟩ := Sol.HasBatch.unique hb g1
    omega

/-- **C73** After the timeout, at the latest when half of the timeout has passed once more, every keyper skips the encrypted part of the next batch. -/
theorem C73_skip_partial (w : Watch cx codecs chain E fd s st mc hist log) (hr : r ∈ log) {b start stop timeout : Nat} {bc : BatchConfig}
    (next : (hist r.main.currentBlock).executor.halfSteps = 2 * b) (free : r.Free cx (2 * b)) (on : BatchingOn (hist r.main.currentBlock))
    (hn : NoneTakenBack hist r.main.currentBlock) (mod : Moderate (hist r.main.currentBlock)) (hk : KeysInTime hist log)
    (hb : (hist r.main.currentBlock).HasBatch b bc start stop timeout) (nd : bc.keypers.Nodup) (hne : bc.keypers ≠ [])
    (late : timeout + turnDelay cx.staggering (addrNat cx.own) bc (2 * b) ≤ (hist r.main.currentBlock).block) :
    .skipCipherBatch b ∈ r.acts := by
  obtain ⟨a, ha, hh⟩ := C73_decides_partial w hr (by rw [next]; exact free) on hn mod hk (h := 2 * b) (by omega) (by omega) (fun h' l1 l2 => by
    obtain rfl : h' = 2 * b := by omega
    exact .skip hb nd hne late)
  have l := watch_life w
  have hm : (r.main, r.acts) ∈ log.map (fun r => (r.main, r.acts)) := List.mem_map.2 ⟨r, hr, rfl⟩
  have o := ((watch_observed w).2 r hr).1
  have hf := fits_of (o.chain.reach o.current).preach.inv hb mod
  cases a <;> simp only [Action.halfStep?, Option.some.injEq, reduceCtorEq] at hh
  case executeCipherBatch b' hash txs k gas =>
    obtain rfl : b' = b := by omega
    obtain ⟨bc', x, y, z, g1, g2, g3, _⟩ := C40_cipher_partial l hm ha hn hf
    obtain ⟨_, _, _, rfl⟩ := Sol.HasBatch.unique hb g1
    rw [o.chain.blk o.current] at late
    omega
  case executePlainBatch => omega
  case skipCipherBatch b' =>
    obtain rfl : b' = b := by omega
    exact ha

/-- **C73** The plain part of the next batch is executed by every keyper of the batch, at the latest when half of the timeout has passed, with
the accepted transactions. -/
theorem C73_plain_partial (w : Watch cx codecs chain E fd s st mc hist log) (hr : r ∈ log) {b start stop timeout : Nat} {bc : BatchConfig}
    (next : (hist r.main.currentBlock).executor.halfSteps = 2 * b + 1) (free : r.Free cx (2 * b + 1)) (on : BatchingOn (hist r.main.currentBlock))
    (hn : NoneTakenBack hist r.main.currentBlock) (mod : Moderate (hist r.main.currentBlock)) (hk : KeysInTime hist log)
    (hb : (hist r.main.currentBlock).HasBatch b bc start stop timeout) (nd : bc.keypers.Nodup) (hmem : addrNat cx.own ∈ bc.keypers)
    (late : stop + turnDelay cx.staggering (addrNat cx.own) bc (2 * b + 1) ≤ (hist r.main.currentBlock).block) :
    ∃ gas, .executePlainBatch b ((hist r.main.currentBlock).accepted b .plain) gas ∈ r.acts := by
  obtain ⟨a, ha, hh⟩ := C73_decides_partial w hr (by rw [next]; exact free) on hn mod hk (h := 2 * b + 1) (by omega) (by omega) (fun h' l1 l2 => by
    obtain rfl : h' = 2 * b + 1 := by omega
    exact .plain hb nd hmem late)
  have l := watch_life w
  have hm : (r.main, r.acts) ∈ log.map (fun r => (r.main, r.acts)) := List.mem_map.2 ⟨r, hr, rfl⟩
  have o := ((watch_observed w).2 r hr).1
  have hf := fits_of (o.chain.reach o.current).preach.inv hb mod
  cases a <;> simp only [Action.halfStep?, Option.some.injEq, reduceCtorEq] at hh
  case executeCipherBatch => omega
  case executePlainBatch b' txs gas =>
    obtain rfl : b' = b := by omega
    obtain ⟨rfl, _⟩ := C40_plain_partial l hm ha hn hf
    exact ⟨gas, ha⟩
  case skipCipherBatch => omega

/-- **C73** No keyper waits for longer than half of the execution timeout. -/
theorem C73_half_time (staggering : Nat) (own : Sol.Address) (bc : BatchConfig) (hne : bc.keypers ≠ []) (h : Nat) :
    turnDelay staggering own bc h ≤ bc.executionTimeout / 2 := by
  unfold turnDelay
  have hlen := List.length_pos_of_ne_nil hne
  generalize (if own ∈ bc.keypers then bc.keypers.idxOf own else 0) = i
  have h1 := Nat.mod_lt (h + i) hlen
  refine le_trans (Nat.mul_le_mul (show _ ≤ bc.keypers.length - 1 by omega) (Nat.min_le_right _ _)) ?_
  rw [← Nat.div_div_eq_div_mul]
  exact Nat.mul_div_le _ _

/-- **C73** For every half step there is a keyper that does not wait at all, and it is another one for each of as many half steps in a row as there are keypers. -/
theorem C73_first (staggering : Nat) (bc : BatchConfig) (nd : bc.keypers.Nodup) (hne : bc.keypers ≠ []) (h : Nat) :
    ∃ own ∈ bc.keypers, turnDelay staggering own bc h = 0 ∧
      ∀ h', h < h' → h' < h + bc.keypers.length → 0 < staggering → 2 * (bc.keypers.length - 1) ≤ bc.executionTimeout →
        0 < turnDelay staggering own bc h' := by
  have hlen := List.length_pos_of_ne_nil hne
  set n := bc.keypers.length with hn
  have hi : (n - h % n) % n < n := Nat.mod_lt _ hlen
  refine ⟨bc.keypers[(n - h % n) % n]'(by omega), List.getElem_mem _, ?_, ?_⟩
  · unfold turnDelay
    rw [if_pos (List.getElem_mem _), nd.idxOf_getElem, ← hn]
    have : (h + (n - h % n) % n) % n = 0 := by
      rw [Nat.add_mod_mod, Nat.add_mod]
      have := Nat.mod_lt h hlen
      rcases Nat.eq_zero_or_pos (h % n) with h0 | h0
      · simp [h0]
      · rw [Nat.mod_eq_of_lt (show n - h % n < n by omega), show h % n + (n - h % n) = n by omega, Nat.mod_self]
    rw [this, Nat.zero_mul]
  · intro h' h1 h2 h3 h4
    unfold turnDelay
    rw [if_pos (List.getElem_mem _), nd.idxOf_getElem, ← hn]
    have h0 : (h + (n - h % n) % n) % n = 0 := by
      rw [Nat.add_mod_mod, Nat.add_mod]
      have := Nat.mod_lt h hlen
      rcases Nat.eq_zero_or_pos (h % n) with h0 | h0
      · simp [h0]
      · rw [Nat.mod_eq_of_lt (show n - h % n < n by omega), show h % n + (n - h % n) = n by omega, Nat.mod_self]
    refine Nat.mul_pos ?_ (Nat.lt_min.2 ⟨h3, Nat.div_pos h4 (by omega)⟩)
    have : (h' + (n - h % n) % n) % n = h' - h := by
      rw [show h' + (n - h % n) % n = (h' - h) + (h + (n - h % n) % n) by omega, Nat.add_mod, h0, Nat.add_zero, Nat.mod_mod, Nat.mod_eq_of_lt (by omega)]
    omega

/-- While batching is off, a keyper neither executes nor skips anything. -/
theorem C73_off (w : Watch cx codecs chain E fd s st mc hist log) (hr : r ∈ log) (off : BatchingOff (hist r.main.currentBlock))
    (hn : NoneTakenBack hist r.main.currentBlock) : halfStepsOf r.acts = [] := by
  obtain ⟨hist', log', keys, w', hlog, hr', hdec, heq⟩ := watch_at w hr
  have o := ((watch_observed w).2 r hr).1
  rcases decide_stages hdec with ⟨_, h⟩ | ⟨dkg, sync, pub, sigs, exec, app, acc, ekgs, g⟩
  · rw [h]; rfl
  have hne : r.main.configs ≠ [] := by
    intro h0
    have := g.hpub
    simp [publishEpochSecretKeyShares, activeConfigIndex, h0] at this
  have hw : (hist r.main.currentBlock).block = r.main.currentBlock := o.chain.blk o.current
  have hv := (configView o hn).resolve_left hne
  obtain ⟨i, bc, h1, h2, h3, h4⟩ := off
  rw [hw] at h2 h4
  have hk : r.main.configs[i]? = some (known bc) := by rw [hv, List.getElem?_map, h1]; rfl
  have hai : activeConfigIndex r.main r.main.currentBlock = some i := by
    unfold activeConfigIndex
    have g := Sol.last_find r.main.configs (fun c => decide (c.startBlockNumber ≤ r.main.currentBlock))
    cases hf : (List.range r.main.configs.length).reverse.find? (fun i => (r.main.configs[i]?).any (fun c => decide (c.startBlockNumber ≤ r.main.currentBlock))) with
    | none =>
      rw [hf] at g
      have := g _ (List.mem_of_getElem? hk)
      simp only [decide_eq_false_iff_not] at this
      exact absurd h2 this
    | some j =>
      rw [hf] at g
      obtain ⟨⟨c, c1, c2⟩, c3⟩ := g
      congr 1
      rcases lt_trichotomy i j with h | h | h
      · rw [hv, List.getElem?_map, Option.map_eq_some_iff] at c1
        obtain ⟨y, y1, rfl⟩ := c1
        have := h4 j y h y1
        have c2 := of_decide_eq_true c2
        have : (known y).startBlockNumber = y.startBlockNumber := rfl
        omega
      · exact h.symm
      · have := c3 i _ h hk
        simp only [decide_eq_false_iff_not] at this
        exact absurd h2 this
  have hac : activeConfig r.main r.main.currentBlock = some (known bc) := by
    unfold activeConfig
    rw [hai]
    exact hk
  have hx := g.hexec
  unfold maybeExecuteBatch at hx
  simp only [hac, isActive, (known_fields bc).2.2.1, h3, Option.bind_eq_bind, Option.bind_some, gt_iff_lt, lt_irrefl, decide_false, if_true] at hx
  cases hx
  rw [halfStepsOf_filter, g.filter .exec]
  simp only
  have e1 := (syncEKGs_stage g.hsync).1
  have e2 := (publish_emits g.hpub).1
  rw [(handleSigs_stage g.hsigs).1, e2.filter_ne (by decide), e1.filter_ne (by decide)]
  have : dkg.actions.filter (fun a => a.kind = .exec) = [] := by
    rw [List.filter_eq_nil_iff]
    intro a ha
    rcases g.hkind a ha with h | h | h <;> rw [h] <;> simp
  rw [this]
  rfl

/-- While a half step the keyper has decided on is still ahead of the executor contract, a keyper neither executes nor skips anything: `Moment.Free` is necessary. -/
theorem C73_waits (w : Watch cx codecs chain E fd s st mc hist log) (hr : r ∈ log) {p : Nat} (hp : r.before.pendingHalfStep = some p)
    (ahead : (hist r.main.currentBlock).executor.halfSteps ≤ p) : halfStepsOf r.acts = [] := by
  obtain ⟨hist', log', keys, w', hlog, hr', hdec, heq⟩ := watch_at w hr
  have o := ((watch_observed w).2 r hr).1
  rcases decide_stages hdec with ⟨_, h⟩ | ⟨dkg, sync, pub, sigs, exec, app, acc, ekgs, g⟩
  · rw [h]; rfl
  have hpend : sigs.st.pendingHalfStep = some p := by
    rw [(handleSigs_stage g.hsigs).2]
    show pub.st.pendingHalfStep = _
    rw [(publish_emits g.hpub).2]
    show sync.st.pendingHalfStep = _
    rw [(syncEKGs_stage g.hsync).2]
    obtain ⟨a, b, x, y, z, g1⟩ := g.hdkg
    rw [g1]
    exact hp
  rw [← Main.Props.C56_half_steps o] at ahead
  have hsp : stillPending r.main.numHalfSteps sigs.st.pendingHalfStep = some p := by
    rw [hpend]
    simp [stillPending, Nat.not_lt.2 ahead]
  have hacts : exec.actions = sigs.actions := by
    have hx := g.hexec
    unfold maybeExecuteBatch at hx
    simp only [Option.bind_eq_bind, Option.bind_eq_some_iff] at hx
    obtain ⟨config, _, hx⟩ := hx
    split at hx
    · cases hx; rfl
    · simp only [Option.bind_eq_some_iff] at hx
      obtain ⟨_, _, hx⟩ := hx
      rw [hsp] at hx
      simp only [Option.isSome_some, if_true] at hx
      cases hx; rfl
  rw [halfStepsOf_filter, g.filter .exec]
  simp only
  rw [hacts]
  have e1 := (syncEKGs_stage g.hsync).1
  have e2 := (publish_emits g.hpub).1
  rw [(handleSigs_stage g.hsigs).1, e2.filter_ne (by decide), e1.filter_ne (by decide)]
  have : dkg.actions.filter (fun a => a.kind = .exec) = [] := by
    rw [List.filter_eq_nil_iff]
    intro a ha
    rcases g.hkind a ha with h | h | h <;> rw [h] <;> simp
  rw [this]
  rfl

/-! ### The hypotheses are met -/

section demo
open Shutter.Events Shutter.Events.Props
open Shutter.Sol (Op)

theorem Demo.turn_looks : Demo.turnRun.map (fun r => r.log.map (Demo.look Demo.cxA)) = some
    [⟨2, 47, true, none, [], [.checkIn, .polyCommitment 1 [Zq.of 3]]⟩, ⟨8, 107, true, none, [none], [.eonKeyBroadcast 0 0 (Zq.of 8)]⟩,
      ⟨8, 109, true, none, [none], []⟩, ⟨8, 110, true, none, [none], [.epochSecretKeyShare 1 0 ((8 : Nat) • epochIDOf zEnv 0)]⟩,
      ⟨9, 111, true, none, [some (some ((8 : Nat) • epochIDOf zEnv 0))], [.decryptionSignature 0 (Demo.signAs 1 Demo.sigHash)]⟩,
      ⟨10, 113, true, none, [some (some ((8 : Nat) • epochIDOf zEnv 0))],
        [.executeCipherBatch 0 (World.chainHashes Demo.env [Demo.cipherTx]) [Demo.message] 0 0, .executePlainBatch 0 [[3]] 0]⟩] := by
  decide +kernel

/-- The shares on the chain up to height `v` are for batch 0, which is over in block `n`. -/
def Demo.sharesFine (chain : Observe.Chain) (vn : Int × Nat) : Bool :=
  (chainEvents demoCodecs chain 0 vn.1).all (fun x => match x.ev with
    | .epochSecretKeyShare _ _ b _ => decide (b = 0) && decide (vn.2 ∈ [111, 113, 127])
    | _ => true)

theorem Demo.keys_fine {cx : Cfg Zq Zq (Multiplicative Zq) Unit} {chain : Observe.Chain} {hist : Nat → World} {s : Observe.Shutter} {st : State Zq Zq} {mc : MainChain}
    {log : List (Moment Zq Zq)} (w : Watch cx demoCodecs chain Demo.env 3 s st mc hist log)
    (h : ∀ m ∈ log, Demo.sharesFine chain (m.view.currentBlock, m.main.currentBlock) = true) (ho : ∀ n ∈ [111, 113, 127], (hist n).BatchOver 0) : KeysInTime hist log := by
  refine keysInTime_of w fun m hm ht sender eon b share hle hp => ?_
  have := h m hm
  unfold Demo.sharesFine at this
  rw [List.all_eq_true] at this
  have := this ⟨ht, .epochSecretKeyShare sender eon b share⟩ (published_iff.2 ⟨hle, hp⟩)
  simp only [Bool.and_eq_true, decide_eq_true_eq] at this
  obtain ⟨rfl, h2⟩ := this
  exact ho _ h2

def Demo.config : BatchConfig := (Demo.hist 113).config.scheduled[1]?.getD Sol.zeroConfig

theorem Demo.batch_of {hist : Nat → World} {n : Nat} (h : (hist n).config.configIndexForBatchIndex 0 = some 1 ∧ (hist n).config.scheduledConfig 1 = some Demo.config ∧
    (hist n).config.batchBoundaryBlocks 1 0 = some (100, 110, 140)) : (hist n).HasBatch 0 Demo.config 100 110 140 := ⟨1, h.1, h.2.1, h.2.2⟩

theorem Demo.enough {chain : Observe.Chain} {v : Int} (hv : 10 ≤ v) (hp : Published demoCodecs chain 10 (.decryptionSignature 0 kB (Demo.signAs 2 Demo.sigHash))) :
    EnoughSignatures Demo.cxA demoCodecs chain v Demo.config 0 (World.chainHashes Demo.env [Demo.cipherTx]) [Demo.message] := by
  refine ⟨{2}, by decide +kernel, fun a ha => ?_⟩
  rw [Finset.mem_singleton] at ha
  subst ha
  exact ⟨by decide +kernel, 10, kB, _, hv, hp, by decide +kernel, by decide +kernel⟩

theorem Demo.able_of {chain : Observe.Chain} {w : World} {r : Moment Zq Zq} (hacc : w.accepted 0 .cipher = [Demo.cipherTx])
    (hhash : w.batcher.hashes 0 .cipher = World.chainHashes Demo.env [Demo.cipherTx])
    (hkeys : r.after.ekgs.map (fun e => e.kg.secretKeys 0) = [some (some ((8 : Nat) • epochIDOf zEnv 0))]) (hv : 10 ≤ r.view.currentBlock)
    (hp : Published demoCodecs chain 10 (.decryptionSignature 0 kB (Demo.signAs 2 Demo.sigHash))) : Able Demo.cxA demoCodecs chain w Demo.config 0 r := by
  have hkey : ∀ key, HasKey r.after 0 key → key = (8 : Nat) • epochIDOf zEnv 0 := by
    rintro key ⟨e, he, hk⟩
    have : e.kg.secretKeys 0 ∈ r.after.ekgs.map (fun e => e.kg.secretKeys 0) := List.mem_map.2 ⟨e, he, rfl⟩
    rw [hkeys, hk] at this
    simpa using this
  refine ⟨?_, .inr fun key txs hk hd => ?_⟩
  · have : some (some ((8 : Nat) • epochIDOf zEnv 0)) ∈ r.after.ekgs.map (fun e => e.kg.secretKeys 0) := by rw [hkeys]; simp
    obtain ⟨e, he, hk⟩ := List.mem_map.1 this
    exact ⟨_, e, he, hk⟩
  · have := hkey key hk
    subst this
    have : txs = [Demo.message] := by
      rw [hacc] at hd
      unfold DecryptedWith at hd
      rw [hd]
      decide +kernel
    rw [this, hhash]
    exact Demo.enough hv hp

/-- In the demo, keyper A executes both parts of batch 0 in its sixth round, at block 113. -/
theorem C73_example : ∃ x : Watched Zq Zq, Watch Demo.cxA demoCodecs Demo.shares Demo.env 3 x.s x.st x.mc Demo.hist x.log ∧
    ∃ r ∈ x.log, r.main.currentBlock = 113 ∧ (Demo.hist 113).executor.halfSteps = 0 ∧ r.Free Demo.cxA 0 ∧ BatchingOn (Demo.hist 113) ∧
      NoneTakenBack Demo.hist 113 ∧ Moderate (Demo.hist 113) ∧ KeysInTime Demo.hist x.log ∧
      (Demo.hist 113).HasBatch 0 Demo.config 100 110 140 ∧ Demo.config.keypers = [1, 2] ∧ addrNat Demo.cxA.own = 1 ∧
      turnDelay Demo.cxA.staggering 1 Demo.config 0 = 0 ∧ turnDelay Demo.cxA.staggering 1 Demo.config 1 = 2 ∧
      (Demo.hist 113).accepted 0 .cipher = [Demo.cipherTx] ∧
      Able Demo.cxA demoCodecs Demo.shares (Demo.hist 113) Demo.config 0 r ∧
      Ready Demo.cxA demoCodecs Demo.shares (Demo.hist 113) r 0 ∧ Ready Demo.cxA demoCodecs Demo.shares (Demo.hist 113) r 1 := by
  have h := Demo.turn_looks
  rw [Option.map_eq_some_iff] at h
  obtain ⟨x, hx, hl⟩ := h
  have w := watchRun_watch Demo.chain hx
  have h3 := congrArg (fun l => l[5]?) hl
  simp only [List.getElem?_map, List.getElem?_cons_succ, List.getElem?_cons_zero, Option.map_eq_some_iff] at h3
  obtain ⟨r, he, he'⟩ := h3
  simp only [Demo.look, Demo.Look.mk.injEq] at he'
  obtain ⟨e1, e2, e3, e4, e5, e6⟩ := he'
  have hb := Demo.batch_of (hist := Demo.hist) (n := 113) (by decide +kernel)
  have nd : Demo.config.keypers.Nodup := by decide +kernel
  have hmem : addrNat Demo.cxA.own ∈ Demo.config.keypers := by decide +kernel
  have hacc : (Demo.hist 113).accepted 0 .cipher = [Demo.cipherTx] := Demo.hash113.1
  have hhash : (Demo.hist 113).batcher.hashes 0 .cipher = World.chainHashes Demo.env [Demo.cipherTx] := by decide +kernel
  have able : Able Demo.cxA demoCodecs Demo.shares (Demo.hist 113) Demo.config 0 r :=
    Demo.able_of hacc hhash e5 (by rw [e1])
      ⟨by decide, makeABCIEvent demoCodecs (.decryptionSignature 0 kB (Demo.signAs 2 Demo.sigHash)), by simp [Demo.shares], by decide +kernel⟩
  refine ⟨x, w, r, List.mem_of_getElem? he, e2, by decide +kernel, ⟨e3, by rw [e4]; simp⟩, ⟨1, Demo.config, by decide +kernel, by decide +kernel, by decide +kernel, ?_⟩,
    noneTakenBack_of (by decide +kernel), ⟨by decide +kernel, by decide +kernel⟩, ?_, hb, by decide +kernel, by decide +kernel, by decide +kernel,
    by decide +kernel, hacc, able, .cipher hb nd hmem (by decide +kernel) (by decide +kernel) able, .plain (b := 0) hb nd hmem (by decide +kernel)⟩
  · intro j bc' hj hbc
    have hlen : (Demo.hist 113).config.scheduled.length = 2 := by decide +kernel
    have := Sol.get_lt hbc
    omega
  · refine Demo.keys_fine w ?_ ?_
    · have key : ∀ l ∈ [(2, 47), (8, 107), (8, 109), (8, 110), (9, 111), (10, 113)], Demo.sharesFine Demo.shares l = true := by decide +kernel
      intro m hm
      refine key _ ?_
      have h4 := congrArg (List.map (fun l : Demo.Look => (l.view, l.main))) hl
      simp only [List.map_map, List.map_cons, List.map_nil] at h4
      rw [← h4]
      exact List.mem_map.2 ⟨m, hm, rfl⟩
    · intro n hn
      simp only [List.mem_cons, List.not_mem_nil, or_false] at hn
      rcases hn with rfl | rfl | rfl
      · exact ⟨Demo.config, 100, 110, 140, Demo.batch_of (by decide +kernel), by decide +kernel⟩
      · exact ⟨Demo.config, 100, 110, 140, hb, by decide +kernel⟩
      · exact ⟨Demo.config, 100, 110, 140, Demo.batch_of (by decide +kernel), by decide +kernel⟩

theorem Demo.off_looks : Demo.offRun.map (fun r => r.log.map (Demo.look Demo.cxA)) = some
    [⟨2, 47, true, none, [], [.checkIn, .batchConfig 1 [kA, kB] 1 2, .polyCommitment 1 [Zq.of 3]]⟩, ⟨8, 107, true, none, [none], [.eonKeyBroadcast 0 0 (Zq.of 8)]⟩,
      ⟨8, 109, true, none, [none], []⟩, ⟨8, 110, true, none, [none], [.epochSecretKeyShare 1 0 ((8 : Nat) • epochIDOf zEnv 0)]⟩,
      ⟨9, 111, true, none, [some (some ((8 : Nat) • epochIDOf zEnv 0))], [.decryptionSignature 0 (Demo.signAs 1 Demo.sigHash)]⟩,
      ⟨10, 113, true, none, [some (some ((8 : Nat) • epochIDOf zEnv 0))], []⟩,
      ⟨10, 127, true, none, [some (some ((8 : Nat) • epochIDOf zEnv 0))], []⟩] := by
  decide +kernel

/-- **C73** fails if batching is switched off: here the owner of the config contract has scheduled an inactive config for block 110, where batch 0 ends, with
an encrypted transaction in it. Keyper A publishes its share for the batch, decrypts it, signs it and has enough signatures; it is its turn
with both parts of the batch, which the executor contract would accept; but it never does anything about it (see `C73_off`), as long as batching is off. -/
theorem C73_off_counterexample : ∃ x : Watched Zq Zq, Watch Demo.cxA demoCodecs Demo.offShares Demo.env 3 x.s x.st x.mc Demo.offHist x.log ∧
    ∃ r ∈ x.log, r.main.currentBlock = 127 ∧ (Demo.offHist 127).executor.halfSteps = 0 ∧ r.Free Demo.cxA 0 ∧
      NoneTakenBack Demo.offHist 127 ∧ Moderate (Demo.offHist 127) ∧ KeysInTime Demo.offHist x.log ∧ BatchingOff (Demo.offHist 127) ∧
      (Demo.offHist 127).accepted 0 .cipher = [Demo.cipherTx] ∧ Demo.config.keypers = [1, 2] ∧ addrNat Demo.cxA.own = 1 ∧
      Ready Demo.cxA demoCodecs Demo.offShares (Demo.offHist 127) r 0 ∧ Ready Demo.cxA demoCodecs Demo.offShares (Demo.offHist 127) r 1 ∧
      ((Demo.offHist 127).step Demo.env (.executeCipherBatch 1 0 (World.chainHashes Demo.env [Demo.cipherTx]) [Demo.message] 0 [])).isSome ∧
      r.acts = [] := by
  have h := Demo.off_looks
  rw [Option.map_eq_some_iff] at h
  obtain ⟨x, hx, hl⟩ := h
  have w := watchRun_watch (E := Demo.env) (chainOf_chain _ Demo.start_deployed rfl) hx
  have h3 := congrArg (fun l => l[6]?) hl
  simp only [List.getElem?_map, List.getElem?_cons_succ, List.getElem?_cons_zero, Option.map_eq_some_iff] at h3
  obtain ⟨r, he, he'⟩ := h3
  simp only [Demo.look, Demo.Look.mk.injEq] at he'
  obtain ⟨e1, e2, e3, e4, e5, e6⟩ := he'
  have hb := Demo.batch_of (hist := Demo.offHist) (n := 127) (by decide +kernel)
  have nd : Demo.config.keypers.Nodup := by decide +kernel
  have hmem : addrNat Demo.cxA.own ∈ Demo.config.keypers := by decide +kernel
  have hacc : (Demo.offHist 127).accepted 0 .cipher = [Demo.cipherTx] := by decide +kernel
  have hhash : (Demo.offHist 127).batcher.hashes 0 .cipher = World.chainHashes Demo.env [Demo.cipherTx] := by decide +kernel
  have able : Able Demo.cxA demoCodecs Demo.offShares (Demo.offHist 127) Demo.config 0 r :=
    Demo.able_of hacc hhash e5 (by rw [e1])
      ⟨by decide, makeABCIEvent demoCodecs (.decryptionSignature 0 kB (Demo.signAs 2 Demo.sigHash)), by simp [Demo.offShares, Demo.shares], by decide +kernel⟩
  refine ⟨x, w, r, List.mem_of_getElem? he, e2, by decide +kernel, ⟨e3, by rw [e4]; simp⟩, noneTakenBack_of (by decide +kernel),
    ⟨by decide +kernel, by decide +kernel⟩, ?_, ⟨2, (Demo.offHist 127).config.scheduled[2]?.getD Sol.zeroConfig, by decide +kernel, by decide +kernel, by decide +kernel, ?_⟩,
    hacc, by decide +kernel, by decide +kernel, .cipher hb nd hmem (by decide +kernel) (by decide +kernel) able, .plain (b := 0) hb nd hmem (by decide +kernel),
    by decide +kernel, e6⟩
  · refine Demo.keys_fine w ?_ ?_
    · have key : ∀ l ∈ [(2, 47), (8, 107), (8, 109), (8, 110), (9, 111), (10, 113), (10, 127)], Demo.sharesFine Demo.offShares l = true := by decide +kernel
      intro m hm
      refine key _ ?_
      have h4 := congrArg (List.map (fun l : Demo.Look => (l.view, l.main))) hl
      simp only [List.map_map, List.map_cons, List.map_nil] at h4
      rw [← h4]
      exact List.mem_map.2 ⟨m, hm, rfl⟩
    · intro n hn
      simp only [List.mem_cons, List.not_mem_nil, or_false] at hn
      rcases hn with rfl | rfl | rfl
      · exact ⟨Demo.config, 100, 110, 140, Demo.batch_of (by decide +kernel), by decide +kernel⟩
      · exact ⟨Demo.config, 100, 110, 140, Demo.batch_of (by decide +kernel), by decide +kernel⟩
      · exact ⟨Demo.config, 100, 110, 140, hb, by decide +kernel⟩
  · intro j bc' hj hbc
    have hlen : (Demo.offHist 127).config.scheduled.length = 3 := by decide +kernel
    have := Sol.get_lt hbc
    omega

end demo

end Shutter.Decide.Props
