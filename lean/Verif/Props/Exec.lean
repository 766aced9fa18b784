import Verif.Proofs.Exec
import Verif.Model.Calls
import Verif.Props.Shares
import Verif.Props.SolExec

/-! Property theorems C40 (shuttermint/keyper/decide.go: execution of batches). -/

namespace Shutter.Decide.Props
open Shutter.Crypto Shutter.Dkg Shutter.Observe Shutter.Decide Shutter.Main Shutter.GoConfig
open Shutter.Events (Codecs)
open Shutter.Sol (World TxType BatchConfig Responsible NoneTakenBack two64 zeroHash)

variable {G1 G2 GT R : Type} [AddCommGroup G1] [AddCommGroup G2] [DecidableEq G2] [DecidableEq GT]
variable {cx : Cfg G1 G2 GT R} {codecs : Codecs} {chain : Observe.Chain} {E : Sol.Env} {fd : Nat}
variable {s : Observe.Shutter} {st : State G1 G2} {mc : MainChain} {hist : Nat → World} {log : List (MainChain × List (Action G1 G2))}
variable {mc' : MainChain} {acts : List (Action G1 G2)}

/-- **C40** In every round of every life of a keyper: the half steps it executes or skips are the next ones the executor contract
expects (at the block up to which the keyper sees the chain), in order, without gaps, and at most ten. -/
theorem C40_order (l : Life cx codecs chain E fd s st mc hist log) (hm : (mc', acts) ∈ log) :
    ∃ n, n ≤ 10 ∧ halfStepsOf acts = List.range' (hist mc'.currentBlock).executor.halfSteps n := by
  obtain ⟨n, h1, h2⟩ := (life_exec l _ hm).order
  exact ⟨n, h1, by rw [h2, Main.Props.C56_half_steps ((life_observed l).2 _ hm).1]⟩

/-- **C40** A half step is only executed or skipped after its batch has ended. Missing: configs taken back by the owner, and block
numbers that overflow. -/
theorem C40_closed_partial (l : Life cx codecs chain E fd s st mc hist log) (hm : (mc', acts) ∈ log) {a : Action G1 G2} (ha : a ∈ acts)
    {h : Nat} (hh : a.halfStep? = some h) (hn : NoneTakenBack hist mc'.currentBlock) (hf : (hist mc'.currentBlock).Fits (h / 2)) :
    (hist mc'.currentBlock).BatchOver (h / 2) := by
  have o := ((life_observed l).2 _ hm).1
  obtain ⟨st2, config, delay, e, _, k1, k2, k3, k4⟩ := (life_exec l _ hm).turn ha hh
  obtain ⟨bc, start, rfl, g1, g2, g3, g4⟩ := turn_world o hn k1 k2 k3 hf
  refine ⟨bc, start, e, _, g1, ?_⟩
  rw [g4]
  cases k4 with
  | skip _ h2 _ => rw [g2] at h2; omega
  | cipher _ _ h3 _ _ _ => omega
  | plain _ h2 _ => omega

/-- **C40** The encrypted part of a batch is only skipped after the execution timeout. -/
theorem C40_skip_partial (l : Life cx codecs chain E fd s st mc hist log) (hm : (mc', acts) ∈ log) {b : Nat}
    (ha : .skipCipherBatch b ∈ acts) (hn : NoneTakenBack hist mc'.currentBlock) (hf : (hist mc'.currentBlock).Fits b) :
    (hist mc'.currentBlock).TimedOut b := by
  have o := ((life_observed l).2 _ hm).1
  have hb : (2 * b) / 2 = b := by omega
  obtain ⟨st2, config, delay, e, _, k1, k2, k3, k4⟩ := (life_exec l _ hm).turn ha (h := 2 * b) rfl
  rw [hb] at k1 k3
  obtain ⟨bc, start, rfl, g1, g2, g3, g4⟩ := turn_world (h := 2 * b) o hn (by rw [hb]; exact k1) k2 (by rw [hb]; exact k3) (by rw [hb]; exact hf)
  rw [hb] at g1
  generalize hact : (Action.skipCipherBatch b : Action G1 G2) = a at k4
  cases k4 with
  | skip _ h2 _ => exact ⟨bc, start, e, _, g1, by rw [g4, ← g2]; exact h2⟩
  | cipher => cases hact
  | plain => cases hact

/-- **C40** The plain part of a batch is only executed by a keyper of the batch, and with exactly the accepted transactions. -/
theorem C40_plain_partial (l : Life cx codecs chain E fd s st mc hist log) (hm : (mc', acts) ∈ log) {b gas : Nat} {txs : List Bytes}
    (ha : .executePlainBatch b txs gas ∈ acts) (hn : NoneTakenBack hist mc'.currentBlock) (hf : (hist mc'.currentBlock).Fits b) :
    txs = (hist mc'.currentBlock).accepted b .plain ∧ ∃ k, (hist mc'.currentBlock).KeyperOf b (addrNat cx.own) k := by
  have o := ((life_observed l).2 _ hm).1
  have hb : (2 * b + 1) / 2 = b := by omega
  obtain ⟨st2, config, delay, e, _, k1, k2, k3, k4⟩ := (life_exec l _ hm).turn ha (h := 2 * b + 1) rfl
  obtain ⟨bc, start, rfl, g1, _, _, _⟩ := turn_world o hn k1 k2 k3 (by rw [hb]; exact hf)
  rw [hb] at g1
  generalize hact : (Action.executePlainBatch b txs gas : Action G1 G2) = a at k4
  cases k4 with
  | skip => cases hact
  | cipher => cases hact
  | plain _ _ h3 =>
    rw [hb] at hact
    cases hact
    refine ⟨((Main.Props.C37_exact_partial o b).1 .plain).1, ?_⟩
    obtain ⟨k, hk⟩ := Option.isSome_iff_exists.mp h3
    have := dedupGo_mem _ _ (List.mem_of_getElem? (keyperIndex_get hk))
    obtain ⟨j, hj⟩ := List.getElem?_of_mem this
    exact ⟨j, bc, start, e, _, g1, hj⟩

/-- **C40** When a keyper executes the encrypted part of a batch: the batch is over but not timed out, the keyper is one of the batch
and gives its index (if no keyper is listed twice), the hash it gives is the one of the batcher contract, and the
transactions are those it decrypted with a key of its own in some earlier round, at block `e`, from the transactions accepted until then. Either no
transactions had been accepted until then (the hash was zero), or the keyper has signatures of at least threshold many different accounts on
the hashes over the encrypted and the decrypted transactions. And if the batch was over at block `e`, the encrypted
transactions and the hash are final, and the signers are keypers of the batch. Missing: batches decrypted before they are over
(see `C40_early_counterexample`), configs taken back by the owner, and block numbers that overflow. -/
theorem C40_cipher_partial (l : Life cx codecs chain E fd s st mc hist log) (hm : (mc', acts) ∈ log) {b k gas : Nat} {hash : Bytes}
    {txs : List Bytes} (ha : .executeCipherBatch b hash txs k gas ∈ acts) (hn : NoneTakenBack hist mc'.currentBlock)
    (hf : (hist mc'.currentBlock).Fits b) :
    ∃ bc start stop timeout, (hist mc'.currentBlock).HasBatch b bc start stop timeout ∧
      stop ≤ mc'.currentBlock ∧ mc'.currentBlock < timeout ∧
      (bc.keypers.Nodup → bc.keypers[k]? = some (addrNat cx.own)) ∧ addrNat cx.own ∈ bc.keypers ∧
      hash = (hist mc'.currentBlock).batcher.hashes b .cipher ∧
      ∃ e key, e ≤ mc'.currentBlock ∧ HasKey st b key ∧ DecryptedWith cx key ((hist e).accepted b .cipher) txs ∧
        ∃ sigs, ((hist e).batcher.hashes b .cipher = zeroHash ∨ bc.threshold ≤ sigs.length) ∧
          Signed cx b ((hist e).batcher.hashes b .cipher) txs sigs ∧
          ((hist e).BatchOver b → (hist e).accepted b .cipher = (hist mc'.currentBlock).accepted b .cipher ∧
            (hist e).batcher.hashes b .cipher = hash ∧ ∀ a sig, (a, sig) ∈ sigs → a ∈ bc.keypers) := by
  have o := ((life_observed l).2 _ hm).1
  have hb : (2 * b) / 2 = b := by omega
  obtain ⟨st2, config, delay, e, hok, k1, k2, k3, k4⟩ := (life_exec l _ hm).turn ha (h := 2 * b) rfl
  obtain ⟨bc, start, rfl, g1, g2, g3, g4⟩ := turn_world o hn k1 k2 k3 (by rw [hb]; exact hf)
  rw [hb] at g1
  generalize hact : (Action.executeCipherBatch b hash txs k gas : Action G1 G2) = a at k4
  cases k4 with
  | skip => cases hact
  | plain => cases hact
  | @cipher k' bt _ h2 h3 h4 h5 h6 =>
    rw [hb] at hact h5
    cases hact
    have hk := keyperIndex_get h4
    obtain ⟨q1, q2, ⟨v, key, ⟨⟨vacts, hv⟩, hvle⟩, q8, q3, q4, q5, q6⟩, q7⟩ := hok _ (mem_of_lookup h5)
    have ov := ((life_observed l).2 _ hv).1
    have hvt := ((Main.Props.C37_exact_partial ov b).1 .cipher)
    have hmt := ((Main.Props.C37_exact_partial o b).1 .cipher)
    simp only at q1 q3 q4 q5 q6 hvt
    rw [hvt.1] at q3
    rw [hvt.2] at q4 q5
    refine ⟨bc, start, e, _, g1, le_trans g3 h3, by rw [← g2]; exact h2, fun hnd => ?_, dedupGo_mem _ _ (List.mem_of_getElem? hk), hmt.2,
      v.currentBlock, key, hvle, q8, q3, bt.verifiedSignatures, ?_, ⟨q7, fun a sig hs => ?_⟩, fun hover => ⟨?_, ?_, fun a sig hs => ?_⟩⟩
    · rw [(known_fields bc).2.2.2.2.2.2, dedupGo_nodup _ _ (by simp) hnd] at hk
      exact hk
    · rcases h6 with h6 | h6
      · left; rw [h6] at q4; exact beq_iff_eq.mp q4.symm
      · right; exact h6
    · rw [← q2, ← q5]; exact (q6 a sig hs).1
    · have := Main.Props.C58_closed_batches_agree ov o hvle hover
      rw [← hvt.1, ← hmt.1]
      unfold MainChain.txs; rw [this]
    · have := Main.Props.C58_closed_batches_agree ov o hvle hover
      rw [← hvt.2]
      unfold MainChain.hash; rw [this]
    · obtain ⟨_, v', config, ⟨⟨v'acts, hv'⟩, hv'le⟩, hle, hc, hki⟩ := q6 a sig hs
      have ov' := ((life_observed l).2 _ hv').1
      obtain ⟨i, bc', hr, hbc', rfl, _⟩ := config_of ov' (fun x y hxy hy => hn x y hxy (le_trans hy hv'le)) hc
      obtain ⟨j, hj⟩ := Option.isSome_iff_exists.mp hki
      have hmem := dedupGo_mem _ _ (List.mem_of_getElem? (keyperIndex_get hj))
      obtain ⟨b1, s1, e1, t1, hB, hle1⟩ := hover
      have later := fun x (hx : v.currentBlock ≤ x) (hx' : x < two64) => Sol.hasBatch_mono (ov.chain.reach ov.current).preach.inv
        (Sol.plater_config (ov.chain.plater hx hx')) hB (le_trans (Sol.HasBatch.order hB).1 hle1)
      have hB' := later v'.currentBlock hle ov'.current
      have hBm := later mc'.currentBlock hvle o.current
      obtain ⟨rfl, _, _, _⟩ := Sol.HasBatch.unique g1 hBm
      obtain ⟨i', m1, m2, m3⟩ := hB'
      have hinv := (ov'.chain.reach ov'.current).preach.inv
      have := Sol.Config.responsible_unique ((hinv.lookup_iff b i').1 m1) hr
      subst this
      have : b1 = bc' := by
        unfold Sol.Config.scheduledConfig at m2
        simp only [Option.bind_eq_bind, Option.bind_eq_some_iff] at m2
        obtain ⟨_, _, m2⟩ := m2
        rw [Sol.Config.configs_get (Sol.get_lt hbc'), hbc'] at m2
        cases m2; rfl
      rw [this]
      exact hmem

/-- **C40** The contract accepts it: whenever the executor contract gets to the half step, in any later state, it accepts the call of
the keyper (unless the keyper has been slashed) and goes on to the next half step. (`hz` is the case for a hash function that never
is zero, see `C40_hash_not_zero`.) -/
theorem C40_accepted_partial (l : Life cx codecs chain E fd s st mc hist log) (hm : (mc', acts) ∈ log) {a : Action G1 G2} (ha : a ∈ acts)
    {h : Nat} (hh : a.halfStep? = some h) (hn : NoneTakenBack hist mc'.currentBlock) (hf : (hist mc'.currentBlock).Fits (h / 2))
    (hz : World.chainHashes E ((hist mc'.currentBlock).accepted (h / 2) .cipher) = zeroHash → (hist mc'.currentBlock).accepted (h / 2) .cipher = [])
    {w : World} (later : Sol.WorldLater E (hist mc'.currentBlock) w)
    (hw : w.executor.halfSteps = h) (fits : h + 1 < two64)
    (hk : ∀ bc st e t, w.HasBatch (h / 2) bc st e t → bc.keypers.Nodup)
    (hd : (w.deposit.deposits (addrNat cx.own)).slashed = false) (marshal : G2 → Bytes) :
    ∃ op w', a.call (addrNat cx.own) marshal [] = some op ∧ w.step E op = some w' ∧ w'.executor.halfSteps = h + 1 := by
  have o := ((life_observed l).2 _ hm).1
  have hreach := o.chain.reach o.current
  have hr : Sol.WorldReach E w := by obtain ⟨w0, h1, h2⟩ := hreach; exact ⟨w0, h1, h2.trans later⟩
  have pl := Sol.worldLater_plater hreach.preach.inv later
  have hover := C40_closed_partial l hm ha hh hn hf
  obtain ⟨_, _, hover'⟩ := Sol.accepted_later hreach.preach.inv pl hover .plain
  obtain ⟨bc, start, stop, timeout, ⟨i, h1, h2, h3⟩, h4⟩ := id hover'
  have hact : w.config.batchingActive i = some true := by
    obtain ⟨bc', g1, g2, _⟩ := Sol.Config.boundary_iff.1 h3
    exact Sol.active_iff.2 ⟨bc', g1, g2⟩
  have hodd : ∀ b, (2 * b) / 2 = b ∧ (2 * b) % 2 = 0 ∧ (2 * b + 1) / 2 = b ∧ (2 * b + 1) % 2 = 1 := fun b => by omega
  cases a <;> simp only [Action.halfStep?, Option.some.injEq, reduceCtorEq] at hh
  case executeCipherBatch b hash txs k gas =>
    subst hh
    rw [(hodd b).1] at h1 h3 hf hover hk
    obtain ⟨bc0, st0, e0, t0, k1, k2, k3, k4, k5, k6, e, key, k7, _, k8, _⟩ := C40_cipher_partial l hm ha hn hf
    obtain ⟨rfl, rfl, rfl, rfl⟩ : bc = bc0 ∧ start = st0 ∧ stop = e0 ∧ timeout = t0 :=
      Sol.HasBatch.unique (Sol.hasBatch_mono hreach.preach.inv (Sol.plater_config pl) k1
        (le_trans (Sol.HasBatch.order k1).1 (by rw [o.chain.blk o.current]; exact k2))) ⟨i, h1, h2, h3⟩
    have hlen : bc.keypers.length ≤ 2 ^ 63 := by
      obtain ⟨i', m1, m2, m3⟩ := id k1
      have hr' := (hreach.preach.inv.lookup_iff b i').1 m1
      obtain ⟨x, hx, _⟩ := hr'.1
      have : x = bc := by
        unfold Sol.Config.scheduledConfig at m2
        simp only [Option.bind_eq_bind, Option.bind_eq_some_iff] at m2
        obtain ⟨_, _, m2⟩ := m2
        rw [Sol.Config.configs_get (Sol.get_lt hx), hx] at m2
        cases m2; rfl
      subst this
      exact (hf i' x hr' hx).1
    have hkk := k4 (hk _ _ _ _ ⟨i, h1, h2, h3⟩)
    have hklt := Sol.get_lt hkk
    have hh : hash = w.batcher.hashes b .cipher := by
      rw [k6, (Sol.accepted_later hreach.preach.inv pl hover .cipher).2.1]
    have htx : hash ≠ zeroHash ∨ txs = [] := by
      by_cases hzero : hash = zeroHash
      · right
        have hnil : (hist mc'.currentBlock).accepted b .cipher = [] := by
          rw [k6, (Sol.batcherInv hreach.preach).hash] at hzero
          rw [(hodd b).1] at hz
          exact hz hzero
        have hpre : (hist e).accepted b .cipher = [] := by
          obtain ⟨l', hl, _⟩ := o.chain.log k7 o.current
          unfold Sol.World.accepted at hnil ⊢
          rw [hl, List.filterMap_append, List.append_eq_nil_iff] at hnil
          exact hnil.1
        rw [hpre] at k8
        rw [k8]; rfl
      · exact .inl hzero
    by_cases ht : timeout ≤ w.block
    · have hpre : w.cipherPre (addrNat cx.own) b hash txs k = some .skip := by
        simp only [World.cipherPre, Option.bind_eq_bind, Option.bind_eq_some_iff, Sol.require_eq_some, Sol.u64_eq_some]
        refine ⟨b, ⟨rfl, by omega⟩, k, ⟨rfl, by unfold two64; omega⟩, (), by omega, (), by omega, i, h1, bc, h2, true, hact, (), rfl,
          (start, stop, timeout), h3, ?_⟩
        rw [if_pos ht]
      obtain ⟨w', hw'⟩ : ∃ w', w.skipCipherPost = some w' := by
        rw [← Option.isSome_iff_exists]
        simp [World.skipCipherPost, World.incHalfSteps, Sol.addU64, Sol.u64, hw, fits]
      exact ⟨_, w', rfl, by rw [World.step, hpre]; exact hw', by rw [(Sol.skipCipherPost_spec hw').2, hw]⟩
    · have hpre : w.cipherPre (addrNat cx.own) b hash txs k = some (.execute bc.targetAddress bc.targetFunctionSelector) := by
        simp only [World.cipherPre, Option.bind_eq_bind, Option.bind_eq_some_iff, Sol.require_eq_some, Sol.u64_eq_some]
        refine ⟨b, ⟨rfl, by omega⟩, k, ⟨rfl, by unfold two64; omega⟩, (), by omega, (), by omega, i, h1, bc, h2, true, hact, (), rfl,
          (start, stop, timeout), h3, ?_⟩
        rw [if_neg ht]
        simp only [Option.bind_eq_some_iff, Sol.require_eq_some]
        exact ⟨(), h4, _, hkk, (), rfl, (), hd, (), hh, (), htx, trivial⟩
      obtain ⟨c1, c2⟩ := Sol.runTargets_nil E w (bc.targetAddress, bc.targetFunctionSelector) txs
      refine ⟨_, _, rfl, by rw [World.step, hpre]; simp only [World.cipherPost, World.incHalfSteps, c1, hw, Sol.addU64, Sol.u64]; simp [fits]; rfl, rfl⟩
  case executePlainBatch b txs gas =>
    subst hh
    rw [(hodd b).2.2.1] at h1 h3 hf hover hk
    obtain ⟨rfl, _⟩ := C40_plain_partial l hm ha hn hf
    have hacc := Sol.accepted_later hreach.preach.inv pl hover .plain
    have hpre : w.plainPre b = some (bc.targetAddress, bc.targetFunctionSelector) := by
      simp only [World.plainPre, Option.bind_eq_bind, Option.bind_eq_some_iff, Sol.require_eq_some, Option.some.injEq, Sol.u64_eq_some]
      exact ⟨b, ⟨rfl, by omega⟩, (), by omega, (), by omega, i, h1, bc, h2, true, hact, (), rfl, (start, stop, timeout), h3, (), h4, rfl⟩
    obtain ⟨c1, c2⟩ := Sol.runTargets_nil E w (bc.targetAddress, bc.targetFunctionSelector) ((hist mc'.currentBlock).accepted b .plain)
    have hhash : World.chainHashes E ((hist mc'.currentBlock).accepted b .plain) = w.batcher.hashes b .plain := by
      rw [hacc.2.1, (Sol.batcherInv hreach.preach).hash]
    refine ⟨_, _, rfl, by rw [World.step, hpre]; simp only [World.plainPost, World.incHalfSteps, c1, c2, hhash, hw, Sol.addU64, Sol.u64]; simp [fits, Sol.require]; rfl, rfl⟩
  case skipCipherBatch b =>
    subst hh
    rw [(hodd b).1] at h1 h3 hf hover hk
    have ht : w.TimedOut b := by
      obtain ⟨bc0, st0, e0, t0, k1, k2⟩ := C40_skip_partial l hm ha hn hf
      exact ⟨bc0, st0, e0, t0, Sol.hasBatch_mono hreach.preach.inv (Sol.plater_config pl) k1
        (le_trans (Sol.HasBatch.order k1).1 (le_trans (Sol.HasBatch.order k1).2 k2)), le_trans k2 (Sol.Config.block_mono (Sol.plater_config pl))⟩
    obtain ⟨w', g1, g2⟩ := Sol.Props.C46_skip_possible hr hw (by rw [hw]; exact fits) ht (addrNat cx.own)
    exact ⟨_, w', rfl, g1, g2⟩

theorem C40_hash_not_zero (hz : ∀ x, E.keccak x ≠ zeroHash) (txs : List Bytes) : World.chainHashes E txs = zeroHash → txs = [] :=
  Sol.chainHashes_zero hz

/-! ### The hypotheses are met -/

section demo
open Shutter.Events Shutter.Events.Props
open Shutter.Sol (Op)

theorem Demo.fits113 : (Demo.hist 113).Fits 0 := by
  have key : ∀ bc ∈ (Demo.hist 113).config.scheduled, bc.keypers.length ≤ 2 ^ 63 ∧ bc.nominalEnd 0 + bc.executionTimeout < two64 := by
    decide +kernel
  intro i bc _ hbc
  exact key bc (List.mem_of_getElem? hbc)

theorem Demo.hash113 : (Demo.hist 113).accepted 0 .cipher = [Demo.cipherTx] ∧ World.chainHashes Demo.env [Demo.cipherTx] ≠ zeroHash := by
  decide +kernel

theorem Demo.later115 : Sol.WorldLater Demo.env (Demo.hist 113) (Demo.hist 115) := Demo.chain.later (by decide) (by decide)

theorem Demo.half115 : (Demo.hist 115).executor.halfSteps = 0 := by decide +kernel

theorem Demo.batch115 : (Demo.hist 115).HasBatch 0 ((Demo.hist 115).config.scheduled[1]?.getD Sol.zeroConfig) 100 110 140 :=
  ⟨1, by decide +kernel, by decide +kernel, by decide +kernel⟩

theorem Demo.nodup115 (bc : BatchConfig) (st e t : Nat) (hB : (Demo.hist 115).HasBatch 0 bc st e t) : bc.keypers.Nodup := by
  have h := (Sol.HasBatch.unique Demo.batch115 hB).1
  rw [h]
  decide +kernel

theorem Demo.deposit115 : ((Demo.hist 115).deposit.deposits (addrNat Demo.cxA.own)).slashed = false := by decide +kernel

/-- In the demo, keyper A executes both parts of batch 0 in its sixth round, at block 113, while the executor contract waits for half step
0. The hypotheses of the theorems are met, also by the state of the contracts two blocks later. -/
theorem C40_example : ∃ r : Run Zq Zq, Life Demo.cxA demoCodecs Demo.shares Demo.env 3 r.s r.st r.mc Demo.hist r.log ∧
    (∃ mc' acts, (mc', acts) ∈ r.log ∧ mc'.currentBlock = 113 ∧
      acts = [.executeCipherBatch 0 (World.chainHashes Demo.env [Demo.cipherTx]) [Demo.message] 0 0, .executePlainBatch 0 [[3]] 0]) ∧
    NoneTakenBack Demo.hist 113 ∧ (Demo.hist 113).Fits 0 ∧
    ((Demo.hist 113).accepted 0 .cipher = [Demo.cipherTx] ∧ World.chainHashes Demo.env [Demo.cipherTx] ≠ zeroHash) ∧
    Sol.WorldLater Demo.env (Demo.hist 113) (Demo.hist 115) ∧ (Demo.hist 115).executor.halfSteps = 0 ∧
    (∀ bc st e t, (Demo.hist 115).HasBatch 0 bc st e t → bc.keypers.Nodup) ∧
    ((Demo.hist 115).deposit.deposits (addrNat Demo.cxA.own)).slashed = false := by
  have h := Demo.actionsA_eq
  unfold Demo.actionsA at h
  rw [Option.map_eq_some_iff] at h
  obtain ⟨r, hr, hl⟩ := h
  have h3 := congrArg (fun l => l[5]?) hl
  simp only [List.getElem?_map, List.getElem?_cons_succ, List.getElem?_cons_zero, Option.map_eq_some_iff] at h3
  obtain ⟨e, he, he'⟩ := h3
  simp only [Prod.mk.injEq] at he'
  exact ⟨r, Demo.runA_life hr, ⟨e.1, e.2, List.mem_of_getElem? he, he'.1, he'.2⟩, noneTakenBack_of (by decide +kernel), Demo.fits113,
    Demo.hash113, Demo.later115, Demo.half115, Demo.nodup115, Demo.deposit115⟩

/-! ### Keys generated while the view of a keyper lags behind -/

/-- As in the demo, but the share for batch 0 on shuttermint is the one of keyper B, and nobody has signed anything. -/
def lagShares : Observe.Chain := fun h =>
  let enc := makeABCIEvent demoCodecs
  if h = 9 then [[enc (.epochSecretKeyShare kB 1 0 (World.beBytes ((8 : Nat) • epochIDOf zEnv 0).val 32))]]
  else if h = 10 then [] else Demo.shuttermint h

/-- Keyper A sees the share of B when its view of the main chain is at block 100. -/
def lagRun : Option (Run Zq Zq) := lifeRun Demo.cxA demoCodecs lagShares Demo.hist 3
  [([.sync 2 2 false], [50]), ([.sync 8 8 false], [102]), ([.sync 9 9 false], [103]), ([.sync 10 10 false], [116])]

/-- **C40** fails if a key becomes known to a keyper whose view of the main chain lags behind: the keyper takes the batch for an empty
one and, when it is over, executes it with no transactions at all, but with the hash of the encrypted transactions that were accepted in
the meantime; no signatures are needed, the contract accepts the call, and the keyper can be slashed for it. -/
theorem C40_early_counterexample : ∃ r : Run Zq Zq, Life Demo.cxA demoCodecs lagShares Demo.env 3 r.s r.st r.mc Demo.hist r.log ∧
    (∃ mc' acts, (mc', acts) ∈ r.log ∧ mc'.currentBlock = 113 ∧
      .executeCipherBatch 0 (World.chainHashes Demo.env [Demo.cipherTx]) [] 0 0 ∈ acts) ∧
    (Demo.hist 113).accepted 0 .cipher = [Demo.cipherTx] ∧
    ((Demo.hist 113).step Demo.env (.executeCipherBatch (addrNat Demo.cxA.own) 0 (World.chainHashes Demo.env [Demo.cipherTx]) [] 0 [])).isSome := by
  have h : lagRun.map (fun r => r.log.map (fun e => (e.1.currentBlock, decide (.executeCipherBatch 0 (World.chainHashes Demo.env [Demo.cipherTx]) [] 0 0 ∈ e.2)))) =
    some [(47, false), (99, false), (100, false), (113, true)] := by decide +kernel
  rw [Option.map_eq_some_iff] at h
  obtain ⟨r, hr, hl⟩ := h
  have h3 := congrArg (fun l => l[3]?) hl
  simp only [List.getElem?_map, List.getElem?_cons_succ, List.getElem?_cons_zero, Option.map_eq_some_iff] at h3
  obtain ⟨e, he, he'⟩ := h3
  simp only [Prod.mk.injEq, decide_eq_true_eq] at he'
  exact ⟨r, lifeRun_life Demo.chain hr, ⟨e.1, e.2, List.mem_of_getElem? he, he'.1, he'.2⟩, Demo.hash113.1, by decide +kernel⟩

end demo

end Shutter.Decide.Props
