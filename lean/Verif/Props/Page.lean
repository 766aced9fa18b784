import Verif.Proofs.Page
import Verif.Spec.Page
import Verif.Props.SolBatcher
import Verif.Props.SolConfig
import Verif.Props.SolExec
import Verif.Props.SolMoney
import Verif.Props.Targets

/-! Property theorems C85: the example page. -/

namespace Shutter.Page.Props
open Shutter.Sol Shutter.Page

/-- **C85** The page finds the config that began last. -/
theorem C85_config {E : Env} {w : World} (h : WorldReach E w) (block : Nat) :
    ∃ (i : Nat) (bc : BatchConfig), configAtBlock w.config block = some bc ∧ w.config.scheduled[i]? = some bc ∧ bc.startBlockNumber ≤ block ∧
      ∀ (j : Nat) next, i < j → w.config.scheduled[j]? = some next → block < next.startBlockNumber := by
  have hi := h.preach.inv
  have hp := hi.pos
  obtain ⟨i, hix⟩ : ∃ i, configIndexAtBlock w.config block = some i := by
    unfold configIndexAtBlock
    have : ∀ n, 0 < n → n ≤ w.config.scheduled.length → ∃ i, indexLoop w.config block n = some i := by
      intro n
      induction n with
      | zero => omega
      | succ n ih =>
        intro _ hn
        rw [indexLoop, Config.configForConfigIndex, Config.configs_get (by omega), List.getElem?_eq_getElem (by omega)]
        simp only
        split
        · exact ⟨n, rfl⟩
        · next hs =>
          rcases Nat.eq_zero_or_pos n with rfl | hn0
          · have h0 := hi.guard
            rw [List.getElem?_eq_getElem (by omega)] at h0
            simp only [Option.some.injEq] at h0
            rw [h0] at hs
            simp [zeroConfig] at hs
          · exact ih hn0 (by omega)
    rw [Config.numConfigs, Config.configs_len]
    exact this _ (by omega) (by omega)
  unfold configIndexAtBlock at hix
  obtain ⟨h1, ⟨bc, h2, h3⟩, h4⟩ := indexLoop_some hix
  rw [Config.numConfigs, Config.configs_len] at h1 h4
  have hg : ∀ j, j < w.config.scheduled.length → w.config.configForConfigIndex j = w.config.scheduled[j]? := fun j hj => by
    rw [Config.configForConfigIndex, Config.configs_get hj]
  refine ⟨i, bc, ?_, by rw [← hg i (by omega)]; exact h2, h3, fun j next hj hj' => ?_⟩
  · unfold configAtBlock configIndexAtBlock
    rw [hix]
    exact h2
  · have hjl := (List.getElem?_eq_some_iff.1 hj').1
    exact h4 j next hj (by omega) (by rw [hg j hjl]; exact hj')

/-- **C85** The batch for a block is the one whose blocks include it, and the one the keypers compute. -/
theorem C85_batch (bc : BatchConfig) (active : 0 < bc.batchSpan) (block : Nat) (hb : bc.startBlockNumber ≤ block)
    (fits : bc.startBatchIndex + block < two64) :
    ∃ b : Nat, batchIndexAtBlock block bc = some (b : Int) ∧ GoConfig.batchIndex bc block = some b ∧ bc.startBatchIndex ≤ b ∧
      bc.nominalStart b ≤ block ∧ block < bc.nominalEnd b := by
  obtain ⟨h1, h2⟩ := nominal_window active hb
  have h3 : (block - bc.startBlockNumber) / bc.batchSpan ≤ block := le_trans (Nat.div_le_self _ _) (by omega)
  refine ⟨_, batchIndexAtBlock_eq active hb, ?_, Nat.le_add_right _ _, h1, h2⟩
  rw [GoConfig.batchIndex, if_neg (by omega), if_neg (by omega), GoConfig.wadd, Nat.mod_eq_of_lt (by omega)]

/-- **C85** A transaction sent by the page is accepted by the batcher contract if it is mined in time: not after the predicted block, and less
than a batch before it. The page was opened some time before, any number of transactions were made by others; provided that the config at the time
of opening is still in force at the predicted block, and that the batch has room and asks for no fee. -/
theorem C85_accepted {E : Env} {w0 w : World} (h : WorldReach E w0) (l : WorldLater E w0 w) {block0 block : Nat} {p : Page}
    (hload : Page.load w0 block0 = some p) (h0 : block0 ≤ w0.block) (active : 0 < p.config.batchSpan)
    (key : p.eonKey ≠ none) (est : block0 ≤ block)
    (inTime : w.block ≤ block + 3) (notEarly : block + 3 ≤ w.block + p.config.batchSpan)
    (same : NoFurtherConfig w.config p.config (block + 3))
    (fits : p.config.startBatchIndex + block + 3 + p.config.batchSpan + p.config.executionTimeout < two64)
    (sender : Address) (ty : TxType) (payload : Bytes) :
    ∃ b, p.send block sender ty payload = some (.addTransaction sender b ty payload 0) ∧
      p.config.nominalStart b ≤ block + 3 ∧ block + 3 < p.config.nominalEnd b ∧ w.config.configForBatchIndex b = some p.config ∧
      (HasRoom w p.config b payload → ∃ w', w.step E (.addTransaction sender b ty payload 0) = some w' ∧
        w'.accepted b ty = w.accepted b ty ++ [payload]) := by
  obtain ⟨i, bc, c1, c2, c3, -⟩ := C85_config h block0
  have hcfg : p.config = bc := by
    unfold Page.load at hload
    rw [c1] at hload
    simp only [Option.some.injEq] at hload
    rw [← hload]
  obtain ⟨cfg, ek⟩ := p
  simp only at hcfg active notEarly same fits key ⊢
  subst hcfg
  rename BatchConfig => bc
  have hi0 := h.preach.inv
  have hlater : ConfigLater w0.configAt w.configAt := plater_config (worldLater_plater hi0 l)
  have hw : WorldReach E w := by
    obtain ⟨d, hd, hl⟩ := h
    exact ⟨d, hd, hl.trans l⟩
  have hiw := hw.preach.inv
  have c4 : w.config.scheduled[i]? = some bc := kept_later (s := w0.configAt) (s' := w.configAt) hi0 hlater c2 (le_trans c3 h0)
  have hmono : w0.block ≤ w.block := Config.block_mono hlater
  obtain ⟨b, hb1, -, hb3, hb4, hb5⟩ := C85_batch bc active (block + 3) (by omega) (by omega)
  have hb64 : b < two64 := by
    have : (b - bc.startBatchIndex) ≤ (b - bc.startBatchIndex) * bc.batchSpan := Nat.le_mul_of_pos_right _ active
    unfold BatchConfig.nominalStart at hb4
    omega
  have hr : Responsible w.config i b := responsible_of hiw c4 active hb3 (fun next hn => lt_of_le_of_lt hb4 (same i next c4 hn))
  have hilen := (List.getElem?_eq_some_iff.1 c4).1
  have hsc : w.config.scheduledConfig i = some bc := by
    rw [Config.scheduledConfig, show require (i < w.config.numConfigs) = some () by
      rw [require_eq_some, Config.numConfigs, Config.configs_len]; omega]
    show w.config.configs[i]? = _
    rw [Config.configs_get hilen]; exact c4
  have hlk := (hiw.lookup_iff b i).2 hr
  have hfor : w.config.configForBatchIndex b = some bc := by
    rw [Config.configForBatchIndex, hlk]
    show w.config.configs[i]? = _
    rw [Config.configs_get hilen]; exact c4
  have hend : bc.nominalEnd b + bc.executionTimeout < two64 := by
    unfold BatchConfig.nominalEnd
    omega
  have hbd : w.config.batchBoundaryBlocks i b = some (if b = bc.startBatchIndex then bc.nominalStart b else bc.nominalStart b - bc.batchSpan,
      bc.nominalEnd b, bc.nominalEnd b + bc.executionTimeout) :=
    Config.boundary_iff.2 ⟨bc, by rw [Config.configs_get hilen]; exact c4, active, hb3, rfl, rfl, hend, rfl⟩
  refine ⟨b, ?_, hb4, hb5, hfor, fun room => ?_⟩
  · unfold Page.send
    rw [if_neg key, show block + expectedInclusionDelay = block + 3 from rfl, hb1]
    simp only
    rw [if_pos ⟨by omega, by exact_mod_cast hb64⟩, Int.toNat_natCast]
  · obtain ⟨r1, r2, r3, r4⟩ := room
    have hopen : (if b = bc.startBatchIndex then bc.nominalStart b else bc.nominalStart b - bc.batchSpan) ≤ w.block := by
      split
      · next he =>
        subst he
        simp only [BatchConfig.nominalStart, Nat.sub_self, Nat.zero_mul, Nat.add_zero]
        omega
      · omega
    obtain ⟨w', hw'⟩ := (Sol.Props.C45_accepts_iff hw sender b ty payload 0).2
      ⟨hb64, bc, _, _, _, ⟨i, hlk, hsc, hbd⟩, hopen, by omega, r1, r2, r3, by omega, by omega⟩
    exact ⟨w', hw', (Sol.Props.C45_effect hw').1⟩

/-- **C85** A message sent unencrypted is published: the page was opened at `w0` and the transaction is mined in time at `w` (as in
`C85_accepted`); in some later world `v` the plain part of the batch has been executed. Provided that the config names the proxy as its target, that
there is no collision of hashes, and what `C84_published` asks for: that signatures are not forged, that the author uses the nonce once, and that the
executor's call has enough gas. -/
theorem C85_published {E : Env} (h32 : ∀ x, (E.keccak x).length = 32) {w0 w w' v : World} (h : WorldReach E w0) (l : WorldLater E w0 w)
    {block0 block : Nat} {p : Page} (hload : Page.load w0 block0 = some p) (h0 : block0 ≤ w0.block) (active : 0 < p.config.batchSpan)
    (key : p.eonKey ≠ none) (est : block0 ≤ block) (inTime : w.block ≤ block + 3) (notEarly : block + 3 ≤ w.block + p.config.batchSpan)
    (same : NoFurtherConfig w.config p.config (block + 3))
    (fits : p.config.startBatchIndex + block + 3 + p.config.batchSpan + p.config.executionTimeout < two64)
    (sender : Address) {lib : Target.Lib} {d : Target.Deployment} (author : Target.Wallet) (message : Bytes) (nonce : Nat)
    {op : Op} (sent : p.send block sender .plain (Target.encodeMessage lib d.boardAddr message nonce author) = some op)
    (mined : w.step E op = some w') (l' : WorldLater E w' v) (tame : TameReach E v)
    {b : Nat} (hb : op = .addTransaction sender b .plain (Target.encodeMessage lib d.boardAddr message nonce author) 0)
    {txs : List Bytes} (executed : (b, TxType.plain, txs) ∈ v.executions) (nocoll : NoCollision E txs (v.accepted b .plain))
    (target : p.config.targetAddress = d.proxyAddr ∧ p.config.targetFunctionSelector = Target.selector)
    (cs : List Target.Call) (hex : Target.FromExecutor d v cs) (hnonce : nonce < 2 ^ 64) (hlen : message.length + 1000 < 2 ^ 64)
    (genuine : author.Genuine lib (lib.signedHash (lib.keccak (Target.encodeNatBytes nonce message))))
    (signed : Bytes → Prop) (unforged : Target.Unforged lib signed author.address cs)
    (only : ∀ p x, signed p → Target.Means p nonce x → x = message)
    (haddr : d.boardAddr < 2 ^ 160) (deployed : d = Target.deploy d.proxyExecutor d.proxyAddr d.boardAddr)
    (gas : ∀ c ∈ cs, c.data = Target.callData Target.selector (Target.encodeMessage lib d.boardAddr message nonce author) → c.gas = true) :
    (Target.State.init.run lib d cs).board.executed.filter (fun x => decide (x.1 = author.address ∧ x.2.2 = nonce)) =
      [(author.address, message, nonce)] := by
  obtain ⟨b', e1, -, -, e4, -⟩ := C85_accepted h l hload h0 active key est inTime notEarly same fits sender .plain
    (Target.encodeMessage lib d.boardAddr message nonce author)
  rw [e1] at sent
  simp only [Option.some.injEq] at sent
  rw [hb] at sent
  injection sent with _ hbb _ _ _
  subst hbb
  subst hb
  have hw : WorldReach E w := by
    obtain ⟨d, hd, hl⟩ := h
    exact ⟨d, hd, hl.trans l⟩
  have hw' : WorldReach E w' := by
    obtain ⟨d, hd, hl⟩ := hw
    exact ⟨d, hd, hl.tail (.tx mined)⟩
  obtain ⟨f1, -, -, bc, st, e, t, hB, -⟩ := Sol.Props.C45_effect mined
  have hmem : Target.encodeMessage lib d.boardAddr message nonce author ∈ v.accepted b' .plain := by
    obtain ⟨ll, hll⟩ := plater_log (worldLater_plater hw'.preach.inv l')
    have : Target.encodeMessage lib d.boardAddr message nonce author ∈ w'.accepted b' .plain := by rw [f1]; simp
    unfold World.accepted at this ⊢
    rw [hll, List.filterMap_append]
    exact List.mem_append_left _ this
  have htx : txs = v.accepted b' .plain := by
    rcases Sol.Props.C47_plain_right_partial h32 tame.reach executed with h1 | ⟨x, hx, y, hy, hne, heq⟩ | ⟨x, hx, hz⟩
    · exact h1
    · exact absurd (nocoll.1 x hx y hy heq) hne
    · exact absurd hz (nocoll.2 x hx)
  have hopen : st ≤ w.block := by
    obtain ⟨_, bc2, st2, e2, t2, hB2, h2, _⟩ := (Sol.Props.C45_accepts_iff hw sender b' .plain _ 0).1 ⟨w', mined⟩
    obtain ⟨i1, a1, a2, a3⟩ := hB
    obtain ⟨i2, b1, b2, b3⟩ := hB2
    rw [a1] at b1
    simp only [Option.some.injEq] at b1
    subst b1
    rw [a3] at b3
    simp only [Option.some.injEq, Prod.mk.injEq] at b3
    omega
  have hBv : v.HasBatch b' bc st e t :=
    Sol.hasBatch_mono hw.preach.inv (plater_config (worldLater_plater hw.preach.inv ((Relation.ReflTransGen.single (.tx mined)).trans l'))) hB hopen
  have hcfgOf : ∀ {u : World} {bc st e t}, u.HasBatch b' bc st e t → u.config.configForBatchIndex b' = some bc := by
    rintro u bc st e t ⟨i, a1, a2, _⟩
    rw [Config.configForBatchIndex, a1]
    simp only [Config.scheduledConfig, Option.bind_eq_bind, Option.bind_eq_some_iff] at a2
    obtain ⟨_, _, a2⟩ := a2
    exact a2
  have hbc : bc = p.config := by
    have := hcfgOf hB
    rw [e4] at this
    simpa using this.symm
  have htgt : v.targetOf b' = (d.proxyAddr, Target.selector) := by
    unfold World.targetOf
    rw [hcfgOf hBv, hbc]
    simp only
    rw [target.1, target.2]
  have hcalls := Sol.Props.C47_calls tame
  have hin : (d.proxyAddr, Target.selector, Target.encodeMessage lib d.boardAddr message nonce author) ∈ v.targetTxs := by
    rw [hcalls, List.mem_flatMap]
    refine ⟨_, executed, ?_⟩
    rw [List.mem_map]
    exact ⟨_, by rw [htx]; exact hmem, by simp only [htgt]⟩
  have hnet : Net.Executed v d.proxyAddr Target.selector (Target.encodeMessage lib d.boardAddr message nonce author) := by
    unfold World.targetTxs at hin
    rw [List.mem_filterMap] at hin
    obtain ⟨⟨n, ev⟩, g1, g2⟩ := hin
    cases ev <;> simp at g2
    obtain ⟨rfl, rfl, rfl⟩ := g2
    exact ⟨n, g1⟩
  exact Target.Props.C84_published lib d v cs hex author message nonce hnonce hlen genuine signed unforged only haddr deployed hnet gas

/-- **C85** The key: provided that the number of votes has as many digits as the threshold, or that one of the two begins with the digits of the other
(like 1 and 10), the page uses a key exactly if that many keypers have voted for one key; and it is the key with the most votes. -/
theorem C85_key_partial {E : Env} {w : World} (h : WorldReach E w) {block : Nat} {p : Page} (hload : Page.load w block = some p)
    (digits : (decimal (w.getBestKeyNumVotes 0)).length = (decimal p.config.threshold).length ∨
      decimal (w.getBestKeyNumVotes 0) <+: decimal p.config.threshold ∨ decimal p.config.threshold <+: decimal (w.getBestKeyNumVotes 0)) (ht : 0 < p.config.threshold) :
    (p.eonKey ≠ none ↔ ∃ x, p.config.threshold ≤ (w.votersFor E 0 x).length) ∧
    ∀ k, p.eonKey = some k → p.config.threshold ≤ (w.votersFor E 0 (E.keccak k)).length ∧ (w.votersFor E 0 (E.keccak k)).Nodup ∧
      ∀ x, (w.votersFor E 0 x).length ≤ (w.votersFor E 0 (E.keccak k)).length := by
  obtain ⟨b1, b2, b3⟩ := Sol.Props.C51_best h 0
  have hk : p.eonKey = if p.config.threshold ≤ w.getBestKeyNumVotes 0 then some (w.getBestKey 0) else none := by
    unfold Page.load at hload
    split at hload
    · simp at hload
    · next c hc =>
      simp only [Option.some.injEq] at hload
      subst hload
      simp only at digits ⊢
      rw [if_congr (bigNumberGe_iff' digits) rfl rfl]
  unfold World.getBestKeyNumVotes World.getBestKey at hk
  constructor
  · rw [hk]
    constructor
    · intro hne
      split at hne
      · next hle => exact ⟨_, by rw [← b1]; exact hle⟩
      · exact absurd rfl hne
    · rintro ⟨x, hx⟩
      rw [if_pos (le_trans hx (b2 x))]
      simp
  · intro k hkk
    rw [hk] at hkk
    split at hkk
    · next hle =>
      simp only [Option.some.injEq] at hkk
      have hne : w.voters 0 ≠ [] := by
        intro hnil
        have : (w.votersFor E 0 (w.keyBroadcast.bestHash 0)).length = 0 := by
          rw [List.length_eq_zero_iff, List.eq_nil_iff_forall_not_mem]
          intro s hs
          unfold World.votersFor at hs
          rw [List.mem_filterMap] at hs
          obtain ⟨⟨n, ev⟩, g1, g2⟩ := hs
          cases ev <;> simp at g2
          obtain ⟨⟨hb0, -⟩, hs0⟩ := g2
          subst hb0
          have hin : s ∈ w.voters 0 := by
            unfold World.voters
            rw [List.mem_filterMap]
            exact ⟨_, g1, by simp [hs0]⟩
          rw [hnil] at hin
          simp at hin
        omega
      have hkh := b3 hne
      rw [hkk] at hkh
      rw [hkh]
      exact ⟨by rw [← b1]; exact hle, (Sol.Props.C51_counts_voters h 0 _).2, fun x => by rw [← b1]; exact b2 x⟩
    · simp at hkk

/-- **C85** The last executed batch shown by the page: exactly the batches up to it are done, both parts of them (if the owner of the executor contract never
moved its counter). -/
theorem C85_status {E : Env} {w : World} (h : WorldReach E w) (hn : w.NeverSet) (b : Nat) :
    (b : Int) ≤ lastExecutedBatch w ↔ 2 * b + 1 ∈ w.halfStepsReported ∧ 2 * b + 2 ∈ w.halfStepsReported := by
  rw [Sol.Props.C46_in_order h hn]
  simp only [List.mem_range'_1]
  unfold lastExecutedBatch
  omega

/-- **C85** The list of messages: if all recent messages are UTF-8, the page shows them all, and every further one that is. -/
theorem C85_list_partial (utf8 : Bytes → Option String) (recent later : List (Address × Bytes × Nat)) (ok : ∀ e ∈ recent, utf8 e.2.1 ≠ none) :
    (later.foldl (TargetSection.notify utf8) (TargetSection.mount utf8 recent)).shown =
      (recent ++ later).filterMap (fun e => (utf8 e.2.1).map (fun text => (e.1, text, e.2.2))) := by
  have hm : ∀ (es : List (Address × Bytes × Nat)) (s : TargetSection), (∀ e ∈ es, utf8 e.2.1 ≠ none) →
      s.mountLoop utf8 es = ⟨s.shown ++ es.filterMap (fun e => (utf8 e.2.1).map (fun text => (e.1, text, e.2.2))), true⟩ := by
    intro es
    induction es with
    | nil => intro s _; simp [TargetSection.mountLoop]
    | cons e es ih =>
      intro s hs
      cases hu : utf8 e.2.1 with
      | none => exact absurd hu (hs e (by simp))
      | some t =>
        rw [TargetSection.mountLoop, TargetSection.handle, hu]
        simp only
        rw [ih _ (fun x hx => hs x (by simp [hx]))]
        simp [hu]
  have hn : ∀ (es : List (Address × Bytes × Nat)) (s : TargetSection), s.listening = true →
      (es.foldl (TargetSection.notify utf8) s).shown = s.shown ++ es.filterMap (fun e => (utf8 e.2.1).map (fun text => (e.1, text, e.2.2))) := by
    intro es
    induction es with
    | nil => intro s _; simp
    | cons e es ih =>
      intro s hs
      rw [List.foldl_cons]
      cases hu : utf8 e.2.1 with
      | none =>
        have : TargetSection.notify utf8 s e = s := by
          rw [TargetSection.notify, if_pos hs, TargetSection.handle, hu]; rfl
        rw [this, ih s hs]
        simp [hu]
      | some t =>
        have : TargetSection.notify utf8 s e = { s with shown := s.shown ++ [(e.1, t, e.2.2)] } := by
          rw [TargetSection.notify, if_pos hs, TargetSection.handle, hu]; rfl
        rw [this, ih { s with shown := s.shown ++ [(e.1, t, e.2.2)] } hs]
        simp [hu]
  rw [TargetSection.mount, hm recent ⟨[], false⟩ ok, hn _ _ rfl, List.filterMap_append]
  simp

/-- **C85** False of the code for other messages: after one recent message that is not UTF-8 the page shows neither the messages behind it nor any further
one. (Anybody can publish such a message, see `C84_unsigned_counterexample`.) -/
theorem C85_list_counterexample (utf8 : Bytes → Option String) (before after later : List (Address × Bytes × Nat)) (bad : Address × Bytes × Nat)
    (ok : ∀ e ∈ before, utf8 e.2.1 ≠ none) (hbad : utf8 bad.2.1 = none) :
    (later.foldl (TargetSection.notify utf8) (TargetSection.mount utf8 (before ++ bad :: after))).shown =
      before.filterMap (fun e => (utf8 e.2.1).map (fun text => (e.1, text, e.2.2))) := by
  have hm : ∀ (es : List (Address × Bytes × Nat)) (s : TargetSection), s.listening = false → (∀ e ∈ es, utf8 e.2.1 ≠ none) →
      s.mountLoop utf8 (es ++ bad :: after) = ⟨s.shown ++ es.filterMap (fun e => (utf8 e.2.1).map (fun text => (e.1, text, e.2.2))), false⟩ := by
    intro es
    induction es with
    | nil =>
      intro s hs _
      rw [List.nil_append, TargetSection.mountLoop, TargetSection.handle, hbad]
      cases s
      simp_all
    | cons e es ih =>
      intro s hl hs
      cases hu : utf8 e.2.1 with
      | none => exact absurd hu (hs e (by simp))
      | some t =>
        rw [List.cons_append, TargetSection.mountLoop, TargetSection.handle, hu]
        simp only
        rw [ih { s with shown := s.shown ++ [(e.1, t, e.2.2)] } hl (fun x hx => hs x (by simp [hx]))]
        simp [hu]
  have hn : ∀ (es : List (Address × Bytes × Nat)) (s : TargetSection), s.listening = false → es.foldl (TargetSection.notify utf8) s = s := by
    intro es
    induction es with
    | nil => intro s _; rfl
    | cons e es ih =>
      intro s hs
      rw [List.foldl_cons, TargetSection.notify, if_neg (by simp [hs])]
      exact ih s hs
  rw [TargetSection.mount, hm before ⟨[], false⟩ rfl ok, hn _ _ rfl]
  simp

/-! ### Counterexamples and instances -/

namespace Demo
open Shutter.Sol.Demo

def more (w : World) (ops : List (Nat × Op)) : World := (run w ops).getD w

theorem more_run {w : World} {ops : List (Nat × Op)} (h : (run w ops).isSome = true) : run w ops = some (more w ops) := by
  unfold more
  cases hr : run w ops <;> simp_all

def ofOps (ops : List (Nat × Op)) : World := more start ops

theorem ofOps_reach {ops : List (Nat × Op)} (h : (run start ops).isSome = true) : WorldReach env (ofOps ops) :=
  ⟨start, start_deployed, run_later (more_run h)⟩

theorem send_eq {p : Page} {block b : Nat} (sender : Address) (ty : TxType) (payload : Bytes) (hk : p.eonKey ≠ none)
    (hi : batchIndexAtBlock (block + 3) p.config = some (b : Int)) (hb : b < two64) :
    p.send block sender ty payload = some (.addTransaction sender b ty payload 0) := by
  unfold Page.send
  rw [if_neg hk, show block + expectedInclusionDelay = block + 3 from rfl, hi]
  simp only
  rw [if_pos ⟨by omega, by exact_mod_cast hb⟩, Int.toNat_natCast]

/-- The page as opened. -/
def page (w : World) : Page := (Page.load w w.block).getD ⟨zeroConfig, none⟩

def schedule (at_ : Nat) (l : List Config.SetOp) : List (Nat × Op) := l.map (fun o => (at_, Op.config 1 (.set o))) ++ [(at_, .config 1 .schedule)]

/-- Ten keypers, ten of which are needed; two vote. -/
def two : World := ofOps (schedule 4 [.startBlockNumber 100, .batchSpan 10, .addKeypers [5, 6, 7, 8, 9, 10, 11, 12, 13, 14], .threshold 10] ++
  [(6, .vote 5 0 0 [9, 9]), (7, .vote 6 1 0 [9, 9]), (105, .forceEther 0)])

/-- Ten keypers, nine of which are needed; all vote. -/
def ten : World := ofOps (schedule 4 [.startBlockNumber 100, .batchSpan 10, .addKeypers [5, 6, 7, 8, 9, 10, 11, 12, 13, 14], .threshold 9] ++
  (List.range 10).map (fun i => (6 + i, .vote (5 + i) i 0 [9, 9])) ++ [(105, .forceEther 0)])

/-- A second config with longer batches and another keyper begins with batch 2, at block 120. Up to block 105. -/
def early : World := ofOps (
  schedule 4 [.startBlockNumber 100, .batchSpan 10, .addKeypers [5, 6, 7], .threshold 2, .batchSizeLimit 100, .transactionSizeLimit 20] ++
  schedule 4 [.startBatchIndex 2, .startBlockNumber 120, .batchSpan 20, .addKeypers [8], .threshold 1, .batchSizeLimit 100, .transactionSizeLimit 20] ++
  [(6, .vote 5 0 0 [9]), (7, .vote 6 1 0 [9]), (8, .vote 8 0 2 [8]), (105, .forceEther 0)])

/-- Up to block 151. -/
def late : World := more early [(151, .forceEther 0)]

theorem early_reach : WorldReach env early := ofOps_reach (by decide +kernel)
theorem early_late : WorldLater env early late := run_later (more_run (by decide +kernel))

/-- The proxy is the target. Up to block 101. -/
def openedOps : List (Nat × Op) :=
  schedule 4 [.startBlockNumber 100, .batchSpan 10, .addKeypers [5, 6, 7], .threshold 2, .executionTimeout 30, .batchSizeLimit 100000,
    .transactionSizeLimit 1000, .targetAddress 60, .targetFunctionSelector Target.selector] ++
  [(6, .vote 5 0 0 [9]), (7, .vote 6 1 0 [9]), (101, .forceEther 0)]

def opened : World := ofOps openedOps

open Target.Props.BoardDemo (lib message author) in
def tx : Bytes := Target.encodeMessage lib 61 message 5 author

/-- When the transaction is mined. -/
def before : World := more opened [(102, .addTransaction 21 0 .cipher [1] 0)]

def after : World := (before.step env (.addTransaction 20 0 .plain tx 0)).getD before

def done : World := more after [(140, .skipCipherExecution 98 0), (141, .executePlainBatch 97 0 [tx] [])]

/-- The call made by the executor contract. -/
def calls : List Target.Call := [⟨70, 60, Target.callData Target.selector tx, true, true⟩]

end Demo

open Demo in
/-- **C85** False of the code in general, see `C85_key_partial`: numbers are compared as strings. Of ten keypers ten must vote for a key; the page uses a
key for which two have voted. -/
theorem C85_few_votes_counterexample : ∃ E w p, WorldReach E w ∧ Page.load w w.block = some p ∧ p.config.threshold = 10 ∧ p.config.keypers.length = 10 ∧
    p.eonKey = some [9, 9] ∧ w.voters 0 = [5, 6] :=
  ⟨Sol.Demo.env, two, page two, ofOps_reach (by decide +kernel), by decide +kernel, by decide +kernel,
    by decide +kernel, by decide +kernel, by decide +kernel⟩

open Demo in
/-- **C85** And the other way round: of ten keypers nine must vote for a key; all of them have done so, but the page has no key. -/
theorem C85_many_votes_counterexample : ∃ E w p, WorldReach E w ∧ Page.load w w.block = some p ∧ p.config.threshold = 9 ∧ p.eonKey = none ∧
    (w.votersFor E 0 (E.keccak [9, 9])).length = 10 :=
  ⟨Sol.Demo.env, ten, page ten, ofOps_reach (by decide +kernel), by decide +kernel, by decide +kernel,
    by decide +kernel, by decide +kernel⟩

open Demo in
/-- **C85** False of the code when a further config begins after the page was opened, see `C85_accepted`: the page goes on with the old one. What it sends at
block 150 is for batch 5, and refused in the next block, when batch 3 is open. -/
theorem C85_stale_counterexample : ∃ E w0 w p, WorldReach E w0 ∧ WorldLater E w0 w ∧ w0.block = 105 ∧ w.block = 151 ∧
    Page.load w0 105 = some p ∧ p.send 150 20 .plain [1] = some (.addTransaction 20 5 .plain [1] 0) ∧
    w.step E (.addTransaction 20 5 .plain [1] 0) = none ∧ ∃ w', w.step E (.addTransaction 20 3 .plain [1] 0) = some w' :=
  ⟨Sol.Demo.env, early, late, page early, early_reach, early_late, by decide +kernel, by decide +kernel, by decide +kernel,
    send_eq _ _ _ (by decide +kernel) (by decide +kernel) (by decide), Option.isNone_iff_eq_none.1 (by decide +kernel),
    Option.isSome_iff_exists.1 (by decide +kernel)⟩

open Demo in
/-- **C85** False of the code for later eons: the page always uses the key for the eon that starts with batch 0. Here its transaction at block 151 is for batch
3, for which the keyper of the second config has published another key. -/
theorem C85_first_key_counterexample : ∃ E w p bc, WorldReach E w ∧ w.block = 151 ∧ Page.load w 151 = some p ∧ p.eonKey = some [9] ∧
    p.send 151 20 .cipher [1] = some (.addTransaction 20 3 .cipher [1] 0) ∧ w.config.configForBatchIndex 3 = some bc ∧ bc.startBatchIndex = 2 ∧
    bc.threshold ≤ w.getBestKeyNumVotes 2 ∧ w.getBestKey 2 = [8] :=
  ⟨Sol.Demo.env, late, page late, (page late).config, ⟨_, early_reach.choose_spec.1, early_reach.choose_spec.2.trans early_late⟩, by decide +kernel,
    by decide +kernel, by decide +kernel, send_eq _ _ _ (by decide +kernel) (by decide +kernel) (by decide), by decide +kernel, by decide +kernel,
    by decide +kernel, by decide +kernel⟩

open Demo in
open Target.Props.BoardDemo (lib message author d) in
/-- The hypotheses of `C85_accepted` and of `C85_published` are met: the page is opened at block 101, and sends a message; the transaction is mined in block
102, after a transaction of somebody else; the plain part of the batch is executed at block 141. -/
theorem C85_example : WorldReach Sol.Demo.env opened ∧ WorldLater Sol.Demo.env opened before ∧ Page.load opened 101 = some (page opened) ∧
    opened.block = 101 ∧ before.block = 102 ∧ (page opened).config.batchSpan = 10 ∧ (page opened).eonKey = some [9] ∧
    NoFurtherConfig before.config (page opened).config 104 ∧ HasRoom before (page opened).config 0 tx ∧
    (page opened).send 101 20 .plain tx = some (.addTransaction 20 0 .plain tx 0) ∧
    before.step Sol.Demo.env (.addTransaction 20 0 .plain tx 0) = some after ∧ WorldLater Sol.Demo.env after done ∧ TameReach Sol.Demo.env done ∧
    (0, TxType.plain, [tx]) ∈ done.executions ∧ NoCollision Sol.Demo.env [tx] (done.accepted 0 .plain) ∧
    (page opened).config.targetAddress = d.proxyAddr ∧ (page opened).config.targetFunctionSelector = Target.selector ∧
    Target.FromExecutor d done calls ∧ Target.Unforged lib (· = Target.encodeNatBytes 5 message) author.address calls ∧ (∀ x, (Sol.Demo.env.keccak x).length = 32) ∧
    (Target.State.init.run lib d calls).board.executed = [(author.address, message, 5)] := by
  have r1 : run opened [(102, .addTransaction 21 0 .cipher [1] 0)] = some before := more_run (by decide +kernel)
  have r0 : run Sol.Demo.start openedOps = some opened := more_run (by decide +kernel)
  have r2 : before.step Sol.Demo.env (.addTransaction 20 0 .plain tx 0) = some after := by
    have : (before.step Sol.Demo.env (.addTransaction 20 0 .plain tx 0)).isSome = true := by decide +kernel
    unfold after
    cases hr : before.step Sol.Demo.env (.addTransaction 20 0 .plain tx 0) <;> simp_all
  have flat : ∀ (l : List (Nat × Op)), (l.all (fun x => x.2.nested.isEmpty)) = true → ∀ x ∈ l, x.2.Tame :=
    fun l hl x hx => tame_flat (List.all_eq_true.1 hl x hx)
  have r3 : run after [(140, .skipCipherExecution 98 0), (141, .executePlainBatch 97 0 [tx] [])] = some done := more_run (by decide +kernel)
  have hacc : done.accepted 0 .plain = [tx] := by decide +kernel
  refine ⟨ofOps_reach (by decide +kernel), run_later r1, by decide +kernel, by decide +kernel, by decide +kernel, by decide +kernel, by decide +kernel,
    ?_, ⟨by decide +kernel, by decide +kernel, by decide +kernel, by decide +kernel⟩,
    send_eq _ _ _ (by decide +kernel) (by decide +kernel) (by decide), ?_, run_later r3, ?_, by decide +kernel, ?_, by decide +kernel, by decide +kernel,
    ?_, ?_, ?_, by decide +kernel⟩
  · intro i next h1 h2
    have hl : before.config.scheduled.length = 2 := by decide +kernel
    have hi := (List.getElem?_eq_some_iff.1 h2).1
    have : i = 0 := by omega
    subst this
    exact absurd h1 (by decide +kernel)
  · exact r2
  · refine ⟨Sol.Demo.start, start_deployed, ?_⟩
    exact ((run_tame r0 (flat _ (by decide +kernel))).trans (run_tame r1 (flat _ (by decide +kernel)))).trans
      ((Relation.ReflTransGen.single (TameStep.tx (tame_flat rfl) r2)).trans (run_tame r3 (flat _ (by decide +kernel))))
  · rw [hacc]
    constructor
    · intro x hx y hy _
      simp [chainPreimages] at hx hy
      rw [hx, hy]
    · intro x _
      simp [Sol.Demo.env, Sol.Demo.keccak, zeroHash, List.replicate]
  · unfold Target.FromExecutor; decide +kernel
  · intro c hc payload v r s _ h
    simp only [lib, Target.Lib.signedHash] at h
    split at h
    · next h1 => simpa using h1.1
    · simp at h
  · intro x
    simp [Sol.Demo.env, Sol.Demo.keccak]

end Shutter.Page.Props
