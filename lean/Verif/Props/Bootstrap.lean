import Verif.Proofs.Bootstrap
import Verif.Proofs.DemoBootstrap
import Verif.Props.Validators

/-!
# C88: Bootstrapping makes the keypers of the config the validators, and validators follow the keyper sets

The vocabulary (`Succeeds`, `OnlyPrograms`, `NoReportPending`, `powerOf`) is in `Verif.Spec.Bootstrap`.
-/

namespace Shutter.Bootstrap.Props
open Shutter.App Shutter.Bootstrap

variable {ps : Parsers} {dev : Bool} {log : List Rec} {s : App.State}

/-- **C88** A chain made by the command `init` can be started: for a nonempty list of keypers the application accepts the genesis
document; the only config has these keypers, a threshold of two thirds of them rounded up (which is 1 for a single keyper), and the
node's key is the only validator. -/
theorem C88_init {keypers : List Addr} {key chainId : Bytes} (some_keyper : keypers ≠ []) (size : keypers.length < 2 ^ 62) (len : key.length = 32) :
    GoodGenesis (genesisRequest keypers key chainId) ∧ ∃ s t, initChain (newApp dev) (genesisRequest keypers key chainId) = some s ∧
      s.configs = [⟨0, keypers, t, zeroAddr, 0, false, false⟩] ∧ 2 * keypers.length ≤ 3 * t ∧ 3 * t ≤ 2 * keypers.length + 2 ∧
      (keypers.length = 1 → t = 1) ∧ s.chainID = chainId ∧
      ∀ k, genesisPower (genesisRequest keypers key chainId) k = if k = key then 10 else 0 := by
  have hpos := List.length_pos_iff.2 some_keyper
  have hval : BatchConfig.ensureValid ⟨0, keypers, (2 * keypers.length + 2) / 3, zeroAddr, 0, false, false⟩ = true := by
    rw [ensureValid_iff]
    refine ⟨some_keyper, by simp only; omega, ?_⟩
    simp only
    rw [toInt64_of_lt (by omega)]
    have : (2 * keypers.length + 2) / 3 ≤ keypers.length := by omega
    exact_mod_cast this
  refine ⟨⟨by simp [genesisRequest], by simp [genesisRequest], by simp [genesisRequest]⟩, ?_⟩
  have hi : initChain (newApp dev) (genesisRequest keypers key chainId) = some { updateCheckTxMembers { newApp dev with
      validators := [(key, 10)], configs := [⟨0, keypers, (2 * keypers.length + 2) / 3, zeroAddr, 0, false, false⟩],
      checkTxState := newCheckTxState } with chainID := chainId } := by
    simp only [initChain, genesisRequest, hval, newApp, BatchConfig.zero, genesisPowermap, len, Bool.not_true, Bool.false_eq_true, if_false,
      List.length_nil, and_self, if_true, ne_eq, not_true_eq_false]
    rfl
  refine ⟨_, (2 * keypers.length + 2) / 3, hi, ?_, by omega, by omega, by omega, ?_, ?_⟩
  · rfl
  · rfl
  · intro k
    simp only [genesisPower, genesisRequest, List.filter_cons, List.filter_nil, Option.some.injEq]
    by_cases hk : key = k
    · simp [hk]
    · rw [if_neg (show ¬ k = key from fun h => hk h.symm)]
      simp [hk]

/-- **C88** Which config the command reads: the last one of the schedule if no index is given, otherwise the one with the index; if the
contract has no such config it fails. -/
theorem C88_read {c : Sol.Config} (scheduled : c.scheduled ≠ []) (contract : Addr) (flag : Int) :
    (flag < 0 → (bootstrapMessages c contract flag).map Prod.snd = some (c.scheduled.length - 1)) ∧
    ∀ i : Nat, flag = i → (bootstrapMessages c contract flag).map Prod.snd = if i < c.scheduled.length then some i else none := by
  have hn : c.numConfigs = c.scheduled.length := by simp [Sol.Config.numConfigs, Sol.Config.configs]
  have hl : 0 < c.scheduled.length := List.length_pos_iff.2 scheduled
  have get : ∀ i, i < c.scheduled.length → ∃ bc, GoConfig.getConfigByIndex c i = some bc := by
    intro i hi
    have : i < c.configs.length := by simp [Sol.Config.configs]; omega
    simp [GoConfig.getConfigByIndex, Sol.Config.scheduledConfig, Sol.require, hn, hi, List.getElem?_eq_getElem this]
  constructor
  · intro hf
    obtain ⟨bc, hb⟩ := get (c.scheduled.length - 1) (by omega)
    have hc : chooseIndex c flag = some (c.scheduled.length - 1) := by
      unfold chooseIndex; rw [if_pos hf, hn, if_neg (by omega)]
    simp [bootstrapMessages, hc, hb]
  · rintro i rfl
    have hc : chooseIndex c (i : Int) = some i := by
      unfold chooseIndex; rw [if_neg (by omega)]; simp
    by_cases hi : i < c.scheduled.length
    · obtain ⟨bc, hb⟩ := get i hi
      simp [bootstrapMessages, hc, hb, hi]
    · have : GoConfig.getConfigByIndex c i = none := by
        simp [GoConfig.getConfigByIndex, Sol.Config.scheduledConfig, Sol.require, hn, hi]
      simp [bootstrapMessages, hc, this, hi]

/-- **C88** Bootstrapping works: if the command has reported success and the config's predecessors have threshold 1, then, unless another
config is accepted meanwhile, every later end of a block finds the config started, with the start, keypers and threshold that the config
contract has; and if at least as many of its keypers as its threshold have registered validator keys, these keypers are
Tendermint's validators from this block on, with power 10 each. -/
theorem C88_bootstrap_partial (h : Exec ps false log s) {req : InitRequest} (begins : Begins log req) {c : Sol.Config} {contract : Addr} {flag : Int} {g : Addr}
    {m : BatchConfigMsg} {index : Nat} {pre mid mid' post : List Rec} {r r' e : Rec}
    (success : Succeeds log c contract flag g m index pre r mid r' (mid' ++ e :: post))
    (thresholds : ∀ d ∈ r'.before.configs, d.configIndex < index → d.threshold ≤ 1)
    {height : Nat} (call : e.op = .endBlock height) (calm : e.before.configs.length = r'.after.configs.length) :
    ∃ bc last, GoConfig.getConfigByIndex c index = some bc ∧ e.after.configs.getLast? = some last ∧ last.started = true ∧
      last.configIndex = index ∧ last.startBatchIndex = bc.startBatchIndex ∧ last.keypers = bc.keypers.map Tx.addrBytes ∧
      last.threshold = bc.threshold ∧
      (bc.threshold ≤ registeredOf e.before last.keypers →
        ∀ key, tmValidators (pre ++ r :: mid ++ r' :: mid' ++ [e]) key = powerOf e.before last.keypers key) := by
  obtain ⟨sent, split, first, second⟩ := success
  -- the messages
  have hbc : ∃ bc, GoConfig.getConfigByIndex c index = some bc ∧
      m = ⟨bc.startBatchIndex, bc.keypers.map Tx.addrBytes, bc.threshold, contract, index, false, false⟩ := by
    simp only [bootstrapMessages, Option.bind_eq_bind, Option.bind_eq_some_iff, Option.some.injEq, Prod.mk.injEq] at sent
    obtain ⟨i, _, bc, h1, h2, rfl⟩ := sent
    exact ⟨bc, h1, h2.symm⟩
  obtain ⟨bc, hget, hm⟩ := hbc
  -- the second message
  have split2 : log = (pre ++ r :: mid) ++ r' :: (mid' ++ e :: post) := by rw [split]
  obtain ⟨hE2, o2, m2, d2, _, _, _, _, hok2, _, _, eff2⟩ := h.eff split2 second
  have hst := h.report split2 second
  obtain ⟨h2len, ⟨last2, hlast2, hidx2⟩, hsame, hso⟩ := hst
  -- the first message
  have split1 : log = pre ++ r :: (mid ++ r' :: (mid' ++ e :: post)) := by rw [split]; simp
  obtain ⟨hE1, o1, m1, d1, ho1, _, _, _, hok1, _, _, eff1⟩ := h.eff split1 first
  have hb1 : ∃ b, Asks m b ∧ lastConfig r.after = some b := by
    generalize hmsg : Msg.batchConfig m = msg at eff1
    generalize hsa : r.after = sa at eff1
    cases eff1 with
    | rejected => simp [errorResponse] at hok1
    | configKnown m' b h1 h2 => cases hmsg; exact ⟨b, asks_iff.1 h1, h2⟩
    | configVoted m' b last cv h1 h2 h3 h4 h5 h6 =>
      exfalso
      cases hmsg
      -- the config before has threshold 1
      have hle : (ids r.before) <+: (ids r'.before) := by
        refine (hE2.ids_mono r (by simp)).1 ⟨last, getLast?_mem h2, ?_⟩
        intro hn
        have := isKeyper_iff.1 h4
        rw [hn] at this; cases this
      have hmem : last.erase ∈ ids r'.before := hle.subset (List.mem_map_of_mem (getLast?_mem h2))
      obtain ⟨d, hd, hde⟩ := List.mem_map.1 hmem
      have hdi : d.configIndex = last.configIndex := by have := congrArg BatchConfig.configIndex hde; exact this
      have hdt : d.threshold = last.threshold := by have := congrArg BatchConfig.threshold hde; exact this
      have hlt : last.configIndex < b.configIndex := by
        have := checkConfig_iff.1 h3
        exact this.2.2
      have hbi : b.configIndex = index := by rw [← (asks_iff.1 h1).index, hm]
      have ht := thresholds d hd (by omega)
      rw [hdt] at ht
      have ht' : toInt64 last.threshold ≤ 1 := by rw [toInt64_of_lt (by omega)]; exact_mod_cast ht
      have hvote : ∃ i, (g, i) ∈ cv.votes := by
        unfold ConfigVoting.addVote at h5
        split at h5
        · cases h5
        · have hV := (hE1.inv.cv _ (ids_getLast? h2))
          split at h5 <;>
          · simp only [Option.some.injEq] at h5
            subst h5
            exact ⟨_, (mem_setVote hV.nodup).2 (Or.inl rfl)⟩
      obtain ⟨i, hi⟩ := hvote
      unfold outcomeIndex at h6
      rw [List.find?_eq_none] at h6
      have := h6 i ((ho1.idx _).mem_iff.2 (List.mem_dedup.2 (List.mem_map.2 ⟨_, hi, rfl⟩)))
      simp only [decide_eq_true_eq, not_le] at this
      have h0 : 0 < countVotes cv.votes i := List.countP_pos_iff.2 ⟨_, hi, by simp⟩
      omega
    | configAdded m' b last cv i h1 => cases hmsg; exact ⟨b, asks_iff.1 h1, by simp [added, updateCheckTxMembers, lastConfig]⟩
    | configAddedDKG m' b last cv i h1 => cases hmsg; exact ⟨b, asks_iff.1 h1, by simp [added, updateCheckTxMembers, lastConfig, startDKG]⟩
    | _ => simp at hmsg
  obtain ⟨b, hasks, hlast1⟩ := hb1
  -- the last config is the same
  have hb2 : last2.erase = b.erase := by
    have hkeep : ids r.after <+: ids r'.before := by
      have hi1 : App.Inv r.after := by
        obtain ⟨_, o, ho, hst⟩ := h.at split1
        exact (hE1.step o _ _ _ ho hst).inv
      refine (hE2.ids_mono r (by simp)).2 ⟨b, getLast?_mem hlast1, ?_⟩
      have hpos : 0 < index := by
        obtain ⟨c0, rest, hc0, _, hz⟩ := hE2.inv.cfg.first
        have hlen : 2 ≤ (ids r'.before).length := by rw [length_ids, ← hsame]; exact h2len
        have hpw := hE2.inv.cfg.index
        have hmem2 := ids_getLast? hlast2
        rw [hc0] at hlen hpw hmem2
        cases rest with
        | nil => simp at hlen
        | cons c1 rest =>
          rw [List.getLast?_cons_cons] at hmem2
          have := (List.pairwise_cons.1 hpw).1 _ (List.mem_of_getLast? hmem2)
          simp only [erase_index, hidx2, hz] at this
          exact this
      have hbi : b.configIndex = index := by rw [← hasks.index, hm]
      rcases hi1.cfg.valid _ (List.mem_map_of_mem (getLast?_mem hlast1)) with h1 | ⟨h1, _⟩
      · rw [erase_valid, ensureValid_iff] at h1
        exact h1.1
      · obtain ⟨c0, rest, hc0, _, hz⟩ := hi1.cfg.first
        rw [h1] at hc0
        simp only [List.cons.injEq] at hc0
        have : b.erase.configIndex = 0 := by rw [hc0.1]; exact hz
        simp only [erase_index] at this
        omega
    have hmem : b.erase ∈ ids r'.before := hkeep.subset (List.mem_map_of_mem (getLast?_mem hlast1))
    have hmem2 : last2.erase ∈ ids r'.before := List.mem_map_of_mem (getLast?_mem hlast2)
    refine index_inj hE2.inv.cfg.index hmem2 hmem ?_
    simp only [erase_index, hidx2]
    rw [← hasks.index, hm]
  -- the end of the block
  have split3 : log = (pre ++ r :: mid ++ r' :: mid') ++ e :: post := by rw [split]; simp
  have hr' : r' ∈ pre ++ r :: mid ++ r' :: mid' := by simp
  have hbs := Begins.snoc begins split3
  obtain ⟨hE3, o3, ho3, hst3⟩ := h.at split3
  have hE3' : Exec ps false (pre ++ r :: mid ++ r' :: mid' ++ [e]) e.after := hE3.step o3 _ _ _ ho3 hst3
  obtain ⟨_, ht⟩ := hE3'.tmValidators (Begins.once hbs)
  rw [call] at hst3
  simp only [App.step, Option.map_eq_some_iff, Prod.mk.injEq] at hst3
  obtain ⟨⟨s₁, ups'⟩, hi, he, hu'⟩ := hst3
  simp only at he hu'
  subst he
  have hso3 : StartedOr g e.before := hE3.startedOr hr' h2len calm hso
  -- the configs at the end of the block
  have hids : ids e.before = ids r'.before := by
    have hk : ∃ c ∈ r'.after.configs, c.keypers ≠ [] := by
      rw [hsame]
      refine ⟨last2, getLast?_mem hlast2, ?_⟩
      rcases hE2.inv.cfg.valid _ (List.mem_map_of_mem (getLast?_mem hlast2)) with h1 | ⟨h1, _⟩
      · rw [erase_valid, ensureValid_iff] at h1
        exact h1.1
      · have := congrArg List.length h1
        rw [length_ids, ← hsame] at this
        simp at this
        omega
    have hpre := (hE3.ids_mono r' hr').2 hk
    have he2 : ids r'.after = ids r'.before := by simp [ids, hsame]
    rw [← he2]
    exact (hpre.eq_of_length (by rw [length_ids, length_ids, calm])).symm
  have hlen3 : 2 ≤ e.before.configs.length := by omega
  obtain ⟨prev, hprev⟩ := length_sub_two hlen3
  have hprevt : prev.threshold ≤ 1 := by
    have h1 : (ids r'.before)[e.before.configs.length - 2]? = some prev.erase := by
      rw [← hids]; simp [ids, hprev]
    simp only [ids, List.getElem?_map, Option.map_eq_some_iff] at h1
    obtain ⟨d, hd, hde⟩ := h1
    have hdt : d.threshold = prev.threshold := by have := congrArg BatchConfig.threshold hde; exact this
    rw [← hdt]
    refine thresholds d (List.mem_of_getElem? hd) ?_
    rw [← hidx2]
    have hpw : r'.before.configs.Pairwise (fun c d => c.configIndex < d.configIndex) := by
      have := hE2.inv.cfg.index
      unfold ids at this
      rw [List.pairwise_map] at this
      exact this
    have hl2 : r'.before.configs[r'.before.configs.length - 1]? = some last2 := by rw [← List.getLast?_eq_getElem?]; exact hlast2
    have hlen' : e.before.configs.length = r'.before.configs.length := by rw [calm, hsame]
    rw [List.pairwise_iff_getElem] at hpw
    obtain ⟨i1, rfl⟩ := List.getElem?_eq_some_iff.1 hd
    obtain ⟨i2, rfl⟩ := List.getElem?_eq_some_iff.1 hl2
    exact hpw _ _ i1 i2 (by omega)
  obtain ⟨last3, hl3, hv3⟩ := hso3
  obtain ⟨last4, hl4, her, hstarted, hident, hfind⟩ := endBlock_starts hi hl3 hlen3 hprev
    (hv3.imp_right (fun hm => le_trans hprevt (List.length_pos_of_mem hm)))
  have her2 : last4.erase = b.erase := by
    rw [her, ← hb2]
    have h1 := ids_getLast? hl3
    rw [hids, ids_getLast? hlast2] at h1
    simpa using h1.symm
  have f1 : last4.configIndex = b.configIndex := by have := congrArg BatchConfig.configIndex her2; exact this
  have f2 : last4.startBatchIndex = b.startBatchIndex := by have := congrArg BatchConfig.startBatchIndex her2; exact this
  have f3 : last4.keypers = b.keypers := by have := congrArg BatchConfig.keypers her2; exact this
  have f4 : last4.threshold = b.threshold := by have := congrArg BatchConfig.threshold her2; exact this
  have f5 : last4.keypers = last3.keypers := by have := congrArg BatchConfig.keypers her; exact this
  have f6 : last4.threshold = last3.threshold := by have := congrArg BatchConfig.threshold her; exact this
  refine ⟨bc, last4, hget, hl4, hstarted, by rw [f1, ← hasks.index, hm], by rw [f2, ← hasks.start, hm], by rw [f3, ← hasks.keypers, hm],
    by rw [f4, ← hasks.threshold, hm], fun hreg key => ?_⟩
  have hin := hfind (by rw [← f5, ← f6, f4, ← hasks.threshold, hm]; exact hreg)
  obtain ⟨_, _, _, _, _, hv⟩ := endBlock_validators ho3 hE3.validators hi
  rw [hin] at hv
  simp only at hv
  rw [ht, hv, makePowermap_get]
  rfl

/-- **C88** Bootstrapping with several genesis keypers: if as many of them as the threshold of each earlier config have got their reports accepted
that the config has started, and nobody has asked for another config of the same number, then at the end of a block at which
it is still the latest config it is started, with the start, keypers and threshold that the config contract has; and if at least as many of
its keypers as its threshold have registered validator keys, these keypers are Tendermint's validators from this block on. -/
theorem C88_several_partial (h : Exec ps false log s) {req : InitRequest} (begins : Begins log req) {c : Sol.Config} {contract : Addr} {flag : Int}
    {m : BatchConfigMsg} {index : Nat} (sent : bootstrapMessages c contract flag = some (m, index)) {pre post : List Rec} {e : Rec}
    (split : log = pre ++ e :: post) {height : Nat} (call : e.op = .endBlock height)
    (agreed : ∀ r ∈ log, ∀ a m', r.Accepts a (.batchConfig m') → m'.configIndex = index → m' = m)
    {gs : List Addr} (different : gs.Nodup) (someone : gs ≠ [])
    (reports : ∀ g ∈ gs, ∃ r ∈ pre, r.Accepts g (.batchConfigStarted index))
    (enough : ∀ d ∈ e.before.configs, d.configIndex < index → d.threshold ≤ gs.length)
    (calm : ∀ d ∈ e.before.configs, d.configIndex ≤ index) :
    ∃ bc last, GoConfig.getConfigByIndex c index = some bc ∧ e.after.configs.getLast? = some last ∧ last.started = true ∧
      last.configIndex = index ∧ last.startBatchIndex = bc.startBatchIndex ∧ last.keypers = bc.keypers.map Tx.addrBytes ∧
      last.threshold = bc.threshold ∧
      (bc.threshold ≤ registeredOf e.before last.keypers →
        ∀ key, tmValidators (pre ++ [e]) key = powerOf e.before last.keypers key) := by
  have hbc : ∃ bc, GoConfig.getConfigByIndex c index = some bc ∧
      m = ⟨bc.startBatchIndex, bc.keypers.map Tx.addrBytes, bc.threshold, contract, index, false, false⟩ := by
    simp only [bootstrapMessages, Option.bind_eq_bind, Option.bind_eq_some_iff, Option.some.injEq, Prod.mk.injEq] at sent
    obtain ⟨i, _, bc, h1, h2, rfl⟩ := sent
    exact ⟨bc, h1, h2.symm⟩
  obtain ⟨bc, hget, hm⟩ := hbc
  have hbs := Begins.snoc begins split
  obtain ⟨hE, o3, ho3, hst3⟩ := h.at split
  have hE3' : Exec ps false (pre ++ [e]) e.after := hE.step o3 _ _ _ ho3 hst3
  obtain ⟨_, ht⟩ := hE3'.tmValidators (Begins.once hbs)
  rw [call] at hst3
  simp only [App.step, Option.map_eq_some_iff, Prod.mk.injEq] at hst3
  obtain ⟨⟨s₁, ups'⟩, hi, he, hu'⟩ := hst3
  simp only at he hu'
  subst he
  -- the reports
  have hrep : ∀ g ∈ gs, StartedOr g e.before ∧ 2 ≤ e.before.configs.length ∧ ∃ last, lastConfig e.before = some last ∧ last.configIndex = index := by
    intro g hg
    obtain ⟨r, hr, hacc⟩ := reports g hg
    obtain ⟨p1, p2, hsp⟩ := List.append_of_mem hr
    obtain ⟨h2, ⟨last, hlast, hidx⟩, hsame, hso⟩ := hE.report hsp hacc
    have hEr : Exec ps false p1 r.before := (hE.eff hsp hacc).1
    have hk : ∃ c ∈ r.after.configs, c.keypers ≠ [] := by
      rw [hsame]
      refine ⟨last, getLast?_mem hlast, ?_⟩
      rcases hEr.inv.cfg.valid _ (List.mem_map_of_mem (getLast?_mem hlast)) with h1 | ⟨h1, _⟩
      · rw [erase_valid, ensureValid_iff] at h1
        exact h1.1
      · have := congrArg List.length h1
        rw [length_ids, ← hsame] at this
        simp at this
        omega
    have hpre := (hE.ids_mono r hr).2 hk
    have hids : ids r.after = ids r.before := by simp [ids, hsame]
    have hlen : e.before.configs.length = r.after.configs.length := by
      obtain ⟨t, ht⟩ := hpre
      have hl2 := congrArg List.length ht
      rw [List.length_append, length_ids, length_ids] at hl2
      cases t with
      | nil => simp at hl2; omega
      | cons x xs =>
        exfalso
        have hpw := hE.inv.cfg.index
        rw [← ht, List.pairwise_append] at hpw
        have h3 := hpw.2.2 last.erase (by rw [hids]; exact List.mem_map_of_mem (getLast?_mem hlast)) x (by simp)
        have hx : x ∈ ids e.before := by rw [← ht]; simp
        obtain ⟨d, hd, rfl⟩ := List.mem_map.1 hx
        have := calm d hd
        simp only [erase_index, hidx] at h3
        omega
    refine ⟨hE.startedOr hr h2 hlen hso, by omega, ?_⟩
    have h4 : ids e.before = ids r.before := by
      rw [← hids]; exact (hpre.eq_of_length (by rw [length_ids, length_ids, hlen])).symm
    have h5 := ids_getLast? hlast
    rw [← h4] at h5
    simp only [ids, List.getLast?_map, Option.map_eq_some_iff] at h5
    obtain ⟨l, hl, hle⟩ := h5
    refine ⟨l, hl, ?_⟩
    have := congrArg BatchConfig.configIndex hle
    simpa [BatchConfig.erase, hidx] using this
  obtain ⟨g0, hg0⟩ := List.exists_mem_of_ne_nil _ someone
  obtain ⟨_, hlen3, last3, hl3, hidx3⟩ := hrep g0 hg0
  obtain ⟨prev, hprev⟩ := length_sub_two hlen3
  have hpw : e.before.configs.Pairwise (fun c d => c.configIndex < d.configIndex) := by
    have := hE.inv.cfg.index
    unfold ids at this
    rw [List.pairwise_map] at this
    exact this
  have hprevlt : prev.configIndex < index := by
    rw [← hidx3]
    have hl2 : e.before.configs[e.before.configs.length - 1]? = some last3 := by rw [← List.getLast?_eq_getElem?]; exact hl3
    rw [List.pairwise_iff_getElem] at hpw
    obtain ⟨i1, rfl⟩ := List.getElem?_eq_some_iff.1 hprev
    obtain ⟨i2, rfl⟩ := List.getElem?_eq_some_iff.1 hl2
    exact hpw _ _ i1 i2 (by omega)
  have hprevt := enough prev (List.mem_of_getElem? hprev) hprevlt
  have hv : last3.started = true ∨ prev.threshold ≤ e.before.startedVotes.length := by
    by_cases hs : last3.started = true
    · exact Or.inl hs
    · right
      have hsub : gs ⊆ e.before.startedVotes := by
        intro g hg
        obtain ⟨⟨l, hl, hv⟩, _⟩ := hrep g hg
        have : l = last3 := by have := hl.symm.trans hl3; simpa using this
        subst this
        exact hv.resolve_left hs
      exact le_trans hprevt (different.subperm hsub).length_le
  -- where the config comes from
  obtain ⟨b, hasks, hb⟩ : ∃ b, Asks m b ∧ last3.erase = b.erase := by
    obtain ⟨r, hr, a, m', b, hacc, hasks, hbe⟩ := hE.config_origin last3.erase (List.mem_map_of_mem (getLast?_mem hl3)) (by
      simp only [erase_index]; omega)
    have hbi : b.configIndex = index := by rw [← hidx3]; have := congrArg BatchConfig.configIndex hbe; simpa [BatchConfig.erase] using this
    have := agreed r (by rw [split]; simp [hr]) a m' hacc (by rw [hasks.index, hbi])
    exact ⟨b, this ▸ hasks, hbe.symm⟩
  obtain ⟨last4, hl4, her, hstarted, hident, hfind⟩ := endBlock_starts hi hl3 hlen3 hprev hv
  have her2 : last4.erase = b.erase := by rw [her, hb]
  have f1 : last4.configIndex = b.configIndex := by have := congrArg BatchConfig.configIndex her2; exact this
  have f2 : last4.startBatchIndex = b.startBatchIndex := by have := congrArg BatchConfig.startBatchIndex her2; exact this
  have f3 : last4.keypers = b.keypers := by have := congrArg BatchConfig.keypers her2; exact this
  have f4 : last4.threshold = b.threshold := by have := congrArg BatchConfig.threshold her2; exact this
  have f5 : last4.keypers = last3.keypers := by have := congrArg BatchConfig.keypers her; exact this
  have f6 : last4.threshold = last3.threshold := by have := congrArg BatchConfig.threshold her; exact this
  refine ⟨bc, last4, hget, hl4, hstarted, by rw [f1, ← hasks.index, hm], by rw [f2, ← hasks.start, hm], by rw [f3, ← hasks.keypers, hm],
    by rw [f4, ← hasks.threshold, hm], fun hreg key => ?_⟩
  have hin := hfind (by rw [← f5, ← f6, f4, ← hasks.threshold, hm]; exact hreg)
  obtain ⟨_, _, _, _, _, hv⟩ := endBlock_validators ho3 hE.validators hi
  rw [hin] at hv
  simp only at hv
  rw [ht, hv, makePowermap_get]
  rfl

/-- **C88** One genesis keyper alone cannot bootstrap a chain of several: if the threshold of the genesis config is at least 2 and all messages
delivered are from the same sender, none of its reports is accepted, so the command never succeeds. -/
theorem C88_alone (h : Exec ps dev log s) {req : InitRequest} (begins : Begins log req) {keypers : List Addr} {t : Nat}
    (genesis : req.genesis = some (keypers, t)) (several : 2 ≤ t) (small : t < 2 ^ 63) {g : Addr} (alone : ∀ r ∈ log, ∀ a m, r.Delivers a m → a = g) :
    (∀ r ∈ log, ∀ a index, ¬ r.Accepts a (.batchConfigStarted index)) ∧
    ∀ c contract flag m index pre r mid r' post, ¬ Succeeds log c contract flag g m index pre r mid r' post := by
  have main : ∀ pre post s', log = pre ++ post → pre ≠ [] → Exec ps dev pre s' → s'.configs.length = 1 ∧ ∀ c ∈ s'.configs, c.threshold = t := by
    intro pre
    induction pre using List.reverseRecOn with
    | nil => intro _ _ _ h; exact absurd rfl h
    | append_singleton pre x ih =>
      intro post s' hlog _ hE'
      have hx : pre ++ [x] = pre ++ x :: [] := rfl
      obtain ⟨hE, o, ho, hst⟩ := hE'.at hx
      have hs' : s' = x.after := hE'.state_unique (hE.step o _ _ _ ho hst)
      rw [hs']
      rw [List.append_assoc] at hlog
      cases pre with
      | nil =>
        obtain ⟨r0, rest, hl, hop, _⟩ := begins
        rw [hl] at hlog
        simp only [List.nil_append, List.singleton_append, List.cons.injEq] at hlog
        have hxx : x = r0 := hlog.1.symm
        subst hxx
        rw [hop] at hst
        simp only [App.step, Option.map_eq_some_iff] at hst
        obtain ⟨s₁, hi, he⟩ := hst
        simp only [Prod.mk.injEq] at he
        obtain ⟨he1, _⟩ := he
        rw [← he1]
        rcases initChain_cases hi with ⟨ks, t', c', pm, hg, _, _, _, _, rfl⟩ | ⟨rfl, c, hc, hv⟩
        · rw [genesis] at hg
          simp only [Option.some.injEq, Prod.mk.injEq] at hg
          simp [hg.2]
        · have h0 := (Exec.start (ps := ps) (dev := dev)).state_unique hE
          rw [← h0] at hc
          simp [newApp] at hc
          subst hc
          simp [BatchConfig.ensureValid, BatchConfig.zero] at hv
      | cons y ys =>
        obtain ⟨i1, i2⟩ := ih ([x] ++ post) x.before (by rw [hlog]) (by simp) hE
        have hid : ∀ c ∈ ids x.before, c.threshold = t := by
          intro c hc
          obtain ⟨d, hd, rfl⟩ := List.mem_map.1 hc
          exact i2 d hd
        have of_ids : ids x.after = ids x.before → x.after.configs.length = 1 ∧ ∀ c ∈ x.after.configs, c.threshold = t := by
          intro he
          refine ⟨by rw [← length_ids, he, length_ids, i1], fun c hc => ?_⟩
          have := hid c.erase (by rw [← he]; exact List.mem_map_of_mem hc)
          exact this
        have hin : x ∈ log := by rw [hlog]; simp
        by_cases hgrow : x.before.configs.length < x.after.configs.length
        · exfalso
          obtain ⟨last, bc, hl, _, hq⟩ := App.Props.C22_config_quorum hE' hx hgrow
          have hlt := i2 last (getLast?_mem hl)
          obtain ⟨voters, hcard, hvot⟩ := hq (by omega)
          have : voters ⊆ {g} := by
            intro a ha
            obtain ⟨_, v, hv, ⟨m, ⟨mw, _, hop, _⟩, _⟩, _⟩ := hvot a ha
            rw [Finset.mem_singleton]
            refine alone v ?_ a mw hop
            rw [hlog, ← List.append_assoc]
            exact List.mem_append_left _ hv
          have := Finset.card_le_card this
          simp at this
          omega
        · apply of_ids
          cases hop : x.op with
          | initChain req' =>
            exact absurd hop (not_initChain begins (pre := y :: ys) (post := [x] ++ post) hlog (by simp) (by simp) req')
          | checkTx tx =>
            rw [hop] at hst
            simp only [App.step, Option.some.injEq, Prod.mk.injEq] at hst
            obtain ⟨c, hc⟩ := checkTx_eq (s := x.before) (tx := tx)
            rw [← hst.1, hc]; rfl
          | commit =>
            rw [hop] at hst
            simp only [App.step, Option.some.injEq, Prod.mk.injEq] at hst
            rw [← hst.1]; rfl
          | deliverTx tx =>
            rw [hop] at hst
            rcases deliver_eff hst with he | ⟨a, m, d, hE', htx, hr⟩
            · rw [he]
            · rcases eff_configs hE' with he | ⟨b, last, _, _, he⟩
              · simp [ids, he, withNonce]
              · rw [he] at hgrow
                simp [withNonce] at hgrow
          | endBlock ht =>
            rw [hop] at hst
            simp only [App.step, Option.map_eq_some_iff] at hst
            obtain ⟨⟨s₁, ups⟩, hi, he⟩ := hst
            simp only [Prod.mk.injEq] at he
            rw [← he.1, ids_endBlock hi]
  have none : ∀ r ∈ log, ∀ a index, ¬ r.Accepts a (.batchConfigStarted index) := by
    intro r hr a index hacc
    obtain ⟨p1, p2, hsp⟩ := List.append_of_mem hr
    obtain ⟨h2, _, hsame, _⟩ := h.report hsp hacc
    have hE := (h.eff hsp hacc).1
    have hne : p1 ≠ [] := by
      rintro rfl
      obtain ⟨r0, rest, hl, hop, _⟩ := begins
      rw [hl] at hsp
      simp only [List.nil_append, List.cons.injEq] at hsp
      obtain ⟨mw, _, hop', _⟩ := hacc
      rw [hsp.1] at hop
      rw [hop] at hop'
      cases hop'
    have := (main p1 (r :: p2) r.before hsp hne hE).1
    rw [hsame] at h2
    omega
  exact ⟨none, fun c contract flag m index pre r mid r' post hs => none r' (by rw [hs.split]; simp) g index hs.second⟩

/-- **C88** What is false: the validators do not follow later keyper sets. No keyper program ever reports that a config has started. So when
only keyper programs send messages (and no report is pending), no block starts a config any more, the configs accepted from now on are never
started, and a key that has no power now and is not registered by a keyper of the configs accepted so far (for example the key of a keyper who
joins with a later config) never gets any. -/
theorem C88_frozen {pre post : List Rec} {t : App.State} {req : InitRequest} (now : Exec ps false pre t) (h : Exec ps false (pre ++ post) s)
    (begins : Begins (pre ++ post) req) (started : pre ≠ []) (quiet : NoReportPending pre) (programs : OnlyPrograms post) :
    (∀ r ∈ post, ¬ r.Starts) ∧
    (∀ (i : Nat) (c : BatchConfig), t.configs.length ≤ i → s.configs[i]? = some c → c.started = false) ∧
    ∀ key, tmValidators pre key = 0 → key ≠ nonExistentValidator → (∀ c ∈ t.configs, ∀ a ∈ c.keypers, s.identities a ≠ some key) →
      tmValidators (pre ++ post) key = 0 := by
  -- the invariant at every later moment
  have frz : ∀ pre' post', post = pre' ++ post' → ∀ s', Exec ps false (pre ++ pre') s' → Frozen t s' := by
    intro pre' post' hp s' hE
    subst hp
    rw [← List.append_assoc] at begins
    exact now.frozen hE (Begins.left begins (by simp [started])) started quiet (App.OnlyPrograms.left programs)
  refine ⟨?_, (frz post [] (by simp) s h).later, ?_⟩
  · intro r hr ⟨⟨ht, hop⟩, c, c', h1, h2, h3, h4⟩
    obtain ⟨pre', post', rfl⟩ := List.append_of_mem hr
    obtain ⟨hE, o, ho, hst⟩ := h.at (pre := pre ++ pre') (r := r) (post := post') (by simp)
    have f := frz pre' (r :: post') rfl _ hE
    rw [hop] at hst
    simp only [App.step, Option.map_eq_some_iff, Prod.mk.injEq] at hst
    obtain ⟨⟨s₁, ups⟩, hi, he, _⟩ := hst
    simp only at he
    subst he
    have := (endBlock_frozen hi hE.inv f).2 c c' h1 h2
    rw [this, h3] at h4
    cases h4
  · intro key h0 hne hkeys
    have hb0 := Begins.left begins started
    rw [(h.tmValidators (Begins.once begins)).2]
    rw [(now.tmValidators (Begins.once hb0)).2] at h0
    refine Exec.after_ind (fun s' => s'.validators.get key = 0) now h h0 ?_
    intro pre' r post' hp hE ⟨o, ho, hst⟩ ih
    have hr : r ∈ post := by rw [hp]; simp
    have f := frz pre' (r :: post') hp _ hE
    have hmono : ∀ a, r.before.identities a = some key → s.identities a = some key := fun a ha =>
      h.identities_mono r (by simp [hr]) a key (Or.inl ha)
    have fa : Frozen t r.after := frz (pre' ++ [r]) post' (by rw [hp]; simp) _ (by
      rw [← List.append_assoc]; exact hE.step o _ _ _ ho hst)
    obtain ⟨s₀, op, resp, s₁⟩ := r
    simp only at hst f hE ih hmono fa ⊢
    cases op with
    | initChain req' => exact absurd rfl (not_initChain begins rfl started hr req')
    | checkTx tx =>
      simp only [App.step, Option.some.injEq, Prod.mk.injEq] at hst
      obtain ⟨rfl, rfl⟩ := hst
      obtain ⟨c, hc⟩ := checkTx_eq (s := s₀) (tx := tx)
      rw [hc]; exact ih
    | commit =>
      simp only [App.step, Option.some.injEq, Prod.mk.injEq] at hst
      obtain ⟨rfl, rfl⟩ := hst
      exact ih
    | deliverTx tx =>
      rcases deliver_eff hst with rfl | ⟨a, m, d, hE', _, _⟩
      · exact ih
      · rw [(eff_rest hE').1]; exact ih
    | endBlock ht =>
      simp only [App.step, Option.map_eq_some_iff] at hst
      obtain ⟨⟨s₂, ups⟩, hi, he⟩ := hst
      simp only [Prod.mk.injEq] at he
      obtain ⟨rfl, rfl⟩ := he
      obtain ⟨_, _, _, _, _, hv⟩ := endBlock_validators ho hE.validators hi
      cases hf : s₂.configs.reverse.find? (fun c => c.started && c.validatorsUpdated) with
      | none => rw [hf] at hv; simp only at hv; rw [hv]; exact ih
      | some c =>
        rw [hf] at hv
        simp only at hv
        rw [hv, makePowermap_get]
        have hst := List.find?_some hf
        simp only [Bool.and_eq_true] at hst
        -- the config is one of the old ones
        obtain ⟨i, hi'⟩ := List.getElem?_of_mem (find_mem hf)
        have hlt : i < t.configs.length := by
          by_contra hge
          have := fa.later i c (by omega) hi'
          rw [this] at hst
          cases hst.1
        have hd := fa.ids
        have hti : (ids t)[i]? = some c.erase := by
          have h1 : (ids s₂)[i]? = some c.erase := by simp [ids, hi']
          obtain ⟨rest, hrest⟩ := hd
          rw [← hrest, List.getElem?_append_left (by rw [length_ids]; exact hlt)] at h1
          exact h1
        simp only [ids, List.getElem?_map, Option.map_eq_some_iff] at hti
        obtain ⟨d, hd, hde⟩ := hti
        have hk : d.keypers = c.keypers := by have := congrArg BatchConfig.keypers hde; exact this
        have hz : c.keypers.countP (fun a => decide ((s₀.identities a).getD nonExistentValidator = key)) = 0 := by
          rw [List.countP_eq_zero]
          intro a ha
          simp only [decide_eq_true_eq]
          intro hx
          cases hid : s₀.identities a with
          | none => rw [hid] at hx; exact hne hx.symm
          | some k =>
            rw [hid] at hx
            simp only [Option.getD_some] at hx
            subst hx
            exact hkeys d (List.mem_of_getElem? hd) a (by rw [hk]; exact ha) (hmono a hid)
        rw [hz]
        rfl

/-- **C88** What is false: a config that another follows before its validators are in force is never used for the validators. If no config
is in force when a config is accepted, no report is pending, and from then on only keyper programs send messages, then the validators
are those of the genesis document for ever. -/
theorem C88_superseded (h : Exec ps false log s) {req : InitRequest} (begins : Begins log req) {pre post : List Rec} {r : Rec}
    (split : log = pre ++ r :: post) (quiet : NoReportPending pre) (programs : OnlyPrograms (r :: post)) {c : BatchConfig}
    (accepted : r.after.configs = r.before.configs ++ [c]) (none : ∀ d ∈ r.before.configs, d.started = false ∨ d.validatorsUpdated = false) :
    tmValidators log = genesisPower req := by
  have hne : pre ≠ [] := by
    rintro rfl
    obtain ⟨hE, o, ho, hst⟩ := h.at split
    obtain ⟨r0, rest, h1, h2, _⟩ := begins
    rw [split] at h1
    simp only [List.nil_append, List.cons.injEq] at h1
    rw [h1.1, h2] at hst
    rw [← h1.1] at hst
    simp only [App.step, Option.map_eq_some_iff, Prod.mk.injEq] at hst
    obtain ⟨s₁, hi, he, _⟩ := hst
    subst he
    rcases initChain_cases hi with ⟨ks, t, c0, pm, _, _, hc, _, _, hs⟩ | ⟨hs, _⟩
    · have h3 : r.after.configs.length = 1 := by rw [hs]; rfl
      have h4 : r.before.configs.length = 1 := by rw [hc]; rfl
      rw [accepted] at h3
      simp [h4] at h3
    · have h3 : r.after.configs = r.before.configs := by rw [hs]
      rw [accepted] at h3
      simp at h3
  obtain ⟨hE, o, ho, hst⟩ := h.at split
  have hk : r.before.configs ≠ [] := by
    intro h0
    obtain ⟨c0, rest, hc0, _⟩ := hE.inv.cfg.first
    simp [ids, h0] at hc0
  have f : Frozen r.before s := hE.frozen (post := r :: post) (by rw [← split]; exact h) (by rw [← split]; exact begins) hne quiet programs
  have hpre : r.before.configs <+: s.configs := h.superseded (by rw [split]; simp) hk accepted
  rw [(h.tmValidators (Begins.once begins)).2]
  rcases h.genesisOr begins with h1 | ⟨d, hd, f1, f2⟩
  · exact h1
  · exfalso
    obtain ⟨i, hi⟩ := List.getElem?_of_mem hd
    by_cases hlt : i < r.before.configs.length
    · obtain ⟨rest, hrest⟩ := hpre
      rw [← hrest, List.getElem?_append_left hlt] at hi
      rcases none d (List.mem_of_getElem? hi) with h1 | h1
      · rw [h1] at f1; cases f1
      · rw [h1] at f2; cases f2
    · have := f.later i d (by omega) hi
      rw [this] at f1; cases f1

theorem split_three {α : Type} {l : List α} (i j n : Nat) {x y z : α} (hx : l[i]? = some x) (hy : (l.drop (i + 1))[j]? = some y)
    (hz : ((l.drop (i + 1)).drop (j + 1))[n]? = some z) :
    l = l.take i ++ x :: (l.drop (i + 1)).take j ++ y :: (((l.drop (i + 1)).drop (j + 1)).take n ++ z :: ((l.drop (i + 1)).drop (j + 1)).drop (n + 1)) := by
  have key : ∀ (m : List α) (a : Nat) (w : α), m[a]? = some w → m = m.take a ++ w :: m.drop (a + 1) := by
    intro m a w h
    obtain ⟨ha, rfl⟩ := List.getElem?_eq_some_iff.1 h
    simp
  rw [← key _ _ _ hz]
  rw [List.append_assoc, List.cons_append, ← key _ _ _ hy, ← key _ _ _ hx]

open Demo in
open Shutter.App.Demo (k pk stateOf) in
/-- In the demo the genesis keyper 9 bootstraps the chain with config number 1 (keypers 5, 6 and 7, threshold 2); two of them check in. The
hypotheses of the theorems are met: after block 3 the keypers are the validators and the genesis key is none. Then config number 2 is
accepted, with keyper 8; the hypotheses of `C88_frozen` are met, and 8 is not a validator though it has checked in. -/
theorem C88_example : Exec App.Demo.ps false Demo.log (stateOf false bootOps) ∧ Begins Demo.log bootReq ∧
    (∃ pre r mid r' mid' e post, Succeeds Demo.log contractState (k 99) (-1) (k 9) m1 1 pre r mid r' (mid' ++ e :: post) ∧
      (∀ d ∈ r'.before.configs, d.configIndex < 1 → d.threshold ≤ 1) ∧ e.op = .endBlock 3 ∧ e.before.configs.length = r'.after.configs.length ∧
      2 ≤ registeredOf e.before [k 5, k 6, k 7] ∧
      (tmValidators (pre ++ r :: mid ++ r' :: mid' ++ [e]) (pk 5), tmValidators (pre ++ r :: mid ++ r' :: mid' ++ [e]) (pk 9)) = (10, 0)) ∧
    ∃ pre post t, Demo.log = pre ++ post ∧ Exec App.Demo.ps false pre t ∧ pre ≠ [] ∧ NoReportPending pre ∧ OnlyPrograms post ∧ tmValidators pre (pk 8) = 0 ∧
      pk 8 ≠ nonExistentValidator ∧ (∀ c ∈ t.configs, ∀ a ∈ c.keypers, (stateOf false bootOps).identities a ≠ some (pk 8)) ∧
      (∃ c, (stateOf false bootOps).configs.getLast? = some c ∧ k 8 ∈ c.keypers) ∧ (stateOf false bootOps).identities (k 8) = some (pk 8) ∧
      tmValidators Demo.log (pk 8) = 0 := by
  have exec : Exec App.Demo.ps false Demo.log (stateOf false bootOps) := App.Demo.exec_of _ _ (by decide +kernel)
  have begins : Begins Demo.log bootReq := App.Demo.begins_of (by rfl) (by decide +kernel)
  refine ⟨exec, begins, ?_, ?_⟩
  · obtain ⟨r, hr⟩ : ∃ r, Demo.log[3]? = some r := Option.isSome_iff_exists.1 (by decide +kernel)
    obtain ⟨r', hr'⟩ : ∃ r, (Demo.log.drop 4)[2]? = some r := Option.isSome_iff_exists.1 (by decide +kernel)
    obtain ⟨e, he⟩ : ∃ r, ((Demo.log.drop 4).drop 3)[2]? = some r := Option.isSome_iff_exists.1 (by decide +kernel)
    have split := split_three 3 2 2 hr hr' he
    have acc : ∀ {x : Rec} {i : Nat} {l : List Rec} {a : Addr} {m : MessageWithNonce}, l[i]? = some x →
        ((l[i]?).map (fun r => (Net.Demo.delivered r, r.resp))).any (fun p => decide (p.1 = some (a, m)) &&
          (match p.2 with | .deliverTx d => d.ok | _ => false)) = true → x.Accepts a m.msg := by
      intro x i l a m hx h
      rw [hx] at h
      simp only [Option.map_some, Option.any_some, Bool.and_eq_true, decide_eq_true_eq] at h
      obtain ⟨h1, h2⟩ := h
      refine ⟨m, rfl, Net.Demo.delivers_iff.2 h1, ?_⟩
      split at h2
      · next d hd =>
        obtain ⟨ok, evs⟩ := d
        simp only at h2
        subst h2
        exact ⟨evs, hd⟩
      · cases h2
    refine ⟨_, r, _, r', _, e, _, ⟨by decide +kernel, split, ?_, ?_⟩, ?_, ?_, ?_, ?_, ?_⟩
    · exact acc (m := ⟨.batchConfig m1, App.Demo.chain, 1⟩) hr (by decide +kernel)
    · exact acc (m := ⟨.batchConfigStarted 1, App.Demo.chain, 2⟩) hr' (by decide +kernel)
    · have h1 : ((Demo.log.drop 4)[2]?).all (fun r => r.before.configs.all (fun d => decide (d.configIndex < 1 → d.threshold ≤ 1))) = true := by decide +kernel
      rw [hr'] at h1
      simp only [Option.all_some, List.all_eq_true, decide_eq_true_eq] at h1
      exact h1
    · have h1 : (((Demo.log.drop 4).drop 3)[2]?).map (·.op) = some (.endBlock 3) := by rfl
      rw [he] at h1
      simpa using h1
    · have h1 : (((Demo.log.drop 4).drop 3)[2]?).map (fun r => r.before.configs.length) = ((Demo.log.drop 4)[2]?).map (fun r => r.after.configs.length) := by
        decide +kernel
      rw [he, hr'] at h1
      simpa using h1
    · have h1 : (((Demo.log.drop 4).drop 3)[2]?).any (fun r => decide (2 ≤ registeredOf r.before [k 5, k 6, k 7])) = true := by decide +kernel
      rw [he] at h1
      simpa using h1
    · have h1 : Demo.log.take 10 = List.take 3 Demo.log ++ r :: List.take 2 (List.drop (3 + 1) Demo.log) ++
          r' :: List.take 2 (List.drop (2 + 1) (List.drop (3 + 1) Demo.log)) ++ [e] := by
        have hlen : Demo.log.length = 16 := by decide +kernel
        have e1 : Demo.log = (List.take 3 Demo.log ++ r :: List.take 2 (List.drop (3 + 1) Demo.log) ++
          r' :: List.take 2 (List.drop (2 + 1) (List.drop (3 + 1) Demo.log)) ++ [e]) ++
            List.drop (2 + 1) (List.drop (2 + 1) (List.drop (3 + 1) Demo.log)) := by
          refine split.trans ?_
          simp only [List.append_assoc, List.cons_append, List.nil_append]
        have e2 := congrArg (List.take 10) e1
        rw [List.take_left' (by simp [hlen])] at e2
        exact e2
      rw [← h1]
      decide +kernel
  · obtain ⟨x, hx⟩ : ∃ r, Demo.log[11]? = some r := Option.isSome_iff_exists.1 (by decide +kernel)
    refine ⟨Demo.log.take 11, Demo.log.drop 11, x.before, (List.take_append_drop _ _).symm, ?_, ?_, quiet_of (by decide +kernel),
      programs_of (by decide +kernel), by decide +kernel, by decide +kernel, ?_, ?_, by decide +kernel, by decide +kernel⟩
    · exact (exec.at (App.Demo.split_log hx)).1
    · intro h
      have : (Demo.log.take 11).length = 11 := by decide +kernel
      rw [h] at this
      cases this
    · have h1 : (Demo.log[11]?).all (fun r => r.before.configs.all (fun c => c.keypers.all (fun a =>
          decide ((stateOf false bootOps).identities a ≠ some (pk 8))))) = true := by decide +kernel
      rw [hx] at h1
      simp only [Option.all_some, List.all_eq_true, decide_eq_true_eq] at h1
      exact h1
    · exact ⟨⟨20, [k 6, k 8], 1, k 99, 2, false, false⟩, by decide +kernel, by decide +kernel⟩

open Demo in
open Shutter.App.Demo (k pk stateOf) in
/-- If config number 2 is accepted after the start of config number 1 and before a second keyper of it has checked in, the hypotheses of
`C88_superseded` are met: the genesis validator stays the only one, though afterwards all the keypers of config number 2 and two of
config number 1 have checked in. -/
theorem C88_superseded_example : ∃ pre r post c, logEarly = pre ++ r :: post ∧ Exec App.Demo.ps false logEarly (stateOf false opsEarly) ∧ Begins logEarly bootReq ∧
    NoReportPending pre ∧ OnlyPrograms (r :: post) ∧ r.after.configs = r.before.configs ++ [c] ∧
    (∀ d ∈ r.before.configs, d.started = false ∨ d.validatorsUpdated = false) ∧ (∃ d ∈ r.before.configs, d.started = true) ∧
    (∀ a ∈ [k 5, k 6, k 8], (stateOf false opsEarly).identities a ≠ none) ∧ tmValidators logEarly (pk 9) = 10 := by
  obtain ⟨r, hr⟩ : ∃ r, logEarly[11]? = some r := Option.isSome_iff_exists.1 (by decide +kernel)
  have split := App.Demo.split_log hr
  have drop : logEarly.drop 11 = r :: logEarly.drop (11 + 1) := by
    obtain ⟨hi, rfl⟩ := List.getElem?_eq_some_iff.1 hr
    simp
  refine ⟨_, r, _, ⟨20, [k 6, k 8], 1, k 99, 2, false, false⟩, split, App.Demo.exec_of _ _ (by decide +kernel),
    App.Demo.begins_of (by rfl) (by decide +kernel), quiet_of (by decide +kernel), ?_, ?_, ?_, ?_, by decide +kernel, by decide +kernel⟩
  · rw [← drop]
    exact programs_of (by decide +kernel)
  · have h1 : (logEarly[11]?).map (fun r => r.after.configs) = (logEarly[11]?).map (fun r => r.before.configs ++ [⟨20, [k 6, k 8], 1, k 99, 2, false, false⟩]) := by
      decide +kernel
    rw [hr] at h1
    simpa using h1
  · have h1 : (logEarly[11]?).all (fun r => r.before.configs.all (fun d => decide (d.started = false ∨ d.validatorsUpdated = false))) = true := by
      decide +kernel
    rw [hr] at h1
    simpa using h1
  · have h1 : (logEarly[11]?).any (fun r => r.before.configs.any (fun d => d.started)) = true := by decide +kernel
    rw [hr] at h1
    simpa using h1

open Demo in
open Shutter.App.Demo (k pk stateOf) in
/-- With three genesis keypers (threshold 2) the hypotheses of `C88_several_partial` are met after two of them have reported the start, and before
that those of `C88_alone`: the first report of keyper 1 is refused. -/
theorem C88_several_example : Exec App.Demo.ps false logSeveral (stateOf false opsSeveral) ∧
    Begins logSeveral (genesisRequest [k 1, k 2, k 3] (pk 9) App.Demo.chain) ∧
    (∃ pre e post, bootstrapMessages contractState (k 99) (-1) = some (m1, 1) ∧ logSeveral = pre ++ e :: post ∧ e.op = .endBlock 2 ∧
      (∀ r ∈ logSeveral, ∀ a m', r.Accepts a (.batchConfig m') → m'.configIndex = 1 → m' = m1) ∧ [k 1, k 2].Nodup ∧
      (∀ g ∈ [k 1, k 2], ∃ r ∈ pre, r.Accepts g (.batchConfigStarted 1)) ∧
      (∀ d ∈ e.before.configs, d.configIndex < 1 → d.threshold ≤ [k 1, k 2].length) ∧ (∀ d ∈ e.before.configs, d.configIndex ≤ 1) ∧
      2 ≤ registeredOf e.before [k 5, k 6, k 7] ∧ (tmValidators (logSeveral.take 12) (pk 5), tmValidators (logSeveral.take 12) (pk 9)) = (10, 0)) ∧
    (genesisRequest [k 1, k 2, k 3] (pk 9) App.Demo.chain).genesis = some ([k 1, k 2, k 3], 2) ∧
    (∀ r ∈ logSeveral.take 5, ∀ a m, r.Delivers a m → a = k 1) ∧
    ∃ r ∈ logSeveral.take 5, ∃ m, r.Delivers (k 1) m ∧ m.msg = .batchConfigStarted 1 := by
  have exec : Exec App.Demo.ps false logSeveral (stateOf false opsSeveral) := App.Demo.exec_of _ _ (by decide +kernel)
  refine ⟨exec, App.Demo.begins_of (by rfl) (by decide +kernel), ?_, by decide +kernel, ?_, ?_⟩
  · obtain ⟨e, he⟩ : ∃ r, logSeveral[11]? = some r := Option.isSome_iff_exists.1 (by decide +kernel)
    have split := App.Demo.split_log he
    refine ⟨_, e, _, by decide +kernel, split, ?_, agreed_of (by decide +kernel), by decide, ?_, ?_, ?_, ?_, by decide +kernel⟩
    · have h1 : (logSeveral[11]?).map (·.op) = some (.endBlock 2) := by rfl
      rw [he] at h1
      simpa using h1
    · have h1 : [k 1, k 2].all (fun g => (logSeveral.take 11).any (accepts g (.batchConfigStarted 1))) = true := by decide +kernel
      intro g hg
      obtain ⟨r, hr, h2⟩ := List.any_eq_true.1 (List.all_eq_true.1 h1 g hg)
      exact ⟨r, hr, accepts_iff.1 h2⟩
    · have h1 : (logSeveral[11]?).all (fun r => r.before.configs.all (fun d => decide (d.configIndex < 1 → d.threshold ≤ [k 1, k 2].length))) = true := by
        decide +kernel
      rw [he] at h1
      simp only [Option.all_some, List.all_eq_true, decide_eq_true_eq] at h1
      exact h1
    · have h1 : (logSeveral[11]?).all (fun r => r.before.configs.all (fun d => decide (d.configIndex ≤ 1))) = true := by decide +kernel
      rw [he] at h1
      simp only [Option.all_some, List.all_eq_true, decide_eq_true_eq] at h1
      exact h1
    · have h1 : (logSeveral[11]?).any (fun r => decide (2 ≤ registeredOf r.before [k 5, k 6, k 7])) = true := by decide +kernel
      rw [he] at h1
      simpa using h1
  · have h1 : (logSeveral.take 5).all (fun r => match Net.Demo.delivered r with | some p => decide (p.1 = k 1) | none => true) = true := by decide +kernel
    intro r hr a m hd
    have := List.all_eq_true.1 h1 r hr
    rw [Net.Demo.delivers_iff.1 hd] at this
    simpa using this
  · have h1 : (logSeveral.take 5).any (fun r => decide ((Net.Demo.delivered r).map (fun p => (p.1, p.2.msg)) = some (k 1, .batchConfigStarted 1))) = true := by
      decide +kernel
    obtain ⟨r, hr, h2⟩ := List.any_eq_true.1 h1
    simp only [decide_eq_true_eq, Option.map_eq_some_iff, Prod.mk.injEq] at h2
    obtain ⟨⟨b, m⟩, h3, rfl, h4⟩ := h2
    exact ⟨r, hr, m, Net.Demo.delivers_iff.2 h3, h4⟩

end Shutter.Bootstrap.Props
