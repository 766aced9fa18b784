import Verif.Proofs.AppMono
import Verif.Proofs.AppDemo

/-! Property theorems C19–C32, C53 (shuttermint/app). The vocabulary is in `Verif/Spec/App.lean`. -/

namespace Shutter.App.Props
open Shutter.App

variable {ps : Parsers} {dev : Bool} {log : List Rec} {s : State}

/-! ### C19 -/

/-- **C19** A second message with the same signer and nonce, in whatever state it arrives and whatever it says, is rejected
and changes nothing, even if the first one failed. -/
theorem C19_nonce_once (h : Exec ps dev log s) {pre mid post : List Rec} {r r' : Rec}
    (split : log = pre ++ r :: mid ++ r' :: post) {a : Addr} {m m' : MessageWithNonce} (first : r.Delivers a m)
    (second : r'.Delivers a m') (chain : m.chainId = r.before.chainID) (nonce : m'.randomNonce = m.randomNonce) :
    r'.resp = .deliverTx ⟨false, []⟩ ∧ r'.after = r'.before := by
  obtain ⟨hE, o, ho, hst⟩ := h.at split
  have hn := hE.nonces r (by simp) a m first chain
  rw [show r'.op = .deliverTx (some (a, m')) from second] at hst
  have hd : deliverTx ps o.idx r'.before (some (a, m')) = some (r'.before, errorResponse) := by
    unfold deliverTx
    simp only
    split
    · rfl
    · rw [if_pos (by simp [NonceTracker.check, nonce, hn])]
  simp [App.step, hd] at hst
  exact ⟨hst.2.symm, hst.1.symm⟩

/-- **C19** A message for another chain is rejected and changes nothing. -/
theorem C19_wrong_chain (o : Orders) (s s' : State) (a : Addr) (m : MessageWithNonce) (r : Resp)
    (other : m.chainId ≠ s.chainID) (h : step ps o s (.deliverTx (some (a, m))) = some (s', r)) :
    r = .deliverTx ⟨false, []⟩ ∧ s' = s := by
  have hd : deliverTx ps o.idx s (some (a, m)) = some (s, errorResponse) := by
    unfold deliverTx
    simp only
    rw [if_pos other]
  simp [App.step, hd] at h
  exact ⟨h.2.symm, h.1.symm⟩

/-- **C19** A message accepted now was never delivered before under this nonce (for the chain of that time). -/
theorem C19_accepted_is_new (h : Exec ps dev log s) {pre post : List Rec} {r : Rec} (split : log = pre ++ r :: post)
    {a : Addr} {m : MessageWithNonce} (del : r.Delivers a m) (acc : r.Accepts a m.msg) :
    m.chainId = r.before.chainID ∧ ∀ r' ∈ pre, ∀ m', r'.Delivers a m' → m'.chainId = r'.before.chainID →
      m'.randomNonce ≠ m.randomNonce := by
  obtain ⟨hE, o, m₁, d, _, hm, hop, _, _, hch, hn, _⟩ := h.eff split acc
  have : m₁ = m := by
    have := hop.symm.trans del
    simpa using this
  subst this
  refine ⟨hch, fun r' hr' m' hd hc heq => ?_⟩
  have := hE.nonces r' hr' a m' hd hc
  rw [heq, hn] at this
  simp at this

/-- The demo chain delivers a message twice (calls 6 and 7): the first is accepted, the second is not. -/
example : ∃ pre r mid r' post a m, Demo.logOf false Demo.ops = pre ++ r :: mid ++ r' :: post ∧ r.Delivers a m ∧
    r'.Delivers a m ∧ m.chainId = r.before.chainID ∧ r.Accepts a m.msg ∧ r.before.configs.length < r.after.configs.length := by
  refine ⟨(Demo.logOf false Demo.ops).take 6, (Demo.logOf false Demo.ops)[6]'(by decide +kernel), [],
    (Demo.logOf false Demo.ops)[7]'(by decide +kernel), (Demo.logOf false Demo.ops).drop 8, Demo.k 2,
    ⟨.batchConfig Demo.cfg1, Demo.chain, 2⟩, ?_, rfl, rfl, by decide +kernel, ⟨_, rfl, rfl, _, rfl⟩, by decide +kernel⟩
  rfl

/-! ### C20 -/

/-- **C20** A delivery that returns an error code publishes nothing and leaves every part of the state as it was, except
that the signer's nonce may be used up. Holds in every state, reachable or not. -/
theorem C20_error_no_effect (o : Orders) (s s' : State) (tx : Tx) (d : DeliverResponse)
    (h : step ps o s (.deliverTx tx) = some (s', .deliverTx d)) (err : d.ok = false) :
    d.events = [] ∧ (s' = s ∨ ∃ a m used, tx = some (a, m) ∧ s' = { s with nonceTracker := used } ∧
      ∀ b n, used b n = true ↔ s.nonceTracker b n = true ∨ (b = a ∧ n = m.randomNonce)) := by
  simp only [App.step, Option.map_eq_some_iff, Prod.mk.injEq] at h
  obtain ⟨⟨p1, p2⟩, hp, h1, h2⟩ := h
  simp at h1 h2
  subst h1; subst h2
  rcases deliverTx_cases hp with ⟨h1, h2⟩ | ⟨a, m, h3, h4, h5, h6⟩
  · exact ⟨by simp [h2, errorResponse], .inl h1⟩
  · generalize m.msg = msg at h6
    cases h6 with
    | rejected =>
      refine ⟨rfl, .inr ⟨a, m, _, h3, rfl, fun b n => ?_⟩⟩
      rw [nonce_add]; tauto
    | _ => simp at err

/-- The demo chain contains a rejected delivery. -/
example : ∃ r ∈ Demo.logOf false Demo.ops, r.Rejected :=
  ⟨(Demo.logOf false Demo.ops)[7]'(by decide +kernel), List.getElem_mem _, _, rfl, rfl⟩

/-! ### C21 -/

/-- **C21** Two nodes that were given the same calls, apart from `CheckTx`, gave the same responses to them and
are in the same state up to the bookkeeping of `CheckTx` - whatever `CheckTx` calls each of them got, and in whatever order
Go iterated over maps. -/
theorem C21_checktx_irrelevant {log' : List Rec} {s' : State} (h : Exec ps dev log s) (h' : Exec ps dev log' s')
    (same : (consensusCalls log).map (·.op) = (consensusCalls log').map (·.op)) :
    (consensusCalls log).map (·.resp) = (consensusCalls log').map (·.resp) ∧ SameButCheckTx s s' := by
  obtain ⟨t, h1, h2⟩ := h.canonical
  obtain ⟨t', h1', h2'⟩ := h'.canonical
  rw [same, h1'] at h1
  simp at h1
  refine ⟨h1.2.symm, ?_⟩
  rw [← h1.1] at h2
  exact h2.trans h2'.symm

/-- **C21** Between two commits `CheckTx` lets in at most `MaxTxsPerBlock` (10) transactions of a sender, all with
different nonces. -/
theorem C21_checktx_limit (h : Exec ps dev log s) {pre seg : List Rec} (split : log = pre ++ seg)
    (noReset : ∀ r ∈ seg, ¬ r.resetsCheckTx) :
    (seg.filterMap Rec.admits).Nodup ∧ ∀ a, (seg.filterMap Rec.admits).countP (fun x => decide (x.1 = a)) ≤ 10 := by
  obtain ⟨_, h2, h3⟩ := h.checkTxInv
  obtain ⟨h4, h5, _⟩ := h3 pre seg split noReset
  exact ⟨h4, fun a => (h5 a).trans (h2 a)⟩

/-- **C21** `CheckTx` lets in only messages for this chain, of keypers of some config (once there are keypers), whose
nonce was not delivered. -/
theorem C21_checktx_filter (h : Exec ps dev log s) {pre post : List Rec} {r : Rec} (split : log = pre ++ r :: post)
    {a : Addr} {m : MessageWithNonce} (call : r.op = .checkTx (some (a, m))) (ok : r.resp = .checkTx true) :
    m.chainId = r.before.chainID ∧
    ((∃ c ∈ r.before.configs, c.keypers ≠ []) → ∃ c ∈ r.before.configs, a ∈ c.keypers) ∧
    ∀ r' ∈ pre, ∀ m', r'.Delivers a m' → m'.chainId = r'.before.chainID → m'.randomNonce ≠ m.randomNonce := by
  obtain ⟨hE, o, ho, hst⟩ := h.at split
  rw [call, ok] at hst
  simp only [App.step, Option.some.injEq, Prod.mk.injEq, Resp.checkTx.injEq] at hst
  rcases checkTx_cases r.before (some (a, m)) with hc | ⟨a', m', h1, h2, h3, h4, _⟩
  · rw [hc] at hst; simp at hst
  · simp at h1
    obtain ⟨rfl, rfl⟩ := h1
    refine ⟨h2, fun ⟨c, hc, hk⟩ => ?_, fun r' hr' m' hd hc heq => ?_⟩
    · have hm := (addTx_true h4).1
      rw [hE.checkTxInv.1] at hm
      rcases hm with hm | hm
      · rw [List.flatMap_eq_nil_iff] at hm; exact absurd (hm c hc) hk
      · simpa [List.mem_flatMap] using hm
    · have := hE.nonces r' hr' a m' hd hc
      rw [heq, h3] at this; simp at this

/-- The demo chain lets a transaction in (call 5), and has a block (calls 1 to 10) without reset around it. -/
example : ∃ pre seg post, Demo.logOf false Demo.ops = pre ++ seg ++ post ∧ (∀ r ∈ seg, ¬ r.resetsCheckTx) ∧
    (seg.filterMap Rec.admits).length = 1 ∧ seg.length = 10 := by
  refine ⟨(Demo.logOf false Demo.ops).take 1, ((Demo.logOf false Demo.ops).drop 1).take 10,
    (Demo.logOf false Demo.ops).drop 11, rfl, ?_, by decide +kernel, by decide +kernel⟩
  intro r hr hc
  have : (((Demo.logOf false Demo.ops).drop 1).take 10).all (fun r => match r.op with
      | .commit => false | .initChain _ => false | _ => true) = true := by decide +kernel
  have := List.all_eq_true.1 this r hr
  rcases hc with hc | ⟨req, hc⟩ <;> simp [hc] at this

/-! ### C22 -/

/-- **C22** A batch config is appended only on the votes of at least `threshold` many different keypers of the
latest config for exactly this config, all cast since the latest config was appended. -/
theorem C22_config_quorum (h : Exec ps dev log s) {pre post : List Rec} {r : Rec} (split : log = pre ++ r :: post)
    (grows : r.before.configs.length < r.after.configs.length) :
    ∃ last bc, r.before.configs.getLast? = some last ∧ r.after.configs = r.before.configs ++ [bc] ∧
      (last.threshold < 2 ^ 63 → ∃ voters : Finset Addr, last.threshold ≤ voters.card ∧ ∀ a ∈ voters, a ∈ last.keypers ∧
        ∃ v ∈ pre ++ [r], v.ConfigVote a bc ∧ v.before.configs.length = r.before.configs.length) := by
  obtain ⟨hE, o, ho, hst⟩ := h.at split
  rcases step_frame hst with ⟨hf, _, _⟩ | ⟨a, m, d, hop, _, _, hresp, he⟩
  · rw [hf.length] at grows; omega
  · generalize hm : m.msg = msg at he
    have main : ∀ m' bc last cv i, m.msg = .batchConfig m' → batchConfigFromMessage m' = some bc →
        lastConfig r.before = some last → last.isKeyper a = true → r.before.configVoting.addVote a bc = some cv →
        outcomeIndex o.idx cv.votes (toInt64 last.threshold) = some i →
        r.after.configs = r.before.configs ++ [bc] → d.ok = true →
        ∃ last bc, r.before.configs.getLast? = some last ∧ r.after.configs = r.before.configs ++ [bc] ∧
          (last.threshold < 2 ^ 63 → ∃ voters : Finset Addr, last.threshold ≤ voters.card ∧
            ∀ a ∈ voters, a ∈ last.keypers ∧
            ∃ v ∈ pre ++ [r], v.ConfigVote a bc ∧ v.before.configs.length = r.before.configs.length) := by
      intro m' bc last cv i hm' hbc hl hk hcv hout hcf hok
      refine ⟨last, bc, hl, hcf, fun hlt => ?_⟩
      obtain ⟨S, h1, _, h2⟩ := hE.quorum ho hl hk hcv hout
      rw [toInt64_of_lt hlt] at h1
      refine ⟨S, by exact_mod_cast h1, fun b hb => ⟨(h2 b hb).1, ?_⟩⟩
      rcases (h2 b hb).2 with rfl | ⟨v, hv, h3, h4⟩
      · refine ⟨r, by simp, ⟨m', ⟨m, hm', hop, d.events, ?_⟩, asks_iff.1 hbc⟩, rfl⟩
        rw [hresp, ← hok]
      · exact ⟨v, List.mem_append_left _ hv, h3, h4⟩
    generalize hsa : r.after = sa at he
    cases he with
    | configAdded m' bc last cv i hbc hl hck hk hcv hout _ _ =>
      rw [← hsa]
      exact main m' bc last cv i hm hbc hl hk hcv hout (by rw [hsa]; rfl) rfl
    | configAddedDKG m' bc last cv i hbc hl hck hk hcv hout _ _ =>
      rw [← hsa]
      exact main m' bc last cv i hm hbc hl hk hcv hout (by rw [hsa]; rfl) rfl
    | _ => rw [hsa] at grows; exact absurd grows (lt_irrefl _)

/-- **C22** The outcome of a call never depends on the order in which Go iterates over its maps. -/
theorem C22_order_irrelevant (h : Exec ps dev log s) (o o' : Orders) (ho : o.Lawful) (ho' : o'.Lawful) (op : Op) :
    step ps o s op = step ps o' s op :=
  step_ord ho ho' h.inv h.validators op

/-- In the demo chain, call 6 appends a config on two votes. -/
example : ∃ pre r post, Demo.logOf false Demo.ops = pre ++ r :: post ∧
    r.before.configs.length < r.after.configs.length ∧ r.before.configs.map (·.threshold) = [2] :=
  ⟨(Demo.logOf false Demo.ops).take 6, (Demo.logOf false Demo.ops)[6]'(by decide +kernel),
    (Demo.logOf false Demo.ops).drop 7, rfl, by decide +kernel, by decide +kernel⟩

/-! ### C23 -/

private theorem pairwise_ids {R : BatchConfig → BatchConfig → Prop} (hR : ∀ c d, R c.erase d.erase → R c d)
    (h : (ids s).Pairwise R) : s.configs.Pairwise R := by
  unfold ids at h
  rw [List.pairwise_map] at h
  exact h.imp (fun {a b} => hR a b)

/-- **C23** The list of configs starts with a config for batch 0, config numbers strictly increase and start batches do
not decrease. -/
theorem C23_configs_well_formed (h : Exec ps dev log s) :
    (∃ c rest, s.configs = c :: rest ∧ c.startBatchIndex = 0) ∧
    s.configs.Pairwise (fun c d => c.configIndex < d.configIndex) ∧
    s.configs.Pairwise (fun c d => c.startBatchIndex ≤ d.startBatchIndex) := by
  have hc := h.inv.cfg
  refine ⟨?_, pairwise_ids (fun _ _ h => h) hc.index, pairwise_ids (fun _ _ h => h) hc.start⟩
  obtain ⟨c, rest, h1, h2, _⟩ := hc.first
  cases hs : s.configs with
  | nil => simp [ids, hs] at h1
  | cons d ds =>
    refine ⟨d, ds, rfl, ?_⟩
    simp [ids, hs] at h1
    have := congrArg BatchConfig.startBatchIndex h1.1
    simp [BatchConfig.erase] at this
    rw [this, h2]

/-- **C23** For every batch there is exactly one config in force, and it is what the application looks up. -/
theorem C23_lookup_total (h : Exec ps dev log s) (b : Nat) :
    ∃ c, InForce s.configs b c ∧ (∀ c', InForce s.configs b c' → c' = c) ∧ getConfig s.configs b = some c := by
  obtain ⟨c, hc⟩ := h.inv.getConfig b
  exact ⟨c, getConfig_iff.1 hc, fun c' hc' => hc'.unique (getConfig_iff.1 hc), hc⟩

/-- **C23** Once there are keypers, configs are never removed or replaced: every config of an earlier state is still at its
place, only its flags `started` and `validatorsUpdated` may have changed. -/
theorem C23_configs_append_only (h : Exec ps dev log s) {r : Rec} (hr : r ∈ log)
    (keypers : ∃ c ∈ r.before.configs, c.keypers ≠ []) (i : Nat) (c : BatchConfig)
    (hc : r.before.configs[i]? = some c) :
    ∃ c', s.configs[i]? = some c' ∧
      c' = { c with started := c'.started, validatorsUpdated := c'.validatorsUpdated } := by
  have := prefix_getElem? ((h.ids_mono r hr).1 keypers) (i := i) (x := c.erase) (by simp [ids, hc])
  simp only [ids, List.getElem?_map, Option.map_eq_some_iff] at this
  obtain ⟨c', h1, h2⟩ := this
  refine ⟨c', h1, ?_⟩
  cases c; cases c'; simp [BatchConfig.erase] at h2 ⊢; simp [h2]

/-- In the demo chain, batch 99 falls under the genesis config and batch 100 under config 1. -/
example : (getConfig (Demo.stateOf false Demo.ops).configs 99).map (·.configIndex) = some 0 ∧
    (getConfig (Demo.stateOf false Demo.ops).configs 100).map (·.configIndex) = some 1 := by decide +kernel

/-! ### C24 -/

/-- **C24** (part) A config of the list that has keypers and whose threshold is below 2^63 has a threshold between 1 and
the number of its keypers. What is missing: thresholds of 2^63 and more, see `C24_counterexample`. -/
theorem C24_threshold_sensible_partial (h : Exec ps dev log s) (c : BatchConfig) (hc : c ∈ s.configs)
    (keypers : c.keypers ≠ []) (small : c.threshold < 2 ^ 63) :
    1 ≤ c.threshold ∧ c.threshold ≤ c.keypers.length := by
  rcases h.inv.cfg.valid c.erase (List.mem_map_of_mem hc) with hv | ⟨_, hk⟩
  · have hv : c.ensureValid = true := hv
    simp only [BatchConfig.ensureValid] at hv
    rw [toInt64_of_lt small] at hv
    split_ifs at hv with h1 h2 h3
    constructor
    · omega
    · push Not at h3; exact_mod_cast h3
  · exact absurd hk keypers

/-- Keypers vote for a config with threshold 2^63, then one keyper alone replaces it. -/
def hugeThreshold : List Op :=
  [ .initChain Demo.req,
    Demo.tx (Demo.k 1) 1 (.batchConfig ⟨100, [Demo.k 2, Demo.k 3, Demo.k 4], 2 ^ 63, zeroAddr, 1, false, false⟩),
    Demo.tx (Demo.k 2) 1 (.batchConfig ⟨100, [Demo.k 2, Demo.k 3, Demo.k 4], 2 ^ 63, zeroAddr, 1, false, false⟩),
    Demo.tx (Demo.k 4) 1 (.batchConfig ⟨200, [Demo.k 4], 1, zeroAddr, 2, false, false⟩) ]

/-- **C24** is false of the code for thresholds of 2^63 and more: `EnsureValid` converts the threshold to a signed
integer, so such a config is accepted, and from then on the vote of a single keyper out of three decides. -/
theorem C24_counterexample : ∃ log s pre r, Exec Demo.ps false log s ∧ log = pre ++ [r] ∧
    (∃ c, r.before.configs.getLast? = some c ∧ c.keypers.length = 3 ∧ c.threshold > c.keypers.length) ∧
    r.before.configVoting.votes = [] ∧ r.before.configs.length < r.after.configs.length := by
  refine ⟨Demo.logOf false hugeThreshold, _, (Demo.logOf false hugeThreshold).take 3,
    (Demo.logOf false hugeThreshold)[3]'(by decide +kernel), Demo.exec_of _ _ (by decide +kernel), rfl, ?_, ?_, ?_⟩
  · refine ⟨⟨100, [Demo.k 2, Demo.k 3, Demo.k 4], 2 ^ 63, zeroAddr, 1, false, false⟩, ?_, by decide, by decide⟩
    decide +kernel
  · decide +kernel
  · decide +kernel

example : ∃ c ∈ (Demo.stateOf false Demo.ops).configs, c.keypers ≠ [] ∧ c.threshold < 2 ^ 63 := by decide +kernel

/-! ### C25 -/

/-- **C25** (part) When `EndBlock` marks the latest config as started, at least as many different senders as the threshold of
the config before it have reported a start since a config was last started; every report that names this
config is by a keyper of the config before it. What is missing: that all these reports name this config,
see `C25_counterexample`. -/
theorem C25_started_votes_partial (h : Exec ps dev log s) {pre post : List Rec} {r : Rec}
    (split : log = pre ++ r :: post) (starts : r.Starts) :
    ∃ rest prev c, r.before.configs = rest ++ [prev, c] ∧ ∃ voters : Finset Addr, prev.threshold ≤ voters.card ∧
      ∀ a ∈ voters, ∃ pre' v mid ci, pre = pre' ++ v :: mid ∧ v.StartedReport a ci ∧ (∀ x ∈ mid, ¬ x.Starts) ∧
        (ci = c.configIndex → a ∈ prev.keypers) := by
  obtain ⟨hE, o, ho, hst⟩ := h.at split
  obtain ⟨⟨ht, hop⟩, c, c', h1, h2, h3, h4⟩ := starts
  rw [hop] at hst
  simp only [App.step, Option.map_eq_some_iff, Prod.mk.injEq] at hst
  obtain ⟨⟨s₁, ups⟩, hi, he, _⟩ := hst
  simp only at he
  subst he
  obtain ⟨last, last', hl, hle, _, hcf, _, hv⟩ := endBlock_cases hi
  have hlc : last = c := by
    have := hl.symm.trans h1; simpa using this
  subst hlc
  rcases hv with ⟨_, hv⟩ | ⟨_, _, hlen, prev, hp, hthr⟩
  · rw [hcf] at h2; simp at h2; subst h2
    rw [hv, h3] at h4; simp at h4
  · have hsplit : r.before.configs = r.before.configs.dropLast.dropLast ++ [prev, last] := by
      have e1 := getLast?_eq_some_concat h1
      have hp' : r.before.configs.dropLast.getLast? = some prev := by
        rw [List.getLast?_eq_getElem?, List.length_dropLast, List.getElem?_dropLast, if_pos (by omega),
          show r.before.configs.length - 1 - 1 = r.before.configs.length - 2 by omega]
        exact hp
      have e2 := getLast?_eq_some_concat hp'
      calc r.before.configs = r.before.configs.dropLast ++ [last] := e1
        _ = (r.before.configs.dropLast.dropLast ++ [prev]) ++ [last] := by rw [← e2]
        _ = _ := by simp
    obtain ⟨hnd, hvotes⟩ := hE.started
    refine ⟨_, prev, last, hsplit, r.before.startedVotes.toFinset, ?_, ?_⟩
    · rw [List.toFinset_card_of_nodup hnd]; exact hthr
    · intro a ha
      obtain ⟨pre', v, mid, n, cur, prev', e1, e2, e3, e4, e5, e6⟩ := (hvotes a (by simpa using ha)).vote
      refine ⟨pre', v, mid, cur.configIndex, e1, e2, e3, fun hidx => ?_⟩
      have hn : n + 1 = r.before.configs.length - 1 := by
        have hlast : (ids r.before)[r.before.configs.length - 1]? = some last.erase := by
          simp only [ids, List.getElem?_map]
          rw [← List.getLast?_eq_getElem?, h1]; rfl
        have hpw := hE.inv.cfg.index
        rw [List.pairwise_iff_getElem] at hpw
        obtain ⟨l1, g1⟩ := List.getElem?_eq_some_iff.1 e5
        obtain ⟨l2, g2⟩ := List.getElem?_eq_some_iff.1 hlast
        rcases Nat.lt_trichotomy (n + 1) (r.before.configs.length - 1) with hlt | heq | hgt
        · have := hpw _ _ l1 l2 hlt
          rw [g1, g2] at this
          simp [BatchConfig.erase, hidx] at this
        · exact heq
        · have := hpw _ _ l2 l1 hgt
          rw [g1, g2] at this
          simp [BatchConfig.erase, hidx] at this
      have : (ids r.before)[n]? = some prev.erase := by
        simp only [ids, List.getElem?_map]
        rw [show n = r.before.configs.length - 2 by omega, hp]; rfl
      rw [this] at e4
      simp at e4; subst e4
      exact e6

def reports (ci : Nat) : Op → Bool
  | .deliverTx (some (_, m)) => decide (m.msg = .batchConfigStarted ci)
  | _ => false

theorem no_report {log : List Rec} {ci : Nat} (h : (log.map (·.op)).all (fun op => !reports ci op) = true) :
    ∀ r ∈ log, ∀ a, ¬ r.StartedReport a ci := by
  rintro r hr a ⟨m, hm, hop, _⟩
  have := List.all_eq_true.1 h r.op (List.mem_map_of_mem hr)
  simp [reports, hop, hm] at this

/-- Two keypers report config 1 as started; config 2 is voted in before the block ends. -/
def staleReports : List Op :=
  [ .initChain Demo.req,
    Demo.tx (Demo.k 1) 1 (.batchConfig Demo.cfg1), Demo.tx (Demo.k 2) 1 (.batchConfig Demo.cfg1),
    Demo.tx (Demo.k 1) 2 (.batchConfigStarted 1), Demo.tx (Demo.k 3) 2 (.batchConfigStarted 1),
    Demo.tx (Demo.k 2) 3 (.batchConfig Demo.cfg2), Demo.tx (Demo.k 3) 3 (.batchConfig Demo.cfg2),
    .endBlock 1 ]

/-- A config whose message already carries the flag `started`. -/
def bornStarted : List Op :=
  [ .initChain Demo.req,
    Demo.tx (Demo.k 1) 1 (.batchConfig { Demo.cfg1 with started := true }),
    Demo.tx (Demo.k 2) 1 (.batchConfig { Demo.cfg1 with started := true }) ]

/-- **C25** is false of the code: (1) reports for a config count for the next config if that is voted in before the
block ends; (2) a config can be voted in with the flag already set. In both executions a config is started and nobody
ever reported it. -/
theorem C25_counterexample :
    (∃ log s r, Exec Demo.ps false log s ∧ r ∈ log ∧ r.Starts ∧ (r.after.configs.getLast?).map (·.configIndex) = some 2 ∧
      ∀ r' ∈ log, ∀ a, ¬ r'.StartedReport a 2) ∧
    (∃ log s c, Exec Demo.ps false log s ∧ c ∈ s.configs ∧ c.configIndex = 1 ∧ c.started = true ∧
      ∀ r' ∈ log, ∀ a ci, ¬ r'.StartedReport a ci) := by
  constructor
  · refine ⟨_, _, (Demo.logOf false staleReports)[7]'(by decide +kernel),
      Demo.exec_of false staleReports (by decide +kernel), List.getElem_mem _, ⟨⟨1, rfl⟩, ?_⟩, by decide +kernel,
      no_report (by decide +kernel)⟩
    exact ⟨⟨200, [Demo.k 3, Demo.k 4], 1, zeroAddr, 2, false, false⟩,
      ⟨200, [Demo.k 3, Demo.k 4], 1, zeroAddr, 2, true, false⟩, by decide +kernel, by decide +kernel, rfl, rfl⟩
  · refine ⟨_, _, ⟨100, [Demo.k 2, Demo.k 3, Demo.k 4], 2, zeroAddr, 1, true, false⟩,
      Demo.exec_of false bornStarted (by decide +kernel), by decide +kernel, rfl, rfl, ?_⟩
    rintro r hr a ci ⟨m, hm, hop, _⟩
    have : ((Demo.logOf false bornStarted).map (·.op)).all (fun op => match op with
        | .deliverTx (some (_, m)) => (match m.msg with | .batchConfigStarted _ => false | _ => true)
        | _ => true) = true := by decide +kernel
    have := List.all_eq_true.1 this r.op (List.mem_map_of_mem hr)
    simp [hop, hm] at this

/-- In the demo chain, call 10 starts config 1. -/
example : ∃ pre r post, Demo.logOf false Demo.ops = pre ++ r :: post ∧ r.Starts :=
  ⟨(Demo.logOf false Demo.ops).take 10, (Demo.logOf false Demo.ops)[10]'(by decide +kernel),
    (Demo.logOf false Demo.ops).drop 11, rfl, ⟨1, rfl⟩,
    ⟨100, [Demo.k 2, Demo.k 3, Demo.k 4], 2, zeroAddr, 1, false, false⟩,
    ⟨100, [Demo.k 2, Demo.k 3, Demo.k 4], 2, zeroAddr, 1, true, true⟩, by decide +kernel, by decide +kernel, rfl, rfl⟩

/-! ### C26 -/

/-- **C26** The numbers of the eons ever started are 1, 2, 3, …, in this order; in particular each is greater than all
earlier ones. -/
theorem C26_eons_increasing (h : Exec ps dev log s) :
    (startedEons (allEvents log)).Pairwise (· < ·) ∧
    startedEons (allEvents log) = List.range' 1 (startedEons (allEvents log)).length := by
  have h1 : startedEons (allEvents log) = List.range' 1 s.eonCounter := h.eons.1
  rw [h1]
  exact ⟨List.pairwise_lt_range', by simp⟩

/-- **C26** There is a DKG instance for exactly the eons started so far, and an instance is never dropped or replaced: config
and number stay and what was recorded stays recorded. -/
theorem C26_instances_stable (h : Exec ps dev log s) :
    (∀ e, (∃ d, s.dkgMap e = some d) ↔ e ∈ startedEons (allEvents log)) ∧
    ∀ r ∈ log, ∀ e d, r.after.dkgMap e = some d → ∃ d', s.dkgMap e = some d' ∧ d'.config = d.config ∧ d'.eon = d.eon ∧
      d.polyEvalsSeen ⊆ d'.polyEvalsSeen ∧ d.polyCommitmentsSeen ⊆ d'.polyCommitmentsSeen ∧
      d.accusationsSeen ⊆ d'.accusationsSeen ∧ d.apologiesSeen ⊆ d'.apologiesSeen := by
  constructor
  · intro e
    have h1 : startedEons (allEvents log) = List.range' 1 s.eonCounter := h.eons.1
    rw [h1, List.mem_range'_1]
    constructor
    · rintro ⟨d, hd⟩
      have := (h.eons.2 e).1 d hd
      omega
    · intro he
      exact (h.eons.2 e).2 (by omega)
  · intro r hr e d hd
    obtain ⟨d', h1, h2⟩ := h.dkg_mono r hr e d (.inr hd)
    exact ⟨d', h1, h2.1, h2.2, h2.3, h2.4, h2.5, h2.6⟩

/-- The demo chain starts eons 1 and 2. -/
example : startedEons (allEvents (Demo.logOf false Demo.ops)) = [1, 2] := by decide +kernel

/-! ### C27 -/

/-- **C27** An eon start vote that starts an eon starts it at the batch voted for, and at least `threshold` many keypers of
the config in force for this batch currently vote for exactly this batch: the sender, and others whose latest vote (under
this config) is for this batch, cast after the last eon started by such votes. -/
theorem C27_eon_quorum (h : Exec ps dev log s) {pre post : List Rec} {r : Rec} (split : log = pre ++ r :: post)
    {a : Addr} {b : Nat} (vote : r.Accepts a (.eonStartVote b)) (starts : r.events ≠ []) :
    (∃ e, r.events = [.eonStarted e b]) ∧ ∃ c, InForce r.before.configs b c ∧
      (c.threshold < 2 ^ 63 → ∃ voters : Finset Addr, c.threshold ≤ voters.card ∧ ∀ x ∈ voters, x ∈ c.keypers ∧
        (x = a ∨ CurrentVote pre x c.configIndex b)) := by
  obtain ⟨hE, o, m, d, ho, hm, hop, hresp, hok, _, _, he⟩ := h.eff split vote
  have hev : r.events = d.events := by simp [Rec.events, hresp]
  rw [hev] at starts ⊢
  generalize hmsg : Msg.eonStartVote b = msg at he
  generalize r.after = sa at he
  cases he with
  | eonStarted b' c i start hc hk hout hcand =>
    simp at hmsg; subst hmsg
    obtain ⟨h1, T, h2, h3⟩ := hE.eonQuorum ho (a := a) hc hout hcand
    subst h1
    refine ⟨⟨_, rfl⟩, c, getConfig_iff.1 hc, fun hlt => ⟨insert a T, ?_, ?_⟩⟩
    · rw [Finset.card_insert_of_notMem (fun ha => (h3 a ha).1 rfl)]
      rw [toInt64_of_lt hlt] at h2
      exact_mod_cast h2
    · intro x hx
      rcases Finset.mem_insert.1 hx with rfl | hx
      · exact ⟨isKeyper_iff.1 hk, .inl rfl⟩
      · exact ⟨(h3 x hx).2.1, .inr (h3 x hx).2.2⟩
  | rejected => simp [errorResponse] at starts
  | eonVoted => simp at starts
  | _ => simp at hmsg

/-- **C27** Eons are started only by an eon start vote as above, or together with a new config, for whose start batch they
are started. -/
theorem C27_eon_sources (h : Exec ps dev log s) {r : Rec} (hr : r ∈ log) {e b : Nat}
    (starts : Event.eonStarted e b ∈ r.events) :
    (∃ a, r.Accepts a (.eonStartVote b)) ∨
    ∃ c, r.after.configs = r.before.configs ++ [c] ∧ c.startBatchIndex = b := by
  obtain ⟨pre, post, hl⟩ := List.append_of_mem hr
  obtain ⟨a, msg, acc⟩ := h.accepted_of_event hl (List.ne_nil_of_mem starts)
  obtain ⟨hE, o, m, d, ho, hm, hop, hresp, hok, _, _, he⟩ := h.eff hl acc
  have hev : r.events = d.events := by simp [Rec.events, hresp]
  by_cases hvote : ∃ b', msg = .eonStartVote b'
  · obtain ⟨b', rfl⟩ := hvote
    obtain ⟨⟨e', h1⟩, _⟩ := C27_eon_quorum h hl acc (List.ne_nil_of_mem starts)
    rw [h1] at starts
    simp at starts
    exact .inl ⟨a, starts.2 ▸ acc⟩
  · right
    rw [hev] at starts
    generalize r.after = sa at he
    cases he with
    | configAddedDKG m' bc last cv i hbc hl hck hk hcv hout _ _ =>
      simp [configEvent] at starts
      exact ⟨bc, rfl, starts.2.symm⟩
    | eonStarted b' => exact absurd ⟨b', rfl⟩ hvote
    | _ => simp [configEvent, errorResponse] at starts

/-- In the demo chain, call 19 starts an eon by votes. -/
example : ∃ pre r post a, Demo.logOf false Demo.ops = pre ++ r :: post ∧ r.Accepts a (.eonStartVote 120) ∧ r.events ≠ [] :=
  ⟨(Demo.logOf false Demo.ops).take 19, (Demo.logOf false Demo.ops)[19]'(by decide +kernel),
    (Demo.logOf false Demo.ops).drop 20, Demo.k 3, rfl, ⟨_, rfl, rfl, _, rfl⟩, by decide +kernel⟩

/-! ### C28 -/

/-- **C28** A check-in is accepted only from a keyper of some config, with a 32 byte validator key and a
well-formed encryption key, which is published; the validator key is registered and never changes
afterwards. -/
theorem C28_check_in (h : Exec ps dev log s) {pre post : List Rec} {r : Rec} (split : log = pre ++ r :: post)
    {a : Addr} {vk ek : Bytes} (acc : r.Accepts a (.checkIn vk ek)) :
    (∃ c ∈ r.before.configs, a ∈ c.keypers) ∧ vk.length = 32 ∧
    (∃ key, ps.pubkey ek = some key ∧ r.events = [.checkIn a key]) ∧
    s.identities a = some vk := by
  obtain ⟨hE, o, m, d, ho, hm, hop, hresp, hok, _, _, he⟩ := h.eff split acc
  have hev : r.events = d.events := by simp [Rec.events, hresp]
  have hmono := h.identities_mono r (by rw [split]; simp) a vk
  rw [hev]
  generalize hmsg : Msg.checkIn vk ek = msg at he
  generalize r.after = sa at he hmono
  cases he with
  | checkIn vk' ek' key h1 h2 h3 h4 =>
    simp at hmsg
    obtain ⟨rfl, rfl⟩ := hmsg
    refine ⟨?_, h3, ⟨key, h4, rfl⟩, hmono (.inr (by simp))⟩
    simp only [isKeyper, List.any_eq_true] at h2
    obtain ⟨c, hc, hk⟩ := h2
    exact ⟨c, hc, isKeyper_iff.1 hk⟩
  | rejected => simp [errorResponse] at hok
  | _ => simp at hmsg

/-- **C28** Nobody checks in twice: any later check-in of the same sender is rejected. -/
theorem C28_check_in_once (h : Exec ps dev log s) {pre mid post : List Rec} {r r' : Rec}
    (split : log = pre ++ r :: mid ++ r' :: post) {a : Addr} {vk ek vk' ek' : Bytes} (first : r.Accepts a (.checkIn vk ek)) :
    ¬ r'.Accepts a (.checkIn vk' ek') := by
  intro second
  have hE := (h.at split).1
  have h1 := (C28_check_in hE (pre := pre) (r := r) (post := mid) rfl first).2.2.2
  obtain ⟨_, o, m, d, ho, hm, hop, hresp, hok, _, _, he⟩ := h.eff split second
  generalize hmsg : Msg.checkIn vk' ek' = msg at he
  generalize r'.after = sa at he
  cases he with
  | checkIn vk'' ek'' key h2 =>
    have h2 : r'.before.identities a = none := h2
    rw [h1] at h2; simp at h2
  | rejected => simp [errorResponse] at hok
  | _ => simp at hmsg

/-- **C28** Registered keys come only from check-ins. -/
theorem C28_identities (h : Exec ps dev log s) {a : Addr} {k : Bytes} (reg : s.identities a = some k) :
    ∃ r ∈ log, ∃ ek, r.Accepts a (.checkIn k ek) := by
  induction h with
  | start => simp [newApp] at reg
  | @step log s o op s' r hE ho hs ih =>
    rcases step_frame hs with ⟨hf, hev, _⟩ | ⟨a', m, d, rfl, _, _, rfl, he⟩
    · rw [hf.identities] at reg
      obtain ⟨r, hr, h1⟩ := ih reg
      exact ⟨r, List.mem_append_left _ hr, h1⟩
    · have keep : s'.identities = s.identities → ∃ r ∈ log ++ [⟨s, .deliverTx (some (a', m)), .deliverTx d, s'⟩],
          ∃ ek, r.Accepts a (.checkIn k ek) := by
        intro h0
        rw [h0] at reg
        obtain ⟨r, hr, h1⟩ := ih reg
        exact ⟨r, List.mem_append_left _ hr, h1⟩
      generalize hm : m.msg = msg at he
      cases he with
      | checkIn vk ek pk h1 h2 h3 h4 =>
        by_cases ha : a = a'
        · subst ha
          simp at reg; subst reg
          exact ⟨_, List.mem_append_right _ (List.mem_singleton_self _), ek, ⟨m, hm, rfl, _, rfl⟩⟩
        · simp only [Function.update_of_ne ha] at reg
          obtain ⟨r, hr, h1⟩ := ih reg
          exact ⟨r, List.mem_append_left _ hr, h1⟩
      | _ => exact keep rfl

/-- In the demo chain, call 1 is an accepted check-in. -/
example : ∃ pre r post, Demo.logOf false Demo.ops = pre ++ r :: post ∧ r.Accepts (Demo.k 1) (.checkIn (Demo.pk 1) [5]) :=
  ⟨(Demo.logOf false Demo.ops).take 1, (Demo.logOf false Demo.ops)[1]'(by decide +kernel),
    (Demo.logOf false Demo.ops).drop 2, rfl, ⟨_, rfl, rfl, _, rfl⟩⟩

/-! ### C29 -/

/-- **C29** Nothing is published twice: per eon at most one commitment, accusation and apology of a sender, at most one
evaluation per sender and receiver (also within one message), per batch at most one decryption signature of a
sender, and at most one check-in of a sender. -/
theorem C29_published_once (h : Exec ps dev log s) : ((allEvents log).flatMap Event.once).Nodup := h.once.1

/-- The members involved in a DKG event: sender and addressees. -/
def dkgParties : Event → Option (Nat × Addr × List Addr)
  | .polyCommitment a e _ => some (e, a, [])
  | .polyEval a e rs _ => some (e, a, rs)
  | .accusation a e as => some (e, a, as)
  | .apology a e as _ => some (e, a, as)
  | _ => none

/-- **C29** DKG messages are published only for eons that were started, only from and to keypers of the config the eon was
started for, and never from a keyper to itself. -/
theorem C29_parties (h : Exec ps dev log s) {pre post : List Rec} {r : Rec} (split : log = pre ++ r :: post)
    {ev : Event} (hev : ev ∈ r.events) {e : Nat} {a : Addr} {tos : List Addr} (hp : dkgParties ev = some (e, a, tos)) :
    ∃ r' ∈ pre, ∃ c, r'.StartsEon e c ∧ a ∈ c.keypers ∧ ∀ b ∈ tos, b ∈ c.keypers ∧ b ≠ a := by
  obtain ⟨a', msg, acc⟩ := h.accepted_of_event split (List.ne_nil_of_mem hev)
  obtain ⟨hE, o, m, d, ho, hm, hop, hresp, hok, _, _, he⟩ := h.eff split acc
  rw [show r.events = d.events by simp [Rec.events, hresp]] at hev
  generalize r.after = sa at he
  have fin : ∀ d₀, r.before.dkgMap e = some d₀ → a ∈ d₀.config.keypers → (∀ b ∈ tos, b ∈ d₀.config.keypers ∧ b ≠ a) →
      ∃ r' ∈ pre, ∃ c, r'.StartsEon e c ∧ a ∈ c.keypers ∧ ∀ b ∈ tos, b ∈ c.keypers ∧ b ≠ a := by
    intro d₀ h0 h1 h2
    obtain ⟨r', hr', h3⟩ := hE.dkgConfig e d₀ h0
    exact ⟨r', hr', d₀.config, h3, h1, h2⟩
  cases he with
  | polyEval eon rs es d₀ d₁ h1 _ _ h2 =>
    simp at hev; subst hev
    simp [dkgParties] at hp; obtain ⟨rfl, rfl, rfl⟩ := hp
    obtain ⟨_, h3, h4, _⟩ := registerPolyEval_some h2
    exact fin d₀ h1 h3 (fun b hb => ⟨(h4 b hb).1, (h4 b hb).2.1⟩)
  | polyCommitment eon gs gs' d₀ d₁ h1 _ h2 =>
    simp at hev; subst hev
    simp [dkgParties] at hp; obtain ⟨rfl, rfl, rfl⟩ := hp
    obtain ⟨_, h3, _⟩ := registerPolyCommitment_some h2
    exact fin d₀ h1 h3 (by simp)
  | accusation eon as d₀ d₁ h1 _ h2 =>
    simp at hev; subst hev
    simp [dkgParties] at hp; obtain ⟨rfl, rfl, rfl⟩ := hp
    obtain ⟨_, h3, h4, _⟩ := registerAccusation_some h2
    exact fin d₀ h1 h3 h4
  | apology eon as es d₀ d₁ h1 _ _ h2 =>
    simp at hev; subst hev
    simp [dkgParties] at hp; obtain ⟨rfl, rfl, rfl⟩ := hp
    obtain ⟨_, h3, h4, _⟩ := registerApology_some h2
    exact fin d₀ h1 h3 h4
  | _ => simp [errorResponse, configEvent] at hev; (try (rcases hev with rfl | rfl)); all_goals (subst_vars; simp [dkgParties] at hp)

/-- What an accepted DKG message publishes. -/
def dkgEvent (ps : Parsers) (a : Addr) : Msg → Option Event
  | .polyEval e rs es => some (.polyEval a e rs es)
  | .polyCommitment e gs => (gs.mapM ps.g2).map (.polyCommitment a e)
  | .accusation e as => some (.accusation a e as)
  | .apology e as es => some (.apology a e as (es.map bigOfBytes))
  | _ => none

def Msg.isDkg : Msg → Bool
  | .polyEval .. => true
  | .polyCommitment .. => true
  | .accusation .. => true
  | .apology .. => true
  | _ => false

/-- **C29** Exactly the accepted DKG messages are published: an accepted one publishes itself, and nothing else does. -/
theorem C29_published_exactly (h : Exec ps dev log s) {r : Rec} (hr : r ∈ log) :
    (∀ a m, r.Accepts a m → Msg.isDkg m = true → ∃ ev, dkgEvent ps a m = some ev ∧ r.events = [ev]) ∧
    (∀ ev ∈ r.events, (dkgParties ev).isSome = true →
      ∃ a m, r.Accepts a m ∧ Msg.isDkg m = true ∧ dkgEvent ps a m = some ev) := by
  obtain ⟨pre, post, hl⟩ := List.append_of_mem hr
  have key : ∀ a m, r.Accepts a m → Msg.isDkg m = true → ∃ ev, dkgEvent ps a m = some ev ∧ r.events = [ev] := by
    intro a msg acc hd
    obtain ⟨hE, o, m, d, ho, hm, hop, hresp, hok, _, _, he⟩ := h.eff hl acc
    rw [show r.events = d.events by simp [Rec.events, hresp]]
    generalize r.after = sa at he
    cases he with
    | rejected => simp [errorResponse] at hok
    | polyEval eon rs es d₀ d₁ h1 _ _ h2 => exact ⟨_, rfl, rfl⟩
    | polyCommitment eon gs gs' d₀ d₁ h1 hg h2 => exact ⟨_, by simp [dkgEvent, hg], rfl⟩
    | accusation eon as d₀ d₁ h1 _ h2 => exact ⟨_, rfl, rfl⟩
    | apology eon as es d₀ d₁ h1 _ _ h2 => exact ⟨_, rfl, rfl⟩
    | _ => simp [Msg.isDkg] at hd
  refine ⟨key, fun ev hev hp => ?_⟩
  obtain ⟨a, msg, acc⟩ := h.accepted_of_event hl (List.ne_nil_of_mem hev)
  by_cases hd : Msg.isDkg msg = true
  · obtain ⟨ev', h1, h2⟩ := key a msg acc hd
    rw [h2] at hev; simp at hev; subst hev
    exact ⟨a, msg, acc, hd, h1⟩
  · exfalso
    obtain ⟨hE, o, m, d, ho, hm, hop, hresp, hok, _, _, he⟩ := h.eff hl acc
    rw [show r.events = d.events by simp [Rec.events, hresp]] at hev
    generalize r.after = sa at he
    cases he with
    | polyEval => simp [Msg.isDkg] at hd
    | polyCommitment => simp [Msg.isDkg] at hd
    | accusation => simp [Msg.isDkg] at hd
    | apology => simp [Msg.isDkg] at hd
    | _ => simp [errorResponse, configEvent] at hev; (try (rcases hev with rfl | rfl)); all_goals (subst_vars; simp [dkgParties] at hp)

/-- The demo chain publishes one DKG message of each kind (calls 12 to 15). -/
example : (allEvents (Demo.logOf false Demo.ops)).filterMap dkgParties =
    [(1, Demo.k 2, []), (1, Demo.k 2, [Demo.k 3, Demo.k 4]), (1, Demo.k 2, [Demo.k 3]), (1, Demo.k 3, [Demo.k 2])] := by
  decide +kernel

/-! ### C30 -/

/-- **C30** A decryption signature is published only if its sender is a keyper of the config that was in force for the batch
when the first signature for the batch was published. (At most one per sender: `C29_published_once`.) -/
theorem C30_signature_member (h : Exec ps dev log s) {pre post : List Rec} {r : Rec} (split : log = pre ++ r :: post)
    {a : Addr} {b : Nat} {sig : Bytes} (hev : Event.decryptionSignature b a sig ∈ r.events) :
    ∃ first c, FirstSignature (pre ++ [r]) b first ∧ InForce first.before.configs b c ∧ a ∈ c.keypers := by
  obtain ⟨a', msg, acc⟩ := h.accepted_of_event split (List.ne_nil_of_mem hev)
  obtain ⟨hE, o, m, d, ho, hm, hop, hresp, hok, _, _, he⟩ := h.eff split acc
  have hev' := hev
  rw [show r.events = d.events by simp [Rec.events, hresp]] at hev'
  generalize r.after = sa at he
  cases he with
  | decSig b' sig' bs bs' h1 h2 =>
    simp at hev'; obtain ⟨rfl, rfl, rfl⟩ := hev'
    obtain ⟨h3, _, _⟩ := addDecryptionSignature_some h2
    simp only [getBatchState, withNonce] at h1
    split at h1
    · next bs₀ hb =>
      simp at h1; subst h1
      obtain ⟨r', ⟨p, q, h4, h5, h6⟩, h7⟩ := (hE.batchConfigs b).2 bs₀ hb
      exact ⟨r', bs₀.config, ⟨p, q ++ [r], by rw [h4]; simp, h5, h6⟩, h7, h3⟩
    · next hb =>
      split at h1
      · simp at h1
      next c hc =>
      simp at h1
      refine ⟨r, c, ⟨pre, [], rfl, ⟨_, _, hev⟩, (hE.batchConfigs b).1 hb⟩, getConfig_iff.1 hc, ?_⟩
      rw [← h1] at h3; exact h3
  | _ => simp [errorResponse, configEvent] at hev'

/-- In the demo chain, calls 16 and 17 publish decryption signatures for batch 150. -/
example : (Demo.logOf false Demo.ops)[17]?.map (fun r => r.events) =
    some [.decryptionSignature 150 (Demo.k 3) [9]] := by decide +kernel

/-! ### C31 -/

/-- **C31** The validator updates returned by `EndBlock` are sorted, contain each key once and, applied to the previous powers,
give exactly the new powers: those of the newest config that is started and has enough checked-in keypers
(10 per keyper, with the power of keypers that have not checked in going to a fixed key nobody holds), or the old
ones if there is no such config. -/
theorem C31_validator_updates (h : Exec ps false log s) {pre post : List Rec} {r : Rec} (split : log = pre ++ r :: post)
    {height : Nat} {ups : Powermap} (call : r.op = .endBlock height) (resp : r.resp = .endBlock ups)
    (mode : r.before.devMode = false) :
    (ups.map (·.1)).Nodup ∧ ups.Pairwise (fun a b => bytesLe a.1 b.1 = true) ∧
    ∀ k, applyUpdates r.before.validators.get ups k =
      match r.after.configs.reverse.find? (fun c => c.started && c.validatorsUpdated) with
      | some c => 10 * (c.keypers.countP (fun a => decide ((r.before.identities a).getD nonExistentValidator = k)) : Int)
      | none => r.before.validators.get k := by
  obtain ⟨hE, o, ho, hst⟩ := h.at split
  rw [call, resp] at hst
  simp only [App.step, Option.map_eq_some_iff, Prod.mk.injEq] at hst
  obtain ⟨⟨s₁, ups'⟩, hi, he, hu⟩ := hst
  simp at he hu
  subst he; subst hu
  obtain ⟨_, h2, h3, h4, _, h6⟩ := endBlock_validators ho hE.validators hi
  refine ⟨h2, h3, fun k => ?_⟩
  rw [h4 mode, h6]
  cases r.after.configs.reverse.find? (fun c => c.started && c.validatorsUpdated) with
  | some c => exact makePowermap_get _ _ _
  | none => rfl

/-- **C31** Tendermint and the application agree on the validators: applying all updates since genesis gives the powers the
application stores. (`InitChain` is called once, first.) -/
theorem C31_tendermint_agrees (h : Exec ps false log s)
    (initOnce : ∀ pre r post, log = pre ++ r :: post → (∃ req, r.op = .initChain req) → pre = []) :
    tmValidators log = s.validators.get := (h.tmValidators initOnce).2

/-- In the demo chain, call 10 (`EndBlock`) changes the validators. -/
example : (Demo.logOf false Demo.ops)[10]?.map (fun r => r.resp) =
    some (.endBlock [(Demo.pk 2, 10), (Demo.pk 3, 10), (Demo.pk 9, 0), (nonExistentValidator, 10)]) ∧
    (Demo.stateOf false Demo.ops).devMode = false ∧
    ((Demo.logOf false Demo.ops).drop 1).all (fun r => match r.op with | .initChain _ => false | _ => true) = true := by
  decide +kernel

/-! ### C32 -/

/-- **C32** A node that crashes any number of times, at any points, and may or may not have written its state to disk at each
commit, is always in the state (up to `CheckTx`) that an uninterrupted node reaches on the calls made so far,
and such an uninterrupted execution exists. -/
theorem C32_replay_state {req : InitRequest} {blocks : List (List Tx)} {n : Node}
    (h : NodeReach ps dev req blocks n) :
    (∃ log t, Exec ps dev log t ∧ log.map (·.op) = (chainOps req blocks).take n.pos ∧ SameButCheckTx n.app t) ∧
    ∀ log t, Exec ps dev log t → (consensusCalls log).map (·.op) = (chainOps req blocks).take n.pos →
      SameButCheckTx n.app t := by
  obtain ⟨t, rs, h1, h2⟩ := h.inv.app
  constructor
  · obtain ⟨log, hE, h3, _⟩ := Exec.ofRun (Exec.start (ps := ps) (dev := dev)) h1
    exact ⟨log, t, by simpa using hE, h3, h2⟩
  · intro log t' hE hops
    obtain ⟨t'', h3, h4⟩ := hE.canonical
    rw [hops, h1] at h3
    simp at h3
    rw [h3.1] at h2
    exact h2.trans h4.symm

/-- **C32** Every response a crashing node ever gave, also while replaying, is the response of an uninterrupted node to
the same call of the chain. -/
theorem C32_replay_responses {req : InitRequest} {blocks : List (List Tx)} {n : Node}
    (h : NodeReach ps dev req blocks n) {i : Nat} {r : Resp} (out : (i, r) ∈ n.out) {len : Nat} {t : State}
    (hE : Exec ps dev log t) (hops : (consensusCalls log).map (·.op) = (chainOps req blocks).take len) (hi : i < len)
    (hlen : len ≤ (chainOps req blocks).length) :
    ((consensusCalls log).map (·.resp))[i]? = some r := by
  obtain ⟨t₀, rs, h1, h2⟩ := h.inv.out _ out
  simp only at h1 h2
  obtain ⟨t', h3, _⟩ := hE.canonical
  rw [hops] at h3
  obtain ⟨t'', h4⟩ := runOps_take h3 (i + 1)
  rw [List.take_take, Nat.min_eq_left (by omega), h1] at h4
  simp at h4
  rw [h4.2] at h2
  rw [List.getElem?_take_of_lt (by omega)] at h2
  exact h2

/-- A node that commits a block with persisting it, crashes in the middle of the second block and resumes after the first. -/
example : ∃ n, NodeReach Demo.ps false Demo.req [[], [none]] n ∧ n.pos = 3 ∧ n.out.length = 4 ∧ n.disk.isSome = true := by
  have law := idOrders_lawful
  have h0 : NodeReach Demo.ps false Demo.req [[], [none]] _ := .start
  have h1 := h0.step (.call _ idOrders (.initChain Demo.req) _ _ law rfl rfl)
  have h2 := h1.step (.call _ idOrders (.endBlock 1) _ _ law rfl rfl)
  have h3 := h2.step (.callAndPersist _ idOrders _ _ law rfl rfl)
  have h4 := h3.step (.call _ idOrders (.deliverTx none) _ _ law rfl rfl)
  have h5 := h4.step (.crash _)
  exact ⟨_, h5, rfl, rfl, rfl⟩

/-! ### C53 -/

/-- **C53** Once the chain is initialised, no call - whatever transaction, height or map order - makes the application panic. -/
theorem C53_no_panic (h : Exec ps dev log s) (o : Orders) (ho : o.Lawful) (op : Op)
    (hop : ∀ req, op ≠ .initChain req) : ∃ s' r, step ps o s op = some (s', r) := by
  obtain ⟨⟨s', r⟩, hp⟩ := step_total (ps := ps) ho h.inv op hop
  exact ⟨s', r, hp⟩

/-- Even an unusual message does not panic in the demo chain's final state. -/
example : ∃ s' r, step Demo.ps idOrders (Demo.stateOf false Demo.ops) (.deliverTx (some ([], ⟨.unknown, [], 0⟩))) =
    some (s', r) := C53_no_panic Demo.exec idOrders idOrders_lawful _ (by simp)

/-! ### C60 -/

/-- **C60** Every config that is added has a DKG for exactly its keypers and its threshold: the newest eon's. It was started with
the config, or the keypers and the threshold are those of the newest eon before. -/
theorem C60_config_has_dkg (h : Exec ps dev log s) {r : Rec} (hr : r ∈ log) {a : Addr} {m : BatchConfigMsg} {c : BatchConfig}
    (acc : r.Accepts a (.batchConfig m)) (added : r.after.configs = r.before.configs ++ [c]) :
    ∃ d, r.after.dkgMap r.after.eonCounter = some d ∧ d.config.keypers = c.keypers ∧ d.config.threshold = c.threshold ∧
      (Event.eonStarted r.after.eonCounter c.startBatchIndex ∈ r.events ∧ r.after.eonCounter = r.before.eonCounter + 1 ∨
        r.before.dkgMap r.before.eonCounter = some d ∧ r.after.eonCounter = r.before.eonCounter) := by
  obtain ⟨pre, post, hl⟩ := List.append_of_mem hr
  obtain ⟨hE, o, m', d, ho, hm, hop, hresp, hok, _, _, he⟩ := h.eff hl acc
  have hev : r.events = d.events := by simp [Rec.events, hresp]
  rw [hev]
  generalize hmsg : Msg.batchConfig m = msg at he
  generalize hsa : r.after = sa at he added
  have hb : (withNonce r.before a m'.randomNonce).configs = r.before.configs := rfl
  cases he with
  | configAdded m₁ bc last cv i h1 h2 h3 h4 h5 h6 h7 h8 =>
    have hc : bc = c := by simpa [App.added, updateCheckTxMembers, hb] using added
    subst hc
    unfold shouldStartDKG at h8
    split at h8
    · cases h8
    · next dkg hd =>
      split at h8
      · cases h8
      · next ht =>
        refine ⟨dkg, hd, ?_, ?_, Or.inr ⟨hd, rfl⟩⟩
        · simpa using h8
        · simpa using ht
  | configAddedDKG m₁ bc last cv i h1 h2 h3 h4 h5 h6 h7 h8 =>
    have hc : bc = c := by simpa [App.added, startDKG, updateCheckTxMembers, hb] using added
    subst hc
    refine ⟨newDKGInstance bc (r.before.eonCounter + 1), ?_, rfl, rfl, Or.inl ⟨?_, rfl⟩⟩
    · simp [startDKG, App.added, updateCheckTxMembers, withNonce]
    · simp [startDKG, App.added, updateCheckTxMembers, withNonce]
  | _ => simp [hb, updateCheckTxMembers] at hmsg added

/-- The demo chain adds configs, the first of them with an eon of its own. -/
example : ∃ r ∈ Demo.logOf false Demo.ops, ∃ a m c, r.Accepts a (.batchConfig m) ∧ r.after.configs = r.before.configs ++ [c] :=
  ⟨(Demo.logOf false Demo.ops)[6]'(by decide +kernel), List.getElem_mem _, Demo.k 2, Demo.cfg1,
    ⟨100, [Demo.k 2, Demo.k 3, Demo.k 4], 2, zeroAddr, 1, false, false⟩,
    ⟨⟨.batchConfig Demo.cfg1, Demo.chain, 2⟩, rfl, rfl, _, rfl⟩, by decide +kernel⟩

end Shutter.App.Props
