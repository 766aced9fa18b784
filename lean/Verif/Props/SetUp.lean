import Verif.Proofs.SetUp

/-!
# C95: setting up a system
-/

namespace Shutter.SetUp.Props
open Shutter.App Shutter.Bootstrap Shutter.Deploy Shutter.Files Shutter.Operator
open Shutter.Sol (Address Env zeroConfig)

section
variable {E : Env} {owner : Address} {addr : Nat → Addr} {n : Nat}

/-- After a deployment that reports success, `config set-next` with a file that leaves the start open, reporting success, gives a next config
that is as in the file, with a start that can be scheduled in each of the next 19 blocks; and if `config schedule` then reports success, this is
config number 1, and the only one besides the empty one. -/
theorem C95_scheduled (ha : GoodAddresses addr n) (cx : Events.Codecs) {s0 s : Site} (h0 : Start n s0) (hs : SiteLater E owner addr n s0 s)
    {contracts : Events.Text} (hd : report cx addr n s.receipts = .done contracts)
    {n1 n2 n3 : Operator.Node} {file : Sol.BatchConfig} {txs todo todo' : List Operator.Tx}
    (contract : n1.config = s.world.config) (account : n1.account = owner) (settled : Settled n1) (fits : Fits file)
    (auto : file.startBlockNumber = 0) (small : n1.block + 42 < Sol.two64)
    (run : setNextTxs n1.config n1.block n1.pendingNonce file = some txs) (set : Command n1 txs n2 todo) (set_ok : Success txs n2 todo)
    (settled2 : Settled n2) (schedule : Command n2 (scheduleTxs n2.pendingNonce) n3 todo')
    (schedule_ok : Success (scheduleTxs n2.pendingNonce) n3 todo') :
    (∀ b ≤ n1.block + 19, ∃ c, n2.config.call b owner .schedule = some c) ∧
      ∃ start, n1.block + 40 ≤ start ∧ start ≤ n1.block + 41 ∧
        n3.config.scheduled = [zeroConfig, { file with startBlockNumber := start, startBatchIndex := 0 }] ∧ n3.config.next = zeroConfig := by
  obtain ⟨c, -, hu⟩ := Deploy.Props.C91_untouched ha cx h0 hs hd
  have hc : n1.config = Sol.Config.init 20 owner := contract.trans hu.config
  have own : n1.config.owner = n1.account := by rw [hc, account]; rfl
  have nodup : n1.config.next.keypers.Nodup := by rw [hc]; exact List.nodup_nil
  have z : Fits zeroConfig := by unfold Fits; decide
  have fits' : Fits n1.config.next := by rw [hc]; exact z
  have hr : ∀ bc ∈ n1.config.scheduled, Fits bc := by
    rw [hc]; intro bc hb; rw [List.mem_singleton.1 hb]; exact z
  have hl : n1.config.scheduled.getLast? = some zeroConfig := by rw [hc]; rfl
  have hup : n1.config.headsUp = 20 := by rw [hc]; rfl
  have hsmall : zeroConfig.startBatchIndex + n1.block + n1.config.headsUp + zeroConfig.batchSpan + 22 < Sol.two64 := by
    rw [hup]; simp only [zeroConfig]; omega
  have hsoon : zeroConfig.startBlockNumber ≤ n1.block + n1.config.headsUp + 21 := by simp only [zeroConfig]; omega
  obtain ⟨st, i, e, k⟩ := (C87_set_partial (last := zeroConfig) settled own nodup fits fits' hr run set set_ok).2 auto
  obtain ⟨seam, k1, k2⟩ := k hl hsmall hsoon
  have hacc : n2.account = owner := by
    have := run
    rw [pending_settled settled] at this
    unfold setNextTxs at this
    simp only [bind, Option.bind_eq_some_iff, Option.some.injEq] at this
    obtain ⟨bc, hbc, rfl⟩ := this
    exact (inv settled own (plain_sets _) set).1.trans account
  have own2 : n2.config.owner = n2.account := by rw [e, hacc, hc]; rfl
  have hl2 : n2.config.scheduled.getLast? = some zeroConfig := by rw [e]; exact hl
  obtain ⟨e3, -⟩ := C87_schedule settled2 own2 hl2 schedule schedule_ok
  have hi : i = 0 := by rw [e] at seam; exact seam.2 rfl
  subst hi
  constructor
  · intro b hb
    have := (C87_schedulable settled own nodup fits fits' hr run set set_ok auto hl hsmall hsoon (by rw [hc]; simp [Sol.Config.init, Sol.two64]) b).2
      (by simp [zeroConfig]) hb
    rwa [account] at this
  · refine ⟨st, by omega, by simp only [zeroConfig] at k2; omega, ?_, by rw [e3]⟩
    rw [e3, e, hc]; rfl

/-- When the contracts were deployed, a config was set and scheduled, a chain was made for one keyper by `init`, and `bootstrap` was run, and all these
commands reported success, then, unless another config is accepted meanwhile, every later end of a block finds config number 1 started, with
the keypers and the threshold that are in the operator's file; and if at least as many of them as the threshold have registered validator keys, these
are the validators. -/
theorem C95_set_up (ha : GoodAddresses addr n) (cx : Events.Codecs) {s0 s : Site} (h0 : Start n s0) (hs : SiteLater E owner addr n s0 s)
    {contracts : Events.Text} (hd : report cx addr n s.receipts = .done contracts)
    {n1 n2 n3 : Operator.Node} {file : Sol.BatchConfig} {txs todo todo' : List Operator.Tx}
    (contract : n1.config = s.world.config) (account : n1.account = owner) (settled : Settled n1) (fits : Fits file) (nodup : file.keypers.Nodup)
    (auto : file.startBlockNumber = 0) (small : n1.block + 42 < Sol.two64)
    (run : setNextTxs n1.config n1.block n1.pendingNonce file = some txs) (set : Command n1 txs n2 todo) (set_ok : Success txs n2 todo)
    (settled2 : Settled n2) (schedule : Command n2 (scheduleTxs n2.pendingNonce) n3 todo')
    (schedule_ok : Success (scheduleTxs n2.pendingNonce) n3 todo')
    {ps : Parsers} {log : List Rec} {t : App.State} (h : Exec ps false log t) {g g' : Addr} {key chainId : App.Bytes}
    (begins : Begins log (genesisRequest [g] key chainId)) {configAddress : Addr} {m : BatchConfigMsg} {index : Nat}
    {pre mid mid' post : List Rec} {r r' e : Rec}
    (bootstrap_ok : Succeeds log n3.config configAddress (-1) g' m index pre r mid r' (mid' ++ e :: post))
    {height : Nat} (call : e.op = .endBlock height) (calm : e.before.configs.length = r'.after.configs.length) :
    ∃ last, e.after.configs.getLast? = some last ∧ last.started = true ∧ last.configIndex = 1 ∧ last.startBatchIndex = 0 ∧
      last.keypers = file.keypers.map Tx.addrBytes ∧ last.threshold = file.threshold ∧
      (file.threshold ≤ registeredOf e.before last.keypers →
        ∀ key, tmValidators (pre ++ r :: mid ++ r' :: mid' ++ [e]) key = powerOf e.before last.keypers key) := by
  obtain ⟨-, st, -, -, hsch, -⟩ := C95_scheduled ha cx h0 hs hd contract account settled fits auto small run set set_ok settled2 schedule schedule_ok
  have hindex : index = 1 := by
    have h1 := (Bootstrap.Props.C88_read (c := n3.config) (by rw [hsch]; simp) configAddress (-1)).1 (by decide)
    rw [bootstrap_ok.sent, hsch] at h1
    simpa using h1
  subst hindex
  have split2 : log = (pre ++ r :: mid) ++ r' :: (mid' ++ e :: post) := by rw [bootstrap_ok.split]
  have hthr : ∀ d ∈ r'.before.configs, d.configIndex < 1 → d.threshold ≤ 1 := by
    obtain ⟨q, rest, hq, hop, -⟩ := begins
    have hpre : ∃ rest', pre ++ r :: mid = q :: rest' := by
      have h2 := split2.symm.trans hq
      cases pre with
      | nil => simp only [List.nil_append, List.cons_append, List.cons.injEq] at h2; exact ⟨mid, by rw [← h2.1]; rfl⟩
      | cons x xs => simp only [List.cons_append, List.cons.injEq] at h2; exact ⟨xs ++ r :: mid, by rw [← h2.1]; rfl⟩
    obtain ⟨rest', hr'⟩ := hpre
    exact single_threshold (h.at split2).1 hr' hop
  obtain ⟨bc, last, a1, a2, a3, a4, a5, a6, a7, a8⟩ := Bootstrap.Props.C88_bootstrap_partial h begins bootstrap_ok hthr call calm
  rw [Main.getConfig_eq, hsch] at a1
  simp only [List.getElem?_cons_succ, List.getElem?_cons_zero, Option.map_some, Option.some.injEq] at a1
  subst a1
  have hk : Shutter.GoConfig.dedupGo [] file.keypers = file.keypers := dedupGo_nodup _ _ nodup (by simp)
  simp only [Main.known, hk] at a5 a6 a7 a8
  exact ⟨last, a2, a3, a4, a5, a6, a7, a8⟩

end

/-! ## Example -/

namespace Demo
open Shutter.App.Demo (tx k pk logOf stateOf)

/-- The config contract after the deployment in the example of C91, with the deployer's account. -/
def n1 : Operator.Node := ⟨100, Sol.Config.init 20 7, 7, 15, [], []⟩

def file : Sol.BatchConfig := Operator.Demo.cfgFile [5, 6, 7] 2 10

def n2 : Operator.Node := (Operator.Demo.setNext n1 file).getD n1

def n3 : Operator.Node := (Operator.Demo.schedule n2).getD n1

def config1 : BatchConfigMsg := ⟨0, [k 5, k 6, k 7], 2, k 99, 1, false, false⟩

/-- The genesis keyper 9 bootstraps the chain, and two keypers check in. -/
def chainOps : List App.Op :=
  [ .initChain Bootstrap.Demo.bootReq, .endBlock 1, .commit, tx (k 9) 1 (.batchConfig config1), .endBlock 2, .commit,
    tx (k 9) 2 (.batchConfigStarted 1), tx (k 5) 1 (.checkIn (pk 5) [5]), tx (k 6) 1 (.checkIn (pk 6) [6]), .endBlock 3, .commit ]

def chainLog : List Rec := logOf false chainOps

end Demo

open Demo in
open Shutter.App.Demo (k pk stateOf) in
/-- The hypotheses are met: after the deployment of the example of C91 the deployer sets and schedules a config with the keypers 5, 6 and 7 and
threshold 2; a chain is made for keyper 9, who bootstraps it; keypers 5 and 6 check in, and after block 3 they are validators and 9 is not. -/
theorem C95_example (cx : Events.Codecs) :
    (GoodAddresses Deploy.Props.Demo.addr 5 ∧ Start 5 Deploy.Props.Demo.s0 ∧
      SiteLater Deploy.Props.Demo.E 7 Deploy.Props.Demo.addr 5 Deploy.Props.Demo.s0 Deploy.Props.Demo.s3 ∧
      ∃ contracts, report cx Deploy.Props.Demo.addr 5 Deploy.Props.Demo.s3.receipts = .done contracts) ∧
    (∃ txs, n1.config = Deploy.Props.Demo.s3.world.config ∧ n1.account = 7 ∧ Settled n1 ∧ Fits file ∧ file.keypers.Nodup ∧ file.startBlockNumber = 0 ∧
      n1.block + 42 < Sol.two64 ∧ setNextTxs n1.config n1.block n1.pendingNonce file = some txs ∧ Command n1 txs n2 [] ∧ Success txs n2 [] ∧
      Settled n2 ∧ Command n2 (scheduleTxs n2.pendingNonce) n3 [] ∧ Success (scheduleTxs n2.pendingNonce) n3 []) ∧
    Exec App.Demo.ps false chainLog (stateOf false chainOps) ∧ Begins chainLog (genesisRequest [k 9] (pk 9) App.Demo.chain) ∧
    ∃ pre r mid r' mid' e post, Succeeds chainLog n3.config (k 99) (-1) (k 9) config1 1 pre r mid r' (mid' ++ e :: post) ∧
      e.op = .endBlock 3 ∧ e.before.configs.length = r'.after.configs.length ∧ 2 ≤ registeredOf e.before [k 5, k 6, k 7] ∧
      (tmValidators (pre ++ r :: mid ++ r' :: mid' ++ [e]) (pk 5), tmValidators (pre ++ r :: mid ++ r' :: mid' ++ [e]) (pk 9)) = (10, 0) := by
  refine ⟨⟨Deploy.Props.Demo.good, Deploy.Props.Demo.start, Relation.ReflTransGen.mono (fun _ _ => lucky_site) _ _ Deploy.Props.Demo.s3_later,
    Deploy.Props.C91_succeeds Deploy.Props.Demo.good cx Deploy.Props.Demo.start rfl Deploy.Props.Demo.s3_later (by decide +kernel)⟩,
    ⟨(setNextTxs n1.config n1.block n1.pendingNonce file).getD [], (Deploy.Props.C91_untouched_example cx).1.symm, rfl, by unfold Settled; decide +kernel,
      by unfold Fits; decide +kernel, by decide +kernel, by decide +kernel, by decide +kernel, by decide +kernel,
      Operator.Demo.execute_run (by decide +kernel), by unfold Success; decide +kernel, by unfold Settled; decide +kernel,
      Operator.Demo.execute_run (by decide +kernel), by unfold Success; decide +kernel⟩,
    App.Demo.exec_of _ _ (by decide +kernel), App.Demo.begins_of (by rfl) (by decide +kernel), ?_⟩
  obtain ⟨r, hr⟩ : ∃ r, chainLog[3]? = some r := Option.isSome_iff_exists.1 (by decide +kernel)
  obtain ⟨r', hr'⟩ : ∃ r, (chainLog.drop 4)[2]? = some r := Option.isSome_iff_exists.1 (by decide +kernel)
  obtain ⟨e, he⟩ : ∃ r, ((chainLog.drop 4).drop 3)[2]? = some r := Option.isSome_iff_exists.1 (by decide +kernel)
  have split := Bootstrap.Props.split_three 3 2 2 hr hr' he
  refine ⟨_, r, _, r', _, e, _, ⟨by decide +kernel, split, Bootstrap.Demo.accepts_iff.1 ?_, Bootstrap.Demo.accepts_iff.1 ?_⟩, ?_, ?_, ?_, ?_⟩
  · have h1 : (chainLog[3]?).any (Bootstrap.Demo.accepts (k 9) (.batchConfig config1)) = true := by decide +kernel
    rw [hr] at h1
    simpa using h1
  · have h1 : ((chainLog.drop 4)[2]?).any (Bootstrap.Demo.accepts (k 9) (.batchConfigStarted 1)) = true := by decide +kernel
    rw [hr'] at h1
    simpa using h1
  · have h1 : (((chainLog.drop 4).drop 3)[2]?).map (·.op) = some (.endBlock 3) := by rfl
    rw [he] at h1
    simpa using h1
  · have h1 : (((chainLog.drop 4).drop 3)[2]?).map (fun r => r.before.configs.length) = ((chainLog.drop 4)[2]?).map (fun r => r.after.configs.length) := by
      decide +kernel
    rw [he, hr'] at h1
    simpa using h1
  · have h1 : (((chainLog.drop 4).drop 3)[2]?).any (fun r => decide (2 ≤ registeredOf r.before [k 5, k 6, k 7])) = true := by decide +kernel
    rw [he] at h1
    simpa using h1
  · have h1 : chainLog.take 10 = List.take 3 chainLog ++ r :: List.take 2 (List.drop (3 + 1) chainLog) ++
        r' :: List.take 2 (List.drop (2 + 1) (List.drop (3 + 1) chainLog)) ++ [e] := by
      have hlen : chainLog.length = 11 := by decide +kernel
      have e1 : chainLog = (List.take 3 chainLog ++ r :: List.take 2 (List.drop (3 + 1) chainLog) ++
        r' :: List.take 2 (List.drop (2 + 1) (List.drop (3 + 1) chainLog)) ++ [e]) ++
          List.drop (2 + 1) (List.drop (2 + 1) (List.drop (3 + 1) chainLog)) := by
        refine split.trans ?_
        simp only [List.append_assoc, List.cons_append, List.nil_append]
      have e2 := congrArg (List.take 10) e1
      rw [List.take_left' (by simp [hlen])] at e2
      exact e2
    rw [← h1]
    decide +kernel

end Shutter.SetUp.Props
