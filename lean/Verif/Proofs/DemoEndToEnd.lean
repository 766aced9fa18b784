import Verif.Props.EndToEnd
import Verif.Proofs.DemoBroadcast

/-! # A concrete pair of chains: key generation, votes, an encrypted transaction, shares, signatures and execution -/

namespace Shutter.Net.EndDemo
open Shutter.App Shutter.Crypto Shutter.Dkg Shutter.Observe Shutter.Main Shutter.Decide Shutter.Decide.Spec Shutter.Decide.Props
open Shutter.Events Shutter.Events.Props
open Shutter.Sol (World two64)
open Shutter.Decide.Props.HonestDemo (kC)
open Shutter.Decide.Demo (env signAs codec core start cipherTx message sigma)
open Shutter.App.Demo (ps tx)

variable {G1 G2 GT R : Type} [AddCommGroup G1] [AddCommGroup G2] [DecidableEq G2] [DecidableEq GT]

/-! ## Checks for the hypotheses -/

def arrivesOk (pre : List Rec) (r : Rec) (own : Addr) (m : Msg) : Bool :=
  match Demo.delivered r with
  | none => false
  | some (a, mw) => decide (a = own) && decide (mw.msg = m) && decide (mw.chainId = r.before.chainID) &&
      pre.all (fun r' => match Demo.delivered r' with
        | none => true
        | some (a', m') => decide (a' ≠ own) || decide (m'.randomNonce ≠ mw.randomNonce))

theorem arrives_of {pre : List Rec} {r : Rec} {own : Addr} {m : Msg} (h : arrivesOk pre r own m = true) : Arrives pre r own m := by
  unfold arrivesOk at h
  split at h
  · cases h
  · next a mw hd =>
    simp only [Bool.and_eq_true, decide_eq_true_eq] at h
    obtain ⟨⟨⟨rfl, rfl⟩, hc⟩, hn⟩ := h
    refine ⟨mw.randomNonce, Demo.delivers_iff.2 (by rw [← hc]; exact hd), ?_⟩
    intro r' hr' m' hd'
    have := List.all_eq_true.1 hn r' hr'
    rw [Demo.delivers_iff.1 hd'] at this
    simpa using this

def shareOk (w : Wire Zq Zq) (log : List Rec) (own : Addr) (e n : Nat) (rs : List (Round Zq Zq)) (upTo : Int) : Bool :=
  (said (sharesFor e n) rs).any (fun m => (Demo.splits log).any (fun p =>
    (match message w (.epochSecretKeyShare e n m.2) with | some x => arrivesOk p.1 p.2.1 own x | none => false) && decide (m.1 ≤ heightAfter p.1) && decide ((heightAfter p.1 : Int) < upTo)))

theorem share_of {w : Wire Zq Zq} {log : List Rec} {own : Addr} {e n : Nat} {rs : List (Round Zq Zq)} {upTo : Int}
    (h : shareOk w log own e n rs upTo = true) : ShareDelivered w log own e n rs upTo := by
  unfold shareOk at h
  simp only [List.any_eq_true, Bool.and_eq_true, decide_eq_true_eq] at h
  obtain ⟨m, hm, ⟨pre, r, post⟩, hp, ⟨h1, h2⟩, h3⟩ := h
  exact ⟨m, hm, pre, r, post, Demo.mem_splits.1 hp, ⟨_, rfl, arrives_of h1⟩, h2, h3⟩

def signsOk (log : List Rec) (hist : Nat → World) (ml : List (Moment Zq Zq)) (own : Addr) (n timeout : Nat) (upTo : Int) : Bool :=
  ml.all (fun m => decide (m.view.currentBlock ≤ upTo) && decide ((hist m.main.currentBlock).block + 1 < timeout) &&
    decide ((hist m.main.currentBlock).executor.halfSteps ≤ 2 * n + 1) &&
    m.acts.all (fun a => match a with
      | .decryptionSignature n' sig => decide (n' ≠ n) ||
          (Demo.splits log).any (fun p => (match message Demo.wire (.decryptionSignature n sig) with | some x => arrivesOk p.1 p.2.1 own x | none => false) && decide ((heightAfter p.1 : Int) ≤ upTo))
      | _ => true)) &&
  log.all (fun r => (!isDelivery r.op || (Demo.splits r.before.configs).all (fun p => !p.2.2.all (fun d => decide (n < d.startBatchIndex)) || decide (own ∈ p.2.1.keypers))) && match Demo.delivered r with
    | some (a, ⟨.decryptionSignature n' sig, _, _⟩) => decide (a ≠ own) || decide (n' ≠ n) || ml.any (fun x => x.acts.any (fun a => decide (message Demo.wire a = some (.decryptionSignature n sig))))
    | _ => true)

theorem signs_of {log : List Rec} {hist : Nat → World} {ml : List (Moment Zq Zq)} {own : Addr} {n timeout : Nat} {upTo : Int}
    (h : signsOk log hist ml own n timeout upTo = true) (e : Nat) : SignsEarly Demo.wire log hist ml own e n timeout upTo := by
  simp only [signsOk, Bool.and_eq_true, List.all_eq_true, decide_eq_true_eq] at h
  obtain ⟨h1, h2⟩ := h
  refine ⟨fun m hm _ _ => ⟨(h1 m hm).1.1.1, (h1 m hm).1.1.2, (h1 m hm).1.2⟩, fun m hm sig hs => ?_, fun r hr m hd sig hs => ?_, fun r hr hd c hc => ?_⟩
  · have := (h1 m hm).2 _ hs
    simp only [ne_eq, not_true_eq_false, decide_false, Bool.false_or, List.any_eq_true, Bool.and_eq_true, decide_eq_true_eq] at this
    obtain ⟨⟨pre, r, post⟩, hp, ha, hle⟩ := this
    exact ⟨pre, r, post, Demo.mem_splits.1 hp, ⟨_, rfl, arrives_of ha⟩, hle⟩
  · have := (h2 r hr).2
    obtain ⟨m1, m2, m3⟩ := m
    subst hs
    rw [Demo.delivers_iff.1 hd] at this
    simp only [ne_eq, not_true_eq_false, decide_false, Bool.false_or, List.any_eq_true, decide_eq_true_eq] at this
    obtain ⟨x, hx, act, ha, hm⟩ := this
    exact ⟨x, hx, act, ha, hm⟩
  · obtain ⟨pre, post, hl, _, hp⟩ := hc
    have := (h2 r hr).1
    rw [hd] at this
    simp only [Bool.not_true, Bool.false_or, List.all_eq_true] at this
    have := this _ (Demo.mem_splits.2 hl)
    simp only [Bool.or_eq_true, Bool.not_eq_true', decide_eq_true_eq] at this
    rcases this with h | h
    · have h' : post.all (fun d => decide (n < d.startBatchIndex)) = true := List.all_eq_true.2 (fun d hd => decide_eq_true (hp d hd))
      rw [h'] at h
      cases h
    · exact h

def votesOk (marshal : Zq → Crypto.Bytes) (own : Addr) (rs : List (Round Zq Zq)) (w : World) (b : Nat) : Bool :=
  w.log.all (fun x => match x.2 with
    | .voted a b' key _ => decide (a ≠ addrNat own) || decide (b' ≠ b) ||
        rs.any (fun y => y.sent.any (fun act => match act.call (addrNat own) marshal [] with
          | some (.vote a' _ b'' key') => decide (a' = addrNat own) && decide (b'' = b) && decide (key' = key)
          | _ => false))
    | _ => true)

theorem votes_of {marshal : Zq → Crypto.Bytes} {own : Addr} {rs : List (Round Zq Zq)} {w : World} {b : Nat} (h : votesOk marshal own rs w b = true) :
    GenuineKeyVotes marshal own rs w b := by
  rintro key ⟨n, m, hv⟩
  have := List.all_eq_true.1 h _ hv
  simp only [ne_eq, not_true_eq_false, decide_false, Bool.false_or, List.any_eq_true] at this
  obtain ⟨y, hy, act, ha, h1⟩ := this
  split at h1
  · next a' k b'' key' hc =>
    simp only [Bool.and_eq_true, decide_eq_true_eq] at h1
    obtain ⟨⟨rfl, rfl⟩, rfl⟩ := h1
    exact ⟨y, hy, act, ha, k, hc⟩
  · cases h1

/-! ## Running joint lives -/

def filtersOk (codecs : Codecs) (chain : Observe.Chain) (P : Filter → Int → Bool) : Observe.Shutter → List LoopStep → Bool
  | _, [] => true
  | s, y :: ys => (match y with
      | .filter f => P f s.currentBlock
      | _ => true) && (match loopStep codecs chain s y with
      | some s' => filtersOk codecs chain P s' ys
      | none => true)

omit [AddCommGroup G1] [AddCommGroup G2] [DecidableEq G2] [DecidableEq GT] in
theorem filtersAt_of {codecs : Codecs} {chain : Observe.Chain} {P : Filter → Int → Bool} : ∀ {ys : List LoopStep} {s : Observe.Shutter},
    filtersOk codecs chain P s ys = true → FiltersAt codecs chain (fun f c => P f c = true) s ys := by
  intro ys
  induction ys with
  | nil => intro s _; trivial
  | cons y ys ih =>
    intro s h
    simp only [filtersOk, Bool.and_eq_true] at h
    refine ⟨fun f hf => ?_, fun s' hs => ?_⟩
    · subst hf; exact h.1
    · have := h.2
      rw [hs] at this
      exact ih this

def jointRound (cx : Cfg G1 G2 GT R) (codecs : Codecs) (chain : Observe.Chain) (hist : Nat → World) (r : Watched G1 G2)
    (x : List LoopStep × List Nat) : Option (Watched G1 G2) :=
  if filtersOk codecs chain (fun f seen => decide (f.syncHeight ≤ r.st.syncHeight ∧ seen < r.st.syncHeight ∧ f.batchIndex ≤ r.mc.numHalfSteps / 2)) r.s x.1 &&
      x.2.all (fun h => decide (h < two64)) && Main.Demo.forward hist r.mc x.2 then
    (runLoop codecs chain r.s x.1).bind (fun s =>
      (Main.Demo.syncs hist r.mc x.2).bind (fun mc =>
        (decideStep cx s mc (accusedIn (hist mc.currentBlock)) r.st).map (fun d => ⟨s, d.1, mc, r.log ++ [⟨s, r.st, mc, d.1, d.2⟩]⟩)))
  else none

def jointRun (cx : Cfg G1 G2 GT R) (codecs : Codecs) (chain : Observe.Chain) (hist : Nat → World) (fd : Nat)
    (rounds : List (List LoopStep × List Nat)) : Option (Watched G1 G2) :=
  rounds.foldlM (jointRound cx codecs chain hist) ⟨newShutter, State.new G1 G2, MainChain.new fd, []⟩

theorem jointRound_joint {cx : Cfg G1 G2 GT R} {codecs : Codecs} {chain : Observe.Chain} {E : Sol.Env} {hist : Nat → World} {fd : Nat}
    {x : List LoopStep × List Nat} {r r' : Watched G1 G2} (l : JointLife cx codecs chain E fd r.s r.st r.mc hist r.log)
    (hr : jointRound cx codecs chain hist r x = some r') : JointLife cx codecs chain E fd r'.s r'.st r'.mc hist r'.log := by
  unfold jointRound at hr
  split at hr
  · next hf =>
    simp only [Bool.and_eq_true, List.all_eq_true, decide_eq_true_eq] at hf
    obtain ⟨⟨hf1, hf2⟩, hf3⟩ := hf
    rw [Option.bind_eq_some_iff] at hr
    obtain ⟨s, h1, hr⟩ := hr
    rw [Option.bind_eq_some_iff] at hr
    obtain ⟨mc, h2, hr⟩ := hr
    rw [Option.map_eq_some_iff] at hr
    obtain ⟨d, h3, rfl⟩ := hr
    have hfol : Follows E (r.mc, hist) (mc, hist) := syncs_follows hf2 hf3 h2
    exact JointLife.round l h1 (filtersAt_mono (fun f c h => by simpa using h) (filtersAt_of hf1)) hfol (List.nodup_dedup _)
      (accused_keys (follows_spec hfol (watch_observed (joint_watch l)).1).1) h3
  · cases hr

theorem jointRun_joint {cx : Cfg G1 G2 GT R} {codecs : Codecs} {chain : Observe.Chain} {E : Sol.Env} {hist : Nat → World} {fd : Nat}
    (hc : Main.Chain E hist) {rounds : List (List LoopStep × List Nat)} {r : Watched G1 G2}
    (h : jointRun cx codecs chain hist fd rounds = some r) : JointLife cx codecs chain E fd r.s r.st r.mc hist r.log := by
  unfold jointRun at h
  exact foldlM_option_inv (fun r : Watched G1 G2 => JointLife cx codecs chain E fd r.s r.st r.mc hist r.log) _
    (fun _ _ _ hr l => jointRound_joint l hr) _ _ _ h (JointLife.init hc)

theorem jointRun_last {cx : Cfg G1 G2 GT R} {codecs : Codecs} {chain : Observe.Chain} {hist : Nat → World} {fd : Nat}
    {rounds : List (List LoopStep × List Nat)} {x : List LoopStep × List Nat} {r : Watched G1 G2}
    (h : jointRun cx codecs chain hist fd (rounds ++ [x]) = some r) :
    ∃ m ∈ r.log, m.after = r.st ∧ m.view = r.s ∧ m.main = r.mc ∧ r.log.getLast? = some m := by
  unfold jointRun at h
  rw [List.foldlM_append, Option.bind_eq_bind, Option.bind_eq_some_iff] at h
  obtain ⟨r0, _, hr⟩ := h
  simp only [List.foldlM_cons, List.foldlM_nil, Option.bind_eq_bind, Option.pure_def] at hr
  rw [Option.bind_eq_some_iff] at hr
  obtain ⟨r1, hr, he⟩ := hr
  obtain rfl := Option.some.inj he
  unfold jointRound at hr
  split at hr
  · rw [Option.bind_eq_some_iff] at hr
    obtain ⟨s, h1, hr⟩ := hr
    rw [Option.bind_eq_some_iff] at hr
    obtain ⟨mc, h2, hr⟩ := hr
    rw [Option.map_eq_some_iff] at hr
    obtain ⟨d, h3, rfl⟩ := hr
    exact ⟨_, List.mem_append_right _ (List.mem_singleton.2 rfl), rfl, rfl, rfl, by simp⟩
  · cases hr

/-! ## The run -/

/-- The keypers A and B. -/
def cxOf (i : Nat) : Cfg Zq Zq (Multiplicative Zq) Unit := { HonestDemo.cxOf i with
  codec := codec
  goRecover := Ecdsa.goRecover core
  sign := signAs (if i = 0 then 1 else 2)
  batcher := 101
  staggering := 2 }

/-- Eon public keys, as in the key broadcast contract. -/
def keyBytes (p : Zq) : Crypto.Bytes := World.beBytes p.val 32

/-- The main chain: the config has the keypers A, B and C and threshold 2. C votes for another key. A transaction is encrypted with the key of A and B, for batch 0. -/
def mainOps : List (Nat × Sol.Op) :=
  ([.startBlockNumber 100, .batchSpan 10, .addKeypers [1, 2, 3], .threshold 2, .executionTimeout 30, .batchSizeLimit 1000,
    .transactionSizeLimit 500, .feeReceiver 50, .targetAddress 60] : List Sol.Config.SetOp).map (fun o => (4, Sol.Op.config 9 (.set o))) ++
  [(4, .config 9 .schedule), (5, .vote 3 2 0 (keyBytes (Zq.of 9))), (70, .vote 1 0 0 (keyBytes (Zq.of 8))), (71, .vote 2 1 0 (keyBytes (Zq.of 8))),
    (101, .addTransaction 20 0 .cipher cipherTx 3), (102, .addTransaction 21 0 .plain [3] 4)]

def hist : Nat → World := chainOf env start mainOps

theorem chain : Main.Chain env hist := chainOf_chain _ Decide.Demo.start_deployed rfl

/-- What the signatures are for. -/
def sigHash : Crypto.Bytes := Decide.Demo.sigHash

/-- Shuttermint: the key generation as in `DemoNet`; then the shares in block 11, and the signatures in block 12. -/
def ops : List Op := Demo.ops ++
  [ tx kA 11 (.epochSecretKeyShare 1 0 (Demo.pointBytes (Zq.of 332041393326771929088))),
    tx kB 11 (.epochSecretKeyShare 1 0 (Demo.pointBytes (Zq.of 516508834063867445248))), .endBlock 11, .commit,
    tx kA 12 (.decryptionSignature 0 (signAs 1 sigHash)), tx kB 12 (.decryptionSignature 0 (signAs 2 sigHash)), .endBlock 12, .commit ]

def log : List Rec := App.Demo.logOf false ops

def rounds : List (List LoopStep × List Nat) :=
  [([.sync 2 2 false], [50]), ([.sync 4 4 false], [53]), ([.sync 7 7 false], [56]), ([.sync 10 10 false], [60]), ([.filter ⟨3, 0⟩], [113]),
    ([.sync 11 11 false], [114]), ([.sync 12 12 false], [116])]

def run (i : Nat) : Option (Watched Zq Zq) := jointRun (cxOf i) demoCodecs (appChain demoCodecs log) hist 3 rounds


/-! ## The hypotheses -/

def check (i : Nat) (r : Watched Zq Zq) : List Bool :=
  let rs := roundsOf (cxOf i) r.log
  let own := (cxOf i).own
  [Demo.genuineOk Demo.wire log own 1 rs, Demo.inTimeOk Demo.wire log own 1 3 2 rs, decide (r.st.syncHeight = 13),
    (firstIn 2 3 0 rs).isSome, (firstIn 2 3 1 rs).isSome, (firstIn 2 3 2 rs).isSome, votesOk keyBytes own rs (hist 113) 0,
    shareOk Demo.wire log own 1 0 rs 13, signsOk log hist r.log own 0 140 12, decide (r.mc.currentBlock = 113), decide (r.s.currentBlock = 12),
    r.log.all (fun m => Decide.Props.Demo.sharesFine (appChain demoCodecs log) (m.view.currentBlock, m.main.currentBlock)),
    (r.log.getLast?).any (fun m => decide (decides (cxOf i) m.view m.main = true) && decide (m.before.pendingHalfStep = none))]

theorem check_A : (run 0).map (check 0) = some [true, true, true, true, true, true, true, true, true, true, true, true, true] := by decide +kernel
theorem check_B : (run 1).map (check 1) = some [true, true, true, true, true, true, true, true, true, true, true, true, true] := by decide +kernel

theorem check_of {i : Nat} (hi : i ∈ ({0, 1} : Finset Nat)) :
    (run i).map (check i) = some [true, true, true, true, true, true, true, true, true, true, true, true, true] := by
  simp only [Finset.mem_insert, Finset.mem_singleton] at hi
  rcases hi with rfl | rfl
  · exact check_A
  · exact check_B

/-- What a run looks like. -/
structure Facts (i : Nat) (r : Watched Zq Zq) : Prop where
  life : JointLife (cxOf i) demoCodecs (appChain demoCodecs log) env 3 r.s r.st r.mc hist r.log
  genuine : Genuine Demo.wire log (cxOf i).own 1 (roundsOf (cxOf i) r.log)
  inTime : InTime Demo.wire log (cxOf i).own 1 3 2 (roundsOf (cxOf i) r.log)
  height : r.st.syncHeight = 13
  online : ∀ k : Int, k ∈ [0, 1, 2] → firstIn 2 3 k (roundsOf (cxOf i) r.log) ≠ none
  votes : GenuineKeyVotes keyBytes (cxOf i).own (roundsOf (cxOf i) r.log) (hist 113) 0
  share : ShareDelivered Demo.wire log (cxOf i).own 1 0 (roundsOf (cxOf i) r.log) 13
  signs : SignsEarly Demo.wire log hist r.log (cxOf i).own 1 0 140 12
  main : r.mc.currentBlock = 113
  keys : KeysInTime hist r.log
  last : ∃ m ∈ r.log, m.after = r.st ∧ m.main.currentBlock = 113 ∧ m.view.currentBlock = 12 ∧ m.Free (cxOf i) 0

def config : Sol.BatchConfig := (hist 113).config.scheduled[1]?.getD Sol.zeroConfig

theorem batch_of {n : Nat} (h : (hist n).config.configIndexForBatchIndex 0 = some 1 ∧ (hist n).config.scheduledConfig 1 = some config ∧
    (hist n).config.batchBoundaryBlocks 1 0 = some (100, 110, 140)) : (hist n).HasBatch 0 config 100 110 140 := ⟨1, h.1, h.2.1, h.2.2⟩

theorem batch113 : (hist 113).HasBatch 0 config 100 110 140 := batch_of (by decide +kernel)

theorem isOver (n : Nat) (hn : n ∈ [111, 113, 127]) : (hist n).BatchOver 0 := by
  simp only [List.mem_cons, List.not_mem_nil, or_false] at hn
  rcases hn with rfl | rfl | rfl
  · exact ⟨config, 100, 110, 140, batch_of (by decide +kernel), by decide +kernel⟩
  · exact ⟨config, 100, 110, 140, batch113, by decide +kernel⟩
  · exact ⟨config, 100, 110, 140, batch_of (by decide +kernel), by decide +kernel⟩

theorem facts {i : Nat} (hi : i ∈ ({0, 1} : Finset Nat)) : ∃ r, Facts i r := by
  obtain ⟨r, hr, hc⟩ := Option.map_eq_some_iff.1 (check_of hi)
  have life := jointRun_joint (E := env) chain hr
  obtain ⟨m, hm, l1, l2, l3, l4⟩ := jointRun_last (rounds := rounds.take 6) (x := ([.sync 12 12 false], [116])) hr
  simp only [check, List.cons.injEq, and_true, decide_eq_true_eq] at hc
  obtain ⟨c1, c2, c3, c4, c5, c6, c7, c8, c9, c10, c11, c12, c13⟩ := hc
  refine ⟨r, life, Demo.genuine_of c1, Demo.inTime_of (by decide) c2, c3, ?_, votes_of c7, share_of c8, signs_of c9 1, c10, ?_,
    m, hm, l1, by rw [l3, c10], by rw [l2, c11], ?_⟩
  · intro k hk
    rw [← Option.isSome_iff_ne_none]
    simp only [List.mem_cons, List.not_mem_nil, or_false] at hk
    rcases hk with rfl | rfl | rfl
    · exact c4
    · exact c5
    · exact c6
  · exact Decide.Props.Demo.keys_fine (joint_watch life) (fun x hx => List.all_eq_true.1 c12 x hx) isOver
  · rw [l4] at c13
    simp only [Option.any_some, Bool.and_eq_true, decide_eq_true_eq] at c13
    exact ⟨c13.1, fun p hp => by rw [c13.2] at hp; cases hp⟩

theorem exec : Exec ps false log (App.Demo.stateOf false ops) := App.Demo.exec_of _ _ (by decide +kernel)
theorem sane : Sane log := Demo.sane_of (by decide +kernel)
theorem settled : Settled log 1 := Demo.settled_of (by decide +kernel)
theorem counter : (App.Demo.stateOf false ops).eonCounter + 1 < 2 ^ 64 := by decide +kernel
theorem long : 6 < log.length := by decide +kernel

theorem announced : Announced log 1 0 Demo.batchConfig 2 := by
  refine ⟨log.take 6, log[6]'long, log.drop 7, App.Demo.split_log (by simp [long]), by decide +kernel, ⟨⟨0, by decide +kernel⟩, Or.inl ⟨kB, Demo.config, ?_, ?_⟩⟩,
    by decide +kernel⟩
  · exact ⟨⟨.batchConfig Demo.config, App.Demo.chain, 2⟩, rfl, Demo.delivers_iff.2 (by decide +kernel), [.batchConfig 0 2 [kA, kB, HonestDemo.kC] 1, .eonStarted 1 0], by decide +kernel⟩
  · exact ⟨rfl, rfl, by decide, by decide, rfl, ⟨rfl, rfl⟩, rfl, rfl, rfl⟩

theorem short : log.all (fun r => r.events.all (fun ev => match ev with
    | .batchConfig _ _ keypers _ => decide (keypers.length < 10)
    | .polyCommitment _ _ gammas => decide (gammas.length < 10)
    | .eonStarted e' b => decide (b ≠ 0) || decide (e' = 1)
    | .epochSecretKeyShare _ e' n _ => decide (n ≠ 0) || decide (e' = 1)
    | _ => true)) = true := by decide +kernel

theorem gammas_eq (i : Nat) : (cxOf i).gammas = List.map (fun b => Zq.of (beNat b)) := by unfold cxOf HonestDemo.cxOf; split <;> rfl
theorem share_eq (i : Nat) : (cxOf i).share = (fun b => Zq.of (beNat b)) := by unfold cxOf HonestDemo.cxOf; split <;> rfl
theorem crypto_eq (i : Nat) : (cxOf i).crypto = zEnv := by unfold cxOf HonestDemo.cxOf; split <;> rfl
theorem phase_eq (i : Nat) : (cxOf i).phaseLength = 3 := by unfold cxOf HonestDemo.cxOf; split <;> rfl

theorem slices (i : Nat) : SlicesFit (cxOf i) demoCodecs (appChain demoCodecs log) := by
  intro upTo x hx
  obtain ⟨_, hpub⟩ := published_iff.1 hx
  obtain ⟨_, pre, r, post, hl, hr, _⟩ := (published_app exec Demo.fit sane counter _ _).1 hpub
  have := List.all_eq_true.1 (List.all_eq_true.1 short r (by rw [hl]; simp)) _ hr
  cases hev : x.ev <;> rw [hev] at this <;> simp only [decide_eq_true_eq] at this <;> simp only [gammas_eq, List.length_map] <;> omega

theorem wire_fit (i : Nat) : Wire.Fit Demo.wire ps (cxOf i) := by
  obtain ⟨h1, h2, h3, h4⟩ := Demo.wire_fit i
  refine ⟨h1, fun l => ?_, h3, fun p => ?_⟩
  · rw [gammas_eq, List.map_map]
    refine List.map_id'' (fun p => ?_) l
    simp only [Function.comp_apply, Demo.wire, Demo.beNat_pointBytes, Demo.of_val]
  · rw [share_eq]
    simp only [Demo.wire, Demo.beNat_pointBytes, Demo.of_val]

theorem participates {i : Nat} {r : Watched Zq Zq} (f : Facts i r) :
    Participates ps Demo.wire (cxOf i) demoCodecs log 1 Demo.batchConfig 2 (roundsOf (cxOf i) r.log) r.s r.st := by
  refine ⟨wire_fit i, attentive_lived (joint_attentive f.life), Demo.own_mem i, ?_, ?_, ?_, f.genuine, ?_⟩
  · rw [phase_eq, f.height]; decide
  · intro P hP
    unfold cxOf HonestDemo.cxOf at hP
    split at hP <;> · cases hP; rfl
  · rw [phase_eq]; exact f.online
  · rw [phase_eq]; exact f.inTime

theorem oneKey {i : Nat} {r : Watched Zq Zq} (f : Facts i r) : OneKey (roundsOf (cxOf i) r.log) 0 := by
  refine Net.Props.C76_one_key exec Demo.fit sane counter (fun p => zLawful.order_smul_G2 p) (e := 1) (fun x hx e' he => ?_) (cx := cxOf i) ?_
    (attentive_lived (joint_attentive f.life))
  · have := List.all_eq_true.1 (List.all_eq_true.1 short x hx) _ he
    simpa using this
  · rw [phase_eq]; decide

theorem onlyEon : OnlyEon log 1 0 := by
  intro x hx a e' y he
  have := List.all_eq_true.1 (List.all_eq_true.1 short x hx) _ he
  simpa using this

theorem own_eq {i : Nat} (hi : i ∈ ({0, 1} : Finset Nat)) : (cxOf i).own = (if i = 0 then kA else kB) := by
  simp only [Finset.mem_insert, Finset.mem_singleton] at hi
  rcases hi with rfl | rfl <;> decide

theorem self {i : Nat} (hi : i ∈ ({0, 1} : Finset Nat)) : SignsItself (cxOf i) := by
  simp only [Finset.mem_insert, Finset.mem_singleton] at hi
  rcases hi with rfl | rfl
  · exact fun h hl => Decide.Props.Demo.signs_of kA 1 [] (by decide) (by decide) h hl
  · exact fun h hl => Decide.Props.Demo.signs_of kB 2 [] (by decide) (by decide) h hl

theorem codec_lawful : codec.Lawful := by
  refine ⟨fun p => Crypto.beBytes_length _ _, fun p _ => ?_⟩
  show some (Zq.of (beNat (World.beBytes p.val 96))) = some p
  rw [Crypto.beNat_beBytes, Nat.mod_eq_of_lt (lt_trans p.lt (by decide +kernel)), Demo.of_val]

theorem keccak_keyBytes (p : Zq) : env.keccak (keyBytes p) = keyBytes p := by
  show List.ofFn (fun i : Fin 32 => (keyBytes p).getD i 7) = keyBytes p
  have hl : (keyBytes p).length = 32 := Crypto.beBytes_length _ _
  apply List.ext_getElem
  · simp [hl]
  · intro i h1 h2
    rw [List.getElem_ofFn]
    simp [List.getD, h2]

theorem keyBytes_injective {p q : Zq} (h : keyBytes p = keyBytes q) : p = q := by
  have := congrArg beNat h
  unfold keyBytes at this
  rw [Crypto.beNat_beBytes, Crypto.beNat_beBytes, Nat.mod_eq_of_lt (lt_trans p.lt (by decide +kernel)), Nat.mod_eq_of_lt (lt_trans q.lt (by decide +kernel))] at this
  exact Zq.ext' this

/-- **C81** The hypotheses of `C81_executed_partial` are met. A and B take part in the key generation and vote for their key, C does neither, and votes for another key. A user encrypts a
message with the key in the contract. A and B send their shares and signatures, and A executes the batch with the message, at block 113. -/
theorem C81_example : ∃ (x : Nat → Watched Zq Zq),
    (∀ i ∈ ({0, 1} : Finset Nat), JointLife (cxOf i) demoCodecs (appChain demoCodecs log) env 3 (x i).s (x i).st (x i).mc hist (x i).log ∧
      Participates ps Demo.wire (cxOf i) demoCodecs log 1 Demo.batchConfig 2 (roundsOf (cxOf i) (x i).log) (x i).s (x i).st) ∧
    (hist 113).voters 0 = [3, 1, 2] ∧ (hist 113).getBestKey 0 = keyBytes (Zq.of 8) ∧
    (hist 113).accepted 0 .cipher = [marshalEncryptedMessage codec (encrypt zEnv Decide.Demo.message (Zq.of 8) (epochIDOf zEnv 0) sigma)] ∧
    ∃ r ∈ (x 0).log, r.main.currentBlock = 113 ∧ ∃ txs i gas, .executeCipherBatch 0 ((hist 113).batcher.hashes 0 .cipher) txs i gas ∈ r.acts ∧ Decide.Demo.message ∈ txs ∧
      ∃ w'', (hist 113).step env (.executeCipherBatch 1 0 ((hist 113).batcher.hashes 0 .cipher) txs i []) = some w'' ∧ Executed w'' 60 config.targetFunctionSelector Decide.Demo.message := by
  classical
  have voters : (hist 113).voters 0 = [3, 1, 2] := by decide +kernel
  have best : (hist 113).getBestKey 0 = keyBytes (Zq.of 8) := by decide +kernel
  have acc : (hist 113).accepted 0 .cipher = [cipherTx] := by decide +kernel
  have nats : addrNat kA = 1 ∧ addrNat kB = 2 := by decide
  have hx : ∀ i, ∃ r, i ∈ ({0, 1} : Finset Nat) → Facts i r := by
    intro i
    by_cases hi : i ∈ ({0, 1} : Finset Nat)
    · obtain ⟨r, hr⟩ := facts hi
      exact ⟨r, fun _ => hr⟩
    · exact ⟨⟨newShutter, State.new Zq Zq, MainChain.new 3, []⟩, fun h => absurd h hi⟩
  choose x hx using hx
  have owns : ∀ i ∈ ({0, 1} : Finset Nat), addrNat (cxOf i).own = i + 1 := by
    intro i hi
    rw [own_eq hi]
    simp only [Finset.mem_insert, Finset.mem_singleton] at hi
    rcases hi with rfl | rfl <;> decide
  have untaken : Sol.NoneTakenBack hist 113 := noneTakenBack_of (by decide +kernel)
  obtain ⟨pk, h1, h2⟩ := Net.Props.C81_executed_partial exec Demo.fit sane counter announced settled (by decide) (fun _ => Demo.wire) cxOf zEnv zLawful codec codec_lawful
    (List.map (fun b => Zq.of (beNat b))) (fun b => Zq.of (beNat b)) 3 (E := env) (fun _ => 3) (fun i => (x i).s) (fun i => (x i).st) (fun i => (x i).mc) hist (fun i => (x i).log) {0, 1}
    (fun i _ => ⟨crypto_eq i, gammas_eq i, share_eq i, phase_eq i, rfl⟩)
    (fun i _ j _ => ⟨by rw [crypto_eq, crypto_eq], rfl, by unfold cxOf HonestDemo.cxOf; split <;> split <;> rfl, by unfold cxOf HonestDemo.cxOf; split <;> split <;> rfl,
      by unfold cxOf HonestDemo.cxOf; split <;> split <;> rfl, rfl, rfl⟩)
    (by intro i hi; simp only [Finset.mem_insert, Finset.mem_singleton] at hi; rcases hi with rfl | rfl <;> decide)
    (fun i hi => (hx i hi).life) (fun i hi => participates (hx i hi)) (fun i _ => slices i) (by decide) (fun i hi => self hi) keyBytes (fun i hi => oneKey (hx i hi))
  have h0 : (0 : Nat) ∈ ({0, 1} : Finset Nat) := by simp
  have hpk : pk = Zq.of 8 := by
    have := h1 (hist 113) (chain.reach (by decide)) (fun i hi => (hx i hi).votes) (fun i hi => by
      rw [voters, owns i hi]
      simp only [Finset.mem_insert, Finset.mem_singleton] at hi
      rcases hi with rfl | rfl <;> decide) {3} (by
        intro a ha
        rw [voters] at ha
        simp only [List.mem_cons, List.not_mem_nil, or_false] at ha
        rcases ha with rfl | rfl | rfl
        · left; simp
        · right; exact ⟨0, by simp, by rw [owns 0 (by simp)]⟩
        · right; exact ⟨1, by simp, by rw [owns 1 (by simp)]⟩) (by decide)
    rw [best, keccak_keyBytes, keccak_keyBytes] at this
    exact (keyBytes_injective this).symm
  subst hpk
  obtain ⟨r, hr, l1, l2, l3, free⟩ := (hx 0 h0).last
  have h3 := h2 0 0 100 110 140 config r h0 hr l1
  rw [l2] at h3
  obtain ⟨txs, i, gas, ha, hi, hmsg, hstep⟩ := h3 batch113 (by decide +kernel) (by decide +kernel) free
    ⟨1, config, by decide +kernel, by decide +kernel, by decide +kernel, by
      intro j bc' hj hbc
      have hlen : (hist 113).config.scheduled.length = 2 := by decide +kernel
      have := Sol.get_lt hbc
      omega⟩ ⟨by decide +kernel, by decide +kernel⟩ (by rw [owns 0 h0]; decide +kernel) (by decide +kernel)
    (by
      intro j hj
      rw [owns j hj]
      simp only [Finset.mem_insert, Finset.mem_singleton] at hj
      rcases hj with rfl | rfl <;> decide +kernel) (by decide +kernel)
    (fun i hi j hj => by rw [(hx i hi).height]; exact (hx j hj).share) (fun i hi => by rw [l3]; exact (hx i hi).signs) onlyEon (fun i hi => (hx i hi).keys)
    (fun i hi => by rw [(hx i hi).main]; exact untaken) (by
      intro hz
      exact absurd hz (by rw [acc]; decide +kernel))
  have hm : Decide.Demo.message ∈ txs := hmsg Decide.Demo.message sigma rfl (by rw [acc]; exact List.mem_singleton.2 rfl)
  rw [owns 0 h0] at hstep
  obtain ⟨w'', s1, _, s2⟩ := hstep (hist 113) (Relation.ReflTransGen.refl) (by decide +kernel) (by decide +kernel) (by decide) (by decide +kernel)
  have ht : config.targetAddress = 60 := by decide +kernel
  rw [ht] at s2
  exact ⟨x, fun i hi => ⟨(hx i hi).life, participates (hx i hi)⟩, voters, best, acc, r, hr, l2, txs, i, gas, ha, hm, w'', s1, s2 _ hm⟩

end Shutter.Net.EndDemo
