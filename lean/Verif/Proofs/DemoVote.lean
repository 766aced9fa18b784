import Verif.Proofs.VoteAccept
import Verif.Proofs.DemoNet
import Verif.Proofs.LifeDemo

/-! # Keypers that vote for a config of the main chain -/

namespace Shutter.Decide
open Shutter.Crypto Shutter.Dkg Shutter.Observe Shutter.Main
open Shutter.Events (Codecs)
open Shutter.Sol (World Event two64)

variable {G1 G2 GT R : Type} [AddCommGroup G1] [AddCommGroup G2] [DecidableEq G2] [DecidableEq GT]

/-- A career so far. -/
structure CRun (G1 G2 : Type) where
  s : Observe.Shutter
  st : State G1 G2
  mc : MainChain
  rounds : List (MainChain × Round G1 G2)

/-- One round: iterations of the loop of the view of shuttermint, heads the node of the main chain reports. -/
def careerRound (cx : Cfg G1 G2 GT R) (codecs : Codecs) (chain : Observe.Chain) (hist : Nat → World) (r : CRun G1 G2)
    (x : List LoopStep × List Nat) : Option (CRun G1 G2) :=
  if (filtersOf x.1).all (fun f => decide (f.syncHeight ≤ r.st.syncHeight)) && x.2.all (fun h => decide (h < two64)) &&
      Main.Demo.forward hist r.mc x.2 then
    (runLoop codecs chain r.s x.1).bind (fun s =>
      (Main.Demo.syncs hist r.mc x.2).bind (fun mc =>
        (decideStep cx s mc (accusedIn (hist mc.currentBlock)) r.st).map (fun d =>
          ⟨s, d.1, mc, r.rounds ++ [(mc, ⟨decides cx s mc, s.currentBlock + 1, d.2⟩)]⟩)))
  else none

def careerRun (cx : Cfg G1 G2 GT R) (codecs : Codecs) (chain : Observe.Chain) (hist : Nat → World) (fd : Nat)
    (rounds : List (List LoopStep × List Nat)) : Option (CRun G1 G2) :=
  rounds.foldlM (careerRound cx codecs chain hist) ⟨newShutter, State.new G1 G2, MainChain.new fd, []⟩

theorem careerRound_career {cx : Cfg G1 G2 GT R} {codecs : Codecs} {chain : Observe.Chain} {E : Sol.Env} {hist : Nat → World} {fd : Nat}
    {x : List LoopStep × List Nat} {r r' : CRun G1 G2} (l : Career cx codecs chain E fd r.s r.st r.mc hist r.rounds)
    (hr : careerRound cx codecs chain hist r x = some r') : Career cx codecs chain E fd r'.s r'.st r'.mc hist r'.rounds := by
  unfold careerRound at hr
  split at hr
  · next hf =>
    simp only [Bool.and_eq_true, List.all_eq_true, decide_eq_true_eq] at hf
    obtain ⟨⟨hf1, hf2⟩, hf3⟩ := hf
    rw [Option.bind_eq_some_iff] at hr
    obtain ⟨s, h1, hr⟩ := hr
    rw [Option.bind_eq_some_iff] at hr
    obtain ⟨mc, h2, hr⟩ := hr
    rw [Option.map_eq_some_iff] at hr
    obtain ⟨d, h3, rfl⟩ := hr
    have hfol : Follows E (r.mc, hist) (mc, hist) := syncs_follows hf2 hf3 h2
    exact Career.round l h1 hf1 hfol (List.nodup_dedup _)
      (accused_keys (follows_spec hfol (life_observed l.life).1).1) h3
  · cases hr

theorem careerRun_career {cx : Cfg G1 G2 GT R} {codecs : Codecs} {chain : Observe.Chain} {E : Sol.Env} {hist : Nat → World} {fd : Nat}
    (hc : Main.Chain E hist) {rounds : List (List LoopStep × List Nat)} {r : CRun G1 G2}
    (h : careerRun cx codecs chain hist fd rounds = some r) : Career cx codecs chain E fd r.s r.st r.mc hist r.rounds := by
  unfold careerRun at h
  exact foldlM_option_inv (fun r : CRun G1 G2 => Career cx codecs chain E fd r.s r.st r.mc hist r.rounds) _
    (fun _ _ _ hr l => careerRound_career l hr) _ _ _ h (Career.init hc)

end Shutter.Decide

namespace Shutter.Net.VoteDemo
open Shutter.App Shutter.Events Shutter.Events.Props Shutter.Observe Shutter.Decide Shutter.Decide.Spec Shutter.Decide.Props Shutter.Crypto
open Shutter.App.Demo (ps tx k pk)
open Shutter.Sol.Demo (env setup)
open Shutter.Main (chainOf)

/-- Config number 1 has the keypers 5, 6 and 7 and threshold 2; in block 6 the owner schedules further configs. -/
def mainOps (more : List (List Sol.Config.SetOp)) : List (Nat × Sol.Op) :=
  setup ++ more.flatMap (fun x => x.map (fun o => (6, Sol.Op.config 1 (.set o))) ++ [(6, .config 1 .schedule)])

def hist (more : List (List Sol.Config.SetOp)) : Nat → Sol.World := chainOf env Main.Demo.start (mainOps more)

theorem chain (more : List (List Sol.Config.SetOp)) : Main.Chain env (hist more) := Main.chainOf_chain _ Main.Demo.start_deployed rfl

/-- Config number 2: keypers 6 and 8. -/
def active : List (List Sol.Config.SetOp) := [[.startBatchIndex 10, .startBlockNumber 200, .batchSpan 10, .addKeypers [6, 8], .threshold 1]]

/-- Config number 2: no batches; config number 3: keypers 6 and 8. -/
def inactive : List (List Sol.Config.SetOp) := [[.startBatchIndex 10, .startBlockNumber 200],
  [.startBatchIndex 10, .startBlockNumber 300, .batchSpan 10, .addKeypers [6, 8], .threshold 1]]

def first : BatchConfigMsg := ⟨0, [k 5, k 6, k 7], 2, zeroAddr, 1, false, false⟩
def second : BatchConfigMsg := ⟨10, [k 6, k 8], 1, zeroAddr, 2, false, false⟩
def bad : BatchConfigMsg := ⟨10, [], 0, zeroAddr, 2, false, false⟩

/-- Config number 1 is made by hand (`bootstrap`), then the votes of the keypers 5 and 6 for the second config arrive. -/
def ops (m : BatchConfigMsg) : List App.Op :=
  [ .initChain ⟨some ([k 5, k 6, k 7], 2), [(some (pk 9), 10)], App.Demo.chain⟩,
    tx (k 5) 1 (.checkIn (pk 1) [1]), tx (k 6) 1 (.checkIn (pk 2) [2]), .endBlock 1, .commit,
    tx (k 5) 2 (.batchConfig first), tx (k 7) 2 (.batchConfig first), .endBlock 2, .commit,
    tx (k 5) 3 (.batchConfig m), .endBlock 3, .commit, tx (k 6) 3 (.batchConfig m), .endBlock 4, .commit ]

def log (m : BatchConfigMsg) : List Rec := App.Demo.logOf false (ops m)

def cxOf (a : Addr) : Cfg Zq Zq (Multiplicative Zq) Unit := { demoCfg a [3, 4] with phaseLength := 3 }

def life (m : BatchConfigMsg) (h : List (List Sol.Config.SetOp)) (a : Addr) : Option (CRun Zq Zq) :=
  careerRun (cxOf a) demoCodecs (appChain demoCodecs (log m)) (hist h) 0 [([.sync 2 2 false], [3, 10]), ([.sync 4 4 false], [])]

/-! ## Checks for the hypotheses -/

open Shutter.Net.Demo (splits mem_splits delivered delivers_iff)

def genuineOk (w : Wire Zq Zq) (log : List Rec) (own : Addr) (rs : List (Round Zq Zq)) : Bool :=
  (splits log).all (fun p => match delivered p.2.1 with
    | some (a, m) => match m.msg with
      | .batchConfig v => decide (a ≠ own) || decide (v.configIndex ≤ 1) ||
          rs.any (fun x => decide (x.next ≤ heightAfter p.1) && x.sent.any (fun act => decide (message w act = some m.msg)))
      | _ => true
    | none => true)

theorem genuine_of {w : Wire Zq Zq} {log : List Rec} {own : Addr} {rs : List (Round Zq Zq)} (h : genuineOk w log own rs = true) :
    GenuineVotes w log own rs := by
  intro pre r post m v hl hd hm h1
  have := List.all_eq_true.1 h _ (mem_splits.2 hl)
  simp only [delivers_iff.1 hd, hm, ne_eq, not_true_eq_false, decide_false, Bool.false_or, Bool.or_eq_true, List.any_eq_true, Bool.and_eq_true,
    decide_eq_true_eq] at this
  rcases this with this | ⟨x, hx, h1, act, ha, hm'⟩
  · omega
  · exact ⟨x, hx, act, ha, by rw [hm]; exact hm', h1⟩

def arriveOk (w : Wire Zq Zq) (log : List Rec) (own : Addr) (rs : List (Round Zq Zq)) : Bool :=
  rs.all (fun x => x.sent.all (fun act => match message w act with
    | some (.batchConfig v) => (splits log).any (fun p => match delivered p.2.1 with
      | none => false
      | some (a, mw) => decide (a = own) && decide (mw.msg = .batchConfig v) && decide (mw.chainId = p.2.1.before.chainID) &&
          p.1.all (fun r' => match delivered r' with
            | none => true
            | some (a', m') => decide (a' ≠ own) || decide (m'.randomNonce ≠ mw.randomNonce)) &&
          decide (x.next ≤ (heightAfter p.1 : Int)))
    | _ => true))

theorem arrive_of {w : Wire Zq Zq} {log : List Rec} {own : Addr} {rs : List (Round Zq Zq)} (h : arriveOk w log own rs = true) :
    VotesArrive w log own rs := by
  intro x hx act ha v hm
  have h1 := List.all_eq_true.1 (List.all_eq_true.1 h x hx) act ha
  simp only [hm, List.any_eq_true] at h1
  obtain ⟨⟨pre, r, post⟩, hp, h2⟩ := h1
  split at h2
  · cases h2
  · next a mw hd =>
    simp only [Bool.and_eq_true, decide_eq_true_eq] at h2
    obtain ⟨⟨⟨⟨rfl, hv⟩, hc⟩, hn⟩, hk⟩ := h2
    refine ⟨pre, r, post, mem_splits.1 hp, ⟨mw.randomNonce, delivers_iff.2 (by rw [← hc, ← hv]; exact hd), ?_⟩, hk⟩
    intro r' hr' m' hd'
    have := List.all_eq_true.1 hn r' hr'
    rw [delivers_iff.1 hd'] at this
    simpa using this

def wire : Wire Zq Zq := Demo.wire

/-- What is to be seen of a career. -/
def seenOk (m : BatchConfigMsg) (h : List (List Sol.Config.SetOp)) (bc : Sol.BatchConfig) (r : CRun Zq Zq) (x : Main.MainChain × Round Zq Zq) : Bool :=
  x.2.deciding && decide (latestConfig demoCodecs (appChain demoCodecs (log m)) x.2.next = some 1) && decide (x.1.configs ≠ []) &&
    decide ((hist h x.1.currentBlock).config.scheduled[2]? = some bc) && decide (r.mc.currentBlock = 10)

def check (m : BatchConfigMsg) (h : List (List Sol.Config.SetOp)) (bc : Sol.BatchConfig) (a : Addr) (r : CRun Zq Zq) : List Bool :=
  [genuineOk wire (log m) a (r.rounds.map (·.2)), arriveOk wire (log m) a (r.rounds.map (·.2)), r.rounds.any (seenOk m h bc r)]

def firstConfig : BatchConfig := ⟨0, [k 5, k 6, k 7], 2, zeroAddr, 1, false, false⟩

def activeConfig : Sol.BatchConfig := ⟨10, 200, [6, 8], 1, 10, 0, 0, 0, 0, 0, [0, 0, 0, 0], 0⟩
def inactiveConfig : Sol.BatchConfig := ⟨10, 200, [], 0, 0, 0, 0, 0, 0, 0, [0, 0, 0, 0], 0⟩

theorem exec_active : Exec ps false (log second) (App.Demo.stateOf false (ops second)) := App.Demo.exec_of _ _ (by decide +kernel)
theorem exec_inactive : Exec ps false (log bad) (App.Demo.stateOf false (ops bad)) := App.Demo.exec_of _ _ (by decide +kernel)
theorem sane_active : Sane (log second) := Demo.sane_of (by decide +kernel)
theorem sane_inactive : Sane (log bad) := Demo.sane_of (by decide +kernel)

theorem kept_of {h : Nat → Sol.World} {n : Nat} (hs : (List.range n).all (fun i => decide ((h i).config.scheduled <+: (h (i + 1)).config.scheduled)) = true) :
    Sol.NoneTakenBack h n := by
  intro a b hab hb
  induction b, hab using Nat.le_induction with
  | base => exact List.prefix_refl _
  | succ b hab ih =>
    refine (ih (by omega)).trans ?_
    simpa using List.all_eq_true.1 hs b (by simp; omega)

theorem kept_active : Sol.NoneTakenBack (hist active) 10 := kept_of (by decide +kernel)
theorem kept_inactive : Sol.NoneTakenBack (hist inactive) 10 := kept_of (by decide +kernel)

theorem check5 : (life second active (k 5)).map (check second active activeConfig (k 5)) = some [true, true, true] := by decide +kernel
theorem check6 : (life second active (k 6)).map (check second active activeConfig (k 6)) = some [true, true, true] := by decide +kernel
theorem bad5 : (life bad inactive (k 5)).map (check bad inactive inactiveConfig (k 5)) = some [true, true, true] := by decide +kernel
theorem bad6 : (life bad inactive (k 6)).map (check bad inactive inactiveConfig (k 6)) = some [true, true, true] := by decide +kernel

def runOf (m : BatchConfigMsg) (h : List (List Sol.Config.SetOp)) (a : Addr) : CRun Zq Zq :=
  (life m h a).getD ⟨newShutter, State.new Zq Zq, Main.MainChain.new 0, []⟩

theorem checked {m : BatchConfigMsg} {h : List (List Sol.Config.SetOp)} {bc : Sol.BatchConfig} {a : Addr}
    (hc : (life m h a).map (check m h bc a) = some [true, true, true]) (kept : Sol.NoneTakenBack (hist h) 10) :
    Voter wire (cxOf a) demoCodecs (log m) env 0 (runOf m h a).s (runOf m h a).st (runOf m h a).mc (hist h) (runOf m h a).rounds ∧
    VotesArrive wire (log m) a ((runOf m h a).rounds.map (·.2)) ∧ HasSeen demoCodecs (log m) (hist h) (runOf m h a).rounds 1 bc ∧
    (hist h (runOf m h a).mc.currentBlock).config.scheduled[2]? = some bc := by
  obtain ⟨r, hr, h1⟩ := Option.map_eq_some_iff.1 hc
  have e : runOf m h a = r := by simp [runOf, hr]
  rw [e]
  simp only [check, List.cons.injEq, and_true] at h1
  obtain ⟨g1, g2, g3⟩ := h1
  rw [List.any_eq_true] at g3
  obtain ⟨x, hx, g3⟩ := g3
  simp only [seenOk, Bool.and_eq_true, decide_eq_true_eq] at g3
  obtain ⟨⟨⟨⟨q1, q2⟩, q3⟩, q4⟩, q5⟩ := g3
  have hcar : Career (cxOf a) demoCodecs (appChain demoCodecs (log m)) env 0 r.s r.st r.mc (hist h) r.rounds := careerRun_career (chain h) hr
  have hv : Voter wire (cxOf a) demoCodecs (log m) env 0 r.s r.st r.mc (hist h) r.rounds := ⟨hcar, by rw [q5]; exact kept, genuine_of g1⟩
  exact ⟨hv, arrive_of g2, ⟨x, hx, q1, q2, q3, q4⟩, App.prefix_getElem? (hv.round hx).2.2 q4⟩

end Shutter.Net.VoteDemo
