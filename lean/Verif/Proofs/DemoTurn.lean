import Verif.Proofs.TurnKeys
import Verif.Proofs.LifeWorld

/-! # Concrete lives with recorded rounds -/

namespace Shutter.Decide
open Shutter.Crypto Shutter.Dkg Shutter.Observe Shutter.Main
open Shutter.Events (Codecs)
open Shutter.Sol (World Event two64)

variable {G1 G2 GT R : Type} [AddCommGroup G1] [AddCommGroup G2] [DecidableEq G2] [DecidableEq GT]

/-- A life so far, with its rounds. -/
structure Watched (G1 G2 : Type) where
  s : Observe.Shutter
  st : State G1 G2
  mc : MainChain
  log : List (Moment G1 G2)

def watchRound (cx : Cfg G1 G2 GT R) (codecs : Codecs) (chain : Observe.Chain) (hist : Nat → World) (r : Watched G1 G2)
    (x : List LoopStep × List Nat) : Option (Watched G1 G2) :=
  if (filtersOf x.1).all (fun f => decide (f.syncHeight ≤ r.st.syncHeight) && decide (f.batchIndex ≤ r.mc.numHalfSteps / 2)) &&
      x.2.all (fun h => decide (h < two64)) && Main.Demo.forward hist r.mc x.2 then
    (runLoop codecs chain r.s x.1).bind (fun s =>
      (Main.Demo.syncs hist r.mc x.2).bind (fun mc =>
        (decideStep cx s mc (accusedIn (hist mc.currentBlock)) r.st).map (fun d => ⟨s, d.1, mc, r.log ++ [⟨s, r.st, mc, d.1, d.2⟩]⟩)))
  else none

def watchRun (cx : Cfg G1 G2 GT R) (codecs : Codecs) (chain : Observe.Chain) (hist : Nat → World) (fd : Nat)
    (rounds : List (List LoopStep × List Nat)) : Option (Watched G1 G2) :=
  rounds.foldlM (watchRound cx codecs chain hist) ⟨newShutter, State.new G1 G2, MainChain.new fd, []⟩

theorem watchRound_watch {cx : Cfg G1 G2 GT R} {codecs : Codecs} {chain : Observe.Chain} {E : Sol.Env} {hist : Nat → World} {fd : Nat}
    {x : List LoopStep × List Nat} {r r' : Watched G1 G2} (l : Watch cx codecs chain E fd r.s r.st r.mc hist r.log)
    (hr : watchRound cx codecs chain hist r x = some r') : Watch cx codecs chain E fd r'.s r'.st r'.mc hist r'.log := by
  unfold watchRound at hr
  split at hr
  · next hf =>
    simp only [Bool.and_eq_true, List.all_eq_true, decide_eq_true_eq] at hf
    obtain ⟨⟨hf1, hf2⟩, hf3⟩ := hf
    rw [Option.bind_eq_some_iff] at hr
    obtain ⟨s, h1, hr⟩ := hr
    rw [Option.bind_eq_some_iff] at hr
    obtain ⟨mc, h2, hr⟩ := hr
    rw [Option.map_eq_some_iff] at hr
    obtain ⟨d, h3, rfl⟩ := hr
    have hfol : Follows E (r.mc, hist) (mc, hist) := syncs_follows hf2 hf3 h2
    exact Watch.round l h1 hf1 hfol (List.nodup_dedup _)
      (accused_keys (follows_spec hfol (watch_observed l).1).1) h3
  · cases hr

theorem watchRun_watch {cx : Cfg G1 G2 GT R} {codecs : Codecs} {chain : Observe.Chain} {E : Sol.Env} {hist : Nat → World} {fd : Nat}
    (hc : Main.Chain E hist) {rounds : List (List LoopStep × List Nat)} {r : Watched G1 G2}
    (h : watchRun cx codecs chain hist fd rounds = some r) : Watch cx codecs chain E fd r.s r.st r.mc hist r.log := by
  unfold watchRun at h
  exact foldlM_option_inv (fun r : Watched G1 G2 => Watch cx codecs chain E fd r.s r.st r.mc hist r.log) _
    (fun _ _ _ hr l => watchRound_watch l hr) _ _ _ h (Watch.init hc)

end Shutter.Decide

namespace Shutter.Decide.Demo
open Shutter.Crypto Shutter.Dkg Shutter.Observe Shutter.Main Shutter.Decide.Props
open Shutter.Events Shutter.Events.Props
open Shutter.Sol (World Op)

/-- The life of keyper A in the demo; its view of shuttermint is filtered once. -/
def turnRounds : List (List LoopStep × List Nat) :=
  [([.sync 2 2 false], [50]), ([.sync 8 8 false], [110]), ([.filter ⟨3, 0⟩], [112]), ([], [113]), ([.sync 9 9 false], [114]),
    ([.sync 10 10 false], [116])]

def turnRun : Option (Watched Zq Zq) := watchRun cxA demoCodecs shares hist 3 turnRounds

/-- What we look at in a round. -/
structure Look where
  view : Int
  main : Nat
  awake : Bool
  pending : Option Nat
  keys : List (Option (Option Zq))
  acts : List (Action Zq Zq)
deriving DecidableEq

def look (cx : Cfg Zq Zq (Multiplicative Zq) Unit) (m : Moment Zq Zq) : Look :=
  ⟨m.view.currentBlock, m.main.currentBlock, decides cx m.view m.main, m.before.pendingHalfStep, m.after.ekgs.map (fun e => e.kg.secretKeys 0), m.acts⟩

/-- As in the demo, but batching is off from block 110 on. -/
def offSetup : List (Nat × Op) :=
  [.startBatchIndex 1, .startBlockNumber 110, .batchSpan 0, .addKeypers [1, 2], .threshold 1, .executionTimeout 30,
    .batchSizeLimit 1000, .transactionSizeLimit 500].map (fun o => (4, Op.config 9 (.set o))) ++ [(4, .config 9 .schedule)]

def offHist : Nat → World := chainOf env start (setup ++ offSetup ++ submissions)

def offShares : Observe.Chain := fun h =>
  if h = 7 then [[makeABCIEvent demoCodecs (.batchConfig 1 1 [kA, kB] 2)]] else shares h

def offRounds : List (List LoopStep × List Nat) :=
  [([.sync 2 2 false], [50]), ([.sync 8 8 false], [110]), ([], [112]), ([], [113]), ([.sync 9 9 false], [114]),
    ([.sync 10 10 false], [116]), ([], [130])]

def offRun : Option (Watched Zq Zq) := watchRun cxA demoCodecs offShares offHist 3 offRounds

end Shutter.Decide.Demo
