import Verif.Proofs.CheckIn
import Verif.Proofs.DemoVote

/-! # A keyper that checks in -/

namespace Shutter.Net.CheckInDemo
open Shutter.App Shutter.Events Shutter.Events.Props Shutter.Observe Shutter.Decide Shutter.Decide.Spec Shutter.Decide.Props Shutter.Crypto
open Shutter.App.Demo (ps tx k pk)
open Shutter.Net.Demo (splits mem_splits delivered delivers_iff)

def req : InitRequest := ⟨some ([k 5, k 6], 2), [(some (pk 9), 10)], App.Demo.chain⟩

/-- The keyper 7 is one of config number 1, which is accepted in block 2; its check-in is delivered in block 3, where the config starts. -/
def ops : List App.Op :=
  [ .initChain req, tx (k 5) 1 (.checkIn (pk 1) [1]), tx (k 6) 1 (.checkIn (pk 2) [2]), .endBlock 1, .commit,
    tx (k 5) 2 (.batchConfig VoteDemo.first), tx (k 6) 2 (.batchConfig VoteDemo.first), .endBlock 2, .commit,
    tx (k 7) 1 (.checkIn (pk 3) [7, 7]), tx (k 5) 3 (.batchConfigStarted 1), tx (k 6) 3 (.batchConfigStarted 1), .endBlock 3, .commit ]

def log : List Rec := App.Demo.logOf false ops
def state : App.State := App.Demo.stateOf false ops
def wire : Wire Zq Zq := { Demo.wire with validatorKey := pk 3, encryptionKey := [7, 7] }

theorem exec : Exec ps false log state := App.Demo.exec_of _ _ (by decide +kernel)
theorem sane : Sane log := Demo.sane_of (by decide +kernel)

def genuineOk (w : Wire Zq Zq) (log : List Rec) (own : Addr) (rs : List (Round Zq Zq)) : Bool :=
  (splits log).all (fun p => match delivered p.2.1 with
    | some (a, m) => match m.msg with
      | .checkIn _ _ => decide (a ≠ own) ||
          rs.any (fun x => decide (x.next ≤ heightAfter p.1) && x.sent.any (fun act => decide (message w act = some m.msg)))
      | _ => true
    | none => true)

theorem genuine_of {w : Wire Zq Zq} {log : List Rec} {own : Addr} {rs : List (Round Zq Zq)} (h : genuineOk w log own rs = true) :
    GenuineCheckIns w log own rs := by
  intro pre r post m vk ek hl hd hm
  have := List.all_eq_true.1 h _ (mem_splits.2 hl)
  simp only [delivers_iff.1 hd, hm, ne_eq, not_true_eq_false, decide_false, Bool.false_or, List.any_eq_true, Bool.and_eq_true,
    decide_eq_true_eq] at this
  obtain ⟨x, hx, h1, act, ha, hm'⟩ := this
  exact ⟨x, hx, act, ha, by rw [hm]; exact hm', h1⟩

/-- The check-in of keyper 7 is call number 9. -/
theorem arrives {rs : List (Round Zq Zq)} (h : rs.all (fun x => decide (x.next ≤ 3) || !(x.sent.any (fun a => decide (a.kind = .checkIn)))) = true) :
    CheckInArrives wire log (k 7) rs := by
  intro x hx hs
  have h1 := List.all_eq_true.1 h x hx
  have h2 : x.sent.any (fun a => decide (a.kind = .checkIn)) = true := List.any_eq_true.2 ⟨_, hs, rfl⟩
  rw [h2] at h1
  simp only [Bool.not_true, Bool.or_false, decide_eq_true_eq] at h1
  obtain ⟨r, hr⟩ : ∃ r, log[9]? = some r := Option.isSome_iff_exists.1 (by decide +kernel)
  have hl : log = log.take 9 ++ r :: log.drop 10 := by
    obtain ⟨h9, he⟩ := List.getElem?_eq_some_iff.1 hr
    rw [← he, ← List.drop_eq_getElem_cons h9, List.take_append_drop]
  refine ⟨log.take 9, r, log.drop 10, hl, ⟨_, rfl, 1, ?_, ?_⟩, ?_⟩
  · rw [delivers_iff]
    have e : (log[9]?).map (fun r => (delivered r, r.before.chainID)) = some (some (k 7, ⟨.checkIn (pk 3) [7, 7], App.Demo.chain, 1⟩), App.Demo.chain) := by
      decide +kernel
    rw [hr] at e
    simp only [Option.map_some, Option.some.injEq, Prod.mk.injEq] at e
    rw [e.1, e.2]
    rfl
  · intro r' hr' m' hd'
    have e : (log.take 9).all (fun r => match delivered r with
        | some (a, _) => decide (a ≠ k 7)
        | none => true) = true := by decide +kernel
    have := List.all_eq_true.1 e r' hr'
    rw [delivers_iff.1 hd'] at this
    simp at this
  · have e : heightAfter (log.take 9) = 3 := by decide +kernel
    rw [e]
    exact h1

def endHeight : App.Op → Option Nat
  | .endBlock h => some h
  | _ => none

theorem endHeight_some {op : App.Op} {h : Nat} (e : endHeight op = some h) : op = .endBlock h := by
  cases op <;> simp [endHeight] at e
  rw [e]

def sees (x : Round Zq Zq) : Bool × Int × Bool := (x.deciding, x.next, x.sent.any (fun a => decide (a.kind = .checkIn)))

def check (r : CRun Zq Zq) : List Bool := [genuineOk wire log (k 7) (r.rounds.map (·.2)),
  (r.rounds.map (·.2)).all (fun x => decide (x.next ≤ 3) || !(x.sent.any (fun a => decide (a.kind = .checkIn)))),
  decide (r.rounds.map (fun x => sees x.2) = [(true, 3, true), (true, 4, false)]), decide (r.s.currentBlock = 3)]

theorem checked {own : Addr} {chain : Observe.Chain} {hist : Nat → Sol.World} (hc : Main.Chain Sol.Demo.env hist) {rounds : List (List LoopStep × List Nat)}
    (h : (careerRun (VoteDemo.cxOf own) demoCodecs chain hist 0 rounds).map check = some [true, true, true, true]) :
    ∃ r : CRun Zq Zq, Career (VoteDemo.cxOf own) demoCodecs chain Sol.Demo.env 0 r.s r.st r.mc hist r.rounds ∧
      genuineOk wire log (k 7) (r.rounds.map (·.2)) = true ∧
      (r.rounds.map (·.2)).all (fun x => decide (x.next ≤ 3) || !(x.sent.any (fun a => decide (a.kind = .checkIn)))) = true ∧
      r.rounds.map (fun x => sees x.2) = [(true, 3, true), (true, 4, false)] ∧ r.s.currentBlock = 3 := by
  obtain ⟨r, hr, hf⟩ := Option.map_eq_some_iff.1 h
  unfold check at hf
  simp only [List.cons.injEq, and_true, decide_eq_true_eq] at hf
  exact ⟨r, careerRun_career hc hr, hf⟩

theorem facts : (careerRun (VoteDemo.cxOf (k 7)) demoCodecs (appChain demoCodecs log) (VoteDemo.hist VoteDemo.active) 0
    [([.sync 2 2 false], [3, 10]), ([.sync 3 3 false], [])]).map check = some [true, true, true, true] := by decide +kernel

end Shutter.Net.CheckInDemo
