import Verif.Proofs.HonestRun
import Verif.Props.Sent

/-! # Two honest keypers and a third one that does not deal and makes a false accusation -/

namespace Shutter.Decide.Props.HonestDemo
open Shutter.Crypto Shutter.Dkg Shutter.Observe Shutter.Decide Shutter.Decide.Spec Shutter.Decide.Props
open Shutter.Events Shutter.Events.Props
open Shutter.App (Addr)

def kC : Addr := App.Demo.k 3

/-- A chain with the given events. -/
def tableChain (table : List (Int × App.Event)) : Chain := fun h =>
  table.filterMap (fun x => if x.1 = h then some [makeABCIEvent demoCodecs x.2] else none)

theorem published_table {table : List (Int × App.Event)} {h : Int} {ev : App.Event}
    (p : Published demoCodecs (tableChain table) h ev) : ∃ x ∈ table, x.1 = h ∧ makeEvent demoCodecs (makeABCIEvent demoCodecs x.2) = some ev := by
  obtain ⟨_, y, hy, hev⟩ := p
  obtain ⟨l, hl, hy⟩ := List.mem_flatten.1 hy
  obtain ⟨x, hx, hl⟩ := List.mem_filterMap.1 hl
  split at hl
  · next hh =>
    simp only [Option.some.injEq] at hl
    subst hl
    simp only [List.mem_singleton] at hy
    subst hy
    exact ⟨x, hx, hh, hev⟩
  · cases hl

theorem table_published {table : List (Int × App.Event)} {h : Int} {ev : App.Event} (hx : (h, ev) ∈ table) (h0 : 0 ≤ h)
    (hev : makeEvent demoCodecs (makeABCIEvent demoCodecs ev) = some ev) : Published demoCodecs (tableChain table) h ev := by
  refine ⟨h0, makeABCIEvent demoCodecs ev, List.mem_flatten.2 ⟨[makeABCIEvent demoCodecs ev], ?_, by simp⟩, hev⟩
  exact List.mem_filterMap.2 ⟨_, hx, by simp⟩

/-- Eon 1 with the keypers A, B and C and threshold 2 is announced in block 2; phases have three blocks. C never deals, and it accuses A. -/
def table : List (Int × App.Event) :=
  [(1, .batchConfig 0 2 [kA, kB, kC] 1), (1, .checkIn kA [1]), (1, .checkIn kB [2]), (2, .eonStarted 1 0),
   (3, .polyCommitment kA 1 [[3], [4]]), (3, .polyEval kA 1 [kB] [[11]]), (3, .polyCommitment kB 1 [[5], [6]]), (4, .polyEval kB 1 [kA] [[11]]),
   (5, .accusation kC 1 [kA]), (6, .accusation kA 1 [kC]), (6, .accusation kB 1 [kC]),
   (9, .apology kA 1 [kC] [15])]

def cx (own : Addr) (poly : List Nat) : Cfg Zq Zq (Multiplicative Zq) Unit := { demoCfg own poly with
  phaseLength := 3
  decryptEval := fun b => some b.reverse
  encryptEval := fun _ b => b.reverse }

def cxOf (i : Nat) : Cfg Zq Zq (Multiplicative Zq) Unit := if i = 0 then cx kA [3, 4] else cx kB [5, 6]

def rounds : List (List LoopStep) := [[.sync 2 2 false], [.sync 4 4 false], [.sync 7 7 false], [.sync 10 10 false]]

def lives (i : Nat) : Option (List (Round Zq Zq) × Observe.Shutter × State Zq Zq) :=
  lifeLog (cxOf i) demoCodecs (tableChain table) demoMain rounds

/-- What is to be seen of a life. -/
structure Seen where
  com : List (Int × List Zq)
  ev : List (Int × List Addr × List Bytes)
  acc : List (Int × List Addr)
  apo : List (Int × List Addr × List Int)
  dkgs : List (Nat × List Addr × Nat × Nat)
  height : Int
  online : List Bool
  known : Bool
deriving DecidableEq

def seen (i : Nat) (r : List (Round Zq Zq) × Observe.Shutter × State Zq Zq) : Seen where
  com := said (commitmentsFor 1) r.1
  ev := said (evaluationsFor 1) r.1
  acc := said (accusationsFor 1) r.1
  apo := said (apologiesFor 1) r.1
  dkgs := r.2.2.dkgs.map (fun d => (d.eon, d.keypers, d.pure.state.threshold, d.startBatchIndex))
  height := r.2.2.syncHeight
  online := [(firstIn 2 3 0 r.1).isSome, (firstIn 2 3 1 r.1).isSome, (firstIn 2 3 2 r.1).isSome]
  known := (firstTo demoCodecs (tableChain table) 2 3 (if i = 0 then kB else kA) r.1).isSome

theorem seen_A : (lives 0).map (seen 0) = some ⟨[(3, [Zq.of 3, Zq.of 4])], [(3, [kB], [[11]])], [(5, [kC])], [(8, [kC], [15])],
    [(1, [kA, kB, kC], 2, 0)], 11, [true, true, true], true⟩ := by decide +kernel
theorem seen_B : (lives 1).map (seen 1) = some ⟨[(3, [Zq.of 5, Zq.of 6])], [(3, [kA], [[11]])], [(5, [kC])], [],
    [(1, [kA, kB, kC], 2, 0)], 11, [true, true, true], true⟩ := by decide +kernel

theorem table_events : chainEvents demoCodecs (tableChain table) 0 10 = table.map (fun x => ⟨x.1, x.2⟩) := by decide +kernel
theorem table_decoded : table.all (fun x => decide (makeEvent demoCodecs (makeABCIEvent demoCodecs x.2) = some x.2)) = true := by decide +kernel

theorem table_iff {h : Int} {ev : App.Event} : Published demoCodecs (tableChain table) h ev ↔ (h, ev) ∈ table := by
  have hd := table_decoded
  rw [List.all_eq_true] at hd
  constructor
  · intro p
    obtain ⟨x, hx, rfl, he⟩ := published_table p
    have := hd x hx
    rw [decide_eq_true_eq, he] at this
    cases this
    exact hx
  · intro hx
    refine table_published hx ?_ (by simpa using hd _ hx)
    have : table.all (fun x => decide (0 ≤ x.1)) = true := by decide
    rw [List.all_eq_true] at this
    simpa using this _ hx

theorem table_started : Started (chainEvents demoCodecs (tableChain table) 0 10) 1 0 2 := by
  rw [table_events]
  refine ⟨(table.take 3).map (fun x => ⟨x.1, x.2⟩), (table.drop 4).map (fun x => ⟨x.1, x.2⟩), rfl, ?_⟩
  simp [table]

theorem only_A : table.all (fun x => match x.2 with
    | .polyCommitment a _ g => decide (a = kA → g = [[3], [4]])
    | .polyEval a _ rc en => decide (a = kA → rc = [kB] ∧ en = [[11]])
    | .apology a _ as es => decide (a = kA → as = [kC] ∧ es = [15])
    | _ => true) = true := by decide +kernel
theorem only_B : table.all (fun x => match x.2 with
    | .polyCommitment a _ g => decide (a = kB → g = [[5], [6]])
    | .polyEval a _ rc en => decide (a = kB → rc = [kA] ∧ en = [[11]])
    | .apology a _ _ _ => decide (a ≠ kB)
    | _ => true) = true := by decide +kernel

theorem honest_A {r : List (Round Zq Zq) × Observe.Shutter × State Zq Zq} (hr : lives 0 = some r) : ∃ d, d.eon = 1 ∧ d.keypers = [kA, kB, kC] ∧
    d.pure.state.threshold = 2 ∧ Honest (cxOf 0) demoCodecs (tableChain table) 2 r.1 r.2.1 r.2.2 d ∧
    Dealt (cxOf 0) demoCodecs (tableChain table) 1 2 r.1 ∧ firstTo demoCodecs (tableChain table) 2 3 kB r.1 ≠ none := by
  have hx := seen_A
  rw [hr] at hx
  simp only [Option.map_some, Option.some.injEq] at hx
  have h1 : said (commitmentsFor 1) r.1 = [(3, [Zq.of 3, Zq.of 4])] := congrArg Seen.com hx
  have h2 : said (evaluationsFor 1) r.1 = [(3, [kB], [[11]])] := congrArg Seen.ev hx
  have h3 : said (accusationsFor 1) r.1 = [(5, [kC])] := congrArg Seen.acc hx
  have h4 : said (apologiesFor 1) r.1 = [(8, [kC], [15])] := congrArg Seen.apo hx
  have h5 : r.2.2.dkgs.map (fun d => (d.eon, d.keypers, d.pure.state.threshold, d.startBatchIndex)) = _ := congrArg Seen.dkgs hx
  have h6 : r.2.2.syncHeight = 11 := congrArg Seen.height hx
  have h7 : [(firstIn 2 3 0 r.1).isSome, (firstIn 2 3 1 r.1).isSome, (firstIn 2 3 2 r.1).isSome] = _ := congrArg Seen.online hx
  have h8 : (firstTo demoCodecs (tableChain table) 2 3 kB r.1).isSome = true := congrArg Seen.known hx
  simp only [List.map_eq_singleton_iff] at h5
  obtain ⟨d, hd, h5⟩ := h5
  simp only [Prod.mk.injEq] at h5
  obtain ⟨e1, e2, e3, e4⟩ := h5
  refine ⟨d, e1, e2, e3, ⟨lifeLog_lived hr, by simp [hd], ?_, ?_, ?_, ?_, ?_, ?_⟩, ⟨?_, ?_⟩, ?_⟩
  · rw [h6, e1, e4]; exact table_started
  · rw [h6]; decide
  · intro P hP
    cases hP
    rw [e3]
    rfl
  · intro k hk
    simp only [List.cons.injEq] at h7
    rw [← Option.isSome_iff_ne_none]
    simp only [List.mem_cons, List.not_mem_nil, or_false] at hk
    rcases hk with rfl | rfl | rfl
    · exact h7.1
    · exact h7.2.1
    · exact h7.2.2.1
  · rw [e1]
    refine ⟨?_, ?_, ?_⟩
    · intro m hm
      rw [h1, List.mem_singleton] at hm
      subst hm
      exact ⟨3, [[3], [4]], by decide, by decide, table_iff.2 (by decide), rfl⟩
    · intro m hm
      rw [h3, List.mem_singleton] at hm
      subst hm
      exact ⟨6, by decide, table_iff.2 (by decide)⟩
    · intro m hm
      rw [h4, List.mem_singleton] at hm
      subst hm
      exact ⟨9, [15], by decide, table_iff.2 (by decide), rfl⟩
  · rw [e1]
    refine ⟨?_, ?_⟩
    · intro h g p
      have := List.all_eq_true.1 only_A _ (table_iff.1 p)
      simp only [decide_eq_true_eq] at this
      exact ⟨_, by rw [h1]; exact List.mem_singleton.2 rfl, by rw [this rfl]; rfl⟩
    · intro h as es p
      have := List.all_eq_true.1 only_A _ (table_iff.1 p)
      simp only [decide_eq_true_eq] at this
      exact ⟨_, by rw [h4]; exact List.mem_singleton.2 rfl, by rw [(this rfl).1, (this rfl).2]; rfl⟩
  · intro m hm
    rw [h2, List.mem_singleton] at hm
    subst hm
    exact ⟨3, by decide, by decide, table_iff.2 (by decide)⟩
  · intro h rc en p
    have := List.all_eq_true.1 only_A _ (table_iff.1 p)
    simp only [decide_eq_true_eq] at this
    exact ⟨_, by rw [h2]; exact List.mem_singleton.2 rfl, by rw [(this rfl).1, (this rfl).2]⟩
  · rw [← Option.isSome_iff_ne_none]; exact h8

theorem honest_B {r : List (Round Zq Zq) × Observe.Shutter × State Zq Zq} (hr : lives 1 = some r) : ∃ d, d.eon = 1 ∧ d.keypers = [kA, kB, kC] ∧
    d.pure.state.threshold = 2 ∧ Honest (cxOf 1) demoCodecs (tableChain table) 2 r.1 r.2.1 r.2.2 d ∧
    Dealt (cxOf 1) demoCodecs (tableChain table) 1 2 r.1 ∧ firstTo demoCodecs (tableChain table) 2 3 kA r.1 ≠ none := by
  have hx := seen_B
  rw [hr] at hx
  simp only [Option.map_some, Option.some.injEq] at hx
  have h1 : said (commitmentsFor 1) r.1 = [(3, [Zq.of 5, Zq.of 6])] := congrArg Seen.com hx
  have h2 : said (evaluationsFor 1) r.1 = [(3, [kA], [[11]])] := congrArg Seen.ev hx
  have h3 : said (accusationsFor 1) r.1 = [(5, [kC])] := congrArg Seen.acc hx
  have h4 : said (apologiesFor 1) r.1 = [] := congrArg Seen.apo hx
  have h5 : r.2.2.dkgs.map (fun d => (d.eon, d.keypers, d.pure.state.threshold, d.startBatchIndex)) = _ := congrArg Seen.dkgs hx
  have h6 : r.2.2.syncHeight = 11 := congrArg Seen.height hx
  have h7 : [(firstIn 2 3 0 r.1).isSome, (firstIn 2 3 1 r.1).isSome, (firstIn 2 3 2 r.1).isSome] = _ := congrArg Seen.online hx
  have h8 : (firstTo demoCodecs (tableChain table) 2 3 kA r.1).isSome = true := congrArg Seen.known hx
  simp only [List.map_eq_singleton_iff] at h5
  obtain ⟨d, hd, h5⟩ := h5
  simp only [Prod.mk.injEq] at h5
  obtain ⟨e1, e2, e3, e4⟩ := h5
  refine ⟨d, e1, e2, e3, ⟨lifeLog_lived hr, by simp [hd], ?_, ?_, ?_, ?_, ?_, ?_⟩, ⟨?_, ?_⟩, ?_⟩
  · rw [h6, e1, e4]; exact table_started
  · rw [h6]; decide
  · intro P hP
    cases hP
    rw [e3]
    rfl
  · intro k hk
    simp only [List.cons.injEq] at h7
    rw [← Option.isSome_iff_ne_none]
    simp only [List.mem_cons, List.not_mem_nil, or_false] at hk
    rcases hk with rfl | rfl | rfl
    · exact h7.1
    · exact h7.2.1
    · exact h7.2.2.1
  · rw [e1]
    refine ⟨?_, ?_, ?_⟩
    · intro m hm
      rw [h1, List.mem_singleton] at hm
      subst hm
      exact ⟨3, [[5], [6]], by decide, by decide, table_iff.2 (by decide), rfl⟩
    · intro m hm
      rw [h3, List.mem_singleton] at hm
      subst hm
      exact ⟨6, by decide, table_iff.2 (by decide)⟩
    · intro m hm
      rw [h4] at hm
      simp at hm
  · rw [e1]
    refine ⟨?_, ?_⟩
    · intro h g p
      have := List.all_eq_true.1 only_B _ (table_iff.1 p)
      simp only [decide_eq_true_eq] at this
      exact ⟨_, by rw [h1]; exact List.mem_singleton.2 rfl, by rw [this rfl]; rfl⟩
    · intro h as es p
      have := List.all_eq_true.1 only_B _ (table_iff.1 p)
      simp only [decide_eq_true_eq] at this
      exact absurd rfl this
  · intro m hm
    rw [h2, List.mem_singleton] at hm
    subst hm
    exact ⟨4, by decide, by decide, table_iff.2 (by decide)⟩
  · intro h rc en p
    have := List.all_eq_true.1 only_B _ (table_iff.1 p)
    simp only [decide_eq_true_eq] at this
    exact ⟨_, by rw [h2]; exact List.mem_singleton.2 rfl, by rw [(this rfl).1, (this rfl).2]⟩
  · rw [← Option.isSome_iff_ne_none]; exact h8

end Shutter.Decide.Props.HonestDemo
