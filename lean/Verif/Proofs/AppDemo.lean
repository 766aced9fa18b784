import Verif.Proofs.AppRun

/-! # A small concrete chain, used to show that the hypotheses of the theorems can be met -/

namespace Shutter.App.Demo

def k (i : UInt8) : Addr := List.replicate 19 0 ++ [i]
def pk (i : UInt8) : Bytes := List.replicate 31 7 ++ [i]

/-- Parsers that accept nonempty encodings. -/
def ps : Parsers := ⟨fun b => if b = [] then none else some b, fun b => if b = [] then none else some b,
  fun b => if b = [] then none else some b⟩

def chain : Bytes := [1]
def tx (a : Addr) (n : Nat) (m : Msg) : Op := .deliverTx (some (a, ⟨m, chain, n⟩))

/-- Genesis: three keypers, two of them decide; one validator. -/
def req : InitRequest := ⟨some ([k 1, k 2, k 3], 2), [(some (pk 9), 10)], chain⟩

def cfg1 : BatchConfigMsg := ⟨100, [k 2, k 3, k 4], 2, zeroAddr, 1, false, false⟩
def cfg2 : BatchConfigMsg := ⟨200, [k 3, k 4], 1, zeroAddr, 2, false, false⟩

/-- A chain exercising most messages. -/
def ops : List Op :=
  [ .initChain req,
    tx (k 1) 1 (.checkIn (pk 1) [5]),
    tx (k 2) 1 (.checkIn (pk 2) [6]),
    tx (k 3) 1 (.checkIn (pk 3) [7]),
    tx (k 1) 2 (.batchConfig cfg1),
    .checkTx (some (k 2, ⟨.batchConfig cfg1, chain, 2⟩)),
    tx (k 2) 2 (.batchConfig cfg1),           -- accepted, eon 1
    tx (k 2) 2 (.batchConfig cfg1),           -- replayed, rejected
    tx (k 1) 3 (.batchConfigStarted 1),
    tx (k 3) 3 (.batchConfigStarted 1),
    .endBlock 1,                              -- config 1 starts, validators change
    .commit,
    tx (k 2) 4 (.polyCommitment 1 [[1], [2]]),
    tx (k 2) 5 (.polyEval 1 [k 3, k 4] [[1], [2]]),
    tx (k 2) 6 (.accusation 1 [k 3]),
    tx (k 3) 6 (.apology 1 [k 2] [[1, 0]]),
    tx (k 2) 7 (.decryptionSignature 150 [8]),
    tx (k 3) 7 (.decryptionSignature 150 [9]),
    tx (k 2) 8 (.eonStartVote 120),
    tx (k 3) 8 (.eonStartVote 120),           -- eon 2
    .endBlock 2,
    .commit ]

def result : Option (State × List Resp) := runOps ps (newApp false) ops

theorem responses : result.map (·.2) = some
    [ .none,
      .deliverTx ⟨true, [.checkIn (k 1) [5]]⟩,
      .deliverTx ⟨true, [.checkIn (k 2) [6]]⟩,
      .deliverTx ⟨true, [.checkIn (k 3) [7]]⟩,
      .deliverTx ⟨true, []⟩,
      .checkTx true,
      .deliverTx ⟨true, [.batchConfig 100 2 [k 2, k 3, k 4] 1, .eonStarted 1 100]⟩,
      .deliverTx ⟨false, []⟩,
      .deliverTx ⟨true, []⟩,
      .deliverTx ⟨true, []⟩,
      .endBlock [(pk 2, 10), (pk 3, 10), (pk 9, 0), (nonExistentValidator, 10)],
      .none,
      .deliverTx ⟨true, [.polyCommitment (k 2) 1 [[1], [2]]]⟩,
      .deliverTx ⟨true, [.polyEval (k 2) 1 [k 3, k 4] [[1], [2]]]⟩,
      .deliverTx ⟨true, [.accusation (k 2) 1 [k 3]]⟩,
      .deliverTx ⟨true, [.apology (k 3) 1 [k 2] [256]]⟩,
      .deliverTx ⟨true, [.decryptionSignature 150 (k 2) [8]]⟩,
      .deliverTx ⟨true, [.decryptionSignature 150 (k 3) [9]]⟩,
      .deliverTx ⟨true, []⟩,
      .deliverTx ⟨true, [.eonStarted 2 120]⟩,
      .endBlock [],
      .none ] := by decide +kernel

/-- The records and the final state of a list of calls (nothing if the process dies). -/
def logOf (dev : Bool) (ops : List Op) : List Rec := ((runLog ps (newApp dev) ops).getD ([], newApp dev)).1
def stateOf (dev : Bool) (ops : List Op) : State := ((runLog ps (newApp dev) ops).getD ([], newApp dev)).2

theorem exec_of (dev : Bool) (ops : List Op) (h : (runLog ps (newApp dev) ops).isSome = true) :
    Exec ps dev (logOf dev ops) (stateOf dev ops) := by
  obtain ⟨p, hp⟩ := Option.isSome_iff_exists.1 h
  simp only [logOf, stateOf, hp, Option.getD_some]
  exact Exec.start.ofRunLog hp

theorem exec : Exec ps false (logOf false ops) (stateOf false ops) := exec_of _ _ (by decide +kernel)

/-- Record number `i`. -/
theorem split_log {log : List Rec} {i : Nat} {r} (h : log[i]? = some r) : log = log.take i ++ r :: log.drop (i + 1) := by
  obtain ⟨hi, rfl⟩ := List.getElem?_eq_some_iff.1 h
  simp

end Shutter.App.Demo
