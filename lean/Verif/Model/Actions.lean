import Mathlib.Data.List.Basic

/-! # The keyper's action queue and its crash recovery

Models `/repo/shuttermint/keyper/fx/pending.go`, `/repo/shuttermint/keyper/fx/runenv.go` and the parts of
`/repo/shuttermint/keyper/keyper.go` that save, load and run actions.

`α` is the type of actions (`fx/actions.go:24-46`), `isTx a` says that `a` is a main chain transaction rather than a
shuttermint message, `H` is the type of (non zero) transaction hashes, `σ` is the rest of the keyper's `State`. What
the decider decides is left open: any list of actions may be decided in any step.

Simplifications: ids are natural numbers (in the code `uint64`; a keyper does not issue `2^64` actions). A file is
written under a temporary name, synced and renamed (`pending.go:115-136`, `keyper.go:342-368`); we take this as atomic.
Go channels are FIFO lists; the unbuffered ones block the sender, so the code has fewer interleavings. -/

namespace Shutter.Fx

/-- Function update (Go: assignment to a map entry). -/
def upd {β : Type} (f : Nat → β) (k : Nat) (v : β) : Nat → β := fun x => if x = k then v else f x

/-- `PendingActions` (pending.go:16-25). Maps from ids are functions to `Option`; "no transaction hash" (Go: the zero
hash) is `none`. -/
structure Pending (α H : Type) where
  actionMap : Nat → Option α
  txHashes : Nat → Option H
  currentID : Nat

namespace Pending
variable {α H : Type}

/-- `NewPendingActions` (pending.go:28-35). -/
def empty : Pending α H := ⟨fun _ => none, fun _ => none, 0⟩

/-- `SortedIDs` (pending.go:44-54). All keys of the map are below `currentID` (shown in the proofs), so that the sorted
list of keys is the list of those `id < currentID` which are in the map. -/
def sortedIDs (p : Pending α H) : List Nat := (List.range p.currentID).filter (fun id => (p.actionMap id).isSome)

/-- The loop in `AddActions` (pending.go:72-74). -/
def storeAll (m : Nat → Option α) (startID : Nat) : List α → Nat → Option α
  | [] => m
  | a :: as => storeAll (upd m startID (some a)) (startID + 1) as

/-- `AddActions` (pending.go:58-78): the new queue and the range of new ids. `none` is the panic of line 62. -/
def addActions (p : Pending α H) (id : Nat) (actions : List α) : Option (Pending α H × Nat × Nat) :=
  if id > p.currentID then none
  else
    let startID := p.currentID
    if p.currentID ≥ id + actions.length then some (p, startID, startID)
    else
      let actions := actions.drop (p.currentID - id)
      some ({ p with
        actionMap := storeAll p.actionMap startID actions
        currentID := p.currentID + actions.length }, startID, p.currentID + actions.length)

/-- `SetMainChainTXHash` (pending.go:81-86). -/
def setTxHash (p : Pending α H) (id : Nat) (h : H) : Pending α H :=
  { p with
    txHashes := upd p.txHashes id (some h) }

/-- `RemoveAction` (pending.go:96-103). -/
def remove (p : Pending α H) (id : Nat) : Pending α H :=
  { p with
    actionMap := upd p.actionMap id none
    txHashes := upd p.txHashes id none }

end Pending

/-- The part of the keyper's `State` (decide.go:247-272) that takes part in running actions; `rest` stands for the other
fields. -/
structure KState (α σ : Type) where
  actionCounter : Nat
  actions : List α
  rest : σ

/-- What the main goroutine of the keyper is doing. -/
inductive Phase where
  /-- `LoadState` is done, `loadRunenv` is next (keyper.go:261-267) -/
  | started
  /-- inside `RunEnv.Load`, scheduling the loaded actions (runenv.go:165-171) -/
  | loading
  /-- in `syncLoop`, before `runOneStep` (keyper.go:212-228) -/
  | idle
  /-- `runOneStep` after `decide`, before `saveState` (keyper.go:396-397) -/
  | decided
  /-- before `runActions` (keyper.go:400, 269) -/
  | saved
  /-- in `RunActions`, scheduling the new actions (runenv.go:123-128) -/
  | scheduling
  deriving DecidableEq, Repr

/-- The memory of a running keyper. -/
structure Mem (α H σ : Type) where
  state : KState α σ
  pend : Pending α H
  phase : Phase
  /-- the ids that the main goroutine is going to schedule -/
  toSchedule : List Nat
  /-- `shuttermintMessages`; the head is the id handled by the worker -/
  msgCh : List Nat
  /-- the worker for messages is done with the head, apart from removing it -/
  msgDone : Bool
  /-- `mainChainTXs`; the head is the id handled by the worker -/
  txCh : List Nat
  /-- the worker for transactions got the head sent, with this hash -/
  txSent : Option H
  /-- the worker for transactions gave up on the head -/
  txDone : Bool
  /-- `inFlightMainChainTXs`, and the ids for which a worker waits -/
  inFlight : List Nat

/-- What an observer can see. -/
inductive Entry (α H σ : Type) where
  /-- the keyper process was started -/
  | started
  /-- the state file was written; it contains these decided actions -/
  | saved (actions : List α)
  /-- the action was added to the file of queued actions -/
  | queued (id : Nat) (a : α)
  /-- the message or transaction was sent successfully -/
  | sent (id : Nat) (a : α)
  /-- the hash of the transaction was recorded in the file of queued actions -/
  | recorded (id : Nat) (h : H)
  /-- the action was removed from the file of queued actions -/
  | removed (id : Nat)
  /-- the action expired, was rejected by the receiver, or failed for good -/
  | gaveUp (id : Nat)
  /-- the process ended, in a crash or not -/
  | stopped
  /-- the code ran into a `panic` or `log.Fatal` -/
  | panicked
  deriving DecidableEq, Repr

/-- The keyper with its two files. -/
structure Sys (α H σ : Type) where
  stateFile : Option (KState α σ)
  actionsFile : Option (Pending α H)
  mem : Option (Mem α H σ)
  log : List (Entry α H σ)

/-- The things that can happen. -/
inductive Ev (α H σ : Type) where
  | start
  | load
  | schedule
  | loaded
  | decide (actions : List α) (rest : σ)
  | save
  | run
  | finish
  | msgSend
  | msgGiveUp
  | msgRemove
  | txSend (h : H)
  | txGiveUp
  | txRecord
  | txRemove
  | mined (id : Nat)
  | stop

namespace Sys
variable {α H σ : Type} (isTx : α → Bool) (newRest : σ)

/-- A fresh installation: no files, no process. -/
def fresh : Sys α H σ := ⟨none, none, none, []⟩

/-- A panic or `log.Fatal`: the process ends. -/
def panic (s : Sys α H σ) : Sys α H σ :=
  { s with
    mem := none
    log := s.log ++ [.panicked] }

def withMem (s : Sys α H σ) (m : Mem α H σ) : Sys α H σ :=
  { s with
    mem := some m }

def emit (s : Sys α H σ) (es : List (Entry α H σ)) : Sys α H σ :=
  { s with
    log := s.log ++ es }

/-- `PendingActions.save` (pending.go:114-136): the file gets the content of the memory. -/
def savePending (s : Sys α H σ) (p : Pending α H) : Sys α H σ :=
  { s with
    actionsFile := some p }

/-- `scheduleAction` (runenv.go:134-156) for the next id. -/
def scheduleNext (s : Sys α H σ) (m : Mem α H σ) : Option (Sys α H σ) :=
  match m.toSchedule with
  | [] => none
  | id :: rest =>
    match m.pend.actionMap id with
    | none => some s.panic
    | some a =>
      let m := { m with
        toSchedule := rest }
      if isTx a then
        if (m.pend.txHashes id).isSome then
          some (s.withMem { m with
            inFlight := m.inFlight ++ [id] })
        else some (s.withMem { m with
            txCh := m.txCh ++ [id] })
      else some (s.withMem { m with
            msgCh := m.msgCh ++ [id] })

/-- One step; `none` if it cannot happen now. -/
def step (s : Sys α H σ) : Ev α H σ → Option (Sys α H σ)
  -- The process is started: `LoadState` (keyper.go:309-340, 60-68); goroutines are started (runenv.go:252-269).
  | .start =>
    match s.mem with
    | some _ => none
    | none =>
      some ((s.withMem ⟨s.stateFile.getD ⟨0, [], newRest⟩, .empty, .started, [], [], false, [], none, false, []⟩).emit [.started])
  -- `RunEnv.Load` (runenv.go:159-173, pending.go:139-157).
  | .load => do
    let m ← s.mem
    if m.phase = .started then
      let p := s.actionsFile.getD .empty
      some (s.withMem { m with
        pend := p
        toSchedule := p.sortedIDs
        phase := .loading })
    else none
  -- `scheduleAction` in the loops of `Load` and `RunActions`.
  | .schedule => do
    let m ← s.mem
    if m.phase = .loading ∨ m.phase = .scheduling then s.scheduleNext isTx m else none
  -- `Load` is done; `run` continues with unfinished actions, if any (keyper.go:269-275). The possible reset of
  -- `PendingHalfStep` in `loadRunenv` concerns `rest` only.
  | .loaded => do
    let m ← s.mem
    if m.phase = .loading ∧ m.toSchedule = [] then
      some (s.withMem { m with
        phase := if m.state.actions = [] then .idle else .saved })
    else none
  -- `runOneStep`: decide (keyper.go:392-396).
  | .decide actions rest => do
    let m ← s.mem
    if m.phase = .idle then
      if m.state.actions ≠ [] then some s.panic
      else some (s.withMem { m with
        state := { m.state with
          actions := actions
          rest := rest }
        phase := .decided })
    else none
  -- `saveState` (keyper.go:397).
  | .save => do
    let m ← s.mem
    if m.phase = .decided then
      some ((({ s with
        stateFile := some m.state } : Sys α H σ).withMem { m with
        phase := .saved }).emit [.saved m.state.actions])
    else none
  -- `RunActions` up to its loop (keyper.go:377, runenv.go:116-122).
  | .run => do
    let m ← s.mem
    if m.phase = .saved then
      if m.state.actions = [] then
        some (s.withMem { m with
          phase := .scheduling
          toSchedule := [] })
      else
        match m.pend.addActions m.state.actionCounter m.state.actions with
        | none => some s.panic
        | some (p, startID, endID) =>
          let s := if p.currentID = m.pend.currentID then s else s.savePending p
          some ((s.withMem { m with
            pend := p
            toSchedule := List.range' startID (endID - startID)
            phase := .scheduling }).emit
              ((List.range' startID (endID - startID)).filterMap (fun id => (p.actionMap id).map (.queued id))))
    else none
  -- The end of `runActions` (keyper.go:381-383).
  | .finish => do
    let m ← s.mem
    if m.phase = .scheduling ∧ m.toSchedule = [] then
      some (s.withMem { m with
        state := { m.state with
          actionCounter := m.state.actionCounter + m.state.actions.length
          actions := [] }
        phase := .idle })
    else none
  -- `handleActions` for messages (runenv.go:195-234): the message is sent (retries after retriable errors change nothing).
  | .msgSend => do
    let m ← s.mem
    match m.msgCh with
    | [] => none
    | id :: _ =>
      if m.msgDone then none
      else match m.pend.actionMap id with
        | none => some s.panic
        | some a => some ((s.withMem { m with
            msgDone := true }).emit [.sent id a])
  -- ... or it expired, or there was a non-retriable error (runenv.go:204-208, 216-220).
  | .msgGiveUp => do
    let m ← s.mem
    match m.msgCh with
    | [] => none
    | id :: _ =>
      if m.msgDone then none
      else match m.pend.actionMap id with
        | none => some s.panic
        | some _ => some ((s.withMem { m with
            msgDone := true }).emit [.gaveUp id])
  -- `RemoveAction` (runenv.go:227-229).
  | .msgRemove => do
    let m ← s.mem
    match m.msgCh with
    | [] => none
    | id :: rest =>
      if m.msgDone then
        let p := m.pend.remove id
        some (((s.savePending p).withMem { m with
          pend := p
          msgCh := rest
          msgDone := false }).emit [.removed id])
      else none
  -- The same for transactions (runenv.go:63-77).
  | .txSend h => do
    let m ← s.mem
    match m.txCh with
    | [] => none
    | id :: _ =>
      if m.txSent.isSome || m.txDone then none
      else match m.pend.actionMap id with
        | none => some s.panic
        | some a => some ((s.withMem { m with
            txSent := some h }).emit [.sent id a])
  | .txGiveUp => do
    let m ← s.mem
    match m.txCh with
    | [] => none
    | id :: _ =>
      if m.txSent.isSome || m.txDone then none
      else match m.pend.actionMap id with
        | none => some s.panic
        | some _ => some ((s.withMem { m with
            txDone := true }).emit [.gaveUp id])
  -- `SetMainChainTXHash` and the hand-over to the workers that wait for the receipt (runenv.go:78-79).
  | .txRecord => do
    let m ← s.mem
    match m.txCh, m.txSent with
    | id :: rest, some h =>
      let p := m.pend.setTxHash id h
      some (((s.savePending p).withMem { m with
        pend := p
        txCh := rest
        txSent := none
        inFlight := m.inFlight ++ [id] }).emit [.recorded id h])
    | _, _ => none
  | .txRemove => do
    let m ← s.mem
    match m.txCh with
    | [] => none
    | id :: rest =>
      if m.txDone then
        let p := m.pend.remove id
        some (((s.savePending p).withMem { m with
          pend := p
          txCh := rest
          txDone := false }).emit [.removed id])
      else none
  -- `handleInFlightTXs` (runenv.go:236-246, 85-114): whatever the outcome of the transaction, the action is removed.
  | .mined id => do
    let m ← s.mem
    if id ∈ m.inFlight then
      match m.pend.txHashes id, m.pend.actionMap id with
      | some _, some _ =>
        let p := m.pend.remove id
        some (((s.savePending p).withMem { m with
          pend := p
          inFlight := m.inFlight.erase id }).emit [.removed id])
      | _, _ => some s.panic
    else none
  -- The process ends: at any moment.
  | .stop =>
    match s.mem with
    | none => none
    | some _ => some ({ s with
        mem := none
        log := s.log ++ [.stopped] })

/-- A history from a fresh installation. -/
inductive Reach : Sys α H σ → Prop
  | fresh : Reach Sys.fresh
  | step {s e s'} : Reach s → s.step isTx newRest e = some s' → Reach s'

end Sys
end Shutter.Fx
