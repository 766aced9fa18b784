import Verif.Model.MainChain
import Verif.Model.Observe

/-!
# A keyper's three tasks: `keyper.Run`, `SyncMain` and `SyncShutter`

The keyper itself and the tasks that follow the two chains run at the same time and talk over channels: two unbuffered ones
for the views (keyper.go:137-138) and one with three places for the filters (140). A step of the model is what one task does
between two points where it waits. What a sync computes is a parameter (`Code`), given by Model/MainChain.lean and
Model/Observe.lean (`realCode`). Left out: the tasks of the runtime environment (C80), the signal SIGUSR1 (it only prints), and time.
-/

namespace Shutter.Tasks

/-- What the tasks compute. `A` and `B` are the answers of the nodes, `F` the filters, `M` and `S` the views. -/
structure Code (A B F M S : Type) where
  /-- mainchain.go:319-380 `SyncToHead`; `none` is an error. -/
  syncMain : A → M → Option M
  /-- shutter.go:489-498 `SyncToHead`, if no request fails; `none` is a panic. -/
  syncShutter : B → S → Option S
  /-- shutter.go `ApplyFilter` -/
  applyFilter : F → S → S

/-- Where `SyncMain` (mainchain.go:418-475) is. -/
inductive MainTask (M : Type)
  /-- 424-428: the first subscription -/
  | starting
  /-- 450: the `select` -/
  | waiting
  /-- 461-465: handing a view over -/
  | sending (v : M)
  /-- 430-447 `reconnect`; `refused` if the node refused, so that `sub` is `nil` -/
  | reconnecting (refused : Bool)
  | stopped
deriving DecidableEq, Repr

/-- Where `SyncShutter` (shutter.go:532-588) is. -/
inductive ShutterTask (S : Type)
  /-- 533-538: the first subscription -/
  | starting
  /-- 564: the `select` -/
  | waiting
  /-- 576-580: handing a view over -/
  | sending (v : S)
  /-- 540-561 `reconnect` -/
  | reconnecting (refused : Bool)
  | stopped
deriving DecidableEq, Repr

/-- Where the keyper (keyper.go:261-276 `run`) is. -/
inductive Keyper (M S : Type)
  /-- 194-210 `syncOnce`: what it got so far -/
  | starting (m : Option M) (s : Option S)
  /-- 264-274: loading the pending actions and running those of the stored state -/
  | resuming
  /-- 216: the `select` of `syncLoop` -/
  | idle
  /-- 228: `runOneStep` -/
  | deciding
  | stopped
deriving DecidableEq, Repr

structure State (F M S : Type) where
  /-- The context is cancelled: the keyper was told to stop, or one of the tasks failed (`errgroup`). -/
  cancelled : Bool
  /-- A task panicked: the process is gone. -/
  crashed : Bool
  main : MainTask M
  /-- the variable `mainChain` of `SyncMain` -/
  mainView : M
  shutter : ShutterTask S
  /-- the variable `shutter` of `SyncShutter` -/
  shutterView : S
  keyper : Keyper M S
  /-- `kpr.world` -/
  world : M × S
  /-- `kpr.shutterFilterCh` -/
  filters : List F
  /-- Not in the code: the views the keyper got, in order. -/
  got : List (M ⊕ S)
  /-- Not in the code: the worlds for which it called `runOneStep`, in order. -/
  decided : List (M × S)
deriving Repr

/-- keyper.go:278-289 `Run`, after `LoadState`. -/
def State.start {F M S : Type} (m : M) (s : S) : State F M S :=
  { cancelled := false, crashed := false, main := .starting, mainView := m, shutter := .starting, shutterView := s,
    keyper := .starting none none, world := (m, s), filters := [], got := [], decided := [] }

inductive Ev (A B F : Type)
  /-- somebody tells the keyper to stop, or a task of the runtime environment fails -/
  | cancel
  | mainSubscribed (ok : Bool)
  | mainGivesUp
  /-- a new head; `none`: a request fails -/
  | header (a : Option A)
  /-- the subscription ends, or 30 seconds without a head -/
  | mainLost
  | mainStops
  | shutterSubscribed (ok : Bool)
  | shutterGivesUp
  /-- a new block; `none`: a request fails -/
  | block (b : Option B)
  | shutterQuiet
  | filter
  | shutterStops
  | takeMain
  | takeShutter
  | goOn
  | resumed (ok : Bool)
  | done (ok : Bool) (f : F)
  | keyperStops
deriving DecidableEq, Repr

variable {A B F M S : Type}

/-- keyper.go:222-228: the keyper has a new world in `syncLoop`. -/
def State.decide (s : State F M S) (w : M × S) : State F M S :=
  { s with world := w, keyper := .deciding, decided := s.decided ++ [w] }

/-- keyper.go:194-210: one more view in `syncOnce`. -/
def State.first (s : State F M S) (m : Option M) (x : Option S) : State F M S :=
  match m, x with
  | some m, some x => { s with world := (m, x), keyper := .resuming }
  | m, x => { s with keyper := .starting m x }

/-- The keyper gets the view of the main chain: mainchain.go:461-466; keyper.go:201-202 and 222-223. -/
def takeMain (s : State F M S) : Option (State F M S) :=
  match s.main, s.keyper with
  | .sending v, .starting _ x => some ({ s with main := .waiting, mainView := v, got := s.got ++ [Sum.inl v] }.first (some v) x)
  | .sending v, .idle =>
    some ({ s with main := .waiting, mainView := v, got := s.got ++ [Sum.inl v] }.decide (v, s.world.2))
  | _, _ => none

/-- The keyper gets the view of shuttermint: shutter.go:576-582; keyper.go:203-204 and 224-225. -/
def takeShutter (s : State F M S) : Option (State F M S) :=
  match s.shutter, s.keyper with
  | .sending v, .starting m _ =>
    some ({ s with shutter := .waiting, shutterView := v, got := s.got ++ [Sum.inr v] }.first m (some v))
  | .sending v, .idle =>
    some ({ s with shutter := .waiting, shutterView := v, got := s.got ++ [Sum.inr v] }.decide (s.world.1, v))
  | _, _ => none

/-- `SyncMain`, mainchain.go:418-475 -/
def stepMain (c : Code A B F M S) (s : State F M S) : Ev A B F → Option (State F M S)
  | .mainSubscribed ok =>
    match s.main with
    | .starting => some (if ok then { s with main := .waiting } else { s with main := .stopped, cancelled := true })
    | .reconnecting _ => some (if ok then { s with main := .waiting } else { s with main := .reconnecting true })
    | _ => none
  -- 439-440: after this, line 468 evaluates `sub.Err()` for the `sub` that is `nil`
  | .mainGivesUp =>
    match s.main, s.cancelled with
    | .reconnecting true, true => some { s with crashed := true }
    | _, _ => none
  -- 454-460
  | .header a =>
    match s.main, a.bind (fun a => c.syncMain a s.mainView) with
    | .waiting, some v => some { s with main := .sending v }
    | .waiting, none => some s
    | _, _ => none
  -- 468-473
  | .mainLost =>
    match s.main with
    | .waiting => some { s with main := .reconnecting false }
    | _ => none
  -- 451-453, 463-464
  | .mainStops =>
    match s.main, s.cancelled with
    | .waiting, true => some { s with main := .stopped }
    | .sending _, true => some { s with main := .stopped }
    | _, _ => none
  | _ => none

/-- `SyncShutter`, shutter.go:532-588. Simplification: after line 552 it may go on to get blocks. -/
def stepShutter (c : Code A B F M S) (s : State F M S) : Ev A B F → Option (State F M S)
  | .shutterSubscribed ok =>
    match s.shutter with
    | .starting => some (if ok then { s with shutter := .waiting } else { s with shutter := .stopped, cancelled := true })
    | .reconnecting _ => some (if ok then { s with shutter := .waiting } else { s with shutter := .reconnecting true })
    | _ => none
  -- 551-552
  | .shutterGivesUp =>
    match s.shutter, s.cancelled with
    | .reconnecting true, true => some { s with shutter := .waiting }
    | _, _ => none
  -- 569-575
  | .block b =>
    match s.shutter, b with
    | .waiting, none => some s
    | .waiting, some b =>
      match c.syncShutter b s.shutterView with
      | some v => some { s with shutter := .sending v }
      | none => some { s with crashed := true }
    | _, _ => none
  -- 584-586
  | .shutterQuiet =>
    match s.shutter with
    | .waiting => some { s with shutter := .reconnecting false }
    | _ => none
  -- 567-568
  | .filter =>
    match s.shutter, s.filters with
    | .waiting, f :: fs => some { s with shutterView := c.applyFilter f s.shutterView, filters := fs }
    | _, _ => none
  -- 565-566, 577-578
  | .shutterStops =>
    match s.shutter, s.cancelled with
    | .waiting, true => some { s with shutter := .stopped }
    | .sending _, true => some { s with shutter := .stopped }
    | _, _ => none
  | _ => none

/-- The keyper, keyper.go:194-276 -/
def stepKeyper (s : State F M S) : Ev A B F → Option (State F M S)
  | .takeMain => takeMain s
  | .takeShutter => takeShutter s
  -- 205-206
  | .goOn =>
    match s.keyper, s.cancelled with
    | .starting _ _, true => some { s with keyper := .resuming }
    | _, _ => none
  -- 264-275
  | .resumed ok =>
    match s.keyper with
    | .resuming => some (if ok then { s with keyper := .idle } else { s with keyper := .stopped, cancelled := true })
    | _ => none
  -- 228-235: a filter that does not fit into the channel is dropped
  | .done ok f =>
    match s.keyper with
    | .deciding =>
      some (if ok then { s with keyper := .idle, filters := if s.filters.length < 3 then s.filters ++ [f] else s.filters }
        else { s with keyper := .stopped, cancelled := true })
    | _ => none
  -- 220-221
  | .keyperStops =>
    match s.keyper, s.cancelled with
    | .idle, true => some { s with keyper := .stopped }
    | _, _ => none
  | _ => none

/-- One step of the process; `none` if it is not possible. -/
def step (c : Code A B F M S) (s : State F M S) (ev : Ev A B F) : Option (State F M S) :=
  if s.crashed then none
  else
    match ev with
    | .cancel => some { s with cancelled := true }
    | ev =>
      match stepMain c s ev with
      | some t => some t
      | none =>
        match stepShutter c s ev with
        | some t => some t
        | none => stepKeyper s ev

def steps (c : Code A B F M S) : State F M S → List (Ev A B F) → Option (State F M S)
  | s, [] => some s
  | s, e :: es => (step c s e).bind (fun t => steps c t es)

/-- The answer of the node of the main chain: its head, and whether it is in sync. -/
structure MainAnswer where
  head : Fin Sol.two64
  synced : Bool

/-- The answer of the shuttermint node -/
structure ShutterAnswer where
  height : Int
  committed : Int
  catchingUp : Bool

/-- The two chains as the nodes show them; Model/MainChain.lean and Model/Observe.lean. -/
def realCode (hist : Nat → Sol.World) (cx : Events.Codecs) (chain : Observe.Chain) :
    Code MainAnswer ShutterAnswer Observe.Filter Main.MainChain Observe.Shutter where
  syncMain a mc := Main.syncToHead mc hist a.head a.synced
  syncShutter b s := Observe.syncToHead cx chain s b.height b.committed b.catchingUp
  applyFilter f s := Observe.applyFilter s f

end Shutter.Tasks
