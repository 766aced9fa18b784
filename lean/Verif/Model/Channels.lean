import Verif.Model.Actions
import Verif.Model.Calls

/-! # The keyper's goroutines wait for each other (shuttermint/keyper/fx/runenv.go)

`Verif.Model.Actions` has the queue of actions with unbounded channels and a worker that may give up on any action. Here, in addition:
the capacities of the channels; what a transaction that is to be sent depends on (the answer of the node, and whether the action is expired in
the view of the main chain which the main goroutine has stored last); and the failure of `Auth`. -/

namespace Shutter.Fx

/-- runenv.go:18-20 -/
def numMainChainWorkers : Nat := 20

/-- What `SendTX` returns: a transaction; an error after which the action is tried again; an error after which it is given up
(actions.go:168-181, 197-203, messagesender.go:50-66). -/
inductive Answer where
  | ok
  | retry
  | giveUp
deriving DecidableEq

/-- What the environment determines. `W` is the type of the states of the main chain. -/
structure Surroundings (α W : Type) where
  /-- `IsExpired` of an action (actions.go), as far as it depends on the main chain -/
  expired : W → α → Bool
  /-- `SendTX` of an action, if the node can be reached -/
  answer : W → α → Answer
  /-- how the main chain goes on -/
  next : W → W → Prop

/-- The keyper, the view of the main chain it has stored last (`CurrentWorld`, keyper.go:291-293), and the main chain. -/
structure Box (α H σ W : Type) where
  sys : Sys α H σ
  view : W
  now : W
  /-- how often the process ended because of a nil pointer -/
  panics : Nat

inductive BoxEv (α H σ W : Type) where
  /-- something in the keyper -/
  | ev (e : Ev α H σ)
  /-- `Auth` fails in the worker for transactions, because the node cannot be reached -/
  | authFails
  /-- the main chain goes on -/
  | chain (w : W)

namespace Mem
variable {α H σ : Type}

/-- The worker for transactions has recorded a hash and waits for one of the workers that wait for receipts: the channel between them is
unbuffered (runenv.go:44-46, 79). The transaction it hands over is the last one in `inFlight`. -/
def handing (m : Mem α H σ) : Bool := numMainChainWorkers < m.inFlight.length

/-- `scheduleAction` (runenv.go:134-156) can put the next id into its channel: the one for messages is unbuffered, so the worker has to be waiting
for it; the one for transactions has a buffer (runenv.go:45), and one more is with the worker; the one for sent transactions is unbuffered, with
twenty workers. -/
def room (isTx : α → Bool) (m : Mem α H σ) : Bool :=
  match m.toSchedule with
  | [] => true
  | id :: _ =>
    match m.pend.actionMap id with
    | none => true
    | some a =>
      if isTx a then
        if (m.pend.txHashes id).isSome then decide (m.inFlight.length < numMainChainWorkers)
        else decide (m.txCh.length + (if m.handing then 1 else 0) < numMainChainWorkers + 1)
      else m.msgCh.isEmpty

/-- The action the worker for transactions has to send next. -/
def txHead (m : Mem α H σ) : Option α := m.txCh.head?.bind m.pend.actionMap

end Mem

namespace Box
variable {α H σ W : Type} (isTx : α → Bool) (newRest : σ) (S : Surroundings α W)

/-- Whether the event can happen now, as far as channels and the main chain are concerned. -/
def allowed (b : Box α H σ W) (m : Mem α H σ) : Ev α H σ → Bool
  | .schedule => m.room isTx
  -- `handleActions` (runenv.go:204-221)
  | .txSend _ => !m.handing && m.txHead.all (fun a => !S.expired b.view a && decide (S.answer b.now a = .ok))
  | .txGiveUp => !m.handing && m.txHead.all (fun a => S.expired b.view a || decide (S.answer b.now a = .giveUp))
  | .txRecord => !m.handing
  | .txRemove => !m.handing
  -- each worker waits for one transaction (runenv.go:236-246)
  | .mined id => decide (id ∈ m.inFlight.take numMainChainWorkers)
  | _ => true

/-- The view of the main chain is stored at the start (keyper.go:188-207 `syncOnce`) and before each decision (keyper.go:209-233
`syncLoop`), and at no other time. Simplification: what is stored is the present state of the main chain. -/
def viewAfter (b : Box α H σ W) : Ev α H σ → W
  | .start => b.now
  | .decide _ _ => b.now
  | _ => b.view

/-- One step. -/
inductive Step (b : Box α H σ W) : BoxEv α H σ W → Box α H σ W → Prop
  | ev {e s'} : (∀ m, b.sys.mem = some m → allowed isTx S b m e = true) → b.sys.step isTx newRest e = some s' →
      Step b (.ev e) { b with sys := s', view := b.viewAfter e }
  -- runenv.go:63-72 `sendMainChainTX`: `auth.Context = ctx` comes before the check for the error, and `auth` is nil
  | authFails {m id rest s'} : b.sys.mem = some m → m.txCh = id :: rest → m.handing = false → m.txSent = none → m.txDone = false →
      (∀ a, m.txHead = some a → S.expired b.view a = false) → b.sys.step isTx newRest .stop = some s' → Step b .authFails { b with sys := s', panics := b.panics + 1 }
  | chain {w} : S.next b.now w → Step b (.chain w) { b with now := w }

/-- A history from a fresh installation, with the main chain in any state. -/
inductive Reach : Box α H σ W → Prop
  | fresh (w : W) : Reach ⟨.fresh, w, w, 0⟩
  | step {b e b'} : Reach b → Step isTx newRest S b e b' → Reach b'

/-- A run: a list of events, each one allowed by `ok`. -/
inductive Run (ok : BoxEv α H σ W → Prop) : Box α H σ W → List (BoxEv α H σ W) → Box α H σ W → Prop
  | refl {b} : Run ok b [] b
  | step {b es b' e b''} : Run ok b es b' → ok e → Step isTx newRest S b' e b'' → Run ok b (es ++ [e]) b''

end Box
end Shutter.Fx

namespace Shutter.Decide
open Shutter.Crypto

/-- `SendTX` of the actions (actions.go:89-94, 116-119, 135-138, 168-181, 197-203, 224-232): calls with a given gas limit are sent at
once; the others (`Accuse`, `Appeal`) are tried out by the node before. (Lack of funds and the like are left out here.) -/
def Action.answer {G1 G2 : Type} (E : Sol.Env) (own : Sol.Address) (w : Sol.World) (a : Action G1 G2) : Fx.Answer :=
  match a with
  | .accuse h k => if (w.step E (.accuse own h k)).isSome then .ok else if a.givenUp E w own then .giveUp else .retry
  | .appeal x => if (w.step E (.appeal own x)).isSome then .ok else if a.givenUp E w own then .giveUp else .retry
  | _ => .ok

/-- runenv.go:137-148: which channel an action goes to -/
def Action.isMainChainTX {G1 G2 : Type} : Action G1 G2 → Bool
  | .executeCipherBatch .. => true
  | .executePlainBatch .. => true
  | .skipCipherBatch .. => true
  | .accuse .. => true
  | .appeal .. => true
  | .eonKeyBroadcast .. => true
  | _ => false

end Shutter.Decide
