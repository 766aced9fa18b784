import Verif.Spec.App

/-!
# shuttermint/keyper/fx/messagesender.go, and the worker for messages in shuttermint/keyper/fx/runenv.go

The worker takes the messages for shuttermint from its channel one by one and sends them through Tendermint's RPC call
`broadcast_tx_commit`. The node of the keyper is modelled by the calls it makes to its application (`Verif.Model.App`); which calls it
makes is left open. The queue survives a crash (`Verif.Model.Actions`); ids are left out here.
-/

namespace Shutter.Sender
open Shutter.App

/-- The codes in Tendermint's `ResultBroadcastTxCommit` (a dependency). -/
structure Result where
  checkTx : Nat
  deliverTx : Nat
deriving DecidableEq

/-- messagesender.go:24-66: the kinds of errors of `SendMessage` -/
inductive Error where
  /-- an error of the RPC call, e.g. because the node cannot be reached or because of a time out -/
  | rpc
  /-- `RemoteError` -/
  | remote
deriving DecidableEq

/-- messagesender.go:104-126 `SendMessage`, after the RPC call; `none`: no error. The errors when fetching the chain id and when signing
are like those of the RPC call: the action is tried again. -/
def sendMessage : Option Result → Option Error
  | none => some .rpc
  | some res => if res.deliverTx ≠ 0 then some .remote else none

/-- messagesender.go:50-66 `IsRetriable` -/
def isRetriable : Error → Bool
  | .rpc => true
  | .remote => false

/-- What the worker does next. -/
inductive Verdict where
  /-- the action is removed, as done -/
  | sent
  /-- the action is removed, after "Non-retriable error" -/
  | gaveUp
  /-- it is tried again -/
  | retry
deriving DecidableEq

/-- runenv.go:175-190 `handleAction` and 204-227, the loop of `handleActions`, for messages, which do not expire (actions.go:72-74) -/
def verdict (answer : Option Result) : Verdict :=
  match sendMessage answer with
  | none => .sent
  | some e => if isRetriable e then .retry else .gaveUp

/-- A call of `SendMessage`: the message, its nonce (messagesender.go:128-134), and how many calls had been made to the application. -/
structure Attempt where
  msg : Msg
  nonce : Nat
  start : Nat
deriving DecidableEq

/-- messagesender.go:128-134 `addNonceAndChainID` -/
def Attempt.tx (chain : Bytes) (a : Attempt) : MessageWithNonce := ⟨a.msg, chain, a.nonce⟩

/-- The answer of the application when the transaction was first checked -/
def firstCheck (own : Addr) (tx : MessageWithNonce) : List Rec → Option Bool
  | [] => none
  | r :: rs => match r.op, r.resp with
    | .checkTx (some (a, m)), .checkTx ok => if a = own ∧ m = tx then some ok else firstCheck own tx rs
    | _, _ => firstCheck own tx rs

/-- The code of the application for the transaction, once it was delivered in a block that is committed -/
def delivery (own : Addr) (tx : MessageWithNonce) : List Rec → Option Bool
  | [] => none
  | r :: rs => match r.op, r.resp with
    | .deliverTx (some (a, m)), .deliverTx d =>
      if a = own ∧ m = tx ∧ rs.any (fun r' => match r'.op with | .commit => true | _ => false) then some d.ok else delivery own tx rs
    | _, _ => delivery own tx rs

/-- Tendermint's `broadcast_tx_commit` (rpc/core/mempool.go `BroadcastTxCommit`, a dependency): the transaction is checked; if it is refused,
the code of `CheckTx` is returned, and the other one is the zero value; otherwise the call waits until the transaction is in a committed block and returns
the code of `DeliverTx`. `none`: not yet. It may also fail at any time, e.g. with a time out. -/
def broadcastTxCommit (own : Addr) (tx : MessageWithNonce) (since : List Rec) : Option Result :=
  match firstCheck own tx since with
  | none => none
  | some false => some ⟨1, 0⟩
  | some true => (delivery own tx since).map (fun ok => ⟨0, if ok then 0 else 1⟩)

/-- A message the worker is done with: the verdict, the last attempt, and how many calls had been made to the application at the end of it. -/
structure Done where
  msg : Msg
  verdict : Verdict
  last : Attempt
  finish : Nat
deriving DecidableEq

/-- The worker, and the application of the node it talks to. -/
structure Box where
  app : State
  log : List Rec
  queue : List Msg
  /-- all attempts so far -/
  attempts : List Attempt
  running : Option Attempt
  done : List Done
  /-- all messages that were queued, and the attempts without an answer, for reference -/
  added : List Msg
  failed : List Attempt

inductive Ev where
  /-- Tendermint calls the application. -/
  | call (o : Orders) (op : Op)
  /-- A message is put in the queue (runenv.go:115-131). -/
  | add (m : Msg)
  /-- `SendMessage` is called for the first message, with this random nonce. -/
  | try (nonce : Nat)
  /-- The RPC call fails. -/
  | fail
  /-- The RPC call returns. -/
  | answer
  /-- The keyper crashes and is started again. -/
  | restart

/-- The sender and the message in the call -/
def opTx : Op → Option (Addr × MessageWithNonce)
  | .checkTx tx => tx
  | .deliverTx tx => tx
  | _ => none

/-- The worker has finished the attempt with this answer. -/
def Box.finished (b : Box) (a : Attempt) (answer : Option Result) : Box :=
  match verdict answer with
  | .retry => { b with
    running := none
    failed := b.failed ++ [a] }
  | v => { b with
    running := none
    queue := b.queue.tail
    done := b.done ++ [⟨a.msg, v, a, b.log.length⟩] }

/-- One step. Nobody but the worker signs for `own`; random nonces do not repeat. -/
def Box.step (ps : Parsers) (own : Addr) (chain : Bytes) (b : Box) : Ev → Option Box
  | .call o op =>
    if (opTx op).all (fun x => decide (x.1 ≠ own) || b.attempts.any (fun a => decide (x.2 = a.tx chain))) then
      (App.step ps o b.app op).map (fun p => { b with
        app := p.1
        log := b.log ++ [⟨b.app, op, p.2, p.1⟩] })
    else none
  | .add m => some { b with
      queue := b.queue ++ [m]
      added := b.added ++ [m] }
  | .try nonce =>
    match b.running, b.queue with
    | none, m :: _ =>
      if b.attempts.any (fun a => decide (a.nonce = nonce)) then none
      else some { b with
        attempts := b.attempts ++ [⟨m, nonce, b.log.length⟩]
        running := some ⟨m, nonce, b.log.length⟩ }
    | _, _ => none
  | .fail => b.running.map (fun a => b.finished a none)
  | .answer => b.running.bind (fun a => (broadcastTxCommit own (a.tx chain) (b.log.drop a.start)).map (fun res => b.finished a (some res)))
  | .restart => some { b with
      running := none
      failed := b.failed ++ b.running.toList }

def Box.new (dev : Bool) : Box := ⟨newApp dev, [], [], [], none, [], [], []⟩

/-- A worker and a node that have got here from the start. -/
inductive Works (ps : Parsers) (dev : Bool) (own : Addr) (chain : Bytes) : Box → Prop
  | start : Works ps dev own chain (Box.new dev)
  | step {b b' : Box} (ev : Ev) : Works ps dev own chain b → (∀ o op, ev = .call o op → o.Lawful) → b.step ps own chain ev = some b' →
      Works ps dev own chain b'

end Shutter.Sender
