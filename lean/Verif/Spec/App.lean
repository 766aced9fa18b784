import Mathlib.Data.Finset.Card
import Verif.Model.App

/-!
# Executions of the shuttermint application, and the vocabulary used to state its properties

An execution is the list of ABCI calls made so far, oldest first, with the state before and after each call
and the response. Every call may use its own (lawful) map iteration orders.
-/

namespace Shutter.App

/-- Go visits every entry of a map exactly once, in some order. -/
structure Orders.Lawful (o : Orders) : Prop where
  idx : ∀ l, (o.idx l).Perm l
  updates : ∀ l, (o.updates l).Perm l
  old : ∀ l, (o.old l).Perm l
  new : ∀ l, (o.new l).Perm l

structure Rec where
  before : State
  op : Op
  resp : Resp
  after : State

/-- `Exec ps dev log s`: starting from `NewShutterApp()`, the calls `log` were made and the app is now in state `s`. -/
inductive Exec (ps : Parsers) (dev : Bool) : List Rec → State → Prop
  | start : Exec ps dev [] (newApp dev)
  | step {log s} (o : Orders) (op : Op) (s' : State) (r : Resp) :
      Exec ps dev log s → o.Lawful → step ps o s op = some (s', r) →
      Exec ps dev (log ++ [⟨s, op, r, s'⟩]) s'

/-- The call delivered message `m` (with its nonce and chain id) signed by `a`. -/
def Rec.Delivers (r : Rec) (a : Addr) (m : MessageWithNonce) : Prop := r.op = .deliverTx (some (a, m))

/-- The call delivered a message of `a` with payload `m`, and it succeeded. -/
def Rec.Accepts (r : Rec) (a : Addr) (m : Msg) : Prop :=
  ∃ mw : MessageWithNonce, mw.msg = m ∧ r.op = .deliverTx (some (a, mw)) ∧ ∃ evs, r.resp = .deliverTx ⟨true, evs⟩

/-- The events published by the call. -/
def Rec.events (r : Rec) : List Event :=
  match r.resp with
  | .deliverTx d => d.events
  | _ => []

/-- All events published during the execution, in order. -/
def allEvents (log : List Rec) : List Event := log.flatMap Rec.events

/-- The call returned an error code. -/
def Rec.Rejected (r : Rec) : Prop := ∃ d : DeliverResponse, r.resp = .deliverTx d ∧ d.ok = false

/-- The states agree except for the bookkeeping of `CheckTx` (members excepted). -/
def SameButCheckTx (s t : State) : Prop :=
  s.checkTxState.members = t.checkTxState.members ∧ { s with checkTxState := t.checkTxState } = t

/-- Message `m`, well formed, asks for batch config `c`. -/
structure Asks (m : BatchConfigMsg) (c : BatchConfig) : Prop where
  start : m.startBatchIndex = c.startBatchIndex
  keypers : m.keypers = c.keypers
  lengths : ∀ k ∈ m.keypers, k.length = 20
  unique : m.keypers.Nodup
  threshold : m.threshold = c.threshold
  contract : m.configContractAddress = c.configContractAddress ∧ m.configContractAddress.length = 20
  index : m.configIndex = c.configIndex
  started : m.started = c.started
  updated : m.validatorsUpdated = c.validatorsUpdated

/-- `c` is the config in force for batch `b`: the last one in the list whose start is not after `b`. -/
def InForce (configs : List BatchConfig) (b : Nat) (c : BatchConfig) : Prop :=
  ∃ pre post, configs = pre ++ c :: post ∧ c.startBatchIndex ≤ b ∧ ∀ d ∈ post, b < d.startBatchIndex

/-- Voting power a validator set (as a function) after applying updates the way Tendermint does: every update
sets the power of its key. -/
def applyUpdates (p : ValidatorPubkey → Int) (ups : Powermap) : ValidatorPubkey → Int :=
  ups.foldl (fun p u => Function.update p u.1 u.2) p

end Shutter.App

namespace Shutter.App

/-- Things that may be published at most once. -/
inductive Once where
  | checkIn (sender : Addr)
  | signature (batchIndex : Nat) (sender : Addr)
  | commitment (eon : Nat) (sender : Addr)
  | eval (eon : Nat) (sender receiver : Addr)
  | accusation (eon : Nat) (sender : Addr)
  | apology (eon : Nat) (sender : Addr)
deriving DecidableEq

/-- What an event publishes that may be published only once. -/
def Event.once : Event → List Once
  | .checkIn a _ => [.checkIn a]
  | .decryptionSignature b a _ => [.signature b a]
  | .polyCommitment a e _ => [.commitment e a]
  | .polyEval a e rs _ => rs.map (.eval e a)
  | .accusation a e _ => [.accusation e a]
  | .apology a e _ _ => [.apology e a]
  | _ => []

end Shutter.App

namespace Shutter.App

/-- The call is an accepted eon start vote of `a` for start batch `b`, cast when the config in force for `b` had index `ci`. -/
def Rec.EonVote (r : Rec) (a : Addr) (ci b : Nat) : Prop :=
  r.Accepts a (.eonStartVote b) ∧ ∃ c, InForce r.before.configs b c ∧ c.configIndex = ci

/-- The call is an eon start vote under config `ci` that made an eon start. -/
def Rec.Restarts (r : Rec) (ci : Nat) : Prop := (∃ a b, r.EonVote a ci b) ∧ r.events ≠ []

/-- In `log`, the latest vote of `a` under config `ci` is for start batch `b`, and no eon was started by votes under
that config since. -/
def CurrentVote (log : List Rec) (a : Addr) (ci b : Nat) : Prop :=
  ∃ pre r post, log = pre ++ r :: post ∧ r.EonVote a ci b ∧ (∀ r' ∈ post, ∀ b', ¬ r'.EonVote a ci b') ∧
    ∀ r' ∈ r :: post, ¬ r'.Restarts ci

/-- The call is an accepted vote of `a` for config `c`. -/
def Rec.ConfigVote (r : Rec) (a : Addr) (c : BatchConfig) : Prop :=
  ∃ m, r.Accepts a (.batchConfig m) ∧ Asks m c

/-- The call is an accepted report of `a` that config number `ci` has started. -/
def Rec.StartedReport (r : Rec) (a : Addr) (ci : Nat) : Prop := r.Accepts a (.batchConfigStarted ci)

end Shutter.App

namespace Shutter.App

/-- The call is an `EndBlock` that marked the latest config, not started before, as started. -/
def Rec.Starts (r : Rec) : Prop :=
  (∃ h, r.op = .endBlock h) ∧ ∃ c c', r.before.configs.getLast? = some c ∧ r.after.configs.getLast? = some c' ∧
    c.started = false ∧ c'.started = true

end Shutter.App

namespace Shutter.App

/-- The call started eon `e` for config `c`: either `c` was just accepted, or `c` was the config in force for the
batch of the eon start vote. -/
def Rec.StartsEon (r : Rec) (e : Nat) (c : BatchConfig) : Prop :=
  (∃ b, .eonStarted e b ∈ r.events) ∧
    ((∃ a, r.ConfigVote a c) ∨ ∃ a b, r.Accepts a (.eonStartVote b) ∧ InForce r.before.configs b c)

/-- The call published a decryption signature for batch `b`. -/
def Rec.Signs (r : Rec) (b : Nat) : Prop := ∃ a sig, .decryptionSignature b a sig ∈ r.events

/-- `r` is the first call of the execution that published a decryption signature for batch `b`. -/
def FirstSignature (log : List Rec) (b : Nat) (r : Rec) : Prop :=
  ∃ pre post, log = pre ++ r :: post ∧ r.Signs b ∧ ∀ r' ∈ pre, ¬ r'.Signs b

end Shutter.App

/-! ## CheckTx -/

namespace Shutter.App

def Op.isCheckTx : Op → Bool
  | .checkTx _ => true
  | _ => false

/-- The calls other than `CheckTx`, in order. -/
def consensusCalls (log : List Rec) : List Rec := log.filter (fun r => !r.op.isCheckTx)

/-- Signer and nonce of the transaction let into the mempool by the call, if any. -/
def Rec.admits (r : Rec) : Option (Addr × Nat) :=
  match r.op, r.resp with
  | .checkTx (some (a, m)), .checkTx true => some (a, m.randomNonce)
  | _, _ => none

/-- The call starts a new counting period for `CheckTx`. -/
def Rec.resetsCheckTx (r : Rec) : Prop := r.op = .commit ∨ ∃ req, r.op = .initChain req

/-! ## Tendermint's view of the validators -/

/-- The power of key `k` in a genesis document. -/
def genesisPower (req : InitRequest) (k : ValidatorPubkey) : Int :=
  ((req.validators.filter (fun v => decide (v.1 = some k))).map (·.2)).sum

/-- How one call changes the validator set Tendermint uses. -/
def Rec.tmValidators (p : ValidatorPubkey → Int) (r : Rec) : ValidatorPubkey → Int :=
  match r.op, r.resp with
  | .initChain req, _ => genesisPower req
  | _, .endBlock ups => applyUpdates p ups
  | _, _ => p

/-- The validator set of Tendermint after the calls `log`. -/
def tmValidators (log : List Rec) : ValidatorPubkey → Int := log.foldl Rec.tmValidators (fun _ => 0)

/-! ## Crashes and replay -/

/-- The ABCI calls (other than `CheckTx`) that Tendermint makes for a chain. -/
def chainOps (req : InitRequest) (blocks : List (List Tx)) : List Op :=
  .initChain req :: blocks.zipIdx.flatMap (fun b => b.1.map .deliverTx ++ [.endBlock (b.2 + 1), .commit])

/-- A node: the application in memory, the file on disk, and how many of the calls of the chain the application
in memory was given. `out` are the responses given so far, each with the position of the call. -/
structure Node where
  app : State
  disk : Option State
  pos : Nat
  out : List (Nat × Resp)

/-- Where Tendermint resumes: the app reports `LastBlockHeight` in `Info`; Tendermint then replays the blocks after
that height (from `InitChain` if it is zero). -/
def resumePos (req : InitRequest) (blocks : List (List Tx)) (h : Nat) : Nat :=
  if h = 0 then 0 else (chainOps req (blocks.take h)).length

/-- One step of a node, for a chain given by `req` and `blocks`. -/
inductive NodeStep (ps : Parsers) (dev : Bool) (req : InitRequest) (blocks : List (List Tx)) : Node → Node → Prop
  /-- Tendermint makes the next call. -/
  | call (n : Node) (o : Orders) (op app' r) : o.Lawful → (chainOps req blocks)[n.pos]? = some op →
      step ps o n.app op = some (app', r) →
      NodeStep ps dev req blocks n ⟨app', n.disk, n.pos + 1, n.out ++ [(n.pos, r)]⟩
  /-- The next call is `Commit` and the state is written to disk (shuttermint/app/app.go:798-846). -/
  | callAndPersist (n : Node) (o : Orders) (app' r) : o.Lawful → (chainOps req blocks)[n.pos]? = some .commit →
      step ps o n.app .commit = some (app', r) →
      NodeStep ps dev req blocks n ⟨app', some app', n.pos + 1, n.out ++ [(n.pos, r)]⟩
  /-- Some peer or client sends a transaction. -/
  | checkTx (n : Node) (tx : Tx) : NodeStep ps dev req blocks n { n with app := (checkTx n.app tx).1 }
  /-- The process dies and is restarted (shuttermint/app/app.go:89-109 `LoadShutterAppFromFile`). -/
  | crash (n : Node) : NodeStep ps dev req blocks n
      ⟨n.disk.getD (newApp dev), n.disk, resumePos req blocks (n.disk.getD (newApp dev)).lastBlockHeight, n.out⟩

/-- The nodes reachable from a fresh installation. -/
inductive NodeReach (ps : Parsers) (dev : Bool) (req : InitRequest) (blocks : List (List Tx)) : Node → Prop
  | start : NodeReach ps dev req blocks ⟨newApp dev, none, 0, []⟩
  | step {n n'} : NodeReach ps dev req blocks n → NodeStep ps dev req blocks n n' → NodeReach ps dev req blocks n'

end Shutter.App

namespace Shutter.App

/-- The numbers of the eons started, in order. -/
def startedEons (evs : List Event) : List Nat :=
  evs.filterMap (fun e => match e with | .eonStarted n _ => some n | _ => none)

/-- The batch configs announced, in order. -/
def announcedConfigs (evs : List Event) : List (Nat × Nat × List Addr × Nat) :=
  evs.filterMap (fun e => match e with | .batchConfig b t ks i => some (b, t, ks, i) | _ => none)

end Shutter.App
