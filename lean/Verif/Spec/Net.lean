import Verif.Model.Message
import Verif.Spec.App
import Verif.Spec.Events
import Verif.Spec.Honest

/-!
# Vocabulary for keypers and the shuttermint application together

The chain the keypers read is the one the application has written: the events of the transactions delivered so far. Tendermint is
modelled by the list of the calls it has made to the application (`Exec`): the block that is being processed has the height one plus the number
of blocks that were ended.
-/

namespace Shutter.Net
open Shutter.App Shutter.Events Shutter.Observe Shutter.Decide Shutter.Decide.Spec

def isEndBlock : Op → Bool
  | .endBlock _ => true
  | _ => false

def isDelivery : Op → Bool
  | .deliverTx _ => true
  | _ => false

/-- The height of the block that is being processed after the calls `pre`. -/
def heightAfter (pre : List Rec) : Nat := pre.countP (fun r => isEndBlock r.op) + 1

/-- The calls, each with the height of the block it is part of; the first one is part of block `h`. -/
def stamp : Nat → List Rec → List (Nat × Rec)
  | _, [] => []
  | h, r :: log => (h, r) :: stamp (if isEndBlock r.op then h + 1 else h) log

/-- The chain as the keypers see it: the transactions of each block with their events as attributes. -/
def appChain (codecs : Codecs) (log : List Rec) : Observe.Chain := fun h =>
  ((stamp 1 log).filter (fun p => isDelivery p.2.op && decide ((p.1 : Int) = h))).map (fun p => p.2.events.map (makeABCIEvent codecs))

/-- The encodings of the application (`ps`) and of the keypers' view (`codecs`) fit together. -/
structure Codecs.Fit (ps : Parsers) (codecs : Codecs) : Prop where
  lawful : codecs.Lawful
  agree : Agree ps codecs
  /-- the empty string is no curve point -/
  empty : codecs.g2 [] = none

/-- What holds for every transaction that passed `decodeTx`: the signer is an address, and numbers have 64 bits. -/
def Sane (log : List Rec) : Prop := ∀ r ∈ log, ∀ a m, r.Delivers a m → IsAddress a ∧
  match m.msg with
  | .polyCommitment e _ => Uint64 e
  | msg => WireOk msg

variable {G1 G2 GT R : Type}

/-- What a keyper sends is what the application and the other keypers read. -/
structure Wire.Fit (w : Wire G1 G2) (ps : Parsers) (cx : Cfg G1 G2 GT R) : Prop where
  g2 : ∀ p, ps.g2 (w.g2 p) = some (w.g2 p)
  gammas : ∀ l : List G2, cx.gammas (l.map w.g2) = l
  share : ∀ p, ps.share (w.share p) = some (w.share p)
  shares : ∀ p, cx.share (w.share p) = p

/-- The eon a key generation message is for. -/
def dkgEon : Msg → Option Nat
  | .polyEval e _ _ => some e
  | .polyCommitment e _ => some e
  | .accusation e _ => some e
  | .apology e _ _ => some e
  | _ => none

/-- Nobody else signs for the keyper: every key generation message for eon `e` delivered with its signature is one it has decided to
send, in a round before the block. -/
def Genuine (w : Wire G1 G2) (log : List Rec) (own : Addr) (e : Nat) (rs : List (Round G1 G2)) : Prop :=
  ∀ pre r post m, log = pre ++ r :: post → r.Delivers own m → dkgEon m.msg = some e →
    ∃ x ∈ rs, ∃ act ∈ x.sent, message w act = some m.msg ∧ x.next ≤ heightAfter pre

/-- The call delivers the message `m` of `own`, with the chain id of the chain and a nonce that `own` has not used before. -/
def Arrives (pre : List Rec) (r : Rec) (own : Addr) (m : Msg) : Prop :=
  ∃ nonce, r.Delivers own ⟨m, r.before.chainID, nonce⟩ ∧ ∀ r' ∈ pre, ∀ m', r'.Delivers own m' → m'.randomNonce ≠ nonce

/-- The call delivers what the keyper sends for the action (shmsg/messages.go). -/
def ActArrives (w : Wire G1 G2) (pre : List Rec) (r : Rec) (own : Addr) (act : Action G1 G2) : Prop := ∃ m, message w act = some m ∧ Arrives pre r own m

/-- The network is fast enough: every key generation message for eon `e` (announced at height `S`) that the keyper sends is delivered in
the phase in which it is sent. -/
def InTime (w : Wire G1 G2) (log : List Rec) (own : Addr) (e : Nat) (L S : Int) (rs : List (Round G1 G2)) : Prop :=
  ∀ x ∈ rs, ∀ act ∈ x.sent, ∀ m, message w act = some m → dkgEon m = some e →
    ∃ pre r post, log = pre ++ r :: post ∧ Arrives pre r own m ∧
      ∀ k : Int, inPhase L S k x.next = true → inPhase L S k (heightAfter pre) = true

/-- The application has announced eon `e` for config `c` and the batches from `b` on, in the block of height `S`. -/
def Announced (log : List Rec) (e b : Nat) (c : BatchConfig) (S : Nat) : Prop :=
  ∃ pre r post, log = pre ++ r :: post ∧ .eonStarted e b ∈ r.events ∧ r.StartsEon e c ∧ S = heightAfter pre

/-- After the announcement of eon `e` no config for its first batch is accepted any more. -/
def Settled (log : List Rec) (e : Nat) : Prop :=
  ∀ pre r post b, log = pre ++ r :: post → .eonStarted e b ∈ r.events →
    ∀ r' ∈ post, ∀ start t ks c, .batchConfig start t ks c ∈ r'.events → b < start

/-- A keyper of the eon that runs the program, decides at least once in each phase of the key generation, whose messages are delivered in
time, and that nobody impersonates. (`rs` are the rounds of its life so far, after the third phase.) -/
structure Participates [AddCommGroup G1] [AddCommGroup G2] [DecidableEq G2] [DecidableEq GT] (ps : Parsers) (w : Wire G1 G2)
    (cx : Cfg G1 G2 GT R) (codecs : Codecs) (log : List Rec) (e : Nat) (c : BatchConfig) (S : Nat) (rs : List (Round G1 G2))
    (sh : Observe.Shutter) (st : Decide.State G1 G2) : Prop where
  fits : Wire.Fit w ps cx
  lived : Lived cx codecs (appChain codecs log) rs sh st
  member : cx.own ∈ c.keypers
  finished : S + 3 * cx.phaseLength ≤ st.syncHeight
  degree : ∀ P, cx.poly e = some P → P.length = c.threshold
  online : ∀ k : Int, k ∈ [0, 1, 2] → firstIn S cx.phaseLength k rs ≠ none
  genuine : Genuine w log cx.own e rs
  inTime : InTime w log cx.own e cx.phaseLength S rs

end Shutter.Net
