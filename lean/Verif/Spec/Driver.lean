import Verif.Model.Dkg
import Verif.Spec.Observe

/-!
# Vocabulary for the key generation as the shuttermint chain prescribes it

An eon announced at height `S` with phases of `L` blocks deals at the heights `S … S+L-1`, accuses at `S+L … S+2L-1` and
apologizes at `S+2L … S+3L-1`. Which calls a keyper has to make follows from the events of the chain.
-/

namespace Shutter.Decide.Spec
open Shutter.Crypto Shutter.Dkg Shutter.Observe
open Shutter.App (Addr)

/-- The `i`-th phase (counted from zero) of an eon announced at height `S`. -/
def inPhase (L S : Int) (i : Int) (h : Int) : Bool := decide (S + i * L ≤ h ∧ h < S + (i + 1) * L)

/-- What the calls depend on: the keypers of the eon, our index among them, our way to decode points and to decrypt. -/
structure Params (G2 : Type) where
  eon : Nat
  start : Int
  length : Int
  keypers : List Addr
  own : Nat
  gammas : List Bytes → List G2
  decrypt : Bytes → Option Bytes

variable {G2 : Type}

/-- The commitment in an event: of a keyper of the eon, in the first phase. -/
def commitmentOf (p : Params G2) (x : Stamped) : List (Op G2) :=
  match x.ev with
  | .polyCommitment sender eon gammas =>
    if inPhase p.length p.start 0 x.height then ((p.keypers.idxOf? sender).map (fun i => .commitment ⟨eon, i, p.gammas gammas⟩)).toList
    else []
  | _ => []

/-- The evaluations for us in an event: of another keyper of the eon, in the first phase. -/
def evalsOf (p : Params G2) (x : Stamped) : List (Op G2) :=
  match x.ev with
  | .polyEval sender eon receivers evals =>
    if inPhase p.length p.start 0 x.height then
      ((p.keypers.idxOf? sender).filter (fun i => decide (i ≠ p.own))).toList.flatMap (fun i =>
        ((receivers.zip evals).filter (fun r => decide (p.keypers.idxOf? r.1 = some p.own))).filterMap (fun r =>
          (p.decrypt r.2).map (fun b => .eval ⟨eon, i, p.own, (beNat b : Nat)⟩)))
    else []
  | _ => []

/-- The accusations in an event: of a keyper against keypers of the eon, in the second phase. -/
def accusationsOf (p : Params G2) (x : Stamped) : List (Op G2) :=
  match x.ev with
  | .accusation sender _ accused =>
    if inPhase p.length p.start 1 x.height then
      (p.keypers.idxOf? sender).toList.flatMap (fun i => accused.filterMap (fun a =>
        (p.keypers.idxOf? a).map (fun j => .accusation ⟨p.eon, i, j⟩)))
    else []
  | _ => []

/-- The apologies in an event: of a keyper to keypers of the eon, in the third phase. -/
def apologiesOf (p : Params G2) (x : Stamped) : List (Op G2) :=
  match x.ev with
  | .apology sender _ accusers evals =>
    if inPhase p.length p.start 2 x.height then
      (p.keypers.idxOf? sender).toList.flatMap (fun i => (accusers.zip evals).filterMap (fun r =>
        (p.keypers.idxOf? r.1).map (fun a => .apology ⟨p.eon, a, i, (r.2 : Int)⟩)))
    else []
  | _ => []

/-- All the calls of one kind for the events `evs` of the chain, in the order of the chain. -/
def commitments (p : Params G2) (evs : List Stamped) : List (Op G2) := (messages .commitment p.eon evs).flatMap (commitmentOf p)
def evals (p : Params G2) (evs : List Stamped) : List (Op G2) := (messages .polyEval p.eon evs).flatMap (evalsOf p)
def accusations (p : Params G2) (evs : List Stamped) : List (Op G2) := (messages .accusation p.eon evs).flatMap (accusationsOf p)
def apologies (p : Params G2) (evs : List Stamped) : List (Op G2) := (messages .apology p.eon evs).flatMap (apologiesOf p)

def isCommitment : Op G2 → Bool
  | .commitment _ => true
  | _ => false
def isEval : Op G2 → Bool
  | .eval _ => true
  | _ => false

/-- The calls in the order of the phases, when the next block has height `next`: dealing with the calls `D`, accusing with `A`,
apologizing with `P`, the end. -/
def script (L S next : Int) (poly : Option (List Nat)) (D A P : List (Op G2)) : List (Op G2) :=
  [.start1 poly] ++ D ++ (if S + L ≤ next then [.start2] else []) ++ A ++ (if S + 2 * L ≤ next then [.start3] else []) ++ P ++
    (if S + 3 * L ≤ next then [.fin] else [])

/-- The calls `ops` are those that the events `evs` up to the block before `next` prescribe: each message once, in its phase, and
nothing else. Commitments and evaluations may be interleaved in any way. -/
def Prescribed (p : Params G2) (poly : Option (List Nat)) (evs : List Stamped) (next : Int) (ops : List (Op G2)) : Prop :=
  ∃ D, ops = script p.length p.start next poly D (accusations p evs) (apologies p evs) ∧
    (∀ op ∈ D, isCommitment op = true ∨ isEval op = true) ∧
    D.filter isCommitment = commitments p evs ∧ D.filter isEval = evals p evs

/-- The newest announced config that starts at batch `b` or before: its keypers and threshold. -/
def configFor (evs : List Stamped) (b : Nat) : Option (List Addr × Nat) :=
  (evs.filterMap (fun x => match x.ev with
    | .batchConfig start threshold keypers _ => if start ≤ b then some (keypers, threshold) else none
    | _ => none)).getLast?

end Shutter.Decide.Spec
