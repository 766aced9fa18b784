import Verif.Model.Observe

/-!
# Vocabulary for what a keyper must have seen

Stated on the chain itself: the list of its well-formed events in order, and which of them concern what.
-/

namespace Shutter.Observe
open Shutter.App
open Shutter.Events (Codecs AbciEvent makeEvent)

/-- The well-formed events of the blocks `lo ≤ … ≤ hi` in the order of the chain, each with its height. -/
def chainEvents (cx : Codecs) (chain : Chain) (lo hi : Int) : List Stamped :=
  (List.range (hi + 1 - lo).toNat).flatMap (fun (i : Nat) =>
    (chain (lo + i)).flatten.filterMap (fun ev => (makeEvent cx ev).map (fun e => ⟨lo + (i : Int), e⟩)))

/-- The kinds of events that belong to an eon. -/
inductive Kind where
  | commitment | polyEval | accusation | apology | share
deriving DecidableEq

/-- Which kind of message for which eon an event is. -/
def eonMessage : Event → Option (Kind × Nat)
  | .polyCommitment _ e _ => some (.commitment, e)
  | .polyEval _ e _ _ => some (.polyEval, e)
  | .accusation _ e _ => some (.accusation, e)
  | .apology _ e _ _ => some (.apology, e)
  | .epochSecretKeyShare _ e _ _ => some (.share, e)
  | _ => none

/-- The events from the (first) start of eon `e` on. -/
def sinceStart (e : Nat) (evs : List Stamped) : List Stamped :=
  evs.dropWhile (fun x => match x.ev with
    | .eonStarted e' _ => decide (e' ≠ e)
    | _ => true)

/-- The messages of kind `k` for eon `e` sent since the eon started, in order. -/
def messages (k : Kind) (e : Nat) (evs : List Stamped) : List Stamped :=
  (sinceStart e evs).filter (fun x => decide (eonMessage x.ev = some (k, e)))

/-- The start of eon `e` (with batch index `b`, at height `h`) was announced, and no eon with this or a higher number had been
announced before. -/
def Started (evs : List Stamped) (e b : Nat) (h : Int) : Prop :=
  ∃ pre post, evs = pre ++ ⟨h, .eonStarted e b⟩ :: post ∧ ∀ y ∈ pre, ∀ e' b', y.ev = .eonStarted e' b' → e' < e

/-- What the code returns for a query of kind `k`. -/
def Eon.query (x : Eon) : Kind → Int → List Stamped
  | .commitment => x.getPolyCommitments
  | .polyEval => x.getPolyEvals
  | .accusation => x.getAccusations
  | .apology => x.getApologies
  | .share => x.getEpochSecretKeyShares

/-- The decryption signatures for batch `b`. -/
def signaturesFor (b : Nat) (evs : List Stamped) : List Stamped :=
  evs.filter (fun x => match x.ev with
    | .decryptionSignature b' _ _ => decide (b' = b)
    | _ => false)

/-- The batch configs announced. -/
def configEvents (evs : List Stamped) : List Stamped :=
  evs.filter (fun x => match x.ev with
    | .batchConfig _ _ _ _ => true
    | _ => false)

/-- The key of the last check-in of `a`. -/
def lastCheckIn (a : Addr) (evs : List Stamped) : Option Bytes :=
  (evs.filterMap (fun x => match x.ev with
    | .checkIn sender key => if sender = a then some key else none
    | _ => none)).getLast?

/-- The view `s` is complete and exact with respect to the events `evs` for queries for messages of kind `k` from height
`thr k` on, and for signatures from batch index `b0` on. -/
structure Sees (evs : List Stamped) (thr : Kind → Int) (b0 : Nat) (s : Shutter) : Prop where
  /-- exactly the started eons are known -/
  eons : ∀ e b h, (∃ x, findEon s e = some x ∧ x.startBatchIndex = b ∧ x.startHeight = h) ↔ Started evs e b h
  /-- their messages since any height from the threshold on are returned, all of them, once, in order, and nothing else -/
  msgs : ∀ e x, findEon s e = some x → ∀ k, ∀ h ≥ thr k,
    x.query k h = (messages k e evs).filter (fun y => decide (y.height ≥ h))
  sigs : ∀ b ≥ b0, getBatchData s b = signaturesFor b evs
  configs : s.batchConfigs = configEvents evs
  keys : ∀ a, s.keyperEncryptionKeys a = lastCheckIn a evs

/-- The windows cover the heights from `lo` to `hi`, one after the other, each at most `n` blocks long. -/
def Tiles (n : Int) (hi : Int) : Int → List (Int × Int) → Prop
  | lo, [] => lo > hi
  | lo, (a, b) :: ws => a = lo ∧ lo ≤ b + 1 ∧ b < lo + n ∧ b ≤ hi ∧ Tiles n hi (b + 1) ws

/-- The windows of the queries made (each starts with its first page). -/
def windows (qs : List (Int × Int × Nat)) : List (Int × Int) :=
  (qs.filter (fun q => decide (q.2.2 = 1))).map (fun q => (q.1, q.2.1))

/-- The filters of a run of the loop. -/
def filtersOf : List LoopStep → List Filter
  | [] => []
  | .filter f :: xs => f :: filtersOf xs
  | _ :: xs => filtersOf xs

/-- Every filter of the run satisfies `P` together with the height of the view it is applied to. -/
def FiltersAt (cx : Codecs) (chain : Chain) (P : Filter → Int → Prop) : Shutter → List LoopStep → Prop
  | _, [] => True
  | s, x :: xs => (∀ f, x = .filter f → P f s.currentBlock) ∧ ∀ s', loopStep cx chain s x = some s' → FiltersAt cx chain P s' xs

end Shutter.Observe
