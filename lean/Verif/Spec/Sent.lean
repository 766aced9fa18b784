import Verif.Model.Keyper
import Verif.Spec.Crypto
import Verif.Spec.Driver

/-!
# Vocabulary for the messages a keyper sends in the key generation

The messages for an eon announced at height `S` with phases of `L` blocks, as read from the rounds of the keyper's life.
-/

namespace Shutter.Decide.Spec
open Shutter.Crypto Shutter.Crypto.Spec Shutter.Dkg Shutter.Observe Shutter.Decide
open Shutter.App (Addr)
open Shutter.Events (Codecs)

variable {G1 G2 : Type}

/-- Everything of a kind that was sent, each with the height of the round. -/
def said {α : Type} (f : Action G1 G2 → List α) (rs : List (Round G1 G2)) : List (Int × α) :=
  rs.flatMap (fun r => (r.sent.flatMap f).map (fun x => (r.next, x)))

/-- The commitment in a message for eon `e`. -/
def commitmentsFor (e : Nat) : Action G1 G2 → List (List G2)
  | .polyCommitment e' gammas => if e' = e then [gammas] else []
  | _ => []

/-- The receivers and the encrypted evaluations in a message for eon `e`. -/
def evaluationsFor (e : Nat) : Action G1 G2 → List (List Addr × List Bytes)
  | .polyEval e' receivers encrypted => if e' = e then [(receivers, encrypted)] else []
  | _ => []

/-- What a message for eon `e` has for the receiver `a`. -/
def evaluationsTo (e : Nat) (a : Addr) : Action G1 G2 → List Bytes
  | .polyEval e' receivers encrypted =>
    if e' = e then ((receivers.zip encrypted).filter (fun r => decide (r.1 = a))).map (·.2) else []
  | _ => []

/-- The accused in a message for eon `e`. -/
def accusationsFor (e : Nat) : Action G1 G2 → List (List Addr)
  | .accusation e' accused => if e' = e then [accused] else []
  | _ => []

/-- The accusers and the evaluations in a message for eon `e`. -/
def apologiesFor (e : Nat) : Action G1 G2 → List (List Addr × List Int)
  | .apology e' accusers evals => if e' = e then [(accusers, evals)] else []
  | _ => []

/-- The share for eon `e` and batch `b` in a message. -/
def sharesFor (e b : Nat) : Action G1 G2 → List G1
  | .epochSecretKeyShare e' b' share => if e' = e ∧ b' = b then [share] else []
  | _ => []

/-- The messages at the end of a key generation. -/
def verdicts : Action G1 G2 → List (Action G1 G2)
  | .eonStartVote b => [.eonStartVote b]
  | .eonKeyBroadcast i b key => [.eonKeyBroadcast i b key]
  | _ => []

/-- The keyper decides in this round, has seen the announcement at height `S`, and the next block is in the `k`-th phase. -/
def during (S L k : Int) (r : Round G1 G2) : Bool := r.deciding && decide (S < r.next) && inPhase L S k r.next

/-- The first round in which the keyper decides in the `k`-th phase. -/
def firstIn (S L k : Int) (rs : List (Round G1 G2)) : Option (Round G1 G2) := rs.find? (during S L k)

/-- The encryption key of `a` as known when the next block is `next`. -/
def keyAt (codecs : Codecs) (chain : Chain) (a : Addr) (next : Int) : Option Bytes :=
  lastCheckIn a (chainEvents codecs chain 0 (next - 1))

/-- The first round of the dealing phase in which the keyper decides and knows the encryption key of `a`. -/
def firstTo (codecs : Codecs) (chain : Chain) (S L : Int) (a : Addr) (rs : List (Round G1 G2)) : Option (Round G1 G2) :=
  rs.find? (fun r => during S L 0 r && (keyAt codecs chain a r.next).isSome)

/-- The keypers with the given indices. -/
def pick (keypers : List Addr) (is : List Nat) : List Addr := is.filterMap (fun i => keypers[i]?)

/-- The evaluation of the polynomial `P` for keyper `j`. -/
def evaluation (P : List Nat) (j : Nat) : Nat := polyValue P (j + 1) % order

/-- The other keypers (we are keyper `i` of `keypers`) with the address `a`. -/
def others (keypers : List Addr) (i : Nat) (a : Addr) : List Nat :=
  (List.range keypers.length).filter (fun j => decide (j ≠ i) && decide (keypers[j]? = some a))

/-- The other keypers to blame, by index: no commitment or no evaluation of theirs is known, or they do not match. -/
def toBlame [AddCommGroup G2] [DecidableEq G2] (g2 : G2) (st : PureDKG G2) : List Nat :=
  (List.range st.numKeypers).filter (fun j => decide (j ≠ st.keyper) &&
    match (st.commitments[j]?).join, (st.evals[j]?).join with
    | some gammas, some v => decide (v • g2 ≠ (gammas.mapIdx (fun k gamma => (st.keyper + 1) ^ k • gamma)).sum)
    | _, _ => true)

/-- The keypers that accused us, by index. -/
def accusers (st : PureDKG G2) : List Nat := (st.accusations.filter (fun x => decide (x.2 = st.keyper))).map (·.1)

/-- What is due at the end of a key generation: the public key if there is a result, else a vote to start over. -/
def verdict {GT : Type} [AddCommGroup G2] [DecidableEq G2] (env : Env G1 G2 GT) (dkg : DKG G2) : Action G1 G2 :=
  match computeResult env dkg.pure.state with
  | none => .eonStartVote dkg.startBatchIndex
  | some res => .eonKeyBroadcast dkg.pure.state.keyper dkg.startBatchIndex res.publicKey

end Shutter.Decide.Spec
