import Verif.Model.Crypto

/-!
# Model of shlib/puredkg/puredkg.go and shuttermint/keyper/epochkg/epochkg.go

A Go panic is the value `none`; an error return is `some (state, true)`-style flag next to the state the
receiver is left in. Maps are association lists in insertion order; all places where the code ranges over a
map compute something independent of the order (proved as part of C13).
-/

namespace Shutter.Dkg
open Shutter.Crypto

/-- shlib/puredkg/puredkg.go:17-27. Phases are the Go integers 0..4. -/

def off : Nat := 0
def dealing : Nat := 1
def accusing : Nat := 2
def apologizing : Nat := 3
def finalized : Nat := 4

/-- shlib/puredkg/puredkg.go:43-47 -/
structure PolyCommitmentMsg (G2 : Type) where
  eon : Nat
  sender : Nat
  gammas : List G2
deriving DecidableEq

/-- shlib/puredkg/puredkg.go:50-55 -/
structure PolyEvalMsg where
  eon : Nat
  sender : Nat
  receiver : Nat
  eval : Int
deriving DecidableEq

/-- shlib/puredkg/puredkg.go:58-61 -/
structure AccusationMsg where
  eon : Nat
  accuser : Nat
  accused : Nat
deriving DecidableEq

/-- shlib/puredkg/puredkg.go:64-68 -/
structure ApologyMsg where
  eon : Nat
  accuser : Nat
  accused : Nat
  eval : Int
deriving DecidableEq

/-- shlib/puredkg/puredkg.go:75-86 `PureDKG`. `accusations`/`apologies` are keyed by (accuser, accused).
Evaluations are stored as naturals: only values accepted by `ValidEval` (non-negative) are ever stored. -/
structure PureDKG (G2 : Type) where
  phase : Nat
  eon : Nat
  numKeypers : Nat
  threshold : Nat
  keyper : Nat
  polynomial : Option (List Nat)
  commitments : List (Option (List G2))
  evals : List (Option Nat)
  accusations : List (Nat × Nat)
  apologies : List ((Nat × Nat) × Nat)

/-- shlib/puredkg/puredkg.go:29-37 `Result` -/
structure Result (G2 : Type) where
  eon : Nat
  numKeypers : Nat
  threshold : Nat
  keyper : Nat
  secretKeyShare : Nat
  publicKey : G2
  publicKeyShares : List G2

section
variable {G1 G2 GT : Type}

/-- shlib/puredkg/puredkg.go:88-100 -/
def newPureDKG (G2 : Type) (eon numKeypers threshold keyper : Nat) : PureDKG G2 where
  phase := off
  eon := eon
  numKeypers := numKeypers
  threshold := threshold
  keyper := keyper
  polynomial := none
  commitments := List.replicate numKeypers none
  evals := List.replicate numKeypers none
  accusations := []
  apologies := []

/-- shlib/puredkg/puredkg.go:102-107; `none` = panic("wrong phase"). -/
def setPhase (st : PureDKG G2) (p : Nat) : Option (PureDKG G2) :=
  if p ≠ st.phase + 1 then none else some { st with phase := p }

/-- shlib/puredkg/puredkg.go:116-131 `checkEonAndPhase` (with `checkEon`, `checkPhase`): true = no error. -/
def checkEonAndPhase (st : PureDKG G2) (eon : Nat) (maxPhase : Nat) : Bool :=
  if st.eon ≠ eon then false else if st.phase > maxPhase then false else true

/-- shlib/puredkg/puredkg.go:344-361. Result `none`: index out of range panic; flag: `true` = nil error. -/
def handlePolyCommitmentMsg (st : PureDKG G2) (msg : PolyCommitmentMsg G2) : Option (PureDKG G2 × Bool) :=
  if !checkEonAndPhase st msg.eon dealing then some (st, false)
  else match st.commitments[msg.sender]? with
  | none => none
  | some (some _) => some (st, false)
  | some none =>
    if degree msg.gammas ≠ sub1u64 st.threshold then some (st, false)
    else some ({ st with commitments := st.commitments.set msg.sender (some msg.gammas) }, true)

/-- shlib/puredkg/puredkg.go:364-380 -/
def handlePolyEvalMsg (st : PureDKG G2) (msg : PolyEvalMsg) : Option (PureDKG G2 × Bool) :=
  if !checkEonAndPhase st msg.eon dealing then some (st, false)
  else if msg.receiver ≠ st.keyper then some (st, false)
  else match st.evals[msg.sender]? with
  | none => none
  | some (some _) => some (st, false)
  | some none =>
    if !validEval msg.eval then some (st, false)
    else some ({ st with evals := st.evals.set msg.sender (some msg.eval.toNat) }, true)

/-- shlib/puredkg/puredkg.go:383-394 -/
def handleAccusationMsg (st : PureDKG G2) (msg : AccusationMsg) : PureDKG G2 × Bool :=
  if !checkEonAndPhase st msg.eon accusing then (st, false)
  else if st.accusations.contains (msg.accuser, msg.accused) then (st, false)
  else ({ st with accusations := st.accusations ++ [(msg.accuser, msg.accused)] }, true)

/-- shlib/puredkg/puredkg.go:397-411 -/
def handleApologyMsg (st : PureDKG G2) (msg : ApologyMsg) : PureDKG G2 × Bool :=
  if !checkEonAndPhase st msg.eon apologizing then (st, false)
  else if (st.apologies.lookup (msg.accuser, msg.accused)).isSome then (st, false)
  else if !validEval msg.eval then (st, false)
  else ({ st with apologies := st.apologies ++ [((msg.accuser, msg.accused), msg.eval.toNat)] }, true)

/-- shlib/puredkg/puredkg.go:148-166: the loop over the receivers `rs`. `none` = panic. -/
def dealLoop (p : List Nat) : PureDKG G2 → List Nat → Option (PureDKG G2 × List PolyEvalMsg)
  | st, [] => some (st, [])
  | st, receiver :: rs =>
    match evalForKeyper p receiver with
    | none => none
    | some eval =>
      let msg : PolyEvalMsg := { eon := st.eon, sender := st.keyper, receiver := receiver, eval := eval }
      if receiver = st.keyper then
        match handlePolyEvalMsg st msg with
        | some (st', true) => dealLoop p st' rs
        | _ => none
      else
        match dealLoop p st rs with
        | none => none
        | some (st', msgs) => some (st', msg :: msgs)

/-- shlib/puredkg/puredkg.go:133-170. The random polynomial is the argument `poly`: RandomPolynomial draws `threshold`
coefficients below the order; `none` stands for its error return (reader failure or threshold 0).
Outer `none` = panic; inner `none` messages = error return (phase already advanced, as in the code). -/
def startPhase1Dealing [AddCommGroup G2] (env : Env G1 G2 GT) (st : PureDKG G2) (poly : Option (List Nat)) :
    Option (PureDKG G2 × Option (PolyCommitmentMsg G2 × List PolyEvalMsg)) :=
  match setPhase st dealing with
  | none => none
  | some st1 =>
    match poly with
    | none => some (st1, none)
    | some p =>
      let st2 := { st1 with polynomial := some p }
      match dealLoop p st2 (List.range st.numKeypers) with
      | none => none
      | some (st3, msgs) =>
        some (st3, some ({ eon := st.eon, sender := st.keyper, gammas := polyGammas env p }, msgs))

/-- shlib/puredkg/puredkg.go:182: the condition under which a dealer is accused. -/
def shouldAccuse [AddCommGroup G2] [DecidableEq G2] (env : Env G1 G2 GT) (st : PureDKG G2) (dealer : Nat) : Bool :=
  match (st.evals[dealer]?).join, (st.commitments[dealer]?).join with
  | some eval, some c => !verifyPolyEval env st.keyper eval c st.threshold
  | _, _ => true

/-- shlib/puredkg/puredkg.go:172-191 -/
def startPhase2Accusing [AddCommGroup G2] [DecidableEq G2] (env : Env G1 G2 GT) (st : PureDKG G2) :
    Option (PureDKG G2 × List AccusationMsg) :=
  match setPhase st accusing with
  | none => none
  | some st1 =>
    some (st1, (List.range st1.numKeypers).filterMap fun dealer =>
      if dealer = st1.keyper then none
      else if shouldAccuse env st1 dealer then
        some { eon := st1.eon, accuser := st1.keyper, accused := dealer }
      else none)

/-- shlib/puredkg/puredkg.go:193-207. `none` = panic (wrong phase, or nil polynomial while accused). The map is ranged over
in insertion order; Go's order is arbitrary. -/
def startPhase3Apologizing (st : PureDKG G2) : Option (PureDKG G2 × List ApologyMsg) :=
  match setPhase st apologizing with
  | none => none
  | some st1 =>
    ((st1.accusations.filter fun key : Nat × Nat => key.2 = st1.keyper).mapM fun key : Nat × Nat =>
      match st1.polynomial with
      | none => none
      | some p => (evalForKeyper p key.1).map fun v : Nat =>
          ({ eon := st1.eon, accuser := key.1, accused := key.2, eval := (v : Int) } : ApologyMsg)).map
      fun msgs => (st1, msgs)

/-- shlib/puredkg/puredkg.go:209-211 -/
def finalize (st : PureDKG G2) : Option (PureDKG G2) := setPhase st finalized

/-- shlib/puredkg/puredkg.go:300-330. (`dealer` is always below `numKeypers`; an index out of range would panic.) -/
def isCorrupt [AddCommGroup G2] [DecidableEq G2] (env : Env G1 G2 GT) (st : PureDKG G2) (dealer : Nat) : Bool :=
  match (st.commitments[dealer]?).join with
  | none => true
  | some c =>
    if st.apologies.any (fun a => a.1.2 = dealer && !verifyPolyEval env a.1.1 a.2 c st.threshold) then true
    else if st.accusations.any (fun k => k.2 = dealer && !(st.apologies.lookup k).isSome) then true
    else false

/-- shlib/puredkg/puredkg.go:334-341 -/
def polyEval (st : PureDKG G2) (dealer : Nat) : Option Nat :=
  match st.apologies.find? (fun a => a.1.1 = st.keyper && a.1.2 = dealer) with
  | some a => some a.2
  | none => (st.evals[dealer]?).join

/-- shlib/shcrypto/feldman.go:92-99 `ZeroGammas(degree)` -/
def zeroGammas [AddCommGroup G2] (degree : Nat) : List G2 := List.replicate ((degree + 1) % 2 ^ 64) 0

/-- shlib/puredkg/puredkg.go:253-274: the loop over the dealers; `none` = error return. Accumulates commitments, evals and
the number of participants. -/
def collect [AddCommGroup G2] [DecidableEq G2] (env : Env G1 G2 GT) (st : PureDKG G2) :
    List Nat → Option (List (List G2 × Nat) × Nat)
  | [] => some ([], 0)
  | dealer :: ds =>
    if isCorrupt env st dealer then
      (collect env st ds).map fun r => ((zeroGammas (sub1u64 st.threshold), 0) :: r.1, r.2)
    else
      match (st.commitments[dealer]?).join, polyEval st dealer with
      | some c, some eval =>
        if !verifyPolyEval env st.keyper eval c st.threshold then none
        else (collect env st ds).map fun r => ((c, eval) :: r.1, r.2 + 1)
      | _, _ => none

/-- shlib/puredkg/puredkg.go:245-296; `none` = error return. -/
def computeResult [AddCommGroup G2] [DecidableEq G2] (env : Env G1 G2 GT) (st : PureDKG G2) :
    Option (Result G2) :=
  if st.phase < finalized then none
  else match collect env st (List.range st.numKeypers) with
  | none => none
  | some (ces, numParticipants) =>
    if numParticipants < st.threshold then none
    else
      let commitments := ces.map (·.1)
      let evals := ces.map (·.2)
      some
        { eon := st.eon
          numKeypers := st.numKeypers
          threshold := st.threshold
          keyper := st.keyper
          secretKeyShare := computeEonSecretKeyShare evals
          publicKey := computeEonPublicKey commitments
          publicKeyShares := (List.range st.numKeypers).map fun d => computeEonPublicKeyShare d commitments }

/-! ### Driving the DKG from outside: arbitrary sequences of API calls -/

/-- One call of the API of a `PureDKG`. The argument of `start1` is the drawn polynomial. -/
inductive Op (G2 : Type) where
  | start1 (poly : Option (List Nat))
  | start2
  | start3
  | fin
  | commitment (m : PolyCommitmentMsg G2)
  | eval (m : PolyEvalMsg)
  | accusation (m : AccusationMsg)
  | apology (m : ApologyMsg)
deriving DecidableEq

/-- What a call did: the state afterwards, whether it returned without error, and the messages it returned (written as
the calls by which a recipient processes them). -/
structure Outcome (G2 : Type) where
  state : PureDKG G2
  ok : Bool
  out : List (Op G2)

/-- Perform one call; `none` = the process panicked. -/
def step [AddCommGroup G2] [DecidableEq G2] (env : Env G1 G2 GT) (st : PureDKG G2) : Op G2 →
    Option (Outcome G2)
  | .start1 poly => (startPhase1Dealing env st poly).map fun r =>
      ⟨r.1, r.2.isSome, match r.2 with
        | none => []
        | some (c, evs) => .commitment c :: evs.map .eval⟩
  | .start2 => (startPhase2Accusing env st).map fun r => ⟨r.1, true, r.2.map .accusation⟩
  | .start3 => (startPhase3Apologizing st).map fun r => ⟨r.1, true, r.2.map .apology⟩
  | .fin => (finalize st).map fun s => ⟨s, true, []⟩
  | .commitment m => (handlePolyCommitmentMsg st m).map fun r => ⟨r.1, r.2, []⟩
  | .eval m => (handlePolyEvalMsg st m).map fun r => ⟨r.1, r.2, []⟩
  | .accusation m => some ⟨(handleAccusationMsg st m).1, (handleAccusationMsg st m).2, []⟩
  | .apology m => some ⟨(handleApologyMsg st m).1, (handleApologyMsg st m).2, []⟩

/-- A keyper's DKG instance with the history of calls accepted (returned without error) and messages returned. -/
structure World (G2 : Type) where
  state : PureDKG G2
  accepted : List (Op G2)
  emitted : List (Op G2)

/-- One call with its history. -/
def exec [AddCommGroup G2] [DecidableEq G2] (env : Env G1 G2 GT) (w : World G2) (op : Op G2) :
    Option (World G2) :=
  (step env w.state op).map fun o =>
    ⟨o.state, if o.ok then w.accepted ++ [op] else w.accepted, w.emitted ++ o.out⟩

/-- Run a list of calls; `none` = panic. -/
def run [AddCommGroup G2] [DecidableEq G2] (env : Env G1 G2 GT) (w : World G2) (ops : List (Op G2)) :
    Option (World G2) :=
  ops.foldlM (exec env) w

/-- A fresh instance with empty history. -/
def newWorld (G2 : Type) (eon numKeypers threshold keyper : Nat) : World G2 :=
  ⟨newPureDKG G2 eon numKeypers threshold keyper, [], []⟩

end

/-! ### epochkg -/

/-- shuttermint/keyper/epochkg/epochkg.go:33-38 -/
structure EpochShare (G1 : Type) where
  eon : Nat
  epoch : Nat
  sender : Nat
  share : G1

/-- shuttermint/keyper/epochkg/epochkg.go:20-31. `secretKeys e = some none` is a nil key stored after an error. -/
structure EpochKG (G1 G2 : Type) where
  eon : Nat
  numKeypers : Nat
  threshold : Nat
  keyper : Nat
  secretKeyShare : Nat
  publicKey : G2
  publicKeyShares : List G2
  secretShares : Nat → List (EpochShare G1)
  secretKeys : Nat → Option (Option G1)

section
variable {G1 G2 GT : Type}

/-- shuttermint/keyper/epochkg/epochkg.go:40-53 -/
def newEpochKG (r : Result G2) : EpochKG G1 G2 where
  eon := r.eon
  numKeypers := r.numKeypers
  threshold := r.threshold
  keyper := r.keyper
  secretKeyShare := r.secretKeyShare
  publicKey := r.publicKey
  publicKeyShares := r.publicKeyShares
  secretShares := fun _ => []
  secretKeys := fun _ => none

/-- shuttermint/keyper/epochkg/epochkg.go:56-58: the epoch id of an epoch number. -/
def epochIDOf (env : Env G1 G2 GT) (epoch : Nat) : G1 := computeEpochID env (be8 epoch)

/-- shuttermint/keyper/epochkg/epochkg.go:55-60 -/
def EpochKG.computeShare [AddCommGroup G1] (env : Env G1 G2 GT) (kg : EpochKG G1 G2) (epoch : Nat) : G1 :=
  computeEpochSecretKeyShare kg.secretKeyShare (epochIDOf env epoch)

/-- shuttermint/keyper/epochkg/epochkg.go:62-70 -/
def EpochKG.computeKey [AddCommGroup G1] (kg : EpochKG G1 G2) (shares : List (EpochShare G1)) : Option G1 :=
  computeEpochSecretKey (shares.map (·.sender)) (shares.map (·.share)) kg.threshold

/-- shuttermint/keyper/epochkg/epochkg.go:72-92; flag `true` = nil error. -/
def EpochKG.addShare [AddCommGroup G1] (kg : EpochKG G1 G2) (share : EpochShare G1) : EpochKG G1 G2 × Bool :=
  let shares := kg.secretShares share.epoch
  if shares.any (fun s => s.sender = share.sender) then (kg, false)
  else
    let shares := shares ++ [share]
    if shares.length ≠ kg.threshold then
      ({ kg with secretShares := fun e => if e = share.epoch then shares else kg.secretShares e }, true)
    else
      let secretKey := kg.computeKey shares
      ({ kg with
          secretShares := fun e => if e = share.epoch then [] else kg.secretShares e
          secretKeys := fun e => if e = share.epoch then some secretKey else kg.secretKeys e },
        secretKey.isSome)

/-- shuttermint/keyper/epochkg/epochkg.go:94-118; `none` = index out of range panic. -/
def EpochKG.handleShare [AddCommGroup G1] [DecidableEq GT] (env : Env G1 G2 GT) (kg : EpochKG G1 G2)
    (share : EpochShare G1) : Option (EpochKG G1 G2 × Bool) :=
  if (kg.secretKeys share.epoch).isSome then some (kg, true)
  else match kg.publicKeyShares[share.sender]? with
  | none => none
  | some pks =>
    if !verifyEpochSecretKeyShare env share.share pks (epochIDOf env share.epoch) then some (kg, false)
    else some (kg.addShare share)

/-- Process a sequence of share messages; `none` = panic. -/
def EpochKG.handleAll [AddCommGroup G1] [DecidableEq GT] (env : Env G1 G2 GT) :
    EpochKG G1 G2 → List (EpochShare G1) → Option (EpochKG G1 G2)
  | kg, [] => some kg
  | kg, s :: ss =>
    match kg.handleShare env s with
    | none => none
    | some (kg', _) => EpochKG.handleAll env kg' ss

end
end Shutter.Dkg
