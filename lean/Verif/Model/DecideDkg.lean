import Verif.Model.Dkg
import Verif.Model.Observe
import Verif.Model.Shuffle
import Verif.Model.MainChain

/-!
# shuttermint/keyper/decide.go, first part: driving the distributed key generation

A Go panic or `log.Fatal` is `none`. Block heights of the shuttermint chain (`int64`) are integers without overflow.
The group elements in events are given by their encodings (`Verif.Model.Events`); the decoding functions are parameters.
-/

namespace Shutter.Decide
open Shutter.Crypto Shutter.Dkg Shutter.Observe
open Shutter.App (Addr findAddressIndex)

/-- What a keyper is configured with (config.go `Config`, the fields used by the decider), and the primitives it uses.
`R` is the type of the states of Go's random source (`Verif.Model.Shuffle`). -/
structure Cfg (G1 G2 GT R : Type) where
  crypto : Crypto.Env G1 G2 GT
  /-- encoding of points in encrypted transactions -/
  codec : PointCodec G2
  marshalKey : G1 → Bytes
  newSource : Nat → R
  next : R → Nat → Nat × R
  /-- the points in a commitment event, and the point in a share event -/
  gammas : List Bytes → List G2
  share : Bytes → G1
  /-- `Config.EncryptionKey.Decrypt` -/
  decryptEval : Bytes → Option Bytes
  /-- `encryptionKey.Encrypt`, of some receiver's public key; the randomness is left out -/
  encryptEval : Bytes → Bytes → Bytes
  /-- `crypto.SigToPub` followed by `crypto.PubkeyToAddress` -/
  goRecover : Bytes → Bytes → Option Sol.Address
  /-- `crypto.Sign` with `Config.SigningKey` -/
  sign : Bytes → Bytes
  /-- `Config.Address()` -/
  own : Addr
  /-- `Config.BatcherContractAddress` -/
  batcher : Sol.Address
  /-- `Config.ExecutionStaggering` -/
  staggering : Nat
  /-- `Config.DKGPhaseLength` -/
  phaseLength : Int
  /-- the polynomial drawn for an eon; `none`: the random source failed -/
  poly : Nat → Option (List Nat)

/-- decide.go:418-434: `NewConstantPhaseLength` and decide.go:436-450 `getPhaseAtHeight` for it -/
def getPhaseAtHeight (phaseLength height eonStartHeight : Int) : Nat :=
  if height < eonStartHeight + 0 * phaseLength then off
  else if height < eonStartHeight + 1 * phaseLength then dealing
  else if height < eonStartHeight + 2 * phaseLength then accusing
  else if height < eonStartHeight + 3 * phaseLength then apologizing
  else finalized

/-- decide.go:66-73 `DKG`. Next to the `PureDKG` the history of its calls is kept (`Verif.Model.Dkg`, `World`). -/
structure DKG (G2 : Type) where
  eon : Nat
  startBatchIndex : Nat
  keypers : List Addr
  pure : Dkg.World G2
  outgoing : List PolyEvalMsg
  phaseLength : Int

/-- The messages and transactions a keyper decides to send: fx.IAction, shmsg.Message. -/
inductive Action (G1 G2 : Type) where
  | checkIn
  | batchConfig (startBatchIndex : Nat) (keypers : List Addr) (threshold configIndex : Nat)
  | polyCommitment (eon : Nat) (gammas : List G2)
  | polyEval (eon : Nat) (receivers : List Addr) (encryptedEvals : List Bytes)
  | accusation (eon : Nat) (accused : List Addr)
  | apology (eon : Nat) (accusers : List Addr) (polyEvals : List Int)
  | eonStartVote (startBatchIndex : Nat)
  | eonKeyBroadcast (keyperIndex startBatchIndex : Nat) (key : G2)
  | epochSecretKeyShare (eon epoch : Nat) (share : G1)
  | decryptionSignature (batchIndex : Nat) (signature : Bytes)
  | executeCipherBatch (batchIndex : Nat) (cipherBatchHash : Bytes) (txs : List Bytes) (keyperIndex gasLimit : Nat)
  | executePlainBatch (batchIndex : Nat) (txs : List Bytes) (gasLimit : Nat)
  | skipCipherBatch (batchIndex : Nat)
  | accuse (halfStep keyperIndex : Nat)
  | appeal (authorization : Sol.Authorization)

section
variable {G1 G2 GT R : Type}

/-! ## The messages of other keypers

The calls the loops make do not depend on the state of the DKG, so they are collected first; the errors the calls return are
only logged. -/

/-- decide.go:111-131, one round of the loop of `syncCommitments` -/
def commitmentCalls (cx : Cfg G1 G2 GT R) (dkg : DKG G2) (startHeight : Int) (x : Stamped) : List (Op G2) :=
  match x.ev with
  | .polyCommitment sender eon gammas =>
    if getPhaseAtHeight dkg.phaseLength x.height startHeight ≠ dealing then []
    else match findAddressIndex dkg.keypers sender with
      | none => []
      | some i => [.commitment ⟨eon, i, cx.gammas gammas⟩]
  | _ => []

/-- decide.go:151-177, the loop over the receivers of a message of `sender`; `j` is the index of the first one. `none`: there
is no evaluation for a receiver. -/
def evalCallsLoop (cx : Cfg G1 G2 GT R) (dkg : DKG G2) (eon sender : Nat) (evals : List Bytes) :
    Nat → List Addr → Option (List (Op G2))
  | _, [] => some []
  | j, receiver :: rs =>
    match findAddressIndex dkg.keypers receiver with
    | none => evalCallsLoop cx dkg eon sender evals (j + 1) rs
    | some r =>
      if r ≠ dkg.pure.state.keyper then evalCallsLoop cx dkg eon sender evals (j + 1) rs
      else match evals[j]? with
        | none => none
        | some encrypted =>
          match cx.decryptEval encrypted with
          | none => evalCallsLoop cx dkg eon sender evals (j + 1) rs
          | some b => (evalCallsLoop cx dkg eon sender evals (j + 1) rs).map
              (.eval ⟨eon, sender, dkg.pure.state.keyper, (beNat b : Nat)⟩ :: ·)

/-- decide.go:133-179, one round of the loop of `syncPolyEvals` -/
def evalCalls (cx : Cfg G1 G2 GT R) (dkg : DKG G2) (startHeight : Int) (x : Stamped) : Option (List (Op G2)) :=
  match x.ev with
  | .polyEval sender eon receivers evals =>
    if getPhaseAtHeight dkg.phaseLength x.height startHeight ≠ dealing then some []
    else match findAddressIndex dkg.keypers sender with
      | none => some []
      | some i =>
        if i = dkg.pure.state.keyper then some []
        else evalCallsLoop cx dkg eon i evals 0 receivers
  | _ => some []

/-- decide.go:181-211, one round of the loop of `syncAccusations` -/
def accusationCalls (dkg : DKG G2) (startHeight : Int) (x : Stamped) : List (Op G2) :=
  match x.ev with
  | .accusation sender _ accused =>
    if getPhaseAtHeight dkg.phaseLength x.height startHeight ≠ accusing then []
    else match findAddressIndex dkg.keypers sender with
      | none => []
      | some i => accused.filterMap (fun a => (findAddressIndex dkg.keypers a).map (fun j => .accusation ⟨dkg.eon, i, j⟩))
  | _ => []

/-- decide.go:226-242, the loop over the accusers of an apology of `sender` -/
def apologyCallsLoop (dkg : DKG G2) (sender : Nat) (evals : List Nat) : Nat → List Addr → Option (List (Op G2))
  | _, [] => some []
  | j, accuser :: rs =>
    match findAddressIndex dkg.keypers accuser with
    | none => apologyCallsLoop dkg sender evals (j + 1) rs
    | some a =>
      match evals[j]? with
      | none => none
      | some v => (apologyCallsLoop dkg sender evals (j + 1) rs).map (.apology ⟨dkg.eon, a, sender, (v : Int)⟩ :: ·)

/-- decide.go:213-244, one round of the loop of `syncApologies` -/
def apologyCalls (dkg : DKG G2) (startHeight : Int) (x : Stamped) : Option (List (Op G2)) :=
  match x.ev with
  | .apology sender _ accusers evals =>
    if getPhaseAtHeight dkg.phaseLength x.height startHeight ≠ apologizing then some []
    else match findAddressIndex dkg.keypers sender with
      | none => some []
      | some i => apologyCallsLoop dkg i evals 0 accusers
  | _ => some []

variable [AddCommGroup G2] [DecidableEq G2]

/-- Make calls of the `PureDKG` of a DKG. -/
def DKG.call (cx : Cfg G1 G2 GT R) (dkg : DKG G2) (ops : List (Op G2)) : Option (DKG G2) :=
  (Dkg.run cx.crypto dkg.pure ops).map (fun w => { dkg with pure := w })

/-- decide.go:111-131 `syncCommitments` -/
def syncCommitments (cx : Cfg G1 G2 GT R) (dkg : DKG G2) (syncHeight : Int) (eon : Eon) : Option (DKG G2) :=
  dkg.call cx ((eon.getPolyCommitments syncHeight).flatMap (commitmentCalls cx dkg eon.startHeight))

/-- decide.go:133-179 `syncPolyEvals` -/
def syncPolyEvals (cx : Cfg G1 G2 GT R) (dkg : DKG G2) (syncHeight : Int) (eon : Eon) : Option (DKG G2) :=
  ((eon.getPolyEvals syncHeight).mapM (evalCalls cx dkg eon.startHeight)).bind (fun calls => dkg.call cx calls.flatten)

/-- decide.go:181-211 `syncAccusations` -/
def syncAccusations (cx : Cfg G1 G2 GT R) (dkg : DKG G2) (syncHeight : Int) (eon : Eon) : Option (DKG G2) :=
  dkg.call cx ((eon.getAccusations syncHeight).flatMap (accusationCalls dkg eon.startHeight))

/-- decide.go:213-244 `syncApologies` -/
def syncApologies (cx : Cfg G1 G2 GT R) (dkg : DKG G2) (syncHeight : Int) (eon : Eon) : Option (DKG G2) :=
  ((eon.getApologies syncHeight).mapM (apologyCalls dkg eon.startHeight)).bind (fun calls => dkg.call cx calls.flatten)

/-! ## The phases -/

/-- A call of the `PureDKG` that returns messages. -/
def DKG.start (cx : Cfg G1 G2 GT R) (dkg : DKG G2) (op : Op G2) : Option (DKG G2 × Outcome G2) :=
  (Dkg.exec cx.crypto dkg.pure op).bind (fun w => (Dkg.step cx.crypto dkg.pure.state op).map (fun o => ({ dkg with pure := w }, o)))

/-- The evaluations among the messages returned by `StartPhase1Dealing`, and the commitment. -/
def outEvals (out : List (Op G2)) : List PolyEvalMsg := out.filterMap (fun o => match o with
  | .eval m => some m
  | _ => none)
def outGammas (out : List (Op G2)) : List G2 := (out.findSome? (fun o => match o with
  | .commitment m => some m.gammas
  | _ => none)).getD []
def outAccusations (out : List (Op G2)) : List AccusationMsg := out.filterMap (fun o => match o with
  | .accusation m => some m
  | _ => none)
def outApologies (out : List (Op G2)) : List ApologyMsg := out.filterMap (fun o => match o with
  | .apology m => some m
  | _ => none)

/-- decide.go:499-512 `startPhase1Dealing` -/
def startPhase1 (cx : Cfg G1 G2 GT R) (dkg : DKG G2) (phaseNext : Nat) : Option (DKG G2 × List (Action G1 G2)) :=
  (dkg.start cx (.start1 (cx.poly dkg.eon))).bind fun r =>
    if r.2.ok = false then none
    else if phaseNext ≠ dealing then some (r.1, [])
    else some ({ r.1 with outgoing := outEvals r.2.out }, [.polyCommitment dkg.eon (outGammas r.2.out)])

/-- decide.go:514-527 `startPhase2Accusing`, with `newAccusation` (103-109); an index out of range panics. -/
def startPhase2 (cx : Cfg G1 G2 GT R) (dkg : DKG G2) (phaseNext : Nat) : Option (DKG G2 × List (Action G1 G2)) :=
  (dkg.start cx .start2).bind fun r =>
    if phaseNext ≠ accusing then some (r.1, [])
    else if (outAccusations r.2.out).length > 0 then
      ((outAccusations r.2.out).mapM (fun m => dkg.keypers[m.accused]?)).map (fun a => (r.1, [.accusation dkg.eon a]))
    else some (r.1, [])

/-- decide.go:529-541 `startPhase3Apologizing`, with `newApology` (91-100) -/
def startPhase3 (cx : Cfg G1 G2 GT R) (dkg : DKG G2) (phaseNext : Nat) : Option (DKG G2 × List (Action G1 G2)) :=
  (dkg.start cx .start3).bind fun r =>
    if phaseNext ≠ apologizing then some (r.1, [])
    else if (outApologies r.2.out).length > 0 then
      ((outApologies r.2.out).mapM (fun m => dkg.keypers[m.accuser]?)).map
        (fun a => (r.1, [.apology dkg.eon a ((outApologies r.2.out).map (·.eval))]))
    else some (r.1, [])

/-- decide.go:76-80 `EKG` -/
structure EKG (G1 G2 : Type) where
  eon : Nat
  keypers : List Addr
  kg : EpochKG G1 G2

/-- decide.go:543-571 `dkgFinalize`, `broadcastEonPublicKey` -/
def dkgFinalize (cx : Cfg G1 G2 GT R) (dkg : DKG G2) : Option (DKG G2 × List (EKG G1 G2) × List (Action G1 G2)) :=
  (dkg.start cx .fin).map fun r =>
    match computeResult cx.crypto r.1.pure.state with
    | none => (r.1, [], [.eonStartVote dkg.startBatchIndex])
    | some res => (r.1, [⟨dkg.eon, dkg.keypers, newEpochKG res⟩], [.eonKeyBroadcast res.keyper dkg.startBatchIndex res.publicKey])

/-- One of the conditional starts of a phase in `syncDKGWithEon`. -/
def advance (dkg : DKG G2) (here phaseNext : Nat) (f : DKG G2 → Nat → Option (DKG G2 × List (Action G1 G2))) :
    Option (DKG G2 × List (Action G1 G2)) :=
  if dkg.pure.state.phase = here ∧ phaseNext ≥ here + 1 then f dkg phaseNext else some (dkg, [])

/-- decide.go:573-601 `syncDKGWithEon`; `phaseLength` is the decider's. -/
def syncDKGWithEon (cx : Cfg G1 G2 GT R) (syncHeight currentBlock : Int) (dkg : DKG G2) (eon : Eon) :
    Option (DKG G2 × List (EKG G1 G2) × List (Action G1 G2)) := do
  let phaseNext := getPhaseAtHeight cx.phaseLength (currentBlock + 1) eon.startHeight
  let (dkg, a1) ← advance dkg off phaseNext (startPhase1 cx)
  let dkg ← syncCommitments cx dkg syncHeight eon
  let dkg ← syncPolyEvals cx dkg syncHeight eon
  let (dkg, a2) ← advance dkg dealing phaseNext (startPhase2 cx)
  let dkg ← syncAccusations cx dkg syncHeight eon
  let (dkg, a3) ← advance dkg accusing phaseNext (startPhase3 cx)
  let dkg ← syncApologies cx dkg syncHeight eon
  if dkg.pure.state.phase = apologizing ∧ phaseNext ≥ finalized then
    (dkgFinalize cx dkg).map (fun r => (r.1, r.2.1, a1 ++ a2 ++ a3 ++ r.2.2))
  else some (dkg, [], a1 ++ a2 ++ a3)

/-- decide.go:470-487: the loop of `sendPolyEvals`: receivers with their encrypted evaluations, and what cannot be sent yet -/
def splitOutgoing (cx : Cfg G1 G2 GT R) (keys : Addr → Option Bytes) (keypers : List Addr) :
    List PolyEvalMsg → Option (List (Addr × Bytes) × List PolyEvalMsg)
  | [] => some ([], [])
  | p :: ps =>
    match keypers[p.receiver]? with
    | none => none
    | some receiver =>
      (splitOutgoing cx keys keypers ps).map fun r =>
        match keys receiver with
        | some key => ((receiver, cx.encryptEval key (natBytes p.eval.toNat)) :: r.1, r.2)
        | none => (r.1, p :: r.2)

/-- decide.go:452-497 `sendPolyEvals` -/
def sendPolyEvals (cx : Cfg G1 G2 GT R) (keys : Addr → Option Bytes) (dkg : DKG G2) : Option (DKG G2 × List (Action G1 G2)) :=
  if dkg.outgoing.length = 0 then some (dkg, [])
  else if dkg.pure.state.phase > dealing then some ({ dkg with outgoing := [] }, [])
  else (splitOutgoing cx keys dkg.keypers dkg.outgoing).map fun r =>
    if r.1.length > 0 then ({ dkg with outgoing := r.2 }, [.polyEval dkg.eon (r.1.map (·.1)) (r.1.map (·.2))])
    else (dkg, [])

/-- decide.go:603-616, one round of the loop of `handleDKGs` -/
def handleDKG (cx : Cfg G1 G2 GT R) (sh : Observe.Shutter) (syncHeight : Int) (dkg : DKG G2) :
    Option (DKG G2 × List (EKG G1 G2) × List (Action G1 G2)) :=
  if dkg.pure.state.phase = finalized then some (dkg, [], [])
  else do
    let eon ← findEon sh dkg.eon
    let (dkg, ekgs, a) ← syncDKGWithEon cx syncHeight sh.currentBlock dkg eon
    let (dkg, b) ← sendPolyEvals cx sh.keyperEncryptionKeys dkg
    some (dkg, ekgs, a ++ b)

/-- decide.go:603-616 `handleDKGs`: the DKGs afterwards, the EKGs added, the actions -/
def handleDKGs (cx : Cfg G1 G2 GT R) (sh : Observe.Shutter) (syncHeight : Int) :
    List (DKG G2) → Option (List (DKG G2) × List (EKG G1 G2) × List (Action G1 G2))
  | [] => some ([], [], [])
  | dkg :: rest => do
    let (dkg, e1, a1) ← handleDKG cx sh syncHeight dkg
    let (rest, e2, a2) ← handleDKGs cx sh syncHeight rest
    some (dkg :: rest, e1 ++ e2, a1 ++ a2)

/-- decide.go:388-404 `startDKG`; `none`: we are not a keyper of the eon -/
def startDKG (cx : Cfg G1 G2 GT R) (sh : Observe.Shutter) (eon : Eon) : Option (DKG G2) :=
  let c := findBatchConfigByBatchIndex sh eon.startBatchIndex
  (findAddressIndex c.keypers cx.own).map fun i =>
    { eon := eon.eon
      startBatchIndex := eon.startBatchIndex
      keypers := c.keypers
      pure := newWorld G2 eon.eon c.keypers.length c.threshold i
      outgoing := []
      phaseLength := cx.phaseLength }

/-- decide.go:406-415 `maybeStartDKG`: the DKGs started and the last eon -/
def maybeStartDKG (cx : Cfg G1 G2 GT R) (sh : Observe.Shutter) : Nat → List Eon → List (DKG G2) × Nat
  | last, [] => ([], last)
  | last, eon :: es =>
    if eon.eon > last then
      let r := maybeStartDKG cx sh eon.eon es
      ((startDKG cx sh eon).toList ++ r.1, r.2)
    else maybeStartDKG cx sh last es

end
end Shutter.Decide
