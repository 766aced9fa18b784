import Mathlib.Data.List.Sort
import Mathlib.Data.List.Dedup
import Mathlib.Logic.Function.Basic

/-!
# Model of shuttermint/app (the Tendermint ABCI application)

* A Go panic (or `log.Fatalf`) is the value `none`.
* A Go map that is only looked up is a function; a map that is iterated or counted is an association list
  in insertion order. Wherever Go ranges over a map and the code can see the order, the order is an explicit
  parameter (`ord`), so that the theorems speak about every iteration order.
* Transactions enter as the result of `decodeTx` (shuttermint/app/app.go:273-292): `none` when base64, the
  signature or the protobuf message is malformed, else the recovered signer and the message. ECDSA recovery
  and protobuf decoding are not modelled.
* `uint64` values are `Nat`s; the conversion `int(x)` of a `uint64` is `toInt64`. The counter `EONCounter`
  (incremented once per message) and voting powers do not wrap around in the model.
* `Gobpath`, `LastSaved` and logging are left out: whether `Commit` persists is an arbitrary choice.
-/

namespace Shutter.App

/-- Byte strings; `common.Address` (20 bytes) is the byte string of length 20. -/
abbrev Bytes := List UInt8
abbrev Addr := List UInt8

/-- Go conversion `int(x)` of a `uint64` on a 64 bit platform. -/
def toInt64 (x : Nat) : Int := if x < 2 ^ 63 then (x : Int) else (x : Int) - 2 ^ 64

/-- shuttermint/keyper/shutterevents/events.go:160-169. `Height` is always zero inside the app. -/
structure BatchConfig where
  startBatchIndex : Nat
  keypers : List Addr
  threshold : Nat
  configContractAddress : Addr
  configIndex : Nat
  started : Bool
  validatorsUpdated : Bool
deriving DecidableEq, Repr

/-- `common.Address{}` -/
def zeroAddr : Addr := List.replicate 20 0

/-- The zero value `BatchConfig{}`. -/
def BatchConfig.zero : BatchConfig := ⟨0, [], 0, zeroAddr, 0, false, false⟩

/-- shuttermint/keyper/shutterevents/batchconfig.go:12-25 `KeyperIndex`, `IsKeyper` -/
def BatchConfig.isKeyper (c : BatchConfig) (a : Addr) : Bool := c.keypers.any (fun k => k == a)

/-- shuttermint/keyper/shutterevents/batchconfig.go:28-40 `EnsureValid`; `true` when no error. -/
def BatchConfig.ensureValid (c : BatchConfig) : Bool :=
  if c.keypers.length = 0 then false
  else if c.threshold = 0 then false
  else if toInt64 c.threshold > (c.keypers.length : Int) then false
  else true

/-- shuttermint/medley/medley.go:94-103 `EnsureUniqueAddresses`; `seen` is the map built so far. -/
def ensureUniqueGo (seen : List Addr) : List Addr → Bool
  | [] => true
  | a :: as => if seen.contains a then false else ensureUniqueGo (a :: seen) as

def ensureUniqueAddresses (addrs : List Addr) : Bool := ensureUniqueGo [] addrs

/-- shuttermint/medley/medley.go:106-119 `DedupAddresses` -/
def dedupGo (seen : List Addr) : List Addr → List Addr
  | [] => []
  | a :: as => if seen.contains a then dedupGo seen as else a :: dedupGo (a :: seen) as

def dedupAddresses (addrs : List Addr) : List Addr := dedupGo [] addrs

/-- shuttermint/medley/medley.go:29-36 `FindAddressIndex`; `none` is the error. -/
def findAddressIndex : List Addr → Addr → Option Nat
  | [], _ => none
  | a :: as, b => if a == b then some 0 else (findAddressIndex as b).map (· + 1)

/-! ## Messages (shuttermint/shmsg/shmsg.proto) -/

/-- `shmsg.BatchConfig`; all byte fields unchecked. -/
structure BatchConfigMsg where
  startBatchIndex : Nat
  keypers : List Bytes
  threshold : Nat
  configContractAddress : Bytes
  configIndex : Nat
  started : Bool
  validatorsUpdated : Bool
deriving DecidableEq, Repr

inductive Msg where
  | batchConfig (m : BatchConfigMsg)
  | batchConfigStarted (configIndex : Nat)
  | checkIn (validatorPublicKey encryptionPublicKey : Bytes)
  | eonStartVote (startBatchIndex : Nat)
  | decryptionSignature (batchIndex : Nat) (signature : Bytes)
  | polyEval (eon : Nat) (receivers encryptedEvals : List Bytes)
  | polyCommitment (eon : Nat) (gammas : List Bytes)
  | accusation (eon : Nat) (accused : List Bytes)
  | apology (eon : Nat) (accusers polyEvals : List Bytes)
  | epochSecretKeyShare (eon epoch : Nat) (share : Bytes)
  /-- an empty or unknown payload -/
  | unknown
deriving DecidableEq, Repr

/-- `shmsg.MessageWithNonce` -/
structure MessageWithNonce where
  msg : Msg
  chainId : Bytes
  randomNonce : Nat
deriving DecidableEq, Repr

/-- A transaction after `decodeTx` (shuttermint/app/app.go:273-292). -/
abbrev Tx := Option (Addr × MessageWithNonce)

/-- Published events (shuttermint/keyper/shutterevents/events.go), before attribute encoding. -/
inductive Event where
  | batchConfig (startBatchIndex threshold : Nat) (keypers : List Addr) (configIndex : Nat)
  | eonStarted (eon batchIndex : Nat)
  | checkIn (sender : Addr) (encryptionPublicKey : Bytes)
  | decryptionSignature (batchIndex : Nat) (sender : Addr) (signature : Bytes)
  | polyEval (sender : Addr) (eon : Nat) (receivers : List Addr) (encryptedEvals : List Bytes)
  | polyCommitment (sender : Addr) (eon : Nat) (gammas : List Bytes)
  | accusation (sender : Addr) (eon : Nat) (accused : List Addr)
  | apology (sender : Addr) (eon : Nat) (accusers : List Addr) (polyEval : List Nat)
  | epochSecretKeyShare (sender : Addr) (eon epoch : Nat) (share : Bytes)
deriving DecidableEq, Repr

/-- The external parsers used by the handlers, as partial functions to canonical encodings:
`bn256.G2.Unmarshal`, `EpochSecretKeyShare.GobDecode`, `crypto.DecompressPubkey`. -/
structure Parsers where
  g2 : Bytes → Option Bytes
  share : Bytes → Option Bytes
  pubkey : Bytes → Option Bytes

/-! ## State -/

/-- shuttermint/app/types.go:49-51 `Voting.Votes`, a map from sender to candidate index. -/
abbrev Votes := List (Addr × Nat)

/-- shuttermint/app/types.go:55-58 -/
structure ConfigVoting where
  votes : Votes
  candidates : List BatchConfig
deriving DecidableEq, Repr

/-- shuttermint/app/types.go:61-64 -/
structure EonStartVoting where
  votes : Votes
  candidates : List Nat
deriving DecidableEq, Repr

/-- shuttermint/app/types.go:73-77. `Config` is a pointer into the config list; only `Keypers` of it is ever
read, and that field never changes, so a copy is equivalent (also after the gob round trip, which un-shares it). -/
structure BatchState where
  batchIndex : Nat
  config : BatchConfig
  decryptionSignatures : List (Addr × Bytes)
deriving DecidableEq, Repr

/-- shuttermint/app/types.go:133-141 -/
structure DKGInstance where
  config : BatchConfig
  eon : Nat
  polyEvalsSeen : List (Addr × Addr)
  polyCommitmentsSeen : List Addr
  accusationsSeen : List Addr
  apologiesSeen : List Addr
deriving DecidableEq, Repr

/-- shuttermint/app/types.go:122-124 `NonceTracker` -/
abbrev NonceTracker := Addr → Nat → Bool

/-- shuttermint/app/types.go:115-119 -/
structure CheckTxState where
  members : List Addr
  txCounts : Addr → Nat
  nonces : NonceTracker

/-- shuttermint/app/types.go:81-83, a raw ed25519 key -/
abbrev ValidatorPubkey := Bytes
/-- shuttermint/app/types.go:90 -/
abbrev Powermap := List (ValidatorPubkey × Int)

/-- shuttermint/app/types.go:95-112 -/
structure State where
  configs : List BatchConfig
  batchStates : Nat → Option BatchState
  dkgMap : Nat → Option DKGInstance
  configVoting : ConfigVoting
  eonStartVotings : Nat → Option EonStartVoting
  lastBlockHeight : Nat
  identities : Addr → Option ValidatorPubkey
  startedVotes : List Addr
  validators : Powermap
  eonCounter : Nat
  devMode : Bool
  checkTxState : CheckTxState
  nonceTracker : NonceTracker
  chainID : Bytes

/-- shuttermint/app/noncetracker.go:13-19 -/
def NonceTracker.check (t : NonceTracker) (sender : Addr) (nonce : Nat) : Bool := !(t sender nonce)

/-- shuttermint/app/noncetracker.go:22-29 -/
def NonceTracker.add (t : NonceTracker) (sender : Addr) (nonce : Nat) : NonceTracker :=
  Function.update t sender (Function.update (t sender) nonce true)

/-- shuttermint/app/noncetracker.go:6-10 -/
def newNonceTracker : NonceTracker := fun _ _ => false

/-- shuttermint/app/checktx.go:13-17 with `Reset` (21-24) -/
def newCheckTxState : CheckTxState := ⟨[], fun _ => 0, newNonceTracker⟩

/-- shuttermint/app/checktx.go:21-24 -/
def CheckTxState.reset (s : CheckTxState) : CheckTxState :=
  { s with txCounts := fun _ => 0, nonces := newNonceTracker }

/-- shuttermint/app/checktx.go:27-32. Duplicates do not matter. -/
def CheckTxState.setMembers (s : CheckTxState) (members : List Addr) : CheckTxState :=
  { s with members := members }

/-- shuttermint/app/checktx.go:10 -/
def maxTxsPerBlock : Nat := 10

/-- shuttermint/app/checktx.go:37-51 -/
def CheckTxState.addTx (s : CheckTxState) (sender : Addr) (m : MessageWithNonce) : Bool × CheckTxState :=
  if s.members.length > 0 ∧ ¬ s.members.contains sender then (false, s)
  else if s.txCounts sender ≥ maxTxsPerBlock then (false, s)
  else if ! s.nonces.check sender m.randomNonce then (false, s)
  else (true, { s with
    txCounts := Function.update s.txCounts sender (s.txCounts sender + 1)
    nonces := s.nonces.add sender m.randomNonce })

/-- shuttermint/app/app.go:73-86 `NewShutterApp`; `devMode` is set by cmd/init.go:190. -/
def newApp (devMode : Bool) : State where
  configs := [BatchConfig.zero]
  batchStates := fun _ => none
  dkgMap := fun _ => none
  configVoting := ⟨[], []⟩
  eonStartVotings := fun _ => none
  lastBlockHeight := 0
  identities := fun _ => none
  startedVotes := []
  validators := []
  eonCounter := 0
  devMode := devMode
  checkTxState := newCheckTxState
  nonceTracker := newNonceTracker
  chainID := []

/-! ## Responses -/

/-- `abcitypes.ResponseDeliverTx`: `ok` is `Code == 0`. -/
structure DeliverResponse where
  ok : Bool
  events : List Event
deriving DecidableEq, Repr

/-- shuttermint/app/app.go:312-318 `makeErrorResponse` (the log text is left out) -/
def errorResponse : DeliverResponse := ⟨false, []⟩

/-! ## Config lookup -/

/-- shuttermint/app/app.go:113-120 `getConfig`: scan from the end. `none` is the panic. -/
def getConfig (configs : List BatchConfig) (batchIndex : Nat) : Option BatchConfig :=
  configs.reverse.find? (fun c => decide (c.startBatchIndex ≤ batchIndex))

/-- shuttermint/app/app.go:719-724 `LastConfig` -/
def lastConfig (s : State) : Option BatchConfig := s.configs.getLast?

/-- shuttermint/app/app.go:123-144 `checkConfig`, given the last config -/
def checkConfig (last cfg : BatchConfig) : Bool :=
  if ! cfg.ensureValid then false
  else if cfg.startBatchIndex < last.startBatchIndex then false
  else if cfg.configIndex ≤ last.configIndex then false
  else true

/-- shuttermint/app/app.go:159-167 -/
def updateCheckTxMembers (s : State) : State :=
  { s with checkTxState := s.checkTxState.setMembers (s.configs.flatMap (·.keypers)) }

/-- shuttermint/app/app.go:146-155 `addConfig`. Outer `none` panic, inner `none` error. -/
def addConfig (s : State) (cfg : BatchConfig) : Option (Option State) :=
  match lastConfig s with
  | none => none
  | some last =>
    if ! checkConfig last cfg then some none
    else some (some (updateCheckTxMembers { s with configs := s.configs ++ [cfg] }))

/-! ## Voting -/

/-- shuttermint/app/voting.go:15-17 `AddVoteForIndex`: assignment to a map entry. -/
def setVote : Votes → Addr → Nat → Votes
  | [], a, i => [(a, i)]
  | (b, j) :: vs, a, i => if b = a then (a, i) :: vs else (b, j) :: setVote vs a i

/-- `numVotes[i]` of shuttermint/app/voting.go:21-25 -/
def countVotes (votes : Votes) (i : Nat) : Nat := votes.countP (fun v => v.2 == i)

/-- shuttermint/app/voting.go:20-32 `OutcomeIndex`. Go ranges over the map `numVotes` in any order: `ord` is a
function choosing an order of its keys. -/
def outcomeIndex (ord : List Nat → List Nat) (votes : Votes) (required : Int) : Option Nat :=
  (ord (votes.map (·.2)).dedup).find? (fun i => decide (required ≤ (countVotes votes i : Int)))

/-- The loop `for i, c := range Candidates { if c == x {...} }` of configvoting.go:28-33 and eonvoting.go:17-22. -/
def candidateIndex {α : Type} [DecidableEq α] : List α → α → Option Nat
  | [], _ => none
  | c :: cs, x => if c = x then some 0 else (candidateIndex cs x).map (· + 1)

/-- shuttermint/app/configvoting.go:20-37 `AddVote`; `none` when the sender voted already. -/
def ConfigVoting.addVote (v : ConfigVoting) (sender : Addr) (bc : BatchConfig) : Option ConfigVoting :=
  if v.votes.any (fun e => e.1 == sender) then none
  else match candidateIndex v.candidates bc with
    | some i => some { v with votes := setVote v.votes sender i }
    | none => some ⟨setVote v.votes sender v.candidates.length, v.candidates ++ [bc]⟩

/-- shuttermint/app/configvoting.go:40-46 `Outcome`. Outer `none`: index out of range panic. -/
def ConfigVoting.outcome (ord : List Nat → List Nat) (v : ConfigVoting) (required : Int) :
    Option (Option BatchConfig) :=
  match outcomeIndex ord v.votes required with
  | none => some none
  | some i => match v.candidates[i]? with
    | none => none
    | some c => some (some c)

/-- shuttermint/app/eonvoting.go:15-25 `AddVote` -/
def EonStartVoting.addVote (v : EonStartVoting) (sender : Addr) (b : Nat) : EonStartVoting :=
  match candidateIndex v.candidates b with
  | some i => { v with votes := setVote v.votes sender i }
  | none => ⟨setVote v.votes sender v.candidates.length, v.candidates ++ [b]⟩

/-- shuttermint/app/eonvoting.go:28-34 `Outcome` -/
def EonStartVoting.outcome (ord : List Nat → List Nat) (v : EonStartVoting) (required : Int) :
    Option (Option Nat) :=
  match outcomeIndex ord v.votes required with
  | none => some none
  | some i => match v.candidates[i]? with
    | none => none
    | some c => some (some c)

/-! ## DKG instances (shuttermint/app/dkg.go) -/

/-- shuttermint/app/dkg.go:9-18 -/
def newDKGInstance (config : BatchConfig) (eon : Nat) : DKGInstance := ⟨config, eon, [], [], [], []⟩

/-- shuttermint/app/app.go:699-709 `ShouldStartDKG` -/
def shouldStartDKG (s : State) (config : BatchConfig) : Bool :=
  match s.dkgMap s.eonCounter with
  | none => true
  | some dkg =>
    if dkg.config.threshold ≠ config.threshold then true
    else decide (dkg.config.keypers ≠ config.keypers)

/-- shuttermint/app/app.go:711-716 `StartDKG`, returning the new eon too -/
def startDKG (s : State) (config : BatchConfig) : State × Nat :=
  let eon := s.eonCounter + 1
  ({ s with eonCounter := eon, dkgMap := Function.update s.dkgMap eon (some (newDKGInstance config eon)) }, eon)

/-- shuttermint/app/dkg.go:28-40, the checks made for one receiver -/
def receiverOk (dkg : DKGInstance) (sender receiver : Addr) : Bool :=
  if ! dkg.config.isKeyper receiver then false
  else if receiver == sender then false
  else if dkg.polyEvalsSeen.contains (sender, receiver) then false
  else true

/-- shuttermint/app/dkg.go:20-47 `RegisterPolyEvalMsg` (`none` is an error) -/
def registerPolyEval (dkg : DKGInstance) (sender : Addr) (eon : Nat) (receivers : List Addr) : Option DKGInstance :=
  if eon ≠ dkg.eon then none
  else if ! dkg.config.isKeyper sender then none
  else if ! receivers.all (receiverOk dkg sender) then none
  else some { dkg with polyEvalsSeen := receivers.map (fun r => (sender, r)) ++ dkg.polyEvalsSeen }

/-- shuttermint/app/dkg.go:50-64 -/
def registerPolyCommitment (dkg : DKGInstance) (sender : Addr) (eon : Nat) : Option DKGInstance :=
  if eon ≠ dkg.eon then none
  else if ! dkg.config.isKeyper sender then none
  else if dkg.polyCommitmentsSeen.contains sender then none
  else some { dkg with polyCommitmentsSeen := sender :: dkg.polyCommitmentsSeen }

/-- shuttermint/app/dkg.go:67-90 -/
def registerAccusation (dkg : DKGInstance) (sender : Addr) (eon : Nat) (accused : List Addr) : Option DKGInstance :=
  if eon ≠ dkg.eon then none
  else if ! dkg.config.isKeyper sender then none
  else if ! accused.all (fun a => dkg.config.isKeyper a && !(sender == a)) then none
  else if dkg.accusationsSeen.contains sender then none
  else some { dkg with accusationsSeen := sender :: dkg.accusationsSeen }

/-- shuttermint/app/dkg.go:93-116 -/
def registerApology (dkg : DKGInstance) (sender : Addr) (eon : Nat) (accusers : List Addr) : Option DKGInstance :=
  if eon ≠ dkg.eon then none
  else if ! dkg.config.isKeyper sender then none
  else if ! accusers.all (fun a => dkg.config.isKeyper a && !(sender == a)) then none
  else if dkg.apologiesSeen.contains sender then none
  else some { dkg with apologiesSeen := sender :: dkg.apologiesSeen }

/-! ## Message parsing (shuttermint/app/messages.go) -/

/-- shuttermint/app/messages.go:15-25 `validateAddress` over a list of addresses -/
def validateAddresses (bs : List Bytes) : Option (List Addr) :=
  if bs.all (fun b => decide (b.length = 20)) then some bs else none

/-- validate all addresses and check uniqueness (messages.go:33-44, 73-84, 98-112) -/
def parseAddresses (bs : List Bytes) : Option (List Addr) :=
  match validateAddresses bs with
  | none => none
  | some as => if ensureUniqueAddresses as then some as else none

/-- `new(big.Int).SetBytes` -/
def bigOfBytes (b : Bytes) : Nat := b.foldl (fun acc x => acc * 256 + x.toNat) 0

/-- shuttermint/keyper/shutterevents/batchconfig.go:43-75 `BatchConfigFromMessage` -/
def batchConfigFromMessage (m : BatchConfigMsg) : Option BatchConfig :=
  match parseAddresses m.keypers with
  | none => none
  | some ks =>
    if m.configContractAddress.length ≠ 20 then none
    else some ⟨m.startBatchIndex, ks, m.threshold, m.configContractAddress, m.configIndex, m.started,
      m.validatorsUpdated⟩

/-! ## Handlers. Result: `none` panic, else new state and response. -/

/-- shuttermint/app/app.go:331-385 `deliverBatchConfig` -/
def deliverBatchConfig (ord : List Nat → List Nat) (s : State) (m : BatchConfigMsg) (sender : Addr) :
    Option (State × DeliverResponse) :=
  match batchConfigFromMessage m with
  | none => some (s, errorResponse)
  | some bc =>
    match lastConfig s with
    | none => none
    | some last =>
      if last = bc then some (s, ⟨true, []⟩)
      else if ! checkConfig last bc then some (s, errorResponse)
      else if ! last.isKeyper sender then some (s, errorResponse)
      else match s.configVoting.addVote sender bc with
        | none => some (s, errorResponse)
        | some cv =>
          match cv.outcome ord (toInt64 last.threshold) with
          | none => none
          | some none => some ({ s with configVoting := cv }, ⟨true, []⟩)
          | some (some _) =>
            match addConfig { s with configVoting := ⟨[], []⟩ } bc with
            | none => none
            | some none => some ({ s with configVoting := ⟨[], []⟩ }, errorResponse)
            | some (some s₁) =>
              let ev := Event.batchConfig bc.startBatchIndex bc.threshold bc.keypers bc.configIndex
              if shouldStartDKG s₁ bc then
                match lastConfig (startDKG s₁ bc).1 with
                | none => none
                | some last' =>
                  some ((startDKG s₁ bc).1,
                    ⟨true, [ev, Event.eonStarted (startDKG s₁ bc).2 last'.startBatchIndex]⟩)
              else some (s₁, ⟨true, [ev]⟩)

/-- shuttermint/app/app.go:388-396 -/
def isKeyper (s : State) (a : Addr) : Bool := s.configs.any (fun c => c.isKeyper a)

/-- shuttermint/app/app.go:398-430 `deliverCheckIn` -/
def deliverCheckIn (ps : Parsers) (s : State) (vk ek : Bytes) (sender : Addr) : State × DeliverResponse :=
  if (s.identities sender).isSome then (s, errorResponse)
  else if ! isKeyper s sender then (s, errorResponse)
  else if vk.length ≠ 32 then (s, errorResponse)
  else match ps.pubkey ek with
    | none => (s, errorResponse)
    | some pk => ({ s with identities := Function.update s.identities sender (some vk) },
        ⟨true, [Event.checkIn sender pk]⟩)

/-- shuttermint/app/app.go:432-456 `deliverBatchConfigStarted` -/
def deliverBatchConfigStarted (s : State) (configIndex : Nat) (sender : Addr) : Option (State × DeliverResponse) :=
  match lastConfig s with
  | none => none
  | some last =>
    if configIndex ≠ last.configIndex then some (s, errorResponse)
    else if s.configs.length ≤ 1 then some (s, errorResponse)
    else match s.configs[s.configs.length - 2]? with
      | none => none
      | some prev =>
        if ! prev.isKeyper sender then some (s, errorResponse)
        else if ! last.started then
          some ({ s with startedVotes := if s.startedVotes.contains sender then s.startedVotes
                                          else s.startedVotes ++ [sender] }, ⟨true, []⟩)
        else some (s, ⟨true, []⟩)

/-- shuttermint/app/app.go:483-490 `countEonStartVote`: the voting of the config after the vote -/
def countEonStartVote (s : State) (sender : Addr) (config : BatchConfig) (b : Nat) : EonStartVoting :=
  ((s.eonStartVotings config.configIndex).getD ⟨[], []⟩).addVote sender b

/-- shuttermint/app/app.go:458-481 `deliverEonStartVoteMsg` with `maybeStartEon` (492-507) -/
def deliverEonStartVote (ord : List Nat → List Nat) (s : State) (b : Nat) (sender : Addr) :
    Option (State × DeliverResponse) :=
  match getConfig s.configs b with
  | none => none
  | some config =>
    if ! config.isKeyper sender then some (s, errorResponse)
    else
      let v := countEonStartVote s sender config b
      match v.outcome ord (toInt64 config.threshold) with
      | none => none
      | some none =>
        some ({ s with eonStartVotings := Function.update s.eonStartVotings config.configIndex (some v) }, ⟨true, []⟩)
      | some (some start) =>
        let s₁ : State := { s with eonStartVotings := Function.update s.eonStartVotings config.configIndex none }
        some ((startDKG s₁ config).1, ⟨true, [Event.eonStarted (startDKG s₁ config).2 start]⟩)

/-- shuttermint/app/app.go:170-178 `getBatchState` -/
def getBatchState (s : State) (batchIndex : Nat) : Option BatchState :=
  match s.batchStates batchIndex with
  | some bs => some bs
  | none => match getConfig s.configs batchIndex with
    | none => none
    | some c => some ⟨batchIndex, c, []⟩

/-- shuttermint/app/batch_state.go:6-20 `AddDecryptionSignature` -/
def BatchState.addDecryptionSignature (bs : BatchState) (sender : Addr) (sig : Bytes) : Option BatchState :=
  if ! bs.config.isKeyper sender then none
  else if bs.decryptionSignatures.any (fun d => d.1 == sender) then none
  else some { bs with decryptionSignatures := bs.decryptionSignatures ++ [(sender, sig)] }

/-- shuttermint/app/app.go:509-528 `deliverDecryptionSignature` -/
def deliverDecryptionSignature (s : State) (batchIndex : Nat) (sig : Bytes) (sender : Addr) :
    Option (State × DeliverResponse) :=
  match getBatchState s batchIndex with
  | none => none
  | some bs => match bs.addDecryptionSignature sender sig with
    | none => some (s, errorResponse)
    | some bs' => some ({ s with batchStates := Function.update s.batchStates batchIndex (some bs') },
        ⟨true, [Event.decryptionSignature batchIndex sender sig]⟩)

/-- shuttermint/app/app.go:530-557, 559-586, 588-615, 617-644: the common shape of the four DKG handlers after
parsing: look up the instance, register, publish. -/
def registerDKG (s : State) (eon : Nat) (register : DKGInstance → Option DKGInstance) (ev : Event) :
    State × DeliverResponse :=
  match s.dkgMap eon with
  | none => (s, errorResponse)
  | some dkg => match register dkg with
    | none => (s, errorResponse)
    | some dkg' => ({ s with dkgMap := Function.update s.dkgMap eon (some dkg') }, ⟨true, [ev]⟩)

/-- shuttermint/app/app.go:530-557 with `ParsePolyEvalMsg` (messages.go:28-53) -/
def handlePolyEval (s : State) (eon : Nat) (receivers evals : List Bytes) (sender : Addr) : State × DeliverResponse :=
  if receivers.length ≠ evals.length then (s, errorResponse)
  else match parseAddresses receivers with
    | none => (s, errorResponse)
    | some rs => registerDKG s eon (fun d => registerPolyEval d sender eon rs) (.polyEval sender eon rs evals)

/-- shuttermint/app/app.go:559-586 with `ParsePolyCommitmentMsg` (messages.go:56-71) -/
def handlePolyCommitment (ps : Parsers) (s : State) (eon : Nat) (gammas : List Bytes) (sender : Addr) :
    State × DeliverResponse :=
  match gammas.mapM ps.g2 with
  | none => (s, errorResponse)
  | some gs => registerDKG s eon (fun d => registerPolyCommitment d sender eon) (.polyCommitment sender eon gs)

/-- shuttermint/app/app.go:588-615 with `ParseAccusationMsg` (messages.go:74-93) -/
def handleAccusation (s : State) (eon : Nat) (accused : List Bytes) (sender : Addr) : State × DeliverResponse :=
  match parseAddresses accused with
  | none => (s, errorResponse)
  | some as => registerDKG s eon (fun d => registerAccusation d sender eon as) (.accusation sender eon as)

/-- shuttermint/app/app.go:617-644 with `ParseApologyMsg` (messages.go:96-127) -/
def handleApology (s : State) (eon : Nat) (accusers evals : List Bytes) (sender : Addr) : State × DeliverResponse :=
  if accusers.length ≠ evals.length then (s, errorResponse)
  else match parseAddresses accusers with
    | none => (s, errorResponse)
    | some as => registerDKG s eon (fun d => registerApology d sender eon as)
        (.apology sender eon as (evals.map bigOfBytes))

/-- shuttermint/app/app.go:646-659 with `ParseEpochSecretKeyShareMsg` (messages.go:130-143) -/
def handleEpochSecretKeyShare (ps : Parsers) (s : State) (eon epoch : Nat) (share : Bytes) (sender : Addr) :
    State × DeliverResponse :=
  match ps.share share with
  | none => (s, errorResponse)
  | some sh => (s, ⟨true, [.epochSecretKeyShare sender eon epoch sh]⟩)

/-- shuttermint/app/app.go:661-695 `deliverMessage` -/
def deliverMessage (ps : Parsers) (ord : List Nat → List Nat) (s : State) (m : Msg) (sender : Addr) :
    Option (State × DeliverResponse) :=
  match m with
  | .batchConfig m => deliverBatchConfig ord s m sender
  | .batchConfigStarted i => deliverBatchConfigStarted s i sender
  | .checkIn vk ek => some (deliverCheckIn ps s vk ek sender)
  | .eonStartVote b => deliverEonStartVote ord s b sender
  | .decryptionSignature b sig => deliverDecryptionSignature s b sig sender
  | .polyEval eon rs es => some (handlePolyEval s eon rs es sender)
  | .polyCommitment eon gs => some (handlePolyCommitment ps s eon gs sender)
  | .accusation eon as => some (handleAccusation s eon as sender)
  | .apology eon as es => some (handleApology s eon as es sender)
  | .epochSecretKeyShare eon epoch sh => some (handleEpochSecretKeyShare ps s eon epoch sh sender)
  | .unknown => some (s, errorResponse)

/-- shuttermint/app/app.go:294-310 `DeliverTx` -/
def deliverTx (ps : Parsers) (ord : List Nat → List Nat) (s : State) (tx : Tx) : Option (State × DeliverResponse) :=
  match tx with
  | none => some (s, errorResponse)
  | some (signer, m) =>
    if m.chainId ≠ s.chainID then some (s, errorResponse)
    else if ! s.nonceTracker.check signer m.randomNonce then some (s, errorResponse)
    else deliverMessage ps ord { s with nonceTracker := s.nonceTracker.add signer m.randomNonce } m.msg signer

/-- shuttermint/app/app.go:55-70 `CheckTx`; the Boolean is `Code == 0`. -/
def checkTx (s : State) (tx : Tx) : State × Bool :=
  match tx with
  | none => (s, false)
  | some (signer, m) =>
    if m.chainId ≠ s.chainID then (s, false)
    else if ! s.nonceTracker.check signer m.randomNonce then (s, false)
    else ({ s with checkTxState := (s.checkTxState.addTx signer m).2 }, (s.checkTxState.addTx signer m).1)

/-! ## Validators (shuttermint/app/powermap.go) -/

/-- `pm[k]` (zero when absent) -/
def Powermap.get (pm : Powermap) (k : ValidatorPubkey) : Int := (pm.lookup k).getD 0

/-- `pm[k] = p` -/
def Powermap.set : Powermap → ValidatorPubkey → Int → Powermap
  | [], k, p => [(k, p)]
  | (j, q) :: pm, k, p => if j = k then (k, p) :: pm else (j, q) :: Powermap.set pm k p

/-- shuttermint/app/app.go:41-45 `NonExistentValidator` -/
def nonExistentValidator : ValidatorPubkey :=
  "novalidator".toUTF8.data.toList ++ List.replicate 21 0

/-- shuttermint/app/app.go:728-739 `makePowermap` -/
def makePowermap (identities : Addr → Option ValidatorPubkey) (keypers : List Addr) : Powermap :=
  keypers.foldl (fun pm k =>
    let pk := (identities k).getD nonExistentValidator
    pm.set pk (pm.get pk + 10)) []

/-- shuttermint/app/powermap.go:13-27 `MakePowermap`: the genesis validators given by Tendermint; a missing or
malformed ed25519 key is an error. -/
def genesisPowermap : List (Option Bytes × Int) → Powermap → Option Powermap
  | [], pm => some pm
  | (none, _) :: _, _ => none
  | (some k, p) :: vs, pm => if k.length ≠ 32 then none else genesisPowermap vs (pm.set k (pm.get k + p))

/-- shuttermint/app/powermap.go:39-58 `DiffPowermaps`. The two arguments may list the entries in any order. -/
def diffPowermaps (oldpm newpm : Powermap) : Powermap :=
  let removed := oldpm.foldl (fun res e => if (newpm.lookup e.1).isSome then res else Powermap.set res e.1 0) ([] : Powermap)
  newpm.foldl (fun res e => if oldpm.get e.1 ≠ e.2 then Powermap.set res e.1 e.2 else res) removed

/-- `bytes.Compare(a, b) <= 0` -/
def bytesLe : Bytes → Bytes → Bool
  | [], _ => true
  | _ :: _, [] => false
  | a :: as, b :: bs => if a < b then true else if a = b then bytesLe as bs else false

/-- shuttermint/app/powermap.go:31-35, 61-71: the entries in map order (`ord`), then sorted by key. -/
def validatorUpdates (ord : Powermap → Powermap) (pm : Powermap) : Powermap :=
  (ord pm).insertionSort (fun a b => bytesLe a.1 b.1 = true)

/-- shuttermint/app/app.go:742-749 `CurrentValidators` -/
def currentValidators (s : State) : Powermap :=
  match s.configs.reverse.find? (fun c => c.started && c.validatorsUpdated) with
  | some c => makePowermap s.identities c.keypers
  | none => s.validators

/-- shuttermint/app/app.go:752-761 -/
def countCheckedInKeypers (s : State) (keypers : List Addr) : Nat :=
  keypers.countP (fun k => (s.identities k).isSome)

/-- The three map iteration orders used while processing a request. -/
structure Orders where
  idx : List Nat → List Nat
  updates : Powermap → Powermap
  old : Powermap → Powermap
  new : Powermap → Powermap

/-- shuttermint/app/app.go:767-775: start the last config if there are enough votes -/
def maybeStartConfig (s : State) (last : BatchConfig) : Option (State × BatchConfig) :=
  if s.configs.length ≥ 2 then
    match s.configs[s.configs.length - 2]? with
    | none => none
    | some current =>
      if s.startedVotes.length ≥ current.threshold then
        some ({ s with configs := s.configs.dropLast ++ [{ last with started := true }], startedVotes := [] },
          { last with started := true })
      else some (s, last)
  else some (s, last)

/-- shuttermint/app/app.go:777-779 -/
def maybeUpdateValidators (s : State) (last : BatchConfig) : State :=
  if last.started && !last.validatorsUpdated && decide (countCheckedInKeypers s last.keypers ≥ last.threshold) then
    { s with configs := s.configs.dropLast ++ [{ last with validatorsUpdated := true }] }
  else s

/-- shuttermint/app/app.go:763-794 `EndBlock`, returning the validator updates -/
def endBlock (o : Orders) (s : State) (height : Nat) : Option (State × Powermap) :=
  match lastConfig s with
  | none => none
  | some last => match maybeStartConfig s last with
    | none => none
    | some (s₁, last₁) =>
      let s₂ := maybeUpdateValidators s₁ last₁
      let newValidators := currentValidators s₂
      let ups := validatorUpdates o.updates (diffPowermaps (o.old s₂.validators) (o.new newValidators))
      let s₃ := { s₂ with validators := newValidators, lastBlockHeight := height }
      if s₃.devMode then some (s₃, []) else some (s₃, ups)

/-- shuttermint/app/app.go:837-846 `Commit` (persisting is separate) -/
def commit (s : State) : State := { s with checkTxState := s.checkTxState.reset }

/-- The genesis request: keypers and threshold of the app state, validators, chain id. `none` for an app state
that does not unmarshal. -/
structure InitRequest where
  genesis : Option (List Addr × Nat)
  validators : List (Option Bytes × Int)
  chainId : Bytes

/-- shuttermint/app/app.go:229-267 `InitChain`; `none` is `log.Fatalf`. -/
def initChain (s : State) (req : InitRequest) : Option State :=
  match req.genesis with
  | none => none
  | some (keypers, threshold) =>
    let bc : BatchConfig := ⟨0, keypers, threshold, zeroAddr, 0, false, false⟩
    if ! bc.ensureValid then none
    else match s.configs with
      | [] => none -- `app.Configs[0]` panics
      | c :: rest =>
        if rest.length = 0 ∧ c.keypers.length = 0 then
          match genesisPowermap req.validators [] with
          | none => none
          | some pm =>
            let s₁ : State := { s with validators := pm, configs := [bc], checkTxState := newCheckTxState }
            some { updateCheckTxMembers s₁ with chainID := req.chainId }
        else if bc ≠ c then none
        else some { s with chainID := req.chainId }

/-! ## Requests and executions -/

inductive Op where
  | initChain (req : InitRequest)
  | checkTx (tx : Tx)
  | deliverTx (tx : Tx)
  | endBlock (height : Nat)
  | commit

inductive Resp where
  | none
  | checkTx (ok : Bool)
  | deliverTx (r : DeliverResponse)
  | endBlock (updates : Powermap)
deriving DecidableEq

/-- One ABCI call. The Go methods are called one at a time (Tendermint serialises them with a mutex). -/
def step (ps : Parsers) (o : Orders) (s : State) : Op → Option (State × Resp)
  | .initChain req => (initChain s req).map (fun s' => (s', Resp.none))
  | .checkTx tx => some ((checkTx s tx).1, .checkTx (checkTx s tx).2)
  | .deliverTx tx => (deliverTx ps o.idx s tx).map (fun p => (p.1, .deliverTx p.2))
  | .endBlock h => (endBlock o s h).map (fun p => (p.1, .endBlock p.2))
  | .commit => some (commit s, .none)

end Shutter.App
