import Verif.Model.DecideDkg

/-!
# shuttermint/keyper/decide.go, second part: epoch keys, decryption, execution, appeals; a step of the keyper

A Go panic or `log.Fatal` is `none`. The maps of the keyper's state are association lists; what the code does with them does
not depend on the order, except for the order of the actions. Go ranges over the map of accusations in an arbitrary
order: it is an input of a step. Numbers of the main chain are `uint64` and wrap around. Ethereum addresses are numbers in the
main chain model and 20 bytes in the shuttermint model.
-/

namespace Shutter.Decide
open Shutter.Crypto Shutter.Dkg Shutter.Observe Shutter.Main Shutter.GoConfig
open Shutter.App (Addr findAddressIndex)
open Shutter.Sol (BatchConfig zeroHash)
open Shutter.Sol.World (beBytes)

/-- The address as a number. -/
def addrNat (a : Addr) : Sol.Address := beNat a

/-- decide.go:37-45 `Batch` -/
structure Batch where
  batchIndex : Nat
  decryptionSignatureHash : Bytes
  decryptedTransactions : List Bytes
  decryptedBatchHash : Bytes
  decryptionSignatureIndex : Nat
  verifiedSignatures : List (Sol.Address × Bytes)
  isEmpty : Bool
deriving DecidableEq

/-- decide.go:247-266 `State`; the actions and their counter are in `Verif.Model.Actions`. -/
structure State (G1 G2 : Type) where
  checkInMessageSent : Bool
  lastSentBatchConfigIndex : Nat
  lastEonStarted : Nat
  dkgs : List (DKG G2)
  ekgs : List (EKG G1 G2)
  pendingHalfStep : Option Nat
  pendingAppeals : List Nat
  nextEpochSecretShare : Nat
  batches : List (Nat × Batch)
  halfStepsChecked : Nat
  syncHeight : Int

/-- decide.go:269-274 `NewState` -/
def State.new (G1 G2 : Type) : State G1 G2 := ⟨false, 0, 0, [], [], none, [], 0, [], 0, 0⟩

/-- Store in a map. -/
def mapSet {β : Type} (m : List (Nat × β)) (k : Nat) (v : β) : List (Nat × β) := m.filter (fun x => x.1 != k) ++ [(k, v)]

/-- decide.go:277-282 `GetShutterFilter` -/
def State.filter {G1 G2 : Type} (st : State G1 G2) (mc : MainChain) : Filter := ⟨st.syncHeight, mc.numHalfSteps / 2⟩

/-- decide.go:287-294 `Decider`: the state and the actions so far -/
structure Decider (G1 G2 : Type) where
  st : State G1 G2
  actions : List (Action G1 G2)

section
variable {G1 G2 GT R : Type}

def Decider.add (d : Decider G1 G2) (a : Action G1 G2) : Decider G1 G2 := { d with actions := d.actions ++ [a] }

/-- decide.go:335-356 `shouldSendCheckIn`, `maybeSendCheckIn` -/
def maybeSendCheckIn (cx : Cfg G1 G2 GT R) (sh : Observe.Shutter) (d : Decider G1 G2) : Decider G1 G2 :=
  if d.st.checkInMessageSent then d
  else if isCheckedIn sh cx.own then d
  else if isKeyper sh cx.own then { (d.add .checkIn) with
    st := { d.st with checkInMessageSent := true } }
  else d

/-- decide.go:358-386 `maybeSendBatchConfig` -/
def maybeSendBatchConfig (sh : Observe.Shutter) (mc : MainChain) (d : Decider G1 G2) : Decider G1 G2 :=
  match (Observe.configs sh).getLast? with
  | none => d
  | some last =>
    let configIndex := wadd 1 last.configIndex
    if configIndex ≤ d.st.lastSentBatchConfigIndex then d
    else match mc.configs[configIndex]? with
      | none => d
      | some bc => { (d.add (.batchConfig bc.startBatchIndex (bc.keypers.map (beBytes · 20)) bc.threshold configIndex)) with
          st := { d.st with lastSentBatchConfigIndex := configIndex } }

/-! ## Epoch keys -/

/-- decide.go:310-317 `FindEKGByEon` -/
def findEKG (st : State G1 G2) (eon : Nat) : Option (EKG G1 G2) := st.ekgs.find? (fun e => e.eon == eon)

/-- decide.go:811-818 `executionTimeoutReachedOrInactive`; `none` is a panic -/
def executionTimeoutReachedOrInactive (mc : MainChain) (batchIndex : Nat) : Option Bool := do
  match ← configForBatchIndex mc batchIndex with
  | none => some true
  | some config =>
    let endBlock ← batchEndBlock config batchIndex
    let timeout := wadd endBlock config.executionTimeout
    some (decide (mc.currentBlock ≥ wadd timeout (Sol.two64 - 1)))

/-- decide.go:676-691 `transactionsHash` -/
def transactionsHash (cx : Cfg G1 G2 GT R) (txs : List Bytes) : Bytes :=
  txs.foldl (fun hash tx => (cx.crypto.keccak (tx ++ hash)).toBytes) (List.replicate 32 0)

/-- decide.go:693-721 `computeDecryptionSignatureHash` -/
def decryptionSignatureHash (cx : Cfg G1 G2 GT R) (batchIndex : Nat) (cipherBatchHash batchHash : Bytes) : Bytes :=
  (cx.crypto.keccak ([0x19, 0x64, 0x65, 0x63, 0x74, 0x78] ++ beBytes cx.batcher 20 ++ be8 batchIndex ++ cipherBatchHash ++
    batchHash)).toBytes

section
variable [AddCommGroup G2] [DecidableEq G2]

/-- decide.go:723-745 `decryptTransactions` -/
def decryptBatch (cx : Cfg G1 G2 GT R) (mc : MainChain) (key : G1) (batchIndex : Nat) (d : Decider G1 G2) : Decider G1 G2 :=
  let batch := (mc.batches batchIndex).getD Main.Batch.empty
  let txs := Crypto.decryptTransactions cx.crypto cx.codec cx.marshalKey cx.newSource cx.next batch.encryptedTransactions key
  let hash := transactionsHash cx txs
  { d with st := { d.st with
    batches := mapSet d.st.batches batchIndex
      { batchIndex := batchIndex
        decryptionSignatureHash := decryptionSignatureHash cx batchIndex batch.encryptedBatchHash hash
        decryptedTransactions := txs
        decryptedBatchHash := hash
        decryptionSignatureIndex := 0
        verifiedSignatures := []
        isEmpty := batch.encryptedBatchHash == zeroHash } } }

end

/-- decide.go:852-870: the loop of `syncBatch` over the signatures not looked at yet -/
def syncSignatures (cx : Cfg G1 G2 GT R) (config : BatchConfig) : Batch → List Stamped → Batch
  | b, [] => b
  | b, x :: xs =>
    match x.ev with
    | .decryptionSignature _ sender signature =>
      let a := addrNat sender
      if (keyperIndex config a).isNone then syncSignatures cx config b xs
      else if (b.verifiedSignatures.lookup a).isSome then syncSignatures cx config b xs
      else if cx.goRecover b.decryptionSignatureHash signature ≠ some a then syncSignatures cx config b xs
      else
        let b' := { b with verifiedSignatures := b.verifiedSignatures ++ [(a, signature)] }
        if b'.verifiedSignatures.length ≥ config.threshold then b' else syncSignatures cx config b' xs
    | _ => syncSignatures cx config b xs

/-- decide.go:835-876 `syncBatch` -/
def syncBatch (cx : Cfg G1 G2 GT R) (sh : Observe.Shutter) (mc : MainChain) (b : Batch) : Option Batch :=
  match sh.batches b.batchIndex with
  | none => some b
  | some sigs =>
    match configForBatchIndex mc b.batchIndex with
    | none => none
    | some none => none
    | some (some config) =>
      if b.isEmpty then some b
      else some { syncSignatures cx config b (sigs.drop b.decryptionSignatureIndex) with
        decryptionSignatureIndex := sigs.length }

/-- decide.go:747-774 `sendDecryptionSignature` -/
def sendDecryptionSignature (cx : Cfg G1 G2 GT R) (sh : Observe.Shutter) (mc : MainChain) (batchIndex : Nat) (d : Decider G1 G2) :
    Option (Decider G1 G2) :=
  match d.st.batches.lookup batchIndex with
  | none => some d
  | some b => do
    let b ← syncBatch cx sh mc b
    let config ← (← configForBatchIndex mc batchIndex)
    let d := { d with st := { d.st with batches := mapSet d.st.batches batchIndex b } }
    if b.verifiedSignatures.length < config.threshold ∧ b.isEmpty = false then
      some (d.add (.decryptionSignature batchIndex (cx.sign b.decryptionSignatureHash)))
    else some d

section
variable [AddCommGroup G1] [AddCommGroup G2] [DecidableEq G2] [DecidableEq GT]

/-- decide.go:641-669, one round of the loop of `syncEKGWithEon` -/
def handleShareEvent (cx : Cfg G1 G2 GT R) (sh : Observe.Shutter) (mc : MainChain) (ekg : EKG G1 G2) (d : Decider G1 G2) (x : Stamped) :
    Option (EKG G1 G2 × Decider G1 G2) :=
  match x.ev with
  | .epochSecretKeyShare sender eon epoch share =>
    match findAddressIndex ekg.keypers sender with
    | none => some (ekg, d)
    | some i =>
      if (ekg.kg.secretKeys epoch).isSome then some (ekg, d)
      else do
        let (kg, ok) ← ekg.kg.handleShare cx.crypto ⟨eon, epoch, i, cx.share share⟩
        let ekg := { ekg with kg := kg }
        if ok = false then some (ekg, d)
        else match kg.secretKeys epoch with
          | some (some key) =>
            let d := decryptBatch cx mc key epoch d
            if (← executionTimeoutReachedOrInactive mc epoch) then some (ekg, d)
            else (sendDecryptionSignature cx sh mc epoch d).map (fun d => (ekg, d))
          | _ => some (ekg, d)
  | _ => some (ekg, d)

/-- decide.go:639-670 `syncEKGWithEon`: the loop -/
def syncEKGWithEon (cx : Cfg G1 G2 GT R) (sh : Observe.Shutter) (mc : MainChain) :
    EKG G1 G2 → Decider G1 G2 → List Stamped → Option (EKG G1 G2 × Decider G1 G2)
  | ekg, d, [] => some (ekg, d)
  | ekg, d, x :: xs => do
    let (ekg, d) ← handleShareEvent cx sh mc ekg d x
    syncEKGWithEon cx sh mc ekg d xs

/-- decide.go:776-784 `syncEKGs`: the loop over the EKGs -/
def syncEKGs (cx : Cfg G1 G2 GT R) (sh : Observe.Shutter) (mc : MainChain) :
    List (EKG G1 G2) → Decider G1 G2 → Option (List (EKG G1 G2) × Decider G1 G2)
  | [], d => some ([], d)
  | ekg :: rest, d => do
    let eon ← findEon sh ekg.eon
    let (ekg, d) ← syncEKGWithEon cx sh mc ekg d (eon.getEpochSecretKeyShares d.st.syncHeight)
    let (rest, d) ← syncEKGs cx sh mc rest d
    some (ekg :: rest, d)

omit [AddCommGroup G2] [DecidableEq G2] [DecidableEq GT] in
/-- decide.go:618-637 `publishEpochSecretKeyShare`, with `sendEpochSecretKeyShare` (825-833) -/
def publishEpochSecretKeyShare (cx : Cfg G1 G2 GT R) (sh : Observe.Shutter) (batchIndex : Nat) (d : Decider G1 G2) : Decider G1 G2 :=
  if !(findBatchConfigByBatchIndex sh batchIndex).keypers.any (fun k => k == cx.own) then d
  else match findEonByBatchIndex sh batchIndex with
    | none => d
    | some eon =>
      match findEKG d.st eon.eon with
      | none => d
      | some ekg =>
        if (ekg.kg.secretKeys batchIndex).isSome then d
        else d.add (.epochSecretKeyShare ekg.kg.eon batchIndex (ekg.kg.computeShare cx.crypto batchIndex))

omit [AddCommGroup G2] [DecidableEq G2] [DecidableEq GT] in
/-- decide.go:800-805, one round of the loop of `publishEpochSecretKeyShares` -/
def publishStep (cx : Cfg G1 G2 GT R) (sh : Observe.Shutter) (mc : MainChain) (d : Decider G1 G2) (batchIndex : Nat) :
    Option (Decider G1 G2) :=
  (executionTimeoutReachedOrInactive mc batchIndex).map (fun t => if t then d else publishEpochSecretKeyShare cx sh batchIndex d)

omit [AddCommGroup G2] [DecidableEq G2] [DecidableEq GT] in
/-- decide.go:786-807 `publishEpochSecretKeyShares` -/
def publishEpochSecretKeyShares (cx : Cfg G1 G2 GT R) (sh : Observe.Shutter) (mc : MainChain) (d : Decider G1 G2) : Option (Decider G1 G2) := do
  let i ← activeConfigIndex mc mc.currentBlock
  let bc ← mc.configs[i]?
  match findBatchConfigByConfigIndex sh i with
  | none => some d
  | some _ =>
    let current ← batchIndex bc mc.currentBlock
    let d ← (List.range' d.st.nextEpochSecretShare (current - d.st.nextEpochSecretShare)).foldlM (publishStep cx sh mc) d
    some { d with st := { d.st with nextEpochSecretShare := current } }

/-- decide.go:820-823 `handleEpochKG` -/
def handleEpochKG (cx : Cfg G1 G2 GT R) (sh : Observe.Shutter) (mc : MainChain) (d : Decider G1 G2) : Option (Decider G1 G2) := do
  let (ekgs, d) ← syncEKGs cx sh mc d.st.ekgs d
  publishEpochSecretKeyShares cx sh mc { d with st := { d.st with ekgs := ekgs } }

end

/-- decide.go:878-882 `handleDecryptionSignatures` -/
def handleDecryptionSignatures (cx : Cfg G1 G2 GT R) (sh : Observe.Shutter) (mc : MainChain) (d : Decider G1 G2) : Option (Decider G1 G2) :=
  (d.st.batches.mapM (fun e => (syncBatch cx sh mc e.2).map (fun b => (e.1, b)))).map
    (fun bs => { d with st := { d.st with batches := bs } })

/-! ## Execution -/

/-- decide.go:920-929 `getNumHalfStepsToExecute`; 32 `maxParallelHalfSteps` -/
def numHalfStepsToExecute (nextHalfStep batchIndex : Nat) : Nat :=
  if nextHalfStep ≥ wmul batchIndex 2 then 0
  else if wmul batchIndex 2 - nextHalfStep ≤ 10 then wmul batchIndex 2 - nextHalfStep
  else 10

/-- decide.go:1164-1186 `executionDelay`; `none` is a division by zero. -/
def executionDelay (cx : Cfg G1 G2 GT R) (config : BatchConfig) (halfStep : Nat) : Option Nat :=
  let divisor := (config.keypers.length + (Sol.two64 - 1)) % Sol.two64
  let maxStaggering := if divisor = 0 then some 0
    else if wmul 2 divisor = 0 then none
    else some (config.executionTimeout / wmul 2 divisor)
  maxStaggering.bind fun maxStaggering =>
    let staggering := if cx.staggering ≥ maxStaggering then maxStaggering else cx.staggering
    let i := (keyperIndex config (addrNat cx.own)).getD 0
    if config.keypers.length = 0 then none
    else some (wmul (wadd halfStep i % config.keypers.length) staggering)

/-- decide.go:931-959 `executeCipherBatch`; the outer `none` is `log.Fatal`. -/
def executeCipherBatch (cx : Cfg G1 G2 GT R) (mc : MainChain) (st : State G1 G2) (batchIndex : Nat) (config : BatchConfig) :
    Option (Option (Action G1 G2)) :=
  let batch := (mc.batches batchIndex).getD Main.Batch.empty
  match keyperIndex config (addrNat cx.own) with
  | none => none
  | some i =>
    match st.batches.lookup batchIndex with
    | none => some none
    | some b =>
      if b.isEmpty = false ∧ b.verifiedSignatures.length < config.threshold then some none
      else some (some (.executeCipherBatch batchIndex batch.encryptedBatchHash b.decryptedTransactions i config.transactionGasLimit))

/-- decide.go:961-971 `executePlainBatch` -/
def executePlainBatch (mc : MainChain) (batchIndex : Nat) (config : BatchConfig) : Action G1 G2 :=
  .executePlainBatch batchIndex ((mc.batches batchIndex).getD Main.Batch.empty).plainTransactions config.transactionGasLimit

/-- decide.go:973-1009 `maybeExecuteHalfStep`; the outer `none` is a panic. -/
def maybeExecuteHalfStep (cx : Cfg G1 G2 GT R) (mc : MainChain) (st : State G1 G2) (halfStep : Nat) :
    Option (Option (Action G1 G2)) :=
  match configForBatchIndex mc (halfStep / 2) with
  | none => none
  | some none => some none
  | some (some config) => do
    let delay ← executionDelay cx config halfStep
    let endBlock ← batchEndBlock config (halfStep / 2)
    let executionBlock := wadd endBlock delay
    let timeoutBlock := wadd endBlock config.executionTimeout
    if halfStep % 2 = 0 ∧ mc.currentBlock ≥ timeoutBlock then
      if mc.currentBlock ≥ wadd timeoutBlock delay then some (some (.skipCipherBatch (halfStep / 2)))
      else some none
    else if (keyperIndex config (addrNat cx.own)).isNone then some none
    else if mc.currentBlock ≥ executionBlock then
      if halfStep % 2 = 0 then executeCipherBatch cx mc st (halfStep / 2) config
      else some (some (executePlainBatch mc (halfStep / 2) config))
    else some none

/-- decide.go:905-914: the loop of `maybeExecuteBatch` -/
def executeLoop (cx : Cfg G1 G2 GT R) (mc : MainChain) : Nat → Nat → Decider G1 G2 → Option (Decider G1 G2)
  | 0, _, d => some d
  | n + 1, halfStep, d =>
    match maybeExecuteHalfStep cx mc d.st halfStep with
    | none => none
    | some none => some d
    | some (some a) => executeLoop cx mc n (halfStep + 1) { (d.add a) with
        st := { d.st with pendingHalfStep := some halfStep } }

/-- decide.go:892-898: a pending half step that the chain has passed is not pending any more -/
def stillPending (next : Nat) : Option Nat → Option Nat
  | some p => if next > p then none else some p
  | none => none

/-- decide.go:884-915 `maybeExecuteBatch` -/
def maybeExecuteBatch (cx : Cfg G1 G2 GT R) (mc : MainChain) (d : Decider G1 G2) : Option (Decider G1 G2) := do
  let config ← activeConfig mc mc.currentBlock
  if isActive config = false then some d
  else
    let current ← batchIndex config mc.currentBlock
    let next := mc.numHalfSteps
    let pending := stillPending next d.st.pendingHalfStep
    let d := { d with st := { d.st with pendingHalfStep := pending } }
    if pending.isSome then some d
    else executeLoop cx mc (numHalfStepsToExecute next current) next d

/-! ## Appeals and accusations -/

/-- contract/signatures.go:5-10 `SignatureToContractFormat`; `none`: the signature is too short -/
def toContractFormat (sig : Bytes) : Option Bytes := (sig[64]?).map (fun v => sig.set 64 (v + 27))

/-- decide.go:1011-1050 `getSortedDecryptionSignaturesWithIndices`; the outer `none` is a panic, the inner one the error. -/
def sortedSignatures (mc : MainChain) (b : Batch) : Option (Option (List (Nat × Bytes))) :=
  match configForBatchIndex mc b.batchIndex with
  | none => none
  | some none => none
  | some (some config) =>
    if b.verifiedSignatures.length < config.threshold then some none
    else some ((b.verifiedSignatures.mapM (fun e => (keyperIndex config e.1).map (fun i => (i, e.2)))).map
      (fun l => l.mergeSort (fun x y => decide (x.1 ≤ y.1))))

/-- decide.go:1054-1103, one round of the loop of `maybeAppeal` -/
def appealStep (mc : MainChain) (d : Decider G1 G2) (key : Nat) : Option (Decider G1 G2) :=
  match mc.accusations key with
  | none => some d
  | some acc =>
    if acc.appealed then some d
    else if acc.halfStep ∈ d.st.pendingAppeals then some d
    else match mc.receipts acc.halfStep with
      | none => some d
      | some receipt =>
        match d.st.batches.lookup (acc.halfStep / 2) with
        | none => some d
        | some b =>
          if receipt.batchHash ≠ b.decryptedBatchHash then some d
          else match sortedSignatures mc b with
            | none => none
            | some none => some d
            | some (some sigs) =>
              (sigs.mapM (fun s => toContractFormat s.2)).map fun cs =>
                ({ d with st := { d.st with pendingAppeals := d.st.pendingAppeals ++ [acc.halfStep] } }).add
                  (.appeal ⟨acc.halfStep, b.decryptedBatchHash, sigs.map Prod.fst, cs⟩)

/-- decide.go:1150-1162 `syncPendingAppeals`; `keys` are the keys of the map of accusations -/
def syncPendingAppeals (mc : MainChain) (keys : List Nat) (d : Decider G1 G2) : Decider G1 G2 :=
  { d with st := { d.st with
    pendingAppeals := d.st.pendingAppeals.filter (fun h => !keys.any (fun k =>
      (mc.accusations k).any (fun a => h == a.halfStep && a.appealed))) } }

/-- decide.go:1052-1103 `maybeAppeal` -/
def maybeAppeal (mc : MainChain) (keys : List Nat) (d : Decider G1 G2) : Option (Decider G1 G2) :=
  keys.foldlM (appealStep mc) (syncPendingAppeals mc keys d)

/-- decide.go:1106-1144, one round of the loop of `maybeAccuse` -/
def accuseStep (cx : Cfg G1 G2 GT R) (mc : MainChain) (d : Decider G1 G2) (halfStep : Nat) : Option (Decider G1 G2) :=
  if halfStep % 2 ≠ 0 then some d
  else match mc.receipts halfStep with
    | none => some d
    | some receipt =>
      match d.st.batches.lookup (halfStep / 2) with
      | none => some d
      | some b =>
        if b.decryptedBatchHash = receipt.batchHash then some d
        else if (mc.accusations halfStep).isSome then some d
        else match configForBatchIndex mc (halfStep / 2) with
          | none => none
          | some none => some d
          | some (some config) => some (d.add (.accuse halfStep ((keyperIndex config (addrNat cx.own)).getD 0)))

/-- decide.go:1105-1148 `maybeAccuse` -/
def maybeAccuse (cx : Cfg G1 G2 GT R) (mc : MainChain) (d : Decider G1 G2) : Option (Decider G1 G2) :=
  ((List.range' d.st.halfStepsChecked (mc.numHalfSteps - d.st.halfStepsChecked)).foldlM (accuseStep cx mc) d).map
    (fun d => { d with st := { d.st with halfStepsChecked := mc.numHalfSteps } })

/-! ## A step -/

variable [AddCommGroup G1] [AddCommGroup G2] [DecidableEq G2] [DecidableEq GT]

/-- decide.go:1199-1202: `maybeStartDKG` and `handleDKGs` on the decider -/
def decideDKGs (cx : Cfg G1 G2 GT R) (sh : Observe.Shutter) (d : Decider G1 G2) : Option (Decider G1 G2) := do
  let new := maybeStartDKG cx sh d.st.lastEonStarted sh.eons
  let (dkgs, ekgs, actions) ← handleDKGs cx sh d.st.syncHeight (d.st.dkgs ++ new.1)
  some { st := { d.st with
           lastEonStarted := new.2
           dkgs := dkgs
           ekgs := d.st.ekgs ++ ekgs }
         actions := d.actions ++ actions }

/-- decide.go:1198-1213: the rest of `Decide` -/
def decideAll (cx : Cfg G1 G2 GT R) (sh : Observe.Shutter) (mc : MainChain) (keys : List Nat) (d : Decider G1 G2) :
    Option (Decider G1 G2) := do
  let d := maybeSendCheckIn cx sh d
  let d := maybeSendBatchConfig sh mc d
  let d ← decideDKGs cx sh d
  let d ← handleEpochKG cx sh mc d
  let d ← handleDecryptionSignatures cx sh mc d
  let d ← maybeExecuteBatch cx mc d
  let d ← maybeAppeal mc keys d
  let d ← maybeAccuse cx mc d
  some { d with st := { d.st with syncHeight := sh.currentBlock + 1 } }

/-- decide.go:1189-1213 `Decide`, on a fresh decider (keyper.go:386-390); `keys`: the keys of the map of accusations, in the
order in which Go ranges over it. -/
def decideStep (cx : Cfg G1 G2 GT R) (sh : Observe.Shutter) (mc : MainChain) (keys : List Nat) (st : State G1 G2) :
    Option (State G1 G2 × List (Action G1 G2)) :=
  if !isSynced sh then some (st, [])
  else if !mc.nodeSynced then some (st, [])
  else if !isKeyper sh cx.own then some (st, [])
  else (decideAll cx sh mc keys ⟨st, []⟩).map (fun d => (d.st, d.actions))

end
end Shutter.Decide
