import Verif.Proofs.LifeWorld

/-! # A batch decrypted with the key of another eon -/

namespace Shutter.Decide.Props
open Shutter.Crypto Shutter.Dkg Shutter.Observe Shutter.Decide Shutter.Main
open Shutter.Sol (World)
open Shutter.Events Shutter.Events.Props

/-- A keyper of the second config only. -/
def kC : App.Addr := App.Demo.k 3

/-- As in the demo, but there is a second config, with keypers A and C, and a second eon, both for the batches from 5 on. Keyper C puts its
share of the key of the second eon for batch 0 on shuttermint; keyper A signs what it gets. -/
def otherChain : Observe.Chain := fun h =>
  let enc := makeABCIEvent demoCodecs
  if h = 4 then [[enc (.batchConfig 5 1 [kA, kC] 2)], [enc (.eonStarted 2 5)]]
  else if h = 5 then [[enc (.polyCommitment kA 2 [[3]])], [enc (.polyEval kA 2 [kC] [[3]])], [enc (.polyCommitment kC 2 [[7]])],
    [enc (.polyEval kC 2 [kA] [[7]])]]
  else if h = 11 then Demo.shares 9
  else if h = 12 then [[enc (.epochSecretKeyShare kC 2 0 (World.beBytes ((10 : Nat) • epochIDOf zEnv 0).val 32))]]
  else if h = 13 then [[enc (.decryptionSignature 0 kA (Demo.signAs 1 (decryptionSignatureHash Demo.cxA 0
    (World.chainHashes Demo.env [Demo.cipherTx]) (transactionsHash Demo.cxA []))))]]
  else Demo.shuttermint h

def otherRounds : List (List LoopStep × List Nat) :=
  [([.sync 2 2 false], [50]), ([.sync 4 4 false], [60]), ([.sync 10 10 false], [113]), ([.sync 11 11 false], [114]),
    ([.sync 12 12 false], [115]), ([.sync 13 13 false], [116])]

def otherRun : Option (Run Zq Zq) := lifeRun Demo.cxA demoCodecs otherChain Demo.hist 3 otherRounds

def otherFacts (r : Run Zq Zq) : Bool :=
  decide ((r.log.map (fun e => (e.1.currentBlock, e.2))).drop 2 =
    [(110, [.eonKeyBroadcast 0 0 (Zq.of 8), .eonKeyBroadcast 0 5 (Zq.of 10), .epochSecretKeyShare 1 0 ((8 : Nat) • epochIDOf zEnv 0)]),
      (111, [.decryptionSignature 0 (Demo.signAs 1 Demo.sigHash)]),
      (112, [.decryptionSignature 0 (Demo.signAs 1 (decryptionSignatureHash Demo.cxA 0
        (World.chainHashes Demo.env [Demo.cipherTx]) (transactionsHash Demo.cxA [])))]),
      (113, [.executeCipherBatch 0 (World.chainHashes Demo.env [Demo.cipherTx]) [] 0 0, .executePlainBatch 0 [[3]] 0])]) &&
  decide (r.st.ekgs.map (fun e => (e.eon, e.kg.secretKeys 0)) =
    [(1, some (some ((8 : Nat) • epochIDOf zEnv 0))), (2, some (some ((10 : Nat) • epochIDOf zEnv 0)))])

theorem otherRun_facts : otherRun.any otherFacts = true := by decide +kernel

end Shutter.Decide.Props
