import Verif.Proofs.DemoWrong
import Verif.Proofs.TameChain
import Verif.Proofs.Ecdsa

/-! # A batch executed wrongly, and decrypted late -/

namespace Shutter.Decide.Props
open Shutter.Crypto Shutter.Dkg Shutter.Observe Shutter.Decide Shutter.Main Shutter.GoConfig
open Shutter.Sol (World TxType BatchConfig Responsible NoneTakenBack two64 zeroHash)
open Shutter.Events Shutter.Events.Props
open Shutter.Sol (Op)

/-- The same, except that keyper A hears of the share of keyper B only after it has seen the execution. -/
def lateRun : Option (Run Zq Zq) := lifeRun Demo.cxA demoCodecs Demo.shares wrongHist 3
  [([.sync 2 2 false], [50]), ([.sync 8 8 false], [110]), ([], [112]), ([], [113]), ([], [120]), ([.sync 9 9 false], [121]),
    ([.sync 10 10 false], [122])]

/-- What has to be known of it. -/
def lateFacts (r : Run Zq Zq) : Bool :=
  decide (r.log.map (fun e => (e.1.currentBlock, e.2)) =
    [(47, [.checkIn, .polyCommitment 1 [Zq.of 3]]), (107, [.eonKeyBroadcast 0 0 (Zq.of 8)]), (109, []),
      (110, [.epochSecretKeyShare 1 0 ((8 : Nat) • epochIDOf zEnv 0)]), (117, [.executePlainBatch 0 [[3]] 0]), (118, [.decryptionSignature 0 (Demo.signAs 1 Demo.sigHash)]),
      (119, [])]) &&
  decide (r.st.halfStepsChecked = 1) && decide (r.mc.currentBlock = 119) &&
  decide ((r.st.batches.lookup 0).map (fun b => (b.decryptedTransactions, b.decryptedBatchHash)) =
    some ([Demo.message], World.chainHashes Demo.env [Demo.message]))

theorem lateRun_facts : lateRun.any lateFacts = true := by decide +kernel

end Shutter.Decide.Props
