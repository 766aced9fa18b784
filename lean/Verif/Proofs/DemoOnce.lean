import Verif.Spec.Batches
import Verif.Proofs.LifeWorld

/-! # A keyper that is restarted while its execution is pending -/

namespace Shutter.Decide.Props
open Shutter.Crypto Shutter.Dkg Shutter.Observe Shutter.Decide Shutter.Main
open Shutter.Events Shutter.Events.Props

/-- The keyper forgets the pending half step in a restart. -/
def forgetful (r : Run Zq Zq) : Run Zq Zq := { r with
  st := { loadState r.s r.st with pendingHalfStep := none } }

/-- As in the demo up to the execution of batch 0; then a restart; then another round. -/
def twiceRun (forget : Bool) : Option (Run Zq Zq) := (Demo.runA 6).bind (fun r =>
  lifeRound Demo.cxA demoCodecs Demo.shares Demo.hist (if forget then forgetful r else r) ([], [117]))

def twiceFacts (r : Run Zq Zq) : Bool := decide ((r.log.drop 5).map (fun e => (e.1.currentBlock, halfStepsOf e.2)) = [(113, [0, 1]), (114, [0, 1])])

theorem twiceRun_facts : (twiceRun true).any twiceFacts = true := by decide +kernel

end Shutter.Decide.Props
