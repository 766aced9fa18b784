import Verif.Proofs.DemoMirrored
import Verif.Spec.Expiry

/-! # An appeal that succeeds, and is then dropped -/

namespace Shutter.Decide.Props
open Shutter.Crypto Shutter.Dkg Shutter.Observe Shutter.Decide Shutter.Main Shutter.GoConfig
open Shutter.Sol (World TxType BatchConfig Responsible NoneTakenBack two64 zeroHash)
open Shutter.Events Shutter.Events.Props
open Shutter.Sol (Op)

def goodAppeal : Sol.Authorization := ⟨0, World.chainHashes Demo.env [Demo.message], [1], [(Demo.signAs 2 Demo.sigHash).set 64 27]⟩

/-- As in the demo; then the appeal of keyper A is mined. -/
def appealedHist : Nat → World := chainOf Demo.env Demo.start (Demo.ops ++ [(120, .appeal 1 goodAppeal)])

theorem appealedChain : Main.Chain Demo.env appealedHist := chainOf_chain _ Demo.start_deployed rfl

def appealedRun : Option (Run Zq Zq) := lifeRun Demo.cxA demoCodecs Demo.shares appealedHist 3 (Demo.rounds ++ [([], [122]), ([], [125])])

/-- What has to be known of it. -/
def appealedFacts (r : Run Zq Zq) : Bool :=
  decide ((r.log[6]?).map (fun e => (e.1.currentBlock, e.2)) = some (117, [.appeal goodAppeal])) &&
  decide ((r.log[7]?).map (fun e => (e.1.currentBlock, (Action.appeal goodAppeal : Action Zq Zq).isExpired e.1)) = some (119, false)) &&
  decide (r.mc.currentBlock = 122) && (Action.appeal goodAppeal : Action Zq Zq).isExpired r.mc

theorem appealedRun_facts : appealedRun.any appealedFacts = true := by decide +kernel

theorem mirrored_reason118 : appealReason Demo.env (Demo.hist 118) mirroredAppeal = .error .other := by decide +kernel

end Shutter.Decide.Props
