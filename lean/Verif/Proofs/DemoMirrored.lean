import Verif.Proofs.LifeWorld
import Verif.Proofs.TameChain
import Verif.Proofs.Ecdsa

/-! # A keyper that publishes the other signature -/

namespace Shutter.Decide.Props
open Shutter.Crypto Shutter.Dkg Shutter.Observe Shutter.Decide Shutter.Main Shutter.GoConfig
open Shutter.Sol (World TxType BatchConfig Responsible NoneTakenBack two64 zeroHash)
open Shutter.Events Shutter.Events.Props
open Shutter.Sol (Op)

/-- As in the demo, but keyper B publishes the other of its two signatures. -/
def mirroredShares : Observe.Chain := fun h =>
  if h = 10 then [[makeABCIEvent demoCodecs (.decryptionSignature 0 kB (Ecdsa.mirrored (Demo.signAs 2 Demo.sigHash)))]] else Demo.shares h

def mirroredRun : Option (Run Zq Zq) := lifeRun Demo.cxA demoCodecs mirroredShares Demo.hist 3 Demo.rounds

/-- The appeal keyper A makes then. -/
def mirroredAppeal : Sol.Authorization :=
  ⟨0, World.chainHashes Demo.env [Demo.message], [1], [(Ecdsa.mirrored (Demo.signAs 2 Demo.sigHash)).set 64 28]⟩

theorem mirroredRun_eq : mirroredRun.map (fun r => r.log[6]?.map (fun e => (e.1.currentBlock, e.2))) =
    some (some (117, [.appeal mirroredAppeal])) := by decide +kernel

theorem mirrored_refused118 : (Demo.hist 118).step Demo.env (.appeal 1 mirroredAppeal) = none := by decide +kernel

end Shutter.Decide.Props
