import Verif.Proofs.LifeWorld
import Verif.Proofs.TameChain
import Verif.Proofs.Ecdsa

/-! # A batch executed wrongly -/

namespace Shutter.Decide.Props
open Shutter.Crypto Shutter.Dkg Shutter.Observe Shutter.Decide Shutter.Main Shutter.GoConfig
open Shutter.Sol (World TxType BatchConfig Responsible NoneTakenBack two64 zeroHash)
open Shutter.Events Shutter.Events.Props
open Shutter.Sol (Op)

/-- As in the demo, but keyper B executes something else. -/
def wrongOps : List (Nat × Op) := Demo.setup ++ Demo.submissions ++
  [(112, .sendTokens 1 500 50), (116, .executeCipherBatch 2 0 (World.chainHashes Demo.env [Demo.cipherTx]) [[9]] 1 [])]

def wrongHist : Nat → World := chainOf Demo.env Demo.start wrongOps

def wrongRun : Option (Run Zq Zq) := lifeRun Demo.cxA demoCodecs Demo.shares wrongHist 3 Demo.rounds

theorem wrongRun_eq : wrongRun.map (fun r => r.log[6]?.map (fun e => (e.1.currentBlock, e.2))) =
    some (some (117, [.accuse 0 0])) := by decide +kernel

theorem wrongChain : Main.Chain Demo.env wrongHist := chainOf_chain _ Demo.start_deployed rfl

end Shutter.Decide.Props
