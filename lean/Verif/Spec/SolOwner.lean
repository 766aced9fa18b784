import Verif.Spec.SolWorld

/-! # Vocabulary for the rights of owners -/

namespace Shutter.Sol

/-- The owners of the contracts. -/
structure Owners where
  config : Address
  batcher : Address
  executor : Address
  deposit : Address

def World.owners (w : World) : Owners := ⟨w.config.owner, w.batcher.owner, w.executor.owner, w.deposit.owner⟩

/-- The administrative calls: changing the configs, the minimum fee, the counter of half steps or the receiver of slashed tokens, made by
the owner of the respective contract. -/
def Op.Administers (o : Owners) : Op → Prop
  | .config s _ => s = o.config
  | .setMinFee s _ => s = o.batcher
  | .setHalfSteps s _ => s = o.executor
  | .setSlashingReceiver s _ => s = o.deposit
  | _ => False

/-- Everything the owners control has stayed: configs, minimum fee, receiver of slashed tokens, the owners; the half step counter was not
set. The slasher contract can be set once, by anybody. -/
structure SettingsKept (w w' : World) : Prop where
  config : w'.config = w.config
  minFee : w'.batcher.minFee = w.batcher.minFee
  receiver : w'.deposit.slashingReceiver = w.deposit.slashingReceiver
  owners : w'.owners = w.owners
  slasher : w.deposit.slasher ≠ 0 → w'.deposit.slasher = w.deposit.slasher
  counter : ∀ n m, (n, Event.halfStepsSet m) ∈ w'.log → (n, Event.halfStepsSet m) ∈ w.log

end Shutter.Sol
