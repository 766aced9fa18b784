import Verif.Model.Calls
import Verif.Spec.Batches

/-! # Vocabulary for actions that are dropped -/

namespace Shutter.Decide
variable {G1 G2 : Type}

/-- What the action is to achieve has been achieved (by whomever): the half step is done, the half step is accused, or there is no
accusation without an appeal. -/
def Action.Achieved (w : Sol.World) : Action G1 G2 → Prop
  | .executeCipherBatch b _ _ _ _ => 2 * b < w.executor.halfSteps
  | .executePlainBatch b _ _ => 2 * b + 1 < w.executor.halfSteps
  | .skipCipherBatch b => 2 * b < w.executor.halfSteps
  | .accuse h _ => (w.slasher.accusations h).accused = true
  | .appeal a => (w.slasher.accusations a.halfStep).accused = true → (w.slasher.accusations a.halfStep).appealed = true
  | _ => False

end Shutter.Decide
