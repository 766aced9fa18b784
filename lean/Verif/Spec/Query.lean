import Verif.Model.Query
import Verif.Spec.Operator
import Verif.Spec.Files
import Mathlib.Data.List.Dedup

/-! # Vocabulary for looking at configs -/

namespace Shutter.Query
open Shutter.Files

/-- A config as it is shown: of a keyper that occurs more than once only the first occurrence. -/
def shown (bc : Sol.BatchConfig) : Sol.BatchConfig := { bc with keypers := bc.keypers.reverse.dedup.reverse }

/-- What the types of the contract can hold: 64 bit numbers, 20 bytes of address, four bytes of selector. -/
structure Held (bc : Sol.BatchConfig) : Prop where
  fits : Operator.Fits bc
  keypers : ∀ k ∈ bc.keypers, k < 2 ^ 160
  feeReceiver : bc.feeReceiver < 2 ^ 160
  targetAddress : bc.targetAddress < 2 ^ 160
  selector : bc.targetFunctionSelector.length = 4

/-- The threshold is between one and the number of keypers. -/
def Sensible (bc : Sol.BatchConfig) : Prop := 1 ≤ bc.threshold ∧ bc.threshold ≤ bc.keypers.length

/-- The text, as the file of a config, is this config. -/
def IsFileOf (cx : Events.Codecs) (text : Events.Text) (bc : Sol.BatchConfig) : Prop :=
  ∃ f, FileConfig.load cx text = some f ∧ f.toSol = bc

/-- The text is that of a config: it can be read as a file if the threshold is sensible, and is refused otherwise. -/
def IsTextOf (cx : Events.Codecs) (text : Events.Text) (bc : Sol.BatchConfig) : Prop :=
  (Sensible bc → IsFileOf cx text bc) ∧ (¬ Sensible bc → FileConfig.load cx text = none)

end Shutter.Query
