import Verif.Model.Proto

/-! # Vocabulary for messages -/

namespace Shutter.Proto
open Shutter.App (Msg)

/-- The numbers in a message have 64 bits. -/
def Numbers : Msg → Prop
  | .batchConfig m => m.startBatchIndex < 2 ^ 64 ∧ m.threshold < 2 ^ 64 ∧ m.configIndex < 2 ^ 64
  | .batchConfigStarted n => n < 2 ^ 64
  | .checkIn _ _ => True
  | .eonStartVote n => n < 2 ^ 64
  | .decryptionSignature n _ => n < 2 ^ 64
  | .polyEval n _ _ => n < 2 ^ 64
  | .polyCommitment n _ => n < 2 ^ 64
  | .accusation n _ => n < 2 ^ 64
  | .apology n _ _ => n < 2 ^ 64
  | .epochSecretKeyShare n e _ => n < 2 ^ 64 ∧ e < 2 ^ 64
  | .unknown => True

end Shutter.Proto
