import Verif.Model.Events

/-! # Vocabulary for the event codec -/

namespace Shutter.Events
open Shutter.App

/-- base64 decoding reverses encoding. -/
def Codecs.Lawful (cx : Codecs) : Prop := ∀ b, cx.b64dec (cx.b64enc b) = some b

def Uint64 (n : Nat) : Prop := n < 2 ^ 64
def IsAddress (a : Addr) : Prop := a.length = 20

/-- The values a Go event struct can hold: 64 bit numbers, 20 byte addresses, valid (canonically encoded) curve points,
and at least one gamma. -/
def WellFormed (cx : Codecs) : Event → Prop
  | .batchConfig b t ks i => Uint64 b ∧ Uint64 t ∧ (∀ k ∈ ks, IsAddress k) ∧ Uint64 i
  | .eonStarted e b => Uint64 e ∧ Uint64 b
  | .checkIn a k => IsAddress a ∧ cx.pubkey k = some k
  | .decryptionSignature b a _ => Uint64 b ∧ IsAddress a
  | .polyEval a e rs _ => IsAddress a ∧ Uint64 e ∧ ∀ r ∈ rs, IsAddress r
  | .polyCommitment a e gs => IsAddress a ∧ Uint64 e ∧ gs ≠ [] ∧ ∀ g ∈ gs, cx.g2 g = some g
  | .accusation a e as => IsAddress a ∧ Uint64 e ∧ ∀ x ∈ as, IsAddress x
  | .apology a e as _ => IsAddress a ∧ Uint64 e ∧ ∀ x ∈ as, IsAddress x
  | .epochSecretKeyShare a e ep sh => IsAddress a ∧ Uint64 e ∧ Uint64 ep ∧ cx.share sh = some sh

/-- The numbers of a message fit into 64 bits (always the case for a decoded protobuf message), and a poly commitment has
at least one gamma. -/
def WireOk : Msg → Prop
  | .batchConfig m => Uint64 m.startBatchIndex ∧ Uint64 m.threshold ∧ Uint64 m.configIndex
  | .batchConfigStarted i => Uint64 i
  | .checkIn _ _ => True
  | .eonStartVote b => Uint64 b
  | .decryptionSignature b _ => Uint64 b
  | .polyEval e _ _ => Uint64 e
  | .polyCommitment e gs => Uint64 e ∧ gs ≠ []
  | .accusation e _ => Uint64 e
  | .apology e _ _ => Uint64 e
  | .epochSecretKeyShare e ep _ => Uint64 e ∧ Uint64 ep
  | .unknown => True

/-- What the application's parsers return is accepted, unchanged, by the keypers' parsers. -/
structure Agree (ps : Parsers) (cx : Codecs) : Prop where
  g2 : ∀ b g, ps.g2 b = some g → cx.g2 g = some g
  share : ∀ b g, ps.share b = some g → cx.share g = some g
  pubkey : ∀ b g, ps.pubkey b = some g → cx.pubkey g = some g

end Shutter.Events
