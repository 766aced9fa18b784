import Verif.Model.DecideDkg
import Verif.Model.Encoding
import Verif.Model.App

/-!
# shuttermint/shmsg/messages.go: the messages for the things a keyper decides to send

The encodings of points are parameters, as everywhere. The nonce and the chain id (fx/messagesender.go:122-128) and the signature are
added when a message is sent; see `Verif.Spec.Net`.
-/

namespace Shutter.Decide
open Shutter.App (Addr Bytes Msg)

/-- The encodings used in messages, and what a keyper's own config (config.go) has for them. -/
structure Wire (G1 G2 : Type) where
  /-- `bn256.G2.Marshal` -/
  g2 : G2 → Bytes
  /-- `EpochSecretKeyShare.GobEncode` -/
  share : G1 → Bytes
  /-- `Config.ValidatorKey.Public()` -/
  validatorKey : Bytes
  /-- `crypto.CompressPubkey` of `Config.EncryptionKey.PublicKey` -/
  encryptionKey : Bytes
  /-- `Config.ConfigContractAddress` -/
  configContract : Addr

/-- shmsg/messages.go: `NewCheckIn` (156-166), `NewBatchConfig` (14-41, with the arguments of decide.go:358-368), `NewPolyCommitment`
(99-113), `NewPolyEval` (116-131), `NewAccusation` (83-96), `NewApology` (57-81; the panic for lists of different length is left out: both
lists are built from the same list, decide.go:91-100), `NewEonStartVote` (134-142), `NewEpochSecretKeyShare` (168-179),
`NewDecryptionSignature` (44-53). `none`: the action is a transaction for the main chain. -/
def message {G1 G2 : Type} (w : Wire G1 G2) : Action G1 G2 → Option Msg
  | .checkIn => some (.checkIn w.validatorKey w.encryptionKey)
  | .batchConfig start keypers threshold index => some (.batchConfig ⟨start, keypers, threshold, w.configContract, index, false, false⟩)
  | .polyCommitment eon gammas => some (.polyCommitment eon (gammas.map w.g2))
  | .polyEval eon receivers encrypted => some (.polyEval eon receivers encrypted)
  | .accusation eon accused => some (.accusation eon accused)
  | .apology eon accusers evals => some (.apology eon accusers (evals.map (fun v => Crypto.natBytes v.natAbs)))
  | .eonStartVote start => some (.eonStartVote start)
  | .epochSecretKeyShare eon epoch share => some (.epochSecretKeyShare eon epoch (w.share share))
  | .decryptionSignature batch signature => some (.decryptionSignature batch signature)
  | _ => none

end Shutter.Decide
