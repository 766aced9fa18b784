import Verif.Model.Dkg
import Verif.Model.Events

/-!
# Model of shuttermint/shcryptowasm (the functions a web page calls to encrypt and decrypt)

`both_wasm.go`; `encrypt_wasm.go` and `decrypt_wasm.go` contain the same functions (see `verifyResult` for the one
difference).

A JavaScript value is either an array of bytes (`Uint8Array` or `Uint8ClampedArray`) or something else. Objects that
inherit from `Uint8Array` without being one are not modelled. The texts of error messages are a parameter.
-/

namespace Shutter.Wasm
open Shutter.Crypto
open Shutter.Events (Text hexutilEncode)

/-- `js.Value` -/
inductive JsValue where
  | uint8Array (b : Crypto.Bytes)
  | uint8ClampedArray (b : Crypto.Bytes)
  | other
deriving DecidableEq

/-- The errors the functions report. -/
inductive Err where
  | argumentCount (got : Nat)
  | notBytes
  | invalidEonPublicKey
  | invalidEpochID (length : Nat)
  | invalidSigma (length : Nat)
  | invalidEncryptedMessage
  | invalidDecryptionKey
  | decryptFailed
  | noRandomness
deriving DecidableEq

/-- What a function returns to JavaScript. -/
inductive Result where
  | text (s : Text)
  | bool (b : Bool)
deriving DecidableEq

/-- Parameters: the groups and hash functions, the point formats, the messages of errors. -/
structure Lib (G1 G2 GT : Type) where
  env : Env G1 G2 GT
  /-- G2: eon public keys, `C1` -/
  codec2 : PointCodec G2
  /-- G1: epoch secret keys -/
  codec1 : PointCodec G1
  errorText : Err → Text

/-- both_wasm.go:109-114 -/
def encodeResult (errorText : Err → Text) : Except Err Crypto.Bytes → Result
  | .error e => .text ("Error: ".toList ++ errorText e)
  | .ok b => .text (hexutilEncode b)

/-- both_wasm.go:189-196 -/
def decodeBytesArg : JsValue → Except Err Crypto.Bytes
  | .uint8Array b => .ok b
  | .uint8ClampedArray b => .ok b
  | .other => .error .notBytes

/-- both_wasm.go:198-207 -/
def decodeUint64Arg (arg : JsValue) : Except Err Nat := do
  let b ← decodeBytesArg arg
  if b.length ≠ 8 then .error (.invalidEpochID b.length) else .ok (beNat b)

section
variable {G1 G2 GT : Type} (lib : Lib G1 G2 GT)

/-- both_wasm.go:120-133; the receiver is a new (zero) point -/
def decodeEonPublicKeyArg (arg : JsValue) : Except Err G2 := do
  let b ← decodeBytesArg arg
  match unmarshalPoint lib.codec2 lib.codec2.zero b with
  | none => .error .invalidEonPublicKey
  | some p => .ok p

/-- both_wasm.go:135-142. `ComputeEpochID` takes the number here and its eight bytes in shlib, as in `Dkg.epochIDOf`. -/
def decodeEpochIDArg (arg : JsValue) : Except Err G1 := do
  let i ← decodeUint64Arg arg
  .ok (Dkg.epochIDOf lib.env i)

/-- both_wasm.go:144-157 -/
def decodeSigmaArg (arg : JsValue) : Except Err Block := do
  let b ← decodeBytesArg arg
  if b.length ≠ 32 then .error (.invalidSigma b.length) else .ok (blockAt b 0)

/-- both_wasm.go:159-172 -/
def decodeEncryptedMessageArg (arg : JsValue) : Except Err (EncryptedMessage G2) := do
  let b ← decodeBytesArg arg
  match unmarshalEncryptedMessage lib.codec2 none b with
  | none => .error .invalidEncryptedMessage
  | some m => .ok m

/-- both_wasm.go:174-187 -/
def decodeDecryptionKeyArg (arg : JsValue) : Except Err G1 := do
  let b ← decodeBytesArg arg
  match unmarshalPoint lib.codec1 lib.codec1.zero b with
  | none => .error .invalidDecryptionKey
  | some k => .ok k

/-- both_wasm.go:28-56 `shcrypto_encrypt` -/
def jsEncrypt [AddCommGroup G2] [CommGroup GT] (args : List JsValue) : Result :=
  encodeResult lib.errorText <|
    match args with
    | [messageArg, eonPublicKeyArg, epochIDArg, sigmaArg] => do
      let message ← decodeBytesArg messageArg
      let eonPublicKey ← decodeEonPublicKeyArg lib eonPublicKeyArg
      let epochID ← decodeEpochIDArg lib epochIDArg
      let sigma ← decodeSigmaArg sigmaArg
      .ok (marshalEncryptedMessage lib.codec2 (encrypt lib.env message eonPublicKey epochID sigma))
    | args => .error (.argumentCount args.length)

/-- both_wasm.go:58-79 `shcrypto_decrypt` -/
def jsDecrypt [AddCommGroup G2] [DecidableEq G2] (args : List JsValue) : Result :=
  encodeResult lib.errorText <|
    match args with
    | [encryptedMessageArg, decryptionKeyArg] => do
      let encryptedMessage ← decodeEncryptedMessageArg lib encryptedMessageArg
      let decryptionKey ← decodeDecryptionKeyArg lib decryptionKeyArg
      match decrypt lib.env encryptedMessage decryptionKey with
      | none => .error .decryptFailed
      | some message => .ok message
    | args => .error (.argumentCount args.length)

/-- shlib/shcrypto/keys.go:215-226 `VerifyEpochSecretKey`; `random` is what the random number generator returns for
sigma and the message, `none` if it fails -/
def verifyEpochSecretKey [AddCommGroup G2] [CommGroup GT] [DecidableEq G2] (random : Option (Block × Crypto.Bytes))
    (epochSecretKey : G1) (eonPublicKey : G2) (epoch : Nat) : Except Err Bool :=
  match random with
  | none => .error .noRandomness
  | some (sigma, message) =>
    .ok (verifyEpochSecretKeyDeterministic lib.env epochSecretKey eonPublicKey (be8 epoch) sigma message)

/-- both_wasm.go:81-107 `shcrypto_verifyDecryptionKey`. (In decrypt_wasm.go:46-78 the booleans are the texts "true"
and "false"; but there the function is never made available to JavaScript, line 20.) -/
def jsVerifyDecryptionKey [AddCommGroup G2] [CommGroup GT] [DecidableEq G2]
    (random : Option (Block × Crypto.Bytes)) (args : List JsValue) : Result :=
  let r : Except Err Bool :=
    match args with
    | [decryptionKeyArg, eonPublicKeyArg, epochIDArg] => do
      let decryptionKey ← decodeDecryptionKeyArg lib decryptionKeyArg
      let eonPublicKey ← decodeEonPublicKeyArg lib eonPublicKeyArg
      let epochID ← decodeUint64Arg epochIDArg
      verifyEpochSecretKey lib random decryptionKey eonPublicKey epochID
    | args => .error (.argumentCount args.length)
  match r with
  | .error e => encodeResult lib.errorText (.error e)
  | .ok b => .bool b

end

end Shutter.Wasm
