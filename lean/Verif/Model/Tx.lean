import Verif.Model.Proto
import Verif.Model.Ecdsa

/-! # Transactions of shuttermint as bytes (shuttermint/shmsg/encode.go, shuttermint/app/app.go `decodeTx`, keyper/fx/messagesender.go) -/

namespace Shutter.Tx
open Shutter.App (Addr Bytes MessageWithNonce)

/-! ## Base64 (Go's encoding/base64 `RawURLEncoding`, a dependency: not strict, no padding, line ends are skipped) -/

/-- The alphabet `A-Z a-z 0-9 - _` -/
def char6 (n : Nat) : UInt8 :=
  if n < 26 then UInt8.ofNat (65 + n)
  else if n < 52 then UInt8.ofNat (97 + (n - 26))
  else if n < 62 then UInt8.ofNat (48 + (n - 52))
  else if n = 62 then 45 else 95

def val6 (c : UInt8) : Option Nat :=
  let n := c.toNat
  if 65 ≤ n ∧ n ≤ 90 then some (n - 65)
  else if 97 ≤ n ∧ n ≤ 122 then some (n - 97 + 26)
  else if 48 ≤ n ∧ n ≤ 57 then some (n - 48 + 52)
  else if n = 45 then some 62
  else if n = 95 then some 63
  else none

/-- `EncodeToString` -/
def base64 : Bytes → Bytes
  | a :: b :: c :: rest =>
    let v := a.toNat * 65536 + b.toNat * 256 + c.toNat
    char6 (v / 262144) :: char6 (v / 4096 % 64) :: char6 (v / 64 % 64) :: char6 (v % 64) :: base64 rest
  | [a, b] =>
    let v := a.toNat * 65536 + b.toNat * 256
    [char6 (v / 262144), char6 (v / 4096 % 64), char6 (v / 64 % 64)]
  | [a] =>
    let v := a.toNat * 65536
    [char6 (v / 262144), char6 (v / 4096 % 64)]
  | [] => []

/-- `decodeQuantum` for each four characters; the bits left over at the end are ignored, a single character left over is an error -/
def quanta : List Nat → Option Bytes
  | a :: b :: c :: d :: rest =>
    let v := a * 262144 + b * 4096 + c * 64 + d
    (quanta rest).map (fun r => UInt8.ofNat (v / 65536) :: UInt8.ofNat (v / 256 % 256) :: UInt8.ofNat (v % 256) :: r)
  | [a, b, c] =>
    let v := a * 262144 + b * 4096 + c * 64
    some [UInt8.ofNat (v / 65536), UInt8.ofNat (v / 256 % 256)]
  | [a, b] =>
    let v := a * 262144 + b * 4096
    some [UInt8.ofNat (v / 65536)]
  | [_] => none
  | [] => some []

/-- `DecodeString` -/
def unbase64 (s : Bytes) : Option Bytes := ((s.filter (fun c => c != 10 && c != 13)).mapM val6).bind quanta

/-! ## Signed messages -/

/-- encode.go:17 `hashPrefix` -/
def hashPrefix : Bytes := [0x19, 0x73, 0x68, 0x6d, 0x73, 0x67]

/-- The dependencies: the hash function SHA3-256, and recovery of signers (see Model/Ecdsa.lean). -/
structure Env where
  sha3 : Bytes → Bytes
  core : Ecdsa.Core

/-- encode.go:27-37, 50-60: what is signed -/
def digest (E : Env) (data : Bytes) : Bytes := E.sha3 (hashPrefix ++ data)

/-- encode.go:20-43 `SignMessage`; `sign` is `crypto.Sign` with the keyper's key -/
def signMessage (E : Env) (sign : Bytes → Bytes) (m : MessageWithNonce) : Bytes := sign (digest E (Proto.marshal m)) ++ Proto.marshal m

/-- An address as bytes: `crypto.PubkeyToAddress` has the last 20 bytes of a hash -/
def addrBytes (a : Sol.Address) : Addr := Sol.World.beBytes a 20

/-- encode.go:46-66 `GetSigner` -/
def getSigner (E : Env) (signed : Bytes) : Option Addr :=
  if signed.length < 65 then none
  else (Ecdsa.goRecover E.core (digest E (signed.drop 65)) (signed.take 65)).map addrBytes

/-- encode.go:69-75 `GetMessage`; the outer `none` is the panic for slices out of range, the inner one the error -/
def getMessage (signed : Bytes) : Option (Option MessageWithNonce) :=
  if signed.length < 65 then none
  else some (Proto.unmarshal (signed.drop 65))

/-- app.go:275-292 `decodeTx`; the outer `none` is a panic, the inner one the error -/
def decodeTx (E : Env) (tx : Bytes) : Option App.Tx :=
  match unbase64 tx with
  | none => some none
  | some signed =>
    match getSigner E signed with
    | none => some none
    | some signer => (getMessage signed).map (fun m => m.map (fun m => (signer, m)))

/-- messagesender.go:108-113 `SendMessage`: the transaction for a message with nonce and chain id -/
def encodeTx (E : Env) (sign : Bytes → Bytes) (m : MessageWithNonce) : Bytes := base64 (signMessage E sign m)

end Shutter.Tx
