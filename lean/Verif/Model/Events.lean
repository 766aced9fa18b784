import Verif.Model.App
import Verif.Model.Encoding

/-!
# Model of shuttermint/keyper/shutterevents (events as attributes of Tendermint events, and back)

Text is a list of characters. Library functions are modelled concretely where commas and prefixes matter (hex,
decimal numbers, `strings.Split`/`Join`); base64 and the point formats are parameters (`Codecs`).
-/

namespace Shutter.Events
open Shutter.App

abbrev Text := List Char

/-- Parameters: the EIP-55 checksum (which letters of an address are upper case), base64, and the parsers of curve
points as functions to the canonical encoding (see `Parsers`). -/
structure Codecs where
  checksum : Addr → Nat → Bool
  b64enc : Bytes → Text
  b64dec : Text → Option Bytes
  /-- `ethcrypto.UnmarshalPubkey` -/
  pubkey : Bytes → Option Bytes
  /-- `bn256.G2.Unmarshal` -/
  g2 : Bytes → Option Bytes
  /-- `EpochSecretKeyShare.GobDecode` -/
  share : Bytes → Option Bytes

/-! ## Library functions -/

/-- `strconv.FormatUint(val, 10)`; marshal.go:19-21 `encodeUint64` -/
def formatUint (n : Nat) : Text :=
  if n = 0 then ['0'] else ((Nat.digits 10 n).map Nat.digitChar).reverse

/-- value of a decimal digit -/
def digitVal (c : Char) : Option Nat := if '0' ≤ c ∧ c ≤ '9' then some (c.toNat - 48) else none

/-- `strconv.ParseUint(s, 10, 64)`; marshal.go:23-29 `decodeUint64` -/
def parseUint (s : Text) : Option Nat :=
  if s = [] then none
  else match s.mapM digitVal with
    | none => none
    | some ds => if ds.foldl (fun acc d => acc * 10 + d) 0 < 2 ^ 64 then some (ds.foldl (fun acc d => acc * 10 + d) 0)
      else none

/-- `encoding/hex` digit -/
def hexDigit (n : Nat) : Char := Nat.digitChar n

/-- value of a hex digit, either case -/
def hexVal (c : Char) : Option Nat :=
  if '0' ≤ c ∧ c ≤ '9' then some (c.toNat - 48)
  else if 'a' ≤ c ∧ c ≤ 'f' then some (c.toNat - 87)
  else if 'A' ≤ c ∧ c ≤ 'F' then some (c.toNat - 55)
  else none

/-- `hex.EncodeToString` -/
def hexEncode (b : Bytes) : Text := b.flatMap (fun x => [hexDigit (x.toNat / 16), hexDigit (x.toNat % 16)])

/-- `hex.DecodeString`: the bytes decoded before an error, and whether there was none. -/
def hexDecodeGo : Text → Bytes × Bool
  | [] => ([], true)
  | [_] => ([], false)
  | c :: d :: rest => match hexVal c, hexVal d with
    | some x, some y => ((UInt8.ofNat (x * 16 + y)) :: (hexDecodeGo rest).1, (hexDecodeGo rest).2)
    | _, _ => ([], false)

def hexDecode (s : Text) : Option Bytes := if (hexDecodeGo s).2 then some (hexDecodeGo s).1 else none

/-- `has0xPrefix` -/
def strip0x : Text → Option Text
  | '0' :: 'x' :: rest => some rest
  | '0' :: 'X' :: rest => some rest
  | _ => none

/-- `hexutil.Encode`; marshal.go:58-60 `encodeBytes` -/
def hexutilEncode (b : Bytes) : Text := '0' :: 'x' :: hexEncode b

/-- `hexutil.Decode`; marshal.go:62-64 `decodeBytes` -/
def hexutilDecode (s : Text) : Option Bytes :=
  match strip0x s with
  | none => none
  | some rest => hexDecode rest

/-- `common.Address.Hex`; marshal.go:156-158 `encodeAddress` -/
def addressHex (cx : Codecs) (a : Addr) : Text :=
  '0' :: 'x' :: (hexEncode a).mapIdx (fun i c => if cx.checksum a i then c.toUpper else c)

/-- `common.FromHex` -/
def fromHex (s : Text) : Bytes :=
  let s := (strip0x s).getD s
  let s := if s.length % 2 = 1 then '0' :: s else s
  (hexDecodeGo s).1

/-- `common.BytesToAddress` -/
def bytesToAddress (b : Bytes) : Addr :=
  if b.length > 20 then b.drop (b.length - 20) else List.replicate (20 - b.length) 0 ++ b

/-- `common.HexToAddress` -/
def hexToAddress (s : Text) : Addr := bytesToAddress (fromHex s)

/-- `common.IsHexAddress` -/
def isHexAddress (s : Text) : Bool :=
  let s := (strip0x s).getD s
  decide (s.length = 40) && s.all (fun c => (hexVal c).isSome)

/-- `strings.Join(parts, ",")` -/
def joinComma : List Text → Text
  | [] => []
  | [p] => p
  | p :: q :: ps => p ++ ',' :: joinComma (q :: ps)

/-- `strings.Split(s, ",")` -/
def splitComma : Text → List Text
  | [] => [[]]
  | c :: cs => if c = ',' then [] :: splitComma cs else match splitComma cs with
    | [] => [[c]]
    | p :: ps => (c :: p) :: ps

/-! ## marshal.go -/

/-- marshal.go:32-38 -/
def encodeAddresses (cx : Codecs) (as : List Addr) : Text := joinComma (as.map (addressHex cx))

/-- marshal.go:42-56 -/
def decodeAddresses (s : Text) : Option (List Addr) :=
  if s = [] then some []
  else (splitComma s).mapM (fun p => if isHexAddress p then some (hexToAddress p) else none)

/-- marshal.go:86-92 -/
def encodeByteSequence (bs : List Bytes) : Text := joinComma (bs.map hexutilEncode)

/-- marshal.go:95-109 -/
def decodeByteSequence (s : Text) : Option (List Bytes) :=
  if s = [] then some [] else (splitComma s).mapM hexutilDecode

/-- marshal.go:126-134 -/
def encodeGammas (gs : List Bytes) : Text := joinComma (gs.map hexEncode)

/-- marshal.go:136-154; note that there is no case for the empty string -/
def decodeGammas (cx : Codecs) (s : Text) : Option (List Bytes) :=
  (splitComma s).mapM (fun p => match hexDecode p with
    | none => none
    | some b => cx.g2 b)

/-- marshal.go:160-167 -/
def decodeAddress (cx : Codecs) (s : Text) : Option Addr :=
  if addressHex cx (hexToAddress s) = s then some (hexToAddress s) else none

/-- marshal.go:66-69 -/
def encodeShare (b : Bytes) : Text := hexutilEncode b

/-- marshal.go:71-82 -/
def decodeShare (cx : Codecs) (s : Text) : Option Bytes :=
  match hexutilDecode s with
  | none => none
  | some b => cx.share b

/-- marshal.go:113-115, 169-171 -/
def encodePubkey (cx : Codecs) (b : Bytes) : Text := cx.b64enc b

/-- marshal.go:118-124, 173-179 -/
def decodePubkey (cx : Codecs) (s : Text) : Option Bytes :=
  match cx.b64dec s with
  | none => none
  | some b => cx.pubkey b

/-! ## events.go -/

/-- `abcitypes.Event` (the `Index` flags are left out) -/
structure AbciEvent where
  type : String
  attributes : List (String × Text)
deriving DecidableEq

/-- The `MakeABCIEvent` methods: events.go:31-40 (Accusation), 97-112 (Apology), 171-194 (BatchConfig; contract
address and flags are not sent), 235-246 (CheckIn), 280-300 (DecryptionSignature), 340-348 (EonStarted),
358-367 (PolyCommitment), 411-421 (PolyEval), 468-478 (EpochSecretKeyShare); names from evtype/evtype.go -/
def makeABCIEvent (cx : Codecs) : Event → AbciEvent
  | .accusation a e as => ⟨"shutter.accusation-registered",
      [("Sender", addressHex cx a), ("Eon", formatUint e), ("Accused", encodeAddresses cx as)]⟩
  | .apology a e as es => ⟨"shutter.apology-registered",
      [("Sender", addressHex cx a), ("Eon", formatUint e), ("Accusers", encodeAddresses cx as),
       ("PolyEvals", encodeByteSequence (es.map Shutter.Crypto.natBytes))]⟩
  | .batchConfig b t ks i => ⟨"shutter.batch-config",
      [("StartBatchIndex", formatUint b), ("Threshold", formatUint t), ("Keypers", encodeAddresses cx ks),
       ("ConfigIndex", formatUint i)]⟩
  | .checkIn a k => ⟨"shutter.check-in", [("Sender", addressHex cx a), ("EncryptionPublicKey", encodePubkey cx k)]⟩
  | .decryptionSignature b a sig => ⟨"shutter.decryption-signature",
      [("BatchIndex", formatUint b), ("Sender", addressHex cx a), ("Signature", cx.b64enc sig)]⟩
  | .eonStarted e b => ⟨"shutter.eon-started", [("Eon", formatUint e), ("BatchIndex", formatUint b)]⟩
  | .polyCommitment a e gs => ⟨"shutter.poly-commitment-registered",
      [("Sender", addressHex cx a), ("Eon", formatUint e), ("Gammas", encodeGammas gs)]⟩
  | .polyEval a e rs es => ⟨"shutter.poly-eval-registered",
      [("Sender", addressHex cx a), ("Eon", formatUint e), ("Receivers", encodeAddresses cx rs),
       ("EncryptedEvals", encodeByteSequence es)]⟩
  | .epochSecretKeyShare a e ep sh => ⟨"shutter.epoch-secret-key-share",
      [("Sender", addressHex cx a), ("Eon", formatUint e), ("Epoch", formatUint ep), ("Share", encodeShare sh)]⟩

/-- events.go:42-59 `expectAttributes`; the values of the expected attributes -/
def expectAttributes : List (String × Text) → List String → Option (List Text)
  | _, [] => some []
  | [], _ :: _ => none
  | (k, v) :: as, n :: ns => if k = n then (expectAttributes as ns).map (v :: ·) else none

/-- events.go:543-567 `MakeEvent` with the functions `make…` it calls: 61-88, 114-150, 198-226, 249-270, 304-331,
369-395, 423-456, 480-515, 524-540. The height is left out. -/
def makeEvent (cx : Codecs) (ev : AbciEvent) : Option Event :=
  if ev.type = "shutter.check-in" then
    match expectAttributes ev.attributes ["Sender", "EncryptionPublicKey"] with
    | some [v0, v1] => do
      let a ← decodeAddress cx v0
      let k ← decodePubkey cx v1
      return .checkIn a k
    | _ => none
  else if ev.type = "shutter.batch-config" then
    match expectAttributes ev.attributes ["StartBatchIndex", "Threshold", "Keypers", "ConfigIndex"] with
    | some [v0, v1, v2, v3] => do
      let b ← parseUint v0
      let t ← parseUint v1
      let ks ← decodeAddresses v2
      let i ← parseUint v3
      return .batchConfig b t ks i
    | _ => none
  else if ev.type = "shutter.decryption-signature" then
    match expectAttributes ev.attributes ["BatchIndex", "Sender", "Signature"] with
    | some [v0, v1, v2] => do
      let b ← parseUint v0
      let a ← decodeAddress cx v1
      let sig ← cx.b64dec v2
      return .decryptionSignature b a sig
    | _ => none
  else if ev.type = "shutter.eon-started" then
    match expectAttributes ev.attributes ["Eon", "BatchIndex"] with
    | some [v0, v1] => do
      let e ← parseUint v0
      let b ← parseUint v1
      return .eonStarted e b
    | _ => none
  else if ev.type = "shutter.poly-commitment-registered" then
    match expectAttributes ev.attributes ["Sender", "Eon", "Gammas"] with
    | some [v0, v1, v2] => do
      let a ← decodeAddress cx v0
      let e ← parseUint v1
      let gs ← decodeGammas cx v2
      return .polyCommitment a e gs
    | _ => none
  else if ev.type = "shutter.poly-eval-registered" then
    match expectAttributes ev.attributes ["Sender", "Eon", "Receivers", "EncryptedEvals"] with
    | some [v0, v1, v2, v3] => do
      let a ← decodeAddress cx v0
      let e ← parseUint v1
      let rs ← decodeAddresses v2
      let es ← decodeByteSequence v3
      return .polyEval a e rs es
    | _ => none
  else if ev.type = "shutter.accusation-registered" then
    match expectAttributes ev.attributes ["Sender", "Eon", "Accused"] with
    | some [v0, v1, v2] => do
      let a ← decodeAddress cx v0
      let e ← parseUint v1
      let as ← decodeAddresses v2
      return .accusation a e as
    | _ => none
  else if ev.type = "shutter.apology-registered" then
    match expectAttributes ev.attributes ["Sender", "Eon", "Accusers", "PolyEvals"] with
    | some [v0, v1, v2, v3] => do
      let a ← decodeAddress cx v0
      let e ← parseUint v1
      let as ← decodeAddresses v2
      let es ← decodeByteSequence v3
      return .apology a e as (es.map bigOfBytes)
    | _ => none
  else if ev.type = "shutter.epoch-secret-key-share" then
    match expectAttributes ev.attributes ["Sender", "Eon", "Epoch", "Share"] with
    | some [v0, v1, v2, v3] => do
      let a ← decodeAddress cx v0
      let e ← parseUint v1
      let ep ← parseUint v2
      let sh ← decodeShare cx v3
      return .epochSecretKeyShare a e ep sh
    | _ => none
  else none

end Shutter.Events
