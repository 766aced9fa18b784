import Mathlib.Data.Nat.Digits.Defs
import Verif.Model.Crypto

/-!
# Model of shlib/shcrypto/encoding.go, version.go and shbls/encoding.go

The point compression of blst is a parameter (`PointCodec`). As in Go, `Uncompress` writes into its
receiver and separately reports success by returning the receiver or nil.
-/

namespace Shutter.Crypto

/-- blst `P2Affine`: `Compress`, `Uncompress`, `InG2`. `uncompress b = none` when the Go method returns nil; then the
receiver, previously `old`, holds `afterFail old b`. `zero` is `new(P2Affine)`. -/
structure PointCodec (P : Type) where
  compress : P → Bytes
  uncompress : Bytes → Option P
  afterFail : P → Bytes → P
  inGroup : P → Bool
  zero : P

/-- What is assumed of a codec: 96 byte encodings (`BLST_P2_COMPRESS_BYTES`) that round trip. -/
structure PointCodec.Lawful {P : Type} (c : PointCodec P) : Prop where
  length : ∀ p, (c.compress p).length = 96
  roundtrip : ∀ p, c.inGroup p = true → c.uncompress (c.compress p) = some p

/-- The receiver's contents after `p.Uncompress(b)`. -/
def PointCodec.uncompressInto {P : Type} (c : PointCodec P) (old : P) (b : Bytes) : P :=
  match c.uncompress b with
  | some p => p
  | none => c.afterFail old b

/-- shlib/shcrypto/version.go:3 -/
def versionIdentifier : UInt8 := 0x03

/-- shlib/shcrypto/encoding.go:22-36. (`C1 == nil` panics; the model has no nil.) -/
def marshalEncryptedMessage {P : Type} (c : PointCodec P) (m : EncryptedMessage P) : Bytes :=
  versionIdentifier :: (c.compress m.C1 ++ m.C2.toBytes ++ m.C3.flatMap Block.toBytes)

/-- `copy(b[:], d[i:i+BlockSize])` for an in-range `i`. -/
def blockAt (d : Bytes) (i : Nat) : Block := fun j => d.getD (i + j) 0

/-- shlib/shcrypto/encoding.go:39-72. `recvC1` is the receiver's `C1` pointer contents (`none` = nil).
`none` result = error. The value returned by `Uncompress` is ignored, as in line 54. -/
def unmarshalEncryptedMessage {P : Type} (c : PointCodec P) (recvC1 : Option P) (d : Bytes) :
    Option (EncryptedMessage P) :=
  match d with
  | [] => none
  | v :: _ =>
    if v ≠ versionIdentifier then none
    else if d.length < 1 + 96 + 32 ∨ (d.length - 1 - 96 - 32) % 32 ≠ 0 then none
    else
      let C1 := c.uncompressInto (recvC1.getD c.zero) ((d.drop 1).take 96)
      if !c.inGroup C1 then none
      else some
        { C1 := C1
          C2 := blockAt d (1 + 96)
          C3 := (List.range ((d.length - (1 + 96 + 32)) / 32)).map fun k => blockAt d (1 + 96 + 32 + 32 * k) }

/-- shlib/shcrypto/encoding.go:94-104, 112-122 (eon public key (share); the epoch keys at 144-155, 163-173, 181-191 have the
same shape with G1). `old` is the receiver's previous contents; the result of `Uncompress` is ignored. -/
def unmarshalPoint {P : Type} (c : PointCodec P) (old : P) (b : Bytes) : Option P :=
  let p := c.uncompressInto old b
  if !c.inGroup p then none else some p

/-- shlib/shcrypto/encoding.go:237-246 -/
def marshalGammas {P : Type} (c : PointCodec P) (g : List P) : Bytes := g.flatMap c.compress

/-- shlib/shcrypto/encoding.go:255-265: the loop over the points. -/
def unmarshalGammasLoop {P : Type} (c : PointCodec P) (m : Bytes) : List Nat → Option (List P)
  | [] => some []
  | i :: is =>
    match c.uncompress ((m.drop (i * 96)).take 96) with
    | none => none
    | some p => if !c.inGroup p then none else (unmarshalGammasLoop c m is).map (p :: ·)

/-- shlib/shcrypto/encoding.go:249-267 -/
def unmarshalGammas {P : Type} (c : PointCodec P) (m : Bytes) : Option (List P) :=
  if m.length % 96 ≠ 0 then none
  else unmarshalGammasLoop c m (List.range (m.length / 96))

/-! ### scalars -/

/-- `big.Int.Bytes()`: minimal big endian bytes. -/
def natBytes (n : Nat) : Bytes := ((Nat.digits 256 n).map UInt8.ofNat).reverse

/-- `big.Int.FillBytes(make([]byte, len))`; `none` = panic when the number does not fit. -/
def fillBytes (len n : Nat) : Option Bytes :=
  let b := natBytes n
  if b.length ≤ len then some (List.replicate (len - b.length) 0 ++ b) else none

/-- shlib/shcrypto/encoding.go:75-77 -/
def marshalEonSecretKeyShare (s : Nat) : Bytes := natBytes s

/-- shlib/shcrypto/encoding.go:80-86: (value left in the receiver, no error?). -/
def unmarshalEonSecretKeyShare (m : Bytes) : Nat × Bool :=
  let v := beNat m
  if v ≥ order then (v, false) else (v, true)

/-- go-ethereum bn256.Order, used by shbls. -/
def bn256Order : Nat := 21888242871839275222246405745257275088548364400416034343698204186575808495617

/-- shlib/shcrypto/shbls/encoding.go:13-17; `none` = panic. -/
def marshalBlsSecretKey (s : Nat) : Option Bytes := fillBytes 32 s

/-- shlib/shcrypto/shbls/encoding.go:21-34: (value left in the receiver, no error?); `old` is its previous value. -/
def unmarshalBlsSecretKey (old : Nat) (b : Bytes) : Nat × Bool :=
  if b.length ≠ 32 then (old, false)
  else
    let v := beNat b
    if v ≥ bn256Order then (0, false) else (v, true)

end Shutter.Crypto
