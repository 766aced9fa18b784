import Verif.Model.App

/-! # Protocol buffers for shuttermint's messages (shuttermint/shmsg/shmsg.proto, shmsg.pb.go)

The encoding and decoding are done by google.golang.org/protobuf v1.25.0 (a dependency, not in the repository): internal/impl/decode.go
`unmarshalPointer`, internal/impl/codec_gen.go, codec_field.go, encoding/protowire/wire.go; they are modelled from their source. The coders for
the fields are driven by shmsg.proto. Simplification: here a message is first cut into fields, and the fields are then taken up one after the
other; the library does both at the same time. As a field with a number not in the message, or of another wire type than that in the message,
is skipped with its value read in the same way, and all errors are the same for the caller, this makes no difference. -/

namespace Shutter.Proto
open Shutter.App (Bytes Msg BatchConfigMsg MessageWithNonce)

/-! ## Wire format -/

/-- protowire `AppendVarint`; numbers have 64 bits, so ten bytes are enough -/
def varintN : Nat → Nat → Bytes
  | 0, _ => []
  | k + 1, n => if n < 128 then [UInt8.ofNat n] else UInt8.ofNat (n % 128 + 128) :: varintN k (n / 128)

def varint (n : Nat) : Bytes := varintN 10 n

/-- protowire `ConsumeVarint`, with `k` bytes left of ten; the tenth byte must be 0 or 1. `none`: error. -/
def consumeVarintN : Nat → Bytes → Option (Nat × Bytes)
  | 0, _ => none
  | _ + 1, [] => none
  | k + 1, b :: bs =>
    if b.toNat < 128 then (if k = 0 ∧ 1 < b.toNat then none else some (b.toNat, bs))
    else (consumeVarintN k bs).map (fun x => (b.toNat - 128 + 128 * x.1, x.2))

def consumeVarint (b : Bytes) : Option (Nat × Bytes) := consumeVarintN 10 b

/-- protowire `ConsumeBytes` -/
def consumeBytes (b : Bytes) : Option (Bytes × Bytes) :=
  (consumeVarint b).bind (fun x => if x.1 ≤ x.2.length then some (x.2.take x.1, x.2.drop x.1) else none)

/-- The value of a field. -/
inductive Value where
  | varint (n : Nat)
  | bytes (b : Bytes)
  /-- fixed32, fixed64 and groups: not used in shmsg.proto, so such fields are skipped -/
  | other
deriving DecidableEq, Repr

/-- protowire `ConsumeFieldValue`: the value of field `num` with the given wire type, and the rest. Groups (wire type 3) hold fields up to the
end tag (wire type 4) with the same number. The first argument is a bound for the recursion, for which the number of bytes is enough (see
`Proofs/Proto.lean`). -/
def consumeValue : Nat → Nat → Nat → Bytes → Option (Value × Bytes)
  | 0, _, _, _ => none
  | fuel + 1, num, typ, b =>
    if typ = 0 then (consumeVarint b).map (fun x => (.varint x.1, x.2))
    else if typ = 1 then (if 8 ≤ b.length then some (.other, b.drop 8) else none)
    else if typ = 2 then (consumeBytes b).map (fun x => (.bytes x.1, x.2))
    else if typ = 3 then (consumeGroup fuel num b).map (fun r => (.other, r))
    else if typ = 5 then (if 4 ≤ b.length then some (.other, b.drop 4) else none)
    else none
where
  /-- the loop over the fields of a group, with protowire `ConsumeTag` -/
  consumeGroup : Nat → Nat → Bytes → Option Bytes
    | 0, _, _ => none
    | fuel + 1, num, b =>
      (consumeVarint b).bind (fun x =>
        if x.1 / 8 < 1 ∨ 2 ^ 31 - 1 < x.1 / 8 then none
        else if x.1 % 8 = 4 then (if x.1 / 8 = num then some x.2 else none)
        else (consumeValue fuel (x.1 / 8) (x.1 % 8) x.2).bind (fun y => consumeGroup fuel num y.2))

structure Field where
  num : Nat
  value : Value
deriving DecidableEq, Repr

/-- internal/impl/decode.go `unmarshalPointer`: the loop over the fields of a message. An end of a group outside of groups is an error. The
first argument is again a bound for the recursion. -/
def fieldsN : Nat → Bytes → Option (List Field)
  | _, [] => some []
  | 0, _ :: _ => none
  | fuel + 1, b =>
    (consumeVarint b).bind (fun x =>
      if x.1 / 8 < 1 ∨ 2 ^ 29 - 1 < x.1 / 8 then none
      else if x.1 % 8 = 4 then none
      else (consumeValue (2 * x.2.length + 2) (x.1 / 8) (x.1 % 8) x.2).bind (fun y => (fieldsN fuel y.2).map (fun fs => ⟨x.1 / 8, y.1⟩ :: fs)))

def fields (b : Bytes) : Option (List Field) := fieldsN b.length b

/-! ## Decoding of messages: fields of a number seen again replace the value, or are added to the list -/

/-- shmsg.proto:18-26 -/
def batchConfigField (m : BatchConfigMsg) (f : Field) : BatchConfigMsg :=
  match f.num, f.value with
  | 1, .varint n => { m with startBatchIndex := n }
  | 2, .bytes b => { m with keypers := m.keypers ++ [b] }
  | 3, .varint n => { m with threshold := n }
  | 4, .bytes b => { m with configContractAddress := b }
  | 5, .varint n => { m with configIndex := n }
  | 6, .varint n => { m with started := n != 0 }
  | 7, .varint n => { m with validatorsUpdated := n != 0 }
  | _, _ => m

/-- shmsg.proto:28-30, 70-72: messages with one number -/
def numberField (m : Nat) (f : Field) : Nat :=
  match f.num, f.value with
  | 1, .varint n => n
  | _, _ => m

/-- shmsg.proto:32-35 -/
def checkInField (m : Bytes × Bytes) (f : Field) : Bytes × Bytes :=
  match f.num, f.value with
  | 1, .bytes b => (b, m.2)
  | 2, .bytes b => (m.1, b)
  | _, _ => m

/-- shmsg.proto:37-40 -/
def signatureField (m : Nat × Bytes) (f : Field) : Nat × Bytes :=
  match f.num, f.value with
  | 1, .varint n => (n, m.2)
  | 2, .bytes b => (m.1, b)
  | _, _ => m

/-- shmsg.proto:42-46, 58-62: a number and two lists -/
def numberListsField (m : Nat × List Bytes × List Bytes) (f : Field) : Nat × List Bytes × List Bytes :=
  match f.num, f.value with
  | 1, .varint n => (n, m.2)
  | 2, .bytes b => (m.1, m.2.1 ++ [b], m.2.2)
  | 3, .bytes b => (m.1, m.2.1, m.2.2 ++ [b])
  | _, _ => m

/-- shmsg.proto:48-51, 53-56: a number and a list -/
def numberListField (m : Nat × List Bytes) (f : Field) : Nat × List Bytes :=
  match f.num, f.value with
  | 1, .varint n => (n, m.2)
  | 2, .bytes b => (m.1, m.2 ++ [b])
  | _, _ => m

/-- shmsg.proto:64-68 -/
def shareField (m : Nat × Nat × Bytes) (f : Field) : Nat × Nat × Bytes :=
  match f.num, f.value with
  | 1, .varint n => (n, m.2)
  | 2, .varint n => (m.1, n, m.2.2)
  | 3, .bytes b => (m.1, m.2.1, b)
  | _, _ => m

/-- internal/impl/codec_field.go, the coder of a field of a `oneof`: a payload of the same kind as the one seen before is merged into it, one of
another kind replaces it. shmsg.proto:74-90 -/
def messageField (m : Msg) (f : Field) : Option Msg :=
  match f.num, f.value with
  | 4, .bytes b =>
    let old : BatchConfigMsg := match m with | .batchConfig m => m | _ => ⟨0, [], 0, [], 0, false, false⟩
    (fields b).map (fun fs => .batchConfig (fs.foldl batchConfigField old))
  | 6, .bytes b =>
    let old := match m with | .batchConfigStarted n => n | _ => 0
    (fields b).map (fun fs => .batchConfigStarted (fs.foldl numberField old))
  | 7, .bytes b =>
    let old := match m with | .checkIn v e => (v, e) | _ => ([], [])
    (fields b).map (fun fs => let m := fs.foldl checkInField old; .checkIn m.1 m.2)
  | 8, .bytes b =>
    let old := match m with | .decryptionSignature n s => (n, s) | _ => (0, [])
    (fields b).map (fun fs => let m := fs.foldl signatureField old; .decryptionSignature m.1 m.2)
  | 9, .bytes b =>
    let old := match m with | .polyEval n r e => (n, r, e) | _ => (0, [], [])
    (fields b).map (fun fs => let m := fs.foldl numberListsField old; .polyEval m.1 m.2.1 m.2.2)
  | 10, .bytes b =>
    let old := match m with | .polyCommitment n g => (n, g) | _ => (0, [])
    (fields b).map (fun fs => let m := fs.foldl numberListField old; .polyCommitment m.1 m.2)
  | 11, .bytes b =>
    let old := match m with | .accusation n a => (n, a) | _ => (0, [])
    (fields b).map (fun fs => let m := fs.foldl numberListField old; .accusation m.1 m.2)
  | 12, .bytes b =>
    let old := match m with | .apology n a e => (n, a, e) | _ => (0, [], [])
    (fields b).map (fun fs => let m := fs.foldl numberListsField old; .apology m.1 m.2.1 m.2.2)
  | 13, .bytes b =>
    let old := match m with | .eonStartVote n => n | _ => 0
    (fields b).map (fun fs => .eonStartVote (fs.foldl numberField old))
  | 14, .bytes b =>
    let old := match m with | .epochSecretKeyShare n e s => (n, e, s) | _ => (0, 0, [])
    (fields b).map (fun fs => let m := fs.foldl shareField old; .epochSecretKeyShare m.1 m.2.1 m.2.2)
  | _, _ => some m

/-- `proto.Unmarshal` into a `shmsg.Message` that holds `m`; without a payload it is `.unknown` -/
def unmarshalMessage (m : Msg) (b : Bytes) : Option Msg := (fields b).bind (fun fs => fs.foldlM messageField m)

/-- shmsg.proto:92-96 -/
def nonceField (m : MessageWithNonce) (f : Field) : Option MessageWithNonce :=
  match f.num, f.value with
  | 1, .bytes b => (unmarshalMessage m.msg b).map (fun msg => { m with msg := msg })
  | 2, .bytes b => some { m with chainId := b }
  | 3, .varint n => some { m with randomNonce := n }
  | _, _ => some m

/-- `proto.Unmarshal` for `shmsg.MessageWithNonce` -/
def unmarshal (b : Bytes) : Option MessageWithNonce := (fields b).bind (fun fs => fs.foldlM nonceField ⟨.unknown, [], 0⟩)

/-! ## Encoding of messages: in the order of the numbers; numbers, byte strings and flags are left out if zero, empty or unset -/

def tag (num typ : Nat) : Bytes := varint (num * 8 + typ)

def putNumber (num n : Nat) : Bytes := if n = 0 then [] else tag num 0 ++ varint n

def putFlag (num : Nat) (b : Bool) : Bytes := if b then tag num 0 ++ varint 1 else []

/-- An element of a list, or a message -/
def putElement (num : Nat) (b : Bytes) : Bytes := tag num 2 ++ varint b.length ++ b

def putBytes (num : Nat) (b : Bytes) : Bytes := if b = [] then [] else putElement num b

def putList (num : Nat) (l : List Bytes) : Bytes := l.flatMap (putElement num)

/-- `proto.Marshal` for `shmsg.Message` -/
def marshalMessage : Msg → Bytes
  | .batchConfig m => putElement 4 (putNumber 1 m.startBatchIndex ++ putList 2 m.keypers ++ putNumber 3 m.threshold ++
      putBytes 4 m.configContractAddress ++ putNumber 5 m.configIndex ++ putFlag 6 m.started ++ putFlag 7 m.validatorsUpdated)
  | .batchConfigStarted n => putElement 6 (putNumber 1 n)
  | .checkIn v e => putElement 7 (putBytes 1 v ++ putBytes 2 e)
  | .decryptionSignature n s => putElement 8 (putNumber 1 n ++ putBytes 2 s)
  | .polyEval n r e => putElement 9 (putNumber 1 n ++ putList 2 r ++ putList 3 e)
  | .polyCommitment n g => putElement 10 (putNumber 1 n ++ putList 2 g)
  | .accusation n a => putElement 11 (putNumber 1 n ++ putList 2 a)
  | .apology n a e => putElement 12 (putNumber 1 n ++ putList 2 a ++ putList 3 e)
  | .eonStartVote n => putElement 13 (putNumber 1 n)
  | .epochSecretKeyShare n e s => putElement 14 (putNumber 1 n ++ putNumber 2 e ++ putBytes 3 s)
  | .unknown => []

/-- `proto.Marshal` for `shmsg.MessageWithNonce`; the field `msg` is set by messagesender.go:122-128 `addNonceAndChainID` -/
def marshal (m : MessageWithNonce) : Bytes :=
  putElement 1 (marshalMessage m.msg) ++ putBytes 2 m.chainId ++ putNumber 3 m.randomNonce

end Shutter.Proto
