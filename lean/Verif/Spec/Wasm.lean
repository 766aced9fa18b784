import Verif.Model.Wasm

/-! What a web page passes to and reads from the functions of shcryptowasm. -/

namespace Shutter.Wasm
open Shutter.Crypto

/-- The argument is an array holding these bytes. -/
def Holds (v : JsValue) (b : Crypto.Bytes) : Prop := v = .uint8Array b ∨ v = .uint8ClampedArray b

/-- The result is a text: `0x` and two lower case hexadecimal digits for each of these bytes. -/
def Hex (r : Result) (b : Crypto.Bytes) : Prop :=
  ∃ digits : List Char, r = .text ('0' :: 'x' :: digits) ∧ digits.length = 2 * b.length ∧
    (∀ d ∈ digits, d ∈ "0123456789abcdef".toList) ∧
    ∀ (i : Nat) (x : UInt8), b[i]? = some x → ∃ hi lo, digits[2 * i]? = some hi ∧ digits[2 * i + 1]? = some lo ∧
      x.toNat = "0123456789abcdef".toList.idxOf hi * 16 + "0123456789abcdef".toList.idxOf lo

/-- The result is a text that starts with `Error: `. -/
def Failed (r : Result) : Prop := ∃ s : List Char, r = .text ("Error: ".toList ++ s)

/-- What is assumed of the point formats: those of G2 as in C07 (`Lawful`), those of G1 round trip, and all multiples
of the generators are recognised as group elements. -/
structure Lib.Sound {G1 G2 GT : Type} [AddCommGroup G1] [AddCommGroup G2] [CommGroup GT] (lib : Lib G1 G2 GT) :
    Prop where
  groups : Lawful lib.env
  codec2 : lib.codec2.Lawful
  inG2 : ∀ n : Nat, lib.codec2.inGroup (n • lib.env.g2) = true
  roundtrip1 : ∀ k, lib.codec1.inGroup k = true → lib.codec1.uncompress (lib.codec1.compress k) = some k
  inG1 : ∀ k, lib.codec1.inGroup k = true

end Shutter.Wasm
