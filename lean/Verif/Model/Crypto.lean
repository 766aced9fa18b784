import Mathlib.Algebra.Group.Defs
import Mathlib.Algebra.Group.Nat.Even
import Mathlib.Data.Fintype.Pi
import Mathlib.Data.UInt

/-!
# Model of shlib/shcrypto (threshold encryption)

Group elements are taken from abstract types `G1`, `G2`, `GT`; scalar multiplication by a
non-negative `big.Int` is `n • P`. The hash functions and the pairing are fields of `Env`.
-/

namespace Shutter.Crypto

/-- Go `[]byte`. Simplification: slices are values, no aliasing. -/
abbrev Bytes := List UInt8

/-- shlib/shcrypto/encryption.go:21-25 `type Block [BlockSize]byte`, `BlockSize = 32`. -/
abbrev Block := Fin 32 → UInt8

/-- `block[:]` -/
def Block.toBytes (b : Block) : Bytes := List.ofFn b

/-- shlib/shcrypto/feldman.go:20-28 `order`. -/
def order : Nat := 0x73eda753299d7d483339d80809a1d80553bda402fffe5bfeffffffff00000001

/-- The external primitives: BLS12-381 generators and pairing (blst), keccak256 (sha3), hash-to-curve and the
serialisation of `Fp12`. shlib/shcrypto/hash.go:12-51, feldman.go:30-38; `pair q p` is
`Fp12MillerLoop(q, p)` followed by `FinalExp()` as in encryption.go:71-72. -/
structure Env (G1 G2 GT : Type) where
  g1 : G1
  g2 : G2
  pair : G2 → G1 → GT
  keccak : Bytes → Block
  hashToG1 : Bytes → G1
  gtBytes : GT → Bytes

/-- Big endian value of a byte string, `new(big.Int).SetBytes(b)`. -/
def beNat (b : Bytes) : Nat := b.foldl (fun acc x => acc * 256 + x.toNat) 0

section
variable {G1 G2 GT : Type} (env : Env G1 G2 GT)

/-- shlib/shcrypto/hash.go:21-23 -/
def hashWithPrefix (p : UInt8) (b : Bytes) : Block := env.keccak (p :: b)

/-- shlib/shcrypto/hash.go:25-29 -/
def hash1 (b : Bytes) : G1 := env.hashToG1 (1 :: b)

/-- shlib/shcrypto/hash.go:31-37 -/
def hash2 (gt : GT) : Block := hashWithPrefix env 2 (env.gtBytes gt)

/-- shlib/shcrypto/hash.go:39-44 -/
def hash3 (b : Bytes) : Nat := beNat (hashWithPrefix env 3 b).toBytes % order

/-- shlib/shcrypto/hash.go:46-51 -/
def hash4 (b : Bytes) : Block := hashWithPrefix env 4 b

end

/-! ## encryption.go -/

/-- shlib/shcrypto/encryption.go:14-19. -/
structure EncryptedMessage (G2 : Type) where
  C1 : G2
  C2 : Block
  C3 : List Block

/-- shlib/shcrypto/encryption.go:28-34 -/
def xorBlocks (b1 b2 : Block) : Block := fun i => b1 i ^^^ b2 i

/-- shlib/shcrypto/encryption.go:171-184. The slice expression `m[i*BlockSize:(i+1)*BlockSize]` is always in
range because `i < len(m)/BlockSize`, so `getD` never uses its default. -/
def padMessage (m : Bytes) : List Block :=
  let paddingLength := 32 - m.length % 32
  let m' := m ++ List.replicate paddingLength (UInt8.ofNat paddingLength)
  (List.range (m'.length / 32)).map fun i => fun j : Fin 32 => m'.getD (i * 32 + j) 0

/-- shlib/shcrypto/encryption.go:187-214; `none` is the returned error. -/
def unpadMessage (blocks : List Block) : Option Bytes :=
  match blocks.getLast? with
  | none => some []
  | some lastBlock =>
    let paddingLength := (lastBlock 31).toNat
    if paddingLength = 0 then none
    else if paddingLength > 32 then none
    else some (blocks.dropLast.flatMap Block.toBytes ++ lastBlock.toBytes.take (32 - paddingLength))

/-- `binary.BigEndian.PutUint64` (used at encryption.go:117). -/
def be8 (i : Nat) : Bytes :=
  [UInt8.ofNat (i / 2 ^ 56), UInt8.ofNat (i / 2 ^ 48), UInt8.ofNat (i / 2 ^ 40), UInt8.ofNat (i / 2 ^ 32),
   UInt8.ofNat (i / 2 ^ 24), UInt8.ofNat (i / 2 ^ 16), UInt8.ofNat (i / 2 ^ 8), UInt8.ofNat i]

/-- shlib/shcrypto/encryption.go:112-124 `Uint64toBytes` (first result). The loop drops leading zero bytes. -/
def uint64toBytes (i : Nat) : Bytes :=
  if i = 0 then [0] else (be8 i).dropWhile (· == 0)

section
variable {G1 G2 GT : Type} (env : Env G1 G2 GT)

/-- shlib/shcrypto/encryption.go:62-64 -/
def computeR (sigma : Block) (message : Bytes) : Nat := hash3 env (sigma.toBytes ++ message)

/-- shlib/shcrypto/encryption.go:66-68, feldman.go:35-38 (`generateP2`) -/
def computeC1 [AddCommGroup G2] (r : Nat) : G2 := r • env.g2

/-- shlib/shcrypto/encryption.go:90-96, the square-and-multiply loop. -/
def fp12ExpLoop [CommGroup GT] (result base : GT) (exp : Nat) : GT :=
  if h : exp > 0 then
    fp12ExpLoop (if exp % 2 = 1 then result * base else result) (base * base) (exp / 2)
  else result
termination_by exp
decreasing_by omega

/-- shlib/shcrypto/encryption.go:78-99 -/
def fp12Exp [CommGroup GT] (base : GT) (exp : Nat) : GT := fp12ExpLoop 1 (1 * base) exp

/-- shlib/shcrypto/encryption.go:70-76 -/
def computeC2 [CommGroup GT] (sigma : Block) (r : Nat) (epochID : G1) (eonPublicKey : G2) : Block :=
  xorBlocks sigma (hash2 env (fp12Exp (env.pair eonPublicKey epochID) r))

/-- shlib/shcrypto/encryption.go:126-129 -/
def computeBlockKey (sigma : Block) (blockNum : Nat) : Block :=
  hash4 env (sigma.toBytes ++ uint64toBytes blockNum)

/-- shlib/shcrypto/encryption.go:101-110 -/
def computeC3 (blocks : List Block) (sigma : Block) : List Block :=
  blocks.mapIdx fun i b => xorBlocks (computeBlockKey env sigma i) b

/-- shlib/shcrypto/encryption.go:158-167 -/
def decryptBlocks (encryptedBlocks : List Block) (sigma : Block) : List Block :=
  encryptedBlocks.mapIdx fun i b => xorBlocks b (computeBlockKey env sigma i)

/-- shlib/shcrypto/encryption.go:51-60 -/
def encrypt [AddCommGroup G2] [CommGroup GT] (message : Bytes) (eonPublicKey : G2) (epochID : G1)
    (sigma : Block) : EncryptedMessage G2 :=
  let messageBlocks := padMessage message
  let r := computeR env sigma message
  { C1 := computeC1 env r
    C2 := computeC2 env sigma r epochID eonPublicKey
    C3 := computeC3 env messageBlocks sigma }

/-- shlib/shcrypto/encryption.go:150-156 -/
def EncryptedMessage.sigma (m : EncryptedMessage G2) (epochSecretKey : G1) : Block :=
  xorBlocks m.C2 (hash2 env (env.pair m.C1 epochSecretKey))

/-- shlib/shcrypto/encryption.go:132-147; `none` is the returned error. -/
def decrypt [AddCommGroup G2] [DecidableEq G2] (m : EncryptedMessage G2) (epochSecretKey : G1) :
    Option Bytes :=
  let sigma := m.sigma env epochSecretKey
  match unpadMessage (decryptBlocks env m.C3 sigma) with
  | none => none
  | some message =>
    if m.C1 ≠ computeC1 env (computeR env sigma message) then none
    else some message

/-! ## keys.go, feldman.go -/

/-- shlib/shcrypto/feldman.go:189-192. Simplification: keyper indices are non-negative. -/
def keyperX (keyperIndex : Nat) : Nat := 1 + keyperIndex

/-- uint64 `n - 1` with wrap-around. -/
def sub1u64 (n : Nat) : Nat := (n + (2 ^ 64 - 1)) % 2 ^ 64

/-- shlib/shcrypto/feldman.go:66-74 `Degree` (of a polynomial and of gammas). -/
def degree {α : Type} (l : List α) : Nat := sub1u64 l.length

/-- shlib/shcrypto/feldman.go:50-64. Coefficients are `Int`s (big.Int can be negative). -/
def newPolynomial (coefficients : List Int) : Option (List Nat) :=
  if coefficients.length = 0 then none
  else if coefficients.any (fun v => v < 0 || v ≥ (order : Int)) then none
  else some (coefficients.map Int.toNat)

/-- shlib/shcrypto/feldman.go:125-133 -/
def validEval (v : Int) : Bool :=
  if v < 0 then false else if v ≥ (order : Int) then false else true

/-- shlib/shcrypto/feldman.go:107-116 (Horner). `none`: index out of range panic for the empty polynomial. -/
def polyEvalAt (p : List Nat) (x : Nat) : Option Nat :=
  match p.reverse with
  | [] => none
  | c :: cs => some (cs.foldl (fun res a => (res * x + a) % order) c)

/-- shlib/shcrypto/feldman.go:119-122 -/
def evalForKeyper (p : List Nat) (keyperIndex : Nat) : Option Nat := polyEvalAt p (keyperX keyperIndex)

/-- shlib/shcrypto/feldman.go:136-143 -/
def polyGammas [AddCommGroup G2] (p : List Nat) : List G2 := p.map fun c => c • env.g2

/-- shlib/shcrypto/feldman.go:146-159 -/
def gammasPi [AddCommGroup G2] (gammas : List G2) (xi : Nat) : G2 :=
  (gammas.foldl (fun (st : Nat × G2) gamma => (st.1 * xi % order, st.2 + st.1 • gamma)) (1, 0)).2

/-- shlib/shcrypto/feldman.go:195-202 -/
def verifyPolyEval [AddCommGroup G2] [DecidableEq G2] (keyperIndex : Nat) (polyEval : Nat) (gammas : List G2)
    (threshold : Nat) : Bool :=
  if degree gammas ≠ sub1u64 threshold then false
  else polyEval • env.g2 == gammasPi gammas (keyperX keyperIndex)

/-- shlib/shcrypto/keys.go:104-112 -/
def computeEonSecretKeyShare (polyEvals : List Nat) : Nat :=
  polyEvals.foldl (fun res si => (res + si) % order) 0

/-- shlib/shcrypto/keys.go:115-125 -/
def computeEonPublicKeyShare [AddCommGroup G2] (keyperIndex : Nat) (gammas : List (List G2)) : G2 :=
  gammas.foldl (fun p gs => p + gammasPi gs (keyperX keyperIndex)) 0

/-- shlib/shcrypto/keys.go:128-137 -/
def computeEonPublicKey [AddCommGroup G2] (gammas : List (List G2)) : G2 :=
  gammas.foldl (fun p gs => p + gammasPi gs 0) 0

/-- shlib/shcrypto/keys.go:140-148 -/
def computeEpochSecretKeyShare [AddCommGroup G1] (eonSecretKeyShare : Nat) (epochID : G1) : G1 :=
  eonSecretKeyShare • epochID

/-- shlib/shcrypto/keys.go:151-153 -/
def computeEpochID (epochIDBytes : Bytes) : G1 := hash1 env epochIDBytes

/-- `big.Int.Exp(x, e, m)` of the Go library, for exponents below `2 ^ bits`: square and multiply (`modExp_eq`: it is `x ^ e % m`). -/
def modExp (m : Nat) : (bits x e : Nat) → Nat
  | 0, _, _ => 1 % m
  | bits + 1, x, e => if e % 2 = 1 then x * modExp m bits (x * x % m) (e / 2) % m else modExp m bits (x * x % m) (e / 2)

/-- shlib/shcrypto/keys.go:264-267 -/
def invert (x : Nat) : Nat := modExp order 256 x (order - 2)

/-- shlib/shcrypto/keys.go:240-249 (`big.Int.Mod` is Euclidean). -/
def lagrangeCoefficientFactor (k keyperIndex : Nat) : Nat :=
  let xj := keyperX keyperIndex
  let xk := keyperX k
  let dx := (((xk : Int) - (xj : Int)) % (order : Int)).toNat
  xk * invert dx % order

/-- shlib/shcrypto/keys.go:251-262 -/
def lagrangeCoefficient (keyperIndex : Nat) (keyperIndices : List Nat) : Nat :=
  keyperIndices.foldl (fun lambda k =>
    if k = keyperIndex then lambda else lambda * lagrangeCoefficientFactor k keyperIndex % order) 1

/-- shlib/shcrypto/keys.go:162-170 -/
def newLagrangeCoeffs (keyperIndices : List Nat) : List Nat :=
  keyperIndices.map fun i => lagrangeCoefficient i keyperIndices

/-- shlib/shcrypto/keys.go:175-187 -/
def lagrangeComputeEpochSecretKey [AddCommGroup G1] (lambdas : List Nat) (shares : List G1) : Option G1 :=
  if shares.length ≠ lambdas.length then none
  else some ((shares.zip lambdas).foldl (fun sk (sl : G1 × Nat) => sk + sl.2 • sl.1) 0)

/-- shlib/shcrypto/keys.go:190-199 -/
def computeEpochSecretKey [AddCommGroup G1] (keyperIndices : List Nat) (shares : List G1) (threshold : Nat) :
    Option G1 :=
  if keyperIndices.length ≠ shares.length then none
  else if keyperIndices.length ≠ threshold then none
  else lagrangeComputeEpochSecretKey (newLagrangeCoeffs keyperIndices) shares

/-- shlib/shcrypto/keys.go:202-211 -/
def verifyEpochSecretKeyShare [DecidableEq GT] (share : G1) (eonPublicKeyShare : G2) (epochID : G1) : Bool :=
  env.pair env.g2 share == env.pair eonPublicKeyShare epochID

/-- shlib/shcrypto/keys.go:230-238 -/
def verifyEpochSecretKeyDeterministic [AddCommGroup G2] [CommGroup GT] [DecidableEq G2] (epochSecretKey : G1)
    (eonPublicKey : G2) (epochIDBytes : Bytes) (sigma : Block) (message : Bytes) : Bool :=
  let epochID := computeEpochID env epochIDBytes
  match decrypt env (encrypt env message eonPublicKey epochID sigma) epochSecretKey with
  | none => false
  | some m => m == message

end

/-! ## Assumptions on the primitives -/

/-- What is assumed of the BLS12-381 groups and pairing: groups of exponent `order`, `G2` generated by the
generator, a bilinear pairing that is non-degenerate. -/
structure Lawful {G1 G2 GT : Type} [AddCommGroup G1] [AddCommGroup G2] [CommGroup GT] (env : Env G1 G2 GT) :
    Prop where
  order_smul_G1 : ∀ p : G1, order • p = 0
  order_smul_G2 : ∀ p : G2, order • p = 0
  g2_generates : ∀ p : G2, ∃ n : Nat, p = n • env.g2
  g2_ne_zero : env.g2 ≠ 0
  pair_add_left : ∀ q q' p, env.pair (q + q') p = env.pair q p * env.pair q' p
  pair_add_right : ∀ q p p', env.pair q (p + p') = env.pair q p * env.pair q p'
  nondegenerate : ∀ p : G1, env.pair env.g2 p = 1 → p = 0

end Shutter.Crypto
