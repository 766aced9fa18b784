import Verif.Model.Encoding

/-!
# Model of shlib/shcrypto/shbls/shbls.go (BLS signatures over bn256)
-/

namespace Shutter.Bls
open Shutter.Crypto (Bytes Block beNat bn256Order)

/-- bn256 primitives: generators, pairing, keccak. -/
structure Env (G1 G2 GT : Type) where
  g1 : G1
  g2 : G2
  pair : G1 → G2 → GT
  keccak : Bytes → Block

variable {G1 G2 GT : Type} [AddCommGroup G1] [AddCommGroup G2] [CommGroup GT] (env : Env G1 G2 GT)

/-- shlib/shcrypto/shbls/shbls.go:77-82 `hashToG2` -/
def hashToG2 (data : Bytes) : G2 := beNat (env.keccak data).toBytes • env.g2

/-- shlib/shcrypto/shbls/shbls.go:28-32 -/
def secretToPublicKey (sk : Nat) : G1 := sk • env.g1

/-- shlib/shcrypto/shbls/shbls.go:35-40 -/
def sign (msg : Bytes) (sk : Nat) : G2 := sk • hashToG2 env msg

/-- shlib/shcrypto/shbls/shbls.go:44-57. `PairingCheck` tests that the product of the pairings is one. -/
def verify [DecidableEq GT] (sig : G2) (pk : G1) (msg : Bytes) : Bool :=
  env.pair (-((1 : Nat) • env.g1)) sig * env.pair pk (hashToG2 env msg) == 1

/-- shlib/shcrypto/shbls/shbls.go:60-66 -/
def aggregateSignatures (sigs : List G2) : G2 := sigs.foldl (fun a s => a + s) ((0 : Nat) • env.g2)

/-- shlib/shcrypto/shbls/shbls.go:69-75 -/
def aggregatePublicKeys (pks : List G1) : G1 := pks.foldl (fun a s => a + s) ((0 : Nat) • env.g1)

/-- Assumptions on bn256: exponent `bn256Order`, bilinear non-degenerate pairing. -/
structure Lawful : Prop where
  order_smul_G2 : ∀ p : G2, bn256Order • p = 0
  pair_add_left : ∀ p p' q, env.pair (p + p') q = env.pair p q * env.pair p' q
  pair_add_right : ∀ p q q', env.pair p (q + q') = env.pair p q * env.pair p q'
  nondegenerate : ∀ q : G2, env.pair env.g1 q = 1 → q = 0

end Shutter.Bls
