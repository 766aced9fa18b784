import Verif.Model.DecideDkg

/-! # Signatures (contracts/openzeppelin/contracts/utils/cryptography/ECDSA.sol, and go-ethereum's crypto.SigToPub)

Signatures are 65 bytes: `r`, `s` and the recovery id. The mathematics of recovering the signer (secp256k1), which is the same on both
sides, is a parameter; what differs is which signatures are refused beforehand. -/

namespace Shutter.Ecdsa
open Shutter.Crypto

/-- The order of the group. -/
def order : Nat := 0xFFFFFFFFFFFFFFFFFFFFFFFFFFFFFFFEBAAEDCE6AF48A03BBFD25E8CD0364141

/-- ECDSA.sol:63: the largest `s` accepted by the contracts -/
def halfOrder : Nat := 0x7FFFFFFFFFFFFFFFFFFFFFFFFFFFFFFF5D576E7357A4501DDFE92F46681B20A0

/-- Recovery of the signer of a hash from `r`, `s` and the recovery id (0 to 3). -/
abbrev Core := Bytes → Nat → Nat → Nat → Option Sol.Address

/-- `r`, `s` and the last byte. -/
def split (sig : Bytes) : Nat × Nat × Nat := (beNat (sig.take 32), beNat ((sig.drop 32).take 32), ((sig[64]?).getD 0).toNat)

/-- ECDSA.sol:26-72 `recover`; `none`: the transaction reverts. The precompiled contract `ecrecover` takes 27 and 28 for the recovery ids 0
and 1 and returns the zero address if there is no signer. -/
def recover (core : Core) (hash sig : Bytes) : Option Sol.Address :=
  if sig.length ≠ 65 then none
  else
    let (r, s, v) := split sig
    if s > halfOrder then none
    else if v ≠ 27 ∧ v ≠ 28 then none
    else (core hash r s (v - 27)).bind (fun a => if a = 0 then none else some a)

/-- go-ethereum, crypto/signature_cgo.go `SigToPub`, crypto/secp256k1/secp256.go `RecoverPubkey` (a dependency, from its documentation):
signatures of 65 bytes with a recovery id below four. -/
def goRecover (core : Core) (hash sig : Bytes) : Option Sol.Address :=
  if sig.length ≠ 65 then none
  else
    let (r, s, v) := split sig
    if 4 ≤ v then none else core hash r s v

end Shutter.Ecdsa
