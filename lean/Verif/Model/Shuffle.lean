import Verif.Model.Encoding

/-!
# Model of shlib/shcrypto/shuffle.go and Batch.DecryptTransactions
-/

namespace Shutter.Crypto

/-- shlib/shcrypto/shuffle.go:19-21 `swap`. Out-of-range indices (panic in Go) leave the list unchanged; the properties assume
that the random source returns indices in range, as `rand.Rand.Shuffle` does. -/
def swapAt {α : Type} (l : List α) (i j : Nat) : List α :=
  match l[i]?, l[j]? with
  | some a, some b => (l.set i b).set j a
  | _, _ => l

/-- Go `math/rand.(*Rand).Shuffle(n, swap)`: `for i := n-1; i > 0; i-- { j := r.Int(i+1); swap(i, j) }`.
`next s b` draws a number below `b` from the random state `s`. The argument is the loop variable `i`. -/
def shuffleLoop {α σ : Type} (next : σ → Nat → Nat × σ) : Nat → σ → List α → List α
  | 0, _, l => l
  | i + 1, s, l => shuffleLoop next i (next s (i + 2)).2 (swapAt l (i + 1) (next s (i + 2)).1)

/-- shlib/shcrypto/shuffle.go:9-13 `computeSeed`: the first 8 bytes of the hash of the key, little endian
(the reinterpretation as int64 is injective and left out). `keyBytes` is `key.Marshal()`. -/
def computeSeed (keccak : Bytes → Block) (keyBytes : Bytes) : Nat :=
  beNat ((keccak keyBytes).toBytes.take 8).reverse

/-- shlib/shcrypto/shuffle.go:17-27. `newSource` is `rand.New(rand.NewSource(seed))`. -/
def shuffle {α σ : Type} (keccak : Bytes → Block) (newSource : Nat → σ) (next : σ → Nat → Nat × σ)
    (txs : List α) (keyBytes : Bytes) : List α :=
  shuffleLoop next (txs.length - 1) (newSource (computeSeed keccak keyBytes)) txs

/-- shuttermint/keyper/observe/mainchain.go:398-412, the loop: unmarshal into a fresh message and decrypt, skipping errors. -/
def decryptAll {G1 G2 GT : Type} [AddCommGroup G2] [DecidableEq G2] (env : Env G1 G2 GT) (codec : PointCodec G2)
    (key : G1) (encTxs : List Bytes) : List Bytes :=
  encTxs.filterMap fun encTx =>
    match unmarshalEncryptedMessage codec none encTx with
    | none => none
    | some m => decrypt env m key

/-- shuttermint/keyper/observe/mainchain.go:396-413 `DecryptTransactions`. -/
def decryptTransactions {G1 G2 GT σ : Type} [AddCommGroup G2] [DecidableEq G2] (env : Env G1 G2 GT)
    (codec : PointCodec G2) (marshalKey : G1 → Bytes) (newSource : Nat → σ) (next : σ → Nat → Nat × σ)
    (encTxs : List Bytes) (key : G1) : List Bytes :=
  shuffle env.keccak newSource next (decryptAll env codec key encTxs) (marshalKey key)

end Shutter.Crypto
