import Verif.Proofs.Bytes
import Verif.Proofs.Encoding
import Verif.Proofs.Shuffle

/-! Property theorems C07–C10 (encodings, shuffling). -/

namespace Shutter.Crypto.Props
open Shutter.Crypto

/-- **C07** Unmarshalling what `Marshal` produced returns the same message, whatever the receiver contained. -/
theorem C07_roundtrip {P : Type} (codec : PointCodec P) (law : codec.Lawful) (recv : Option P)
    (m : EncryptedMessage P) (hC1 : codec.inGroup m.C1 = true) :
    unmarshalEncryptedMessage codec recv (marshalEncryptedMessage codec m) = some m := by
  unfold marshalEncryptedMessage
  rw [unmarshal_layout codec recv _ _ _ (law.length _)]
  simp [PointCodec.uncompressInto, law.roundtrip _ hC1, hC1]

/-- **C07** Anything accepted has the version byte 3 and a length of 129 bytes plus whole blocks. -/
theorem C07_accepts_only_wellformed_length {P : Type} (codec : PointCodec P) (recv : Option P) (d : Bytes)
    (m : EncryptedMessage P) (h : unmarshalEncryptedMessage codec recv d = some m) :
    d.head? = some 3 ∧ d.length = 1 + 96 + 32 + 32 * m.C3.length := by
  unfold unmarshalEncryptedMessage at h
  split at h
  · simp at h
  · next v t =>
    split at h
    · simp at h
    · next hv =>
      split at h
      · simp at h
      · next hl =>
        simp only at h
        split at h
        · simp at h
        · simp only [Option.some.injEq] at h
          subst h
          rw [not_not] at hv
          rw [not_or, not_not, not_lt] at hl
          refine ⟨by rw [hv]; rfl, ?_⟩
          simp only [List.length_map, List.length_range]
          omega

/-- A codec used in examples: a point is a byte, encoded as 96 bytes; only headers with the top bit set are valid. -/
def toyCodec : PointCodec UInt8 where
  compress p := 0x80 :: List.replicate 94 0 ++ [p]
  uncompress b := if b.length = 96 ∧ b.head? = some 0x80 then b.getLast? else none
  afterFail old _ := old
  inGroup _ := true
  zero := 0

theorem toyCodec_lawful : toyCodec.Lawful where
  length p := by simp [toyCodec]
  roundtrip p _ := by simp [toyCodec]

example : unmarshalEncryptedMessage toyCodec none
    (marshalEncryptedMessage toyCodec ⟨5, fun _ => 1, [fun _ => 2, fun _ => 3]⟩) =
      some ⟨5, fun _ => 1, [fun _ => 2, fun _ => 3]⟩ := C07_roundtrip toyCodec toyCodec_lawful none _ rfl

/-- **C08** For commitments (`Gammas`) the property holds in full: exactly the concatenations of valid encodings of
group elements are accepted, and the decoded elements are stored. -/
theorem C08_gammas_exact {P : Type} (codec : PointCodec P) (m : Bytes) (g : List P) :
    unmarshalGammas codec m = some g ↔
      m.length = 96 * g.length ∧
      ∀ i (hi : i < g.length), codec.uncompress ((m.drop (i * 96)).take 96) = some g[i] ∧
        codec.inGroup g[i] = true := by
  unfold unmarshalGammas
  split
  · next h => constructor
              · intro h'; simp at h'
              · rintro ⟨h1, _⟩; omega
  · next h =>
    rw [not_not] at h
    rw [gammasLoop_accepts, List.forall₂_iff_get]
    simp only [List.length_range, List.get_eq_getElem, List.getElem_range]
    constructor
    · rintro ⟨h1, h2⟩
      exact ⟨by omega, fun i hi => h2 i (by omega) hi⟩
    · rintro ⟨h1, h2⟩
      exact ⟨by omega, fun i _ hi => h2 i hi⟩

/-- **C08** Commitments round trip. -/
theorem C08_gammas_roundtrip {P : Type} (codec : PointCodec P) (law : codec.Lawful) (g : List P)
    (hg : ∀ p ∈ g, codec.inGroup p = true) : unmarshalGammas codec (marshalGammas codec g) = some g := by
  unfold unmarshalGammas
  rw [marshalGammas_length codec law, if_neg (by omega)]
  have : 96 * g.length / 96 = g.length := by omega
  rw [this]
  have h := gammasLoop_spec codec law g [] 0 rfl hg
  simpa using h

/-- **C08** (partial) For encrypted messages and public keys: if the point bytes *are* a valid encoding, an accepted value
is the encoded group element. Missing: nothing prevents acceptance when the bytes are not a valid encoding, see the
counterexamples. -/
theorem C08_valid_point_stored_partial {P : Type} (codec : PointCodec P) (recv : Option P) (d : Bytes)
    (m : EncryptedMessage P) (h : unmarshalEncryptedMessage codec recv d = some m) (p : P)
    (hp : codec.uncompress ((d.drop 1).take 96) = some p) : m.C1 = p ∧ codec.inGroup p = true := by
  unfold unmarshalEncryptedMessage at h
  split at h
  · simp at h
  · next v t =>
    split at h
    · simp at h
    · split at h
      · simp at h
      · simp only [PointCodec.uncompressInto, hp] at h
        split at h
        · simp at h
        · next hin =>
          simp only [Option.some.injEq] at h
          subst h
          exact ⟨rfl, by simpa using hin⟩

/-- **C08** (finding) With a point decoder that leaves its receiver untouched when the input is malformed (as blst does for a
bad header) and that counts the zero value (point at infinity) as a group element, *every* encrypted message with malformed
`C1` bytes is accepted, as if `C1` were the point at infinity. -/
theorem C08_encrypted_message_counterexample {P : Type} (codec : PointCodec P) (bad : Bytes) (C2 : Block)
    (C3 : List Block) (hlen : bad.length = 96) (hbad : codec.uncompress bad = none)
    (untouched : codec.afterFail codec.zero bad = codec.zero) (inf : codec.inGroup codec.zero = true) :
    unmarshalEncryptedMessage codec none
      (versionIdentifier :: (bad ++ C2.toBytes ++ C3.flatMap Block.toBytes)) = some ⟨codec.zero, C2, C3⟩ := by
  rw [unmarshal_layout codec none _ _ _ hlen]
  simp [PointCodec.uncompressInto, hbad, untouched, inf]

/-- **C08** (finding) The same for public keys, key shares and epoch keys. -/
theorem C08_point_counterexample {P : Type} (codec : PointCodec P) (bad : Bytes) (old : P)
    (hbad : codec.uncompress bad = none) (untouched : codec.afterFail old bad = old)
    (inf : codec.inGroup old = true) : unmarshalPoint codec old bad = some old := by
  simp [unmarshalPoint, PointCodec.uncompressInto, hbad, untouched, inf]

/-- **C08** (partial) Public keys and shares: valid encodings are stored. -/
theorem C08_point_roundtrip_partial {P : Type} (codec : PointCodec P) (law : codec.Lawful) (old p : P)
    (hp : codec.inGroup p = true) : unmarshalPoint codec old (codec.compress p) = some p := by
  simp [unmarshalPoint, PointCodec.uncompressInto, law.roundtrip p hp, hp]

example : toyCodec.uncompress (List.replicate 96 0) = none ∧ toyCodec.afterFail toyCodec.zero (List.replicate 96 0)
    = toyCodec.zero ∧ toyCodec.inGroup toyCodec.zero = true := by simp [toyCodec]

/-- **C09** An eon secret key share round trips. -/
theorem C09_eon_share_roundtrip (s : Nat) (h : s < order) :
    unmarshalEonSecretKeyShare (marshalEonSecretKeyShare s) = (s, true) := by
  unfold unmarshalEonSecretKeyShare marshalEonSecretKeyShare
  simp [beNat_natBytes, h]

/-- **C09** Unmarshalling a share succeeds exactly for byte strings whose big-endian value is below the order, and then
stores that value. -/
theorem C09_eon_share_accepts (m : Bytes) :
    ((unmarshalEonSecretKeyShare m).2 = true ↔ beNat m < order) ∧
    ((unmarshalEonSecretKeyShare m).2 = true → (unmarshalEonSecretKeyShare m).1 = beNat m) := by
  unfold unmarshalEonSecretKeyShare
  by_cases h : beNat m ≥ order <;> simp [h]
  omega

/-- **C09** BLS secret keys marshal to 32 bytes (without panic) and round trip. -/
theorem C09_bls_key_roundtrip (s old : Nat) (h : s < bn256Order) :
    ∃ b, marshalBlsSecretKey s = some b ∧ b.length = 32 ∧ unmarshalBlsSecretKey old b = (s, true) := by
  have hs : s < 256 ^ 32 := lt_trans h (by decide +kernel)
  obtain ⟨b, hb⟩ := fillBytes_isSome hs
  obtain ⟨h1, h2⟩ := beNat_fillBytes hb
  refine ⟨b, hb, h2, ?_⟩
  unfold unmarshalBlsSecretKey
  simp [h2, h1, h]

/-- **C09** Out-of-range or wrongly sized BLS keys are rejected; a rejected 32 byte key leaves zero behind, never the
out-of-range value. -/
theorem C09_bls_key_rejects (old : Nat) (b : Bytes) :
    ((unmarshalBlsSecretKey old b).2 = true ↔ b.length = 32 ∧ beNat b < bn256Order) ∧
    ((unmarshalBlsSecretKey old b).2 = false → b.length = 32 → (unmarshalBlsSecretKey old b).1 = 0) := by
  unfold unmarshalBlsSecretKey
  by_cases h : b.length = 32 <;> by_cases h2 : beNat b ≥ bn256Order <;> simp [h, h2]
  omega

/-- **C09** (finding) In contrast, a rejected eon secret key share stays in the receiver. -/
theorem C09_eon_share_rejected_value_kept (s : Nat) (h : order ≤ s) :
    unmarshalEonSecretKeyShare (marshalEonSecretKeyShare s) = (s, false) := by
  unfold unmarshalEonSecretKeyShare marshalEonSecretKeyShare
  simp [beNat_natBytes, h]

example : (12345 : Nat) < order ∧ (12345 : Nat) < bn256Order := by decide +kernel

/-- **C10** Shuffling permutes, for every random source. -/
theorem C10_shuffle_perm {α σ : Type} (keccak : Bytes → Block) (newSource : Nat → σ) (next : σ → Nat → Nat × σ)
    (txs : List α) (keyBytes : Bytes) : (shuffle keccak newSource next txs keyBytes).Perm txs :=
  shuffleLoop_perm _ _ _ _

/-- **C10** Fairness: every permutation of a list of distinct transactions results from exactly one sequence of the
random numbers drawn by the loop (so uniform draws give uniform permutations). -/
theorem C10_shuffle_fair {α : Type} (txs target : List α) (distinct : txs.Nodup) (hp : target.Perm txs) :
    ∃! cs : List Nat, ValidChoices (txs.length - 1) cs ∧ shuffleLoop nextChoice (txs.length - 1) cs txs = target := by
  cases txs with
  | nil =>
    refine ⟨[], ⟨rfl, ?_⟩, ?_⟩
    · simp [shuffleLoop, List.perm_nil.1 hp]
    · rintro cs ⟨h, _⟩; exact h
  | cons a l =>
    obtain ⟨cs, hv, hs⟩ := shuffle_surjective l.length (a :: l) target (by simp) hp (by
      intro k hk
      rw [List.getElem?_eq_none (by rw [hp.length_eq]; simp; omega), List.getElem?_eq_none (by simp; omega)])
    refine ⟨cs, ⟨by simpa using hv, by simpa using hs⟩, ?_⟩
    rintro cs' ⟨hv', hs'⟩
    simp only [List.length_cons, Nat.add_sub_cancel] at hv' hs'
    exact shuffle_injective l.length cs' cs (a :: l) distinct (by simp) hv' hv (hs'.trans hs.symm)

/-- **C10** The transactions executed for a batch are a permutation of exactly the decryptable ones: each encrypted
transaction contributes its plaintext if it parses and decrypts, and nothing otherwise. -/
theorem C10_decryptTransactions_perm {G1 G2 GT σ : Type} [AddCommGroup G2] [DecidableEq G2] (env : Env G1 G2 GT)
    (codec : PointCodec G2) (marshalKey : G1 → Bytes) (newSource : Nat → σ) (next : σ → Nat → Nat × σ)
    (encTxs : List Bytes) (key : G1) :
    (decryptTransactions env codec marshalKey newSource next encTxs key).Perm
      (encTxs.filterMap fun t => (unmarshalEncryptedMessage codec none t).bind fun m => decrypt env m key) := by
  unfold decryptTransactions
  refine (C10_shuffle_perm _ _ _ _ _).trans ?_
  unfold decryptAll
  apply List.Perm.of_eq
  congr 1
  funext t
  cases unmarshalEncryptedMessage codec none t <;> rfl

example : ([1, 2, 3] : List Nat).Nodup ∧ [3, 1, 2].Perm [1, 2, 3] := by decide

/-- **C10** `Shuffle` can produce every order, and the orders for two epoch keys have nothing to do with each other: whatever orders
are wanted for two keys (whose hashes differ in the eight bytes used), some way to draw numbers in range from seeds gives them. -/
theorem C10_every_order {α : Type} (keccak : Bytes → Block) (k₁ k₂ : Bytes)
    (differ : (keccak k₁).toBytes.take 8 ≠ (keccak k₂).toBytes.take 8) (txs target₁ target₂ : List α)
    (h₁ : target₁.Perm txs) (h₂ : target₂.Perm txs) :
    ∃ (newSource : Nat → List Nat) (next : List Nat → Nat → Nat × List Nat), (∀ s b, 0 < b → (next s b).1 < b) ∧
      shuffle keccak newSource next txs k₁ = target₁ ∧ shuffle keccak newSource next txs k₂ = target₂ := by
  have hsur : ∀ target : List α, target.Perm txs → ∃ cs, shuffleLoop nextBounded (txs.length - 1) cs txs = target := by
    intro target hp
    cases txs with
    | nil => exact ⟨[], by simp [shuffleLoop, List.perm_nil.1 hp]⟩
    | cons a l =>
      obtain ⟨cs, hv, hs⟩ := shuffle_surjective l.length (a :: l) target (by simp) hp (by
        intro k hk
        rw [List.getElem?_eq_none (by rw [hp.length_eq]; simp; omega), List.getElem?_eq_none (by simp; omega)])
      exact ⟨cs, by rw [List.length_cons, Nat.add_sub_cancel, shuffleLoop_bounded _ _ _ hv, hs]⟩
  obtain ⟨c₁, e₁⟩ := hsur _ h₁
  obtain ⟨c₂, e₂⟩ := hsur _ h₂
  have hseed : computeSeed keccak k₂ ≠ computeSeed keccak k₁ := by
    intro he
    refine differ ?_
    have := beNat_injective _ _ (by simp [Block.toBytes]) he
    exact (List.reverse_injective this).symm
  refine ⟨fun seed => if seed = computeSeed keccak k₁ then c₁ else c₂, nextBounded, ?_, ?_, ?_⟩
  · intro s b hb; exact Nat.mod_lt _ hb
  · simp [shuffle, e₁]
  · simp [shuffle, hseed, e₂]

example : ∃ (keccak : Bytes → Block) (k₁ k₂ : Bytes), (keccak k₁).toBytes.take 8 ≠ (keccak k₂).toBytes.take 8 :=
  ⟨fun b _ => b.headD 0, [1], [2], by decide⟩

end Shutter.Crypto.Props
