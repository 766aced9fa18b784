import Verif.Proofs.Toy

/-! Property theorems C01–C06 and C52 (shlib/shcrypto). -/

namespace Shutter.Crypto.Props
open Shutter.Crypto Shutter.Crypto.Spec

section
variable {G1 G2 GT : Type} [AddCommGroup G1] [AddCommGroup G2] [CommGroup GT]

/-- **C01** Decrypting an encrypted message with the epoch secret key `sk·epochID` that belongs to the eon public key
`sk·g2` returns the message. -/
theorem C01_encrypt_decrypt [DecidableEq G2] (env : Env G1 G2 GT) (law : Lawful env)
    (sk : Nat) (epochID : G1) (message : Bytes) (sigma : Block) :
    decrypt env (encrypt env message (sk • env.g2) epochID sigma) (sk • epochID) = some message := by
  have hs := sigma_recover law sk (computeR env sigma message) epochID _ sigma
    (computeC3 env (padMessage message) sigma) rfl
  unfold decrypt encrypt
  simp only [hs, decryptBlocks_computeC3, unpad_pad]
  simp

/-- **C01** (self test) `VerifyEpochSecretKeyDeterministic` accepts the correct epoch secret key, whatever random
message and sigma it draws. -/
theorem C01_verify_accepts_correct_key [DecidableEq G2] (env : Env G1 G2 GT) (law : Lawful env)
    (sk : Nat) (epochIDBytes : Bytes) (sigma : Block) (message : Bytes) :
    verifyEpochSecretKeyDeterministic env (sk • computeEpochID env epochIDBytes) (sk • env.g2) epochIDBytes sigma
      message = true := by
  unfold verifyEpochSecretKeyDeterministic
  simp only [C01_encrypt_decrypt env law]
  simp

example : decrypt toyEnv (encrypt toyEnv [1, 2, 3] ((5 : ℕ) • toyEnv.g2) 11 fun _ => 9) ((5 : ℕ) • 11)
    = some [1, 2, 3] := C01_encrypt_decrypt toyEnv toyLawful 5 11 _ _

/-- **C02** The padded blocks spell the message followed by between 1 and 32 padding bytes. -/
theorem C02_pad_layout (m : Bytes) : ∃ pad : Nat, 1 ≤ pad ∧ pad ≤ 32 ∧
    (padMessage m).flatMap Block.toBytes = m ++ List.replicate pad (UInt8.ofNat pad) ∧
    32 * (padMessage m).length = m.length + pad := by
  refine ⟨32 - m.length % 32, by omega, by omega, pad_flatMap m, ?_⟩
  rw [pad_length]; omega

/-- **C02** Unpadding inverts padding. -/
theorem C02_unpad_pad (m : Bytes) : unpadMessage (padMessage m) = some m := unpad_pad m

/-- **C02** Different messages have different padded forms. -/
theorem C02_pad_injective (m m' : Bytes) (h : padMessage m = padMessage m') : m = m' := by
  have h1 := unpad_pad m
  rw [h, unpad_pad] at h1
  exact (Option.some.inj h1).symm

/-- **C03** (partial) What an accepted ciphertext looks like: its `C1` and `C2` are exactly those of an encryption of
the returned message, and its `C3` is the block-wise encryption of *some* blocks that unpad to that message.
Missing for full C03: `C3` need not be the encryption of `padMessage m`, see the two counterexamples below. -/
theorem C03_decrypt_iff_partial [DecidableEq G2] (env : Env G1 G2 GT) (law : Lawful env) (sk : Nat) (epochID : G1)
    (c : EncryptedMessage G2) (m : Bytes) :
    decrypt env c (sk • epochID) = some m ↔
      ∃ sigma blocks, unpadMessage blocks = some m ∧
        c = { encrypt env m (sk • env.g2) epochID sigma with C3 := computeC3 env blocks sigma } := by
  constructor
  · intro h
    refine ⟨c.sigma env (sk • epochID), decryptBlocks env c.C3 (c.sigma env (sk • epochID)), ?_⟩
    unfold decrypt at h
    simp only at h
    split at h
    · simp at h
    · next m' hm' =>
      split at h
      · simp at h
      · next hC1 =>
        rw [not_not] at hC1
        have : m' = m := by simpa using h
        subst this
        refine ⟨hm', ?_⟩
        rw [computeC3_decryptBlocks]
        obtain ⟨C1, C2, C3⟩ := c
        simp only [encrypt, EncryptedMessage.mk.injEq, and_true] at hC1 ⊢
        refine ⟨hC1, ?_⟩
        have hs : ∀ s : Block, EncryptedMessage.sigma env ⟨C1, C2, C3⟩ (sk • epochID) = s →
            C1 = computeC1 env (computeR env s m') →
            C2 = computeC2 env s (computeR env s m') epochID (sk • env.g2) := by
          intro s hs hc
          unfold computeC2
          rw [fp12Exp_spec, law.pair_smul_left]
          have h5 : env.pair C1 (sk • epochID) = (env.pair env.g2 epochID ^ sk) ^ (computeR env s m') := by
            rw [hc]; unfold computeC1
            rw [law.pair_smul_left, law.pair_smul_right, pow_right_comm]
          rw [← h5, ← hs]
          exact (xor_cancel _ _).symm
        exact hs _ rfl hC1
  · rintro ⟨sigma, blocks, hu, rfl⟩
    have hs := sigma_recover law sk (computeR env sigma m) epochID _ sigma (computeC3 env blocks sigma) rfl
    unfold decrypt encrypt
    simp only [hs, decryptBlocks_computeC3, hu]
    simp

/-- **C03** (partial) An accepted ciphertext *is* an encryption of the returned message provided its decrypted
blocks carry proper padding. -/
theorem C03_accepted_is_encryption_partial [DecidableEq G2] (env : Env G1 G2 GT) (law : Lawful env) (sk : Nat)
    (epochID : G1) (c : EncryptedMessage G2) (m : Bytes) (h : decrypt env c (sk • epochID) = some m)
    (hpad : ∃ m', decryptBlocks env c.C3 (c.sigma env (sk • epochID)) = padMessage m') :
    ∃ sigma, c = encrypt env m (sk • env.g2) epochID sigma := by
  obtain ⟨sigma, blocks, hu, rfl⟩ := (C03_decrypt_iff_partial env law sk epochID c m).1 h
  obtain ⟨m', hm'⟩ := hpad
  have hs := sigma_recover law sk (computeR env sigma m) epochID _ sigma (computeC3 env blocks sigma) rfl
  have h1 : decryptBlocks env (computeC3 env blocks sigma) sigma = padMessage m' := by
    rw [← hm']; congr 1; exact hs.symm
  rw [decryptBlocks_computeC3] at h1
  have h2 : m' = m := by rw [h1, unpad_pad] at hu; exact Option.some.inj hu
  subst h2
  exact ⟨sigma, by rw [h1]; rfl⟩

/-- **C03** (finding: the full property is false) Removing all of `C3` from an encryption of the empty message gives
a ciphertext that is not an encryption of any message for any key, yet decrypts successfully. -/
theorem C03_truncation_counterexample [DecidableEq G2] (env : Env G1 G2 GT) (law : Lawful env) (sk : Nat)
    (epochID : G1) (sigma : Block) :
    let c : EncryptedMessage G2 := { encrypt env [] (sk • env.g2) epochID sigma with C3 := [] }
    decrypt env c (sk • epochID) = some [] ∧
      ∀ (m : Bytes) (pk : G2) (e : G1) (s : Block), c ≠ encrypt env m pk e s := by
  intro c
  constructor
  · exact (C03_decrypt_iff_partial env law sk epochID c []).2 ⟨sigma, [], rfl, rfl⟩
  · intro m pk e s h
    have h2 : c.C3.length = (encrypt env m pk e s).C3.length := by rw [h]
    simp [c, encrypt, computeC3, pad_length] at h2

/-- **C03** (finding) Malleability: for every message leaving at least two padding bytes, flipping a padding byte other
than the last one gives a different ciphertext of the same length that decrypts to the same message. -/
theorem C03_padding_malleable_counterexample [DecidableEq G2] (env : Env G1 G2 GT) (law : Lawful env) (sk : Nat)
    (epochID : G1) (sigma : Block) (m : Bytes) (hm : m.length % 32 ≠ 31) :
    ∃ c : EncryptedMessage G2, c ≠ encrypt env m (sk • env.g2) epochID sigma ∧
      c.C1 = (encrypt env m (sk • env.g2) epochID sigma).C1 ∧
      c.C2 = (encrypt env m (sk • env.g2) epochID sigma).C2 ∧
      c.C3.length = (encrypt env m (sk • env.g2) epochID sigma).C3.length ∧
      decrypt env c (sk • epochID) = some m := by
  obtain ⟨bs, last, hb⟩ : ∃ bs last, padMessage m = bs ++ [last] :=
    ⟨_, _, (List.dropLast_append_getLast (pad_ne_nil m)).symm⟩
  have hu := unpad_pad m
  rw [hb] at hu
  have hpl := pad_length m
  rw [hb] at hpl
  simp at hpl
  set last' : Block := Function.update last 30 (last 30 ^^^ 1) with hl'
  have hne : last' ≠ last := by
    intro h
    have h2 := congrFun h 30
    rw [hl', Function.update_self] at h2
    have h3 := congrArg (fun x => last 30 ^^^ x) h2
    simp only [UInt8.xor_self, ← UInt8.xor_assoc] at h3
    revert h3; decide
  have hl31 : last' 31 = last 31 := by rw [hl', Function.update_of_ne (by decide)]
  -- the padding length is at least two
  have hp : (last 31).toNat = 32 - m.length % 32 := by
    have h1 := unpad_eq (bs ++ [last]) (by simp) (padded m) (by rw [← hb]; exact pad_flatMap m) _ (padded_getLast? m)
    have h2 := unpad_concat bs last
    have h3 : (padded m).getLast? = some (last 31) := by
      rw [← pad_flatMap, hb]
      simp only [List.flatMap_append, List.flatMap_cons, List.flatMap_nil, List.append_nil]
      have h2 : last.toBytes ≠ [] := by
        intro h; have := Block.length_toBytes last; rw [h] at this; simp at this
      rw [List.getLast?_append, List.getLast?_eq_getLast_of_ne_nil h2, List.getLast_eq_getElem]
      simp [Block.toBytes]
    rw [padded_getLast?] at h3
    have h4 := congrArg (fun o : Option UInt8 => o.map UInt8.toNat) h3
    simp only [Option.map_some, Option.some.injEq, UInt8.toNat_ofNat'] at h4
    omega
  have hu' : unpadMessage (bs ++ [last']) = some m := by
    rw [unpad_concat] at hu ⊢
    rw [hl31, ← hu]
    rw [hp, if_neg (by omega), if_neg (by omega), if_neg (by omega), if_neg (by omega)]
    congr 1
    simp only [List.flatMap_append, List.flatMap_cons, List.flatMap_nil, List.append_nil]
    rw [List.take_append, List.take_append, length_flatMap_toBytes]
    congr 1
    have ht : ∀ b : Block, b.toBytes.take (32 * (bs.length + 1) - (32 - m.length % 32) - 32 * bs.length) =
      (List.range (m.length % 32)).map fun i => if h : i < 32 then b ⟨i, h⟩ else 0 := by
      intro b
      apply List.ext_getElem
      · simp; omega
      · intro i h1 h2
        simp at h2
        have : i < 32 := by omega
        simp only [Block.toBytes, List.getElem_take, List.getElem_ofFn, List.getElem_map, List.getElem_range,
          this, dif_pos]
    rw [ht, ht]
    apply List.map_congr_left
    intro i hi
    have hi2 : i < m.length % 32 := List.mem_range.1 hi
    have : i < 32 := by omega
    rw [dif_pos this, dif_pos this, hl', Function.update_of_ne]
    intro he
    have := congrArg Fin.val he
    simp at this
    omega
  refine ⟨{ encrypt env m (sk • env.g2) epochID sigma with C3 := computeC3 env (bs ++ [last']) sigma },
    ?_, rfl, rfl, ?_, ?_⟩
  · intro h
    have h2 : computeC3 env (bs ++ [last']) sigma = computeC3 env (padMessage m) sigma :=
      congrArg EncryptedMessage.C3 h
    have h3 := congrArg (fun l => decryptBlocks env l sigma) h2
    simp only [decryptBlocks_computeC3, hb] at h3
    have := List.append_inj_right h3 rfl
    simp at this
    exact hne this
  · simp [encrypt, computeC3, pad_length, hpl]
  · exact (C03_decrypt_iff_partial env law sk epochID _ m).2 ⟨sigma, _, hu', rfl⟩

example : ((([1, 2] : Bytes).length) % 32 ≠ 31) := by decide

/-- **C03** Tampering with the encrypted blocks: two ciphertexts with the same `C1` and `C2` that are both accepted
return the same message, unless the two messages (prefixed by the sigma the ciphertexts carry) collide under the hash
to scalars. Holds for every key, also a wrong one. -/
theorem C03_tampering_needs_collision [DecidableEq G2] (env : Env G1 G2 GT) (law : Lawful env) (key : G1)
    (c c' : EncryptedMessage G2) (sameC1 : c'.C1 = c.C1) (sameC2 : c'.C2 = c.C2) (m m' : Bytes)
    (h : decrypt env c key = some m) (h' : decrypt env c' key = some m') :
    m = m' ∨
      let sigma := xorBlocks c.C2 (env.keccak (2 :: env.gtBytes (env.pair c.C1 key)))
      3 :: (sigma.toBytes ++ m) ≠ 3 :: (sigma.toBytes ++ m') ∧
        beNat (env.keccak (3 :: (sigma.toBytes ++ m))).toBytes % order =
          beNat (env.keccak (3 :: (sigma.toBytes ++ m'))).toBytes % order := by
  have key_of : ∀ (d : EncryptedMessage G2) (x : Bytes), decrypt env d key = some x →
      d.C1 = computeC1 env (computeR env (d.sigma env key) x) := by
    intro d x hd
    unfold decrypt at hd
    simp only at hd
    split at hd
    · simp at hd
    · split at hd
      · simp at hd
      · next hC1 =>
        rw [not_not] at hC1
        rw [← Option.some.inj hd]; exact hC1
  have h1 := key_of c m h
  have h2 := key_of c' m' h'
  have hsig : c'.sigma env key = c.sigma env key := by
    unfold EncryptedMessage.sigma
    rw [sameC1, sameC2]
  rw [sameC1, hsig, h1] at h2
  by_cases hm : m = m'
  · exact Or.inl hm
  · refine Or.inr ⟨fun e => hm (List.append_cancel_left (List.cons.inj e).2), ?_⟩
    have h3 := cast_eq_of_smul_eq law.order_smul_G2 law.g2_ne_zero h2
    rw [ZMod.natCast_eq_natCast_iff'] at h3
    have e : ∀ x, computeR env (c.sigma env key) x % order =
        beNat (env.keccak (3 :: ((c.sigma env key).toBytes ++ x))).toBytes % order := by
      intro x
      unfold computeR hash3 hashWithPrefix
      rw [Nat.mod_mod]
    rw [e, e] at h3
    exact h3

example : decrypt toyEnv (encrypt toyEnv [1, 2, 3] ((5 : ℕ) • toyEnv.g2) 11 fun _ => 9) ((5 : ℕ) • 11) = some [1, 2, 3] ∧
    (encrypt toyEnv [1, 2, 3] ((5 : ℕ) • toyEnv.g2) (11 : F) fun _ => 9).C1 =
      (encrypt toyEnv [1, 2, 3] ((5 : ℕ) • toyEnv.g2) (11 : F) fun _ => 9).C1 :=
  ⟨C01_encrypt_decrypt toyEnv toyLawful 5 11 _ _, rfl⟩

/-- **C03** The counters that separate the keys of the blocks of one message are the minimal big endian forms of the
block numbers: never empty, without leading zero (except for block 0) and different for different blocks. -/
theorem C03_block_counters (i : Nat) (hi : i < 2 ^ 64) :
    uint64toBytes i ≠ [] ∧ (i ≠ 0 → (uint64toBytes i).head? ≠ some 0) ∧ beNat (uint64toBytes i) = i ∧
      (uint64toBytes i).length ≤ 8 := by
  have hb : beNat (be8 i) = i := by
    simp only [be8, beNat, List.foldl, UInt8.toNat_ofNat']
    omega
  have hz : ∀ l : Bytes, beNat (l.dropWhile (· == 0)) = beNat l := by
    intro l
    induction l with
    | nil => rfl
    | cons a l ih =>
      by_cases ha : a = 0
      · subst ha
        rw [List.dropWhile_cons_of_pos (by simp), ih]
        simp [beNat]
      · rw [List.dropWhile_cons_of_neg (by simpa using ha)]
  by_cases h0 : i = 0
  · subst h0
    decide
  · have hu : uint64toBytes i = (be8 i).dropWhile (· == 0) := by rw [uint64toBytes, if_neg h0]
    have hval : beNat (uint64toBytes i) = i := by rw [hu, hz, hb]
    refine ⟨fun e => ?_, fun _ e => ?_, hval, ?_⟩
    · rw [e] at hval; exact h0 hval.symm
    · rw [hu] at e
      have := List.head?_dropWhile_not (p := (· == (0 : UInt8))) (be8 i)
      rw [e] at this
      simp at this
    · rw [hu]
      have : (be8 i).length = 8 := rfl
      rw [← this]
      exact (List.dropWhile_sublist _).length_le

/-- **C03** Two blocks of one message never share a counter. -/
theorem C03_block_counters_distinct (i j : Nat) (hi : i < 2 ^ 64) (hj : j < 2 ^ 64)
    (h : uint64toBytes i = uint64toBytes j) : i = j := by
  rw [← (C03_block_counters i hi).2.2.1, h, (C03_block_counters j hj).2.2.1]

example : uint64toBytes 0 = [0] ∧ uint64toBytes 255 = [255] ∧ uint64toBytes 256 = [1, 0] := by decide

/-- **C04** Any `threshold` many distinct keypers holding shares `p(i+1) mod order` of a polynomial with `threshold`
coefficients reconstruct the epoch secret key `p(0)·epochID`, in whatever order they are listed. -/
theorem C04_any_threshold_shares_reconstruct (order_smul : ∀ P : G1, order • P = 0) (p : List Nat)
    (keyperIndices : List Nat) (distinct : keyperIndices.Nodup) (goInt : ∀ i ∈ keyperIndices, i < 2 ^ 63)
    (enough : keyperIndices.length = p.length) (epochID : G1) :
    computeEpochSecretKey keyperIndices
      (keyperIndices.map fun i => computeEpochSecretKeyShare (polyValue p (i + 1) % order) epochID) p.length
      = some (secret p • epochID) := by
  have := reconstruct order_smul p keyperIndices distinct
    (fun i hi => lt_of_le_of_lt (Nat.succ_le_of_lt (goInt i hi)) (by decide +kernel)) (by omega)
    (fun i => polyValue p (i + 1) % order)
    (fun i _ => by rw [cast_mod, polyValue_cast, keyperX, add_comm]) epochID
  rw [enough] at this
  exact this

/-- **C04** Two quorums always agree on the key. -/
theorem C04_quorums_agree (order_smul : ∀ P : G1, order • P = 0) (p : List Nat)
    (q₁ q₂ : List Nat) (d₁ : q₁.Nodup) (d₂ : q₂.Nodup) (g₁ : ∀ i ∈ q₁, i < 2 ^ 63) (g₂ : ∀ i ∈ q₂, i < 2 ^ 63)
    (e₁ : q₁.length = p.length) (e₂ : q₂.length = p.length) (epochID : G1) :
    computeEpochSecretKey q₁
      (q₁.map fun i => computeEpochSecretKeyShare (polyValue p (i + 1) % order) epochID) p.length =
    computeEpochSecretKey q₂
      (q₂.map fun i => computeEpochSecretKeyShare (polyValue p (i + 1) % order) epochID) p.length := by
  rw [C04_any_threshold_shares_reconstruct order_smul p q₁ d₁ g₁ e₁,
    C04_any_threshold_shares_reconstruct order_smul p q₂ d₂ g₂ e₂]

/-- **C04** Any other number of shares, or lists of different length, are rejected. -/
theorem C04_wrong_number_rejected (keyperIndices : List Nat) (shares : List G1) (threshold : Nat) :
    (computeEpochSecretKey keyperIndices shares threshold).isSome ↔
      keyperIndices.length = shares.length ∧ keyperIndices.length = threshold := by
  unfold computeEpochSecretKey lagrangeComputeEpochSecretKey newLagrangeCoeffs
  by_cases h1 : keyperIndices.length = shares.length <;> by_cases h2 : keyperIndices.length = threshold <;>
    simp_all

example : computeEpochSecretKey [4, 1] [computeEpochSecretKeyShare (polyValue [7, 3] 5 % order) (1 : F),
    computeEpochSecretKeyShare (polyValue [7, 3] 2 % order) (1 : F)] 2 = some (7 • (1 : F)) :=
  C04_any_threshold_shares_reconstruct (by simp) [7, 3] [4, 1] (by decide) (by decide) rfl 1

/-- **C05** A share passes verification against the public key share `s·g2` exactly if it is the epoch share computed
from the secret key share `s`. -/
theorem C05_share_verification_exact [DecidableEq GT] (env : Env G1 G2 GT) (law : Lawful env) (s : Nat)
    (share epochID : G1) :
    verifyEpochSecretKeyShare env share (s • env.g2) epochID = true ↔
      share = computeEpochSecretKeyShare s epochID := by
  unfold verifyEpochSecretKeyShare computeEpochSecretKeyShare
  rw [beq_iff_eq, law.pair_smul_left, ← law.pair_smul_right]
  constructor
  · intro h
    have h1 : env.pair env.g2 (share + -(s • epochID)) = 1 := by
      rw [law.pair_add_right, h, ← law.pair_add_right, add_neg_cancel, law.pair_zero_right]
    have := law.nondegenerate _ h1
    exact add_neg_eq_zero.1 this
  · rintro rfl; rfl

/-- **C05** The public key share is arbitrary: every element of `G2` is `s·g2` for some `s`, so the exactness
covers every public key share. -/
theorem C05_share_verification_exact_all [DecidableEq GT] (env : Env G1 G2 GT) (law : Lawful env) (pk : G2) :
    ∃ s : Nat, pk = s • env.g2 ∧ ∀ share epochID : G1,
      (verifyEpochSecretKeyShare env share pk epochID = true ↔
        share = computeEpochSecretKeyShare s epochID) := by
  obtain ⟨s, rfl⟩ := law.g2_generates pk
  exact ⟨s, rfl, fun share e => C05_share_verification_exact env law s share e⟩

example : verifyEpochSecretKeyShare toyEnv (computeEpochSecretKeyShare 3 (5 : F)) ((3 : ℕ) • toyEnv.g2) (5 : F) = true :=
  (C05_share_verification_exact toyEnv toyLawful 3 _ _).2 rfl

/-- **C05** `VerifyEpochSecretKeyDeterministic` accepts only the correct epoch secret key, provided the drawn sigma and
message have no second preimage under the two hash functions involved and do not hash to the scalar zero. -/
theorem C05_key_verification_sound [DecidableEq G2] (env : Env G1 G2 GT) (law : Lawful env) (sk : Nat) (key : G1)
    (epochIDBytes : Bytes) (sigma : Block) (message : Bytes)
    (no_collision_scalar : ∀ s : Block,
      beNat (env.keccak (3 :: (s.toBytes ++ message))).toBytes % order =
        beNat (env.keccak (3 :: (sigma.toBytes ++ message))).toBytes % order → s = sigma)
    (no_collision_gt : ∀ x : GT,
      env.keccak (2 :: env.gtBytes x) = env.keccak (2 :: env.gtBytes
        (env.pair ((beNat (env.keccak (3 :: (sigma.toBytes ++ message))).toBytes % order) • env.g2)
          (sk • env.hashToG1 (1 :: epochIDBytes)))) →
      x = env.pair ((beNat (env.keccak (3 :: (sigma.toBytes ++ message))).toBytes % order) • env.g2)
          (sk • env.hashToG1 (1 :: epochIDBytes)))
    (scalar_ne_zero : beNat (env.keccak (3 :: (sigma.toBytes ++ message))).toBytes % order ≠ 0)
    (accepted : verifyEpochSecretKeyDeterministic env key (sk • env.g2) epochIDBytes sigma message = true) :
    key = sk • env.hashToG1 (1 :: epochIDBytes) := by
  have hR : ∀ s x, computeR env s x = beNat (env.keccak (3 :: (s.toBytes ++ x))).toBytes % order := fun s x => rfl
  simp only [← hR] at no_collision_scalar no_collision_gt scalar_ne_zero
  set r := computeR env sigma message with hr
  unfold verifyEpochSecretKeyDeterministic at accepted
  simp only at accepted
  split at accepted
  · simp at accepted
  · next m hm =>
    have hmm : m = message := by simpa using accepted
    subst hmm
    set c := encrypt env m (sk • env.g2) (computeEpochID env epochIDBytes) sigma with hc
    have h1 : c.C1 = computeC1 env (computeR env (c.sigma env key) m) := by
      unfold decrypt at hm
      simp only at hm
      split at hm
      · simp at hm
      · split at hm
        · simp at hm
        · next hC1 =>
          rw [not_not] at hC1
          rw [← Option.some.inj hm]; exact hC1
    have h2 : c.C1 = r • env.g2 := rfl
    rw [h2] at h1
    have h3 := cast_eq_of_smul_eq law.order_smul_G2 law.g2_ne_zero h1
    rw [ZMod.natCast_eq_natCast_iff'] at h3
    have hlt : ∀ s x, computeR env s x < order := fun s x => Nat.mod_lt _ order_pos
    rw [Nat.mod_eq_of_lt (hlt _ _), Nat.mod_eq_of_lt (hlt _ _)] at h3
    have h4 : c.sigma env key = sigma := no_collision_scalar _ h3.symm
    have h5 : c.sigma env (sk • computeEpochID env epochIDBytes) = sigma :=
      sigma_recover law sk r (computeEpochID env epochIDBytes) _ sigma _ rfl
    have h6 : hash2 env (env.pair c.C1 key) = hash2 env (env.pair c.C1 (sk • computeEpochID env epochIDBytes)) := by
      have h7 := h4.trans h5.symm
      unfold EncryptedMessage.sigma at h7
      rw [xor_comm', xor_comm' c.C2] at h7
      have := congrArg (fun b => xorBlocks b c.C2) h7
      simpa only [xor_cancel] using this
    have h8 := no_collision_gt _ h6
    rw [h2, law.pair_smul_left, law.pair_smul_left, ← law.pair_smul_right, ← law.pair_smul_right] at h8
    have h9 : env.pair env.g2 (r • key + -(r • sk • computeEpochID env epochIDBytes)) = 1 := by
      have h8' : env.pair env.g2 (r • key) = env.pair env.g2 (r • sk • computeEpochID env epochIDBytes) := h8
      rw [law.pair_add_right, h8', ← law.pair_add_right, add_neg_cancel, law.pair_zero_right]
    have h10 := law.nondegenerate _ h9
    rw [← smul_neg, ← smul_add] at h10
    by_contra hne
    have hg : key + -(sk • computeEpochID env epochIDBytes) ≠ 0 := fun e => hne (add_neg_eq_zero.1 e)
    have h11 : r • (key + -(sk • computeEpochID env epochIDBytes)) = 0 • (key + -(sk • computeEpochID env epochIDBytes)) := by
      rw [h10, zero_smul]
    have h12 := cast_eq_of_smul_eq law.order_smul_G1 hg h11
    rw [ZMod.natCast_eq_natCast_iff', Nat.mod_eq_of_lt (hlt _ _), Nat.zero_mod] at h12
    exact scalar_ne_zero h12

/-- A sigma block for the example. -/
def fours : Block := fun _ => 4

/-- The hypotheses of `C05_key_verification_sound` are satisfiable: hash functions without the excluded collisions. -/
def separatingEnv : Env F F (Multiplicative F) :=
  { toyEnv with
    gtBytes := fun g => if g = Multiplicative.ofAdd 15 then [1] else [0]
    keccak := fun b i => if b = 3 :: (fours.toBytes ++ [8]) then (if i = 31 then 1 else 0)
      else if b = [2, 1] then 1 else 0
    hashToG1 := fun _ => 3 }

theorem separatingLawful : Lawful separatingEnv where
  order_smul_G1 := toyLawful.order_smul_G1
  order_smul_G2 := toyLawful.order_smul_G2
  g2_generates := toyLawful.g2_generates
  g2_ne_zero := toyLawful.g2_ne_zero
  pair_add_left := toyLawful.pair_add_left
  pair_add_right := toyLawful.pair_add_right
  nondegenerate := toyLawful.nondegenerate

theorem separating_example :
    ∃ key : F, verifyEpochSecretKeyDeterministic separatingEnv key ((5 : ℕ) • separatingEnv.g2) [] fours [8] = true ∧
    (∀ s : Block, beNat (separatingEnv.keccak (3 :: (s.toBytes ++ [8]))).toBytes % order =
      beNat (separatingEnv.keccak (3 :: (fours.toBytes ++ [8]))).toBytes % order → s = fours) ∧
    beNat (separatingEnv.keccak (3 :: (fours.toBytes ++ [8]))).toBytes % order ≠ 0 ∧
    (∀ x, separatingEnv.keccak (2 :: separatingEnv.gtBytes x) = separatingEnv.keccak (2 :: separatingEnv.gtBytes
      (separatingEnv.pair ((beNat (separatingEnv.keccak (3 :: (fours.toBytes ++ [8]))).toBytes % order) •
        separatingEnv.g2) ((5 : ℕ) • separatingEnv.hashToG1 [1]))) →
      x = separatingEnv.pair ((beNat (separatingEnv.keccak (3 :: (fours.toBytes ++ [8]))).toBytes % order) •
        separatingEnv.g2) ((5 : ℕ) • separatingEnv.hashToG1 [1])) := by
  have law := separatingLawful
  have one : beNat (separatingEnv.keccak (3 :: (fours.toBytes ++ [8]))).toBytes % order = 1 := by
    decide +kernel
  refine ⟨(5 : ℕ) • computeEpochID separatingEnv [], C01_verify_accepts_correct_key _ law _ _ _ _, fun s hs => ?_, ?_,
    fun x hx => ?_⟩
  · rw [one] at hs
    by_contra hne
    have : separatingEnv.keccak (3 :: (s.toBytes ++ [8])) = fun _ => 0 := by
      funext i
      have h1 : (3 :: (s.toBytes ++ [8]) : Bytes) ≠ 3 :: (fours.toBytes ++ [8]) := by
        intro e
        exact hne (Block.toBytes_injective (List.append_cancel_right (List.cons.inj e).2))
      simp [separatingEnv, h1]
    rw [this] at hs
    revert hs; decide +kernel
  · rw [one]; decide
  · rw [one] at hx ⊢
    have e : separatingEnv.pair ((1 : ℕ) • separatingEnv.g2) ((5 : ℕ) • separatingEnv.hashToG1 [1]) =
        Multiplicative.ofAdd 15 := by
      simp only [separatingEnv, toyEnv]
      congr 1
    rw [e] at hx ⊢
    by_contra hne
    simp only [separatingEnv, hne, if_true, if_false] at hx
    have := congrFun hx 0
    revert this; decide +kernel

/-- **C06** `Eval` computes the polynomial's value modulo the group order (and never panics on a polynomial accepted by
`NewPolynomial`). -/
theorem C06_eval_is_value (coefficients : List Int) (p : List Nat) (h : newPolynomial coefficients = some p)
    (x : Nat) : polyEvalAt p x = some (polyValue p x % order) := by
  unfold newPolynomial at h
  split at h
  · simp at h
  · next h0 =>
    split at h
    · simp at h
    · next h1 =>
      simp only [Option.some.injEq] at h
      subst h
      apply polyEvalAt_eq
      · intro c hc
        obtain ⟨v, hv, rfl⟩ := List.mem_map.1 hc
        have := h1
        simp only [List.any_eq_true, not_exists, not_and] at this
        have h2 := this v hv
        simp only [ge_iff_le, Bool.or_eq_true, decide_eq_true_eq, not_or, not_lt, not_le] at h2
        omega
      · intro h3; apply h0; simpa using h3

/-- **C06** `NewPolynomial` accepts exactly the non-empty lists of residues. -/
theorem C06_newPolynomial_accepts (coefficients : List Int) :
    (newPolynomial coefficients).isSome ↔
      coefficients ≠ [] ∧ ∀ v ∈ coefficients, 0 ≤ v ∧ v < order := by
  unfold newPolynomial
  by_cases h0 : coefficients = []
  · simp [h0]
  · have : ¬ coefficients.length = 0 := by simpa using h0
    rw [if_neg this]
    by_cases h1 : coefficients.any (fun v => v < 0 || v ≥ (order : Int)) = true
    · rw [if_pos h1]
      simp only [Option.isSome_none, Bool.false_eq_true, false_iff, not_and, not_forall]
      intro _
      simp only [List.any_eq_true, ge_iff_le, Bool.or_eq_true, decide_eq_true_eq] at h1
      obtain ⟨v, hv, h2⟩ := h1
      exact ⟨v, hv, by omega⟩
    · rw [if_neg h1]
      simp only [Option.isSome_some, true_iff]
      refine ⟨h0, ?_⟩
      simp only [List.any_eq_true, ge_iff_le, Bool.or_eq_true, decide_eq_true_eq, not_exists, not_and, not_or] at h1
      intro v hv
      have := h1 v hv
      omega

/-- **C06** `VerifyPolyEval` accepts a value for keyper `i` against the commitment to `p` exactly if the value is
`p(i+1)` modulo the order and the commitment has `threshold` many entries (as 64-bit numbers). -/
theorem C06_verifyPolyEval_exact [DecidableEq G2] (env : Env G1 G2 GT) (law : Lawful env) (p : List Nat)
    (i v threshold : Nat) (hp : p.length < 2 ^ 64) (ht : threshold < 2 ^ 64) :
    verifyPolyEval env i v (polyGammas env p) threshold = true ↔
      p.length = threshold ∧ v % order = polyValue p (i + 1) % order := by
  unfold verifyPolyEval degree sub1u64
  have hl : (polyGammas env p).length = p.length := by simp [polyGammas]
  rw [hl]
  by_cases h : p.length = threshold
  · subst h
    simp only [ne_eq, not_true_eq_false, if_false, beq_iff_eq, true_and]
    rw [gammasPi_polyGammas env law.order_smul_G2, keyperX, add_comm 1 i]
    constructor
    · intro h1
      have := cast_eq_of_smul_eq law.order_smul_G2 law.g2_ne_zero h1
      rwa [ZMod.natCast_eq_natCast_iff] at this
    · intro h1
      exact smul_congr law.order_smul_G2 ((ZMod.natCast_eq_natCast_iff _ _ _).2 h1) _
  · have : (p.length + (2 ^ 64 - 1)) % 2 ^ 64 ≠ (threshold + (2 ^ 64 - 1)) % 2 ^ 64 := by omega
    rw [if_pos this]
    simp [h]

/-- **C06** Every dealer commitment of the right length (not only those computed from a known polynomial) is the
commitment to some polynomial, so that `C06_verifyPolyEval_exact` covers all commitments. -/
theorem C06_every_commitment_has_polynomial (env : Env G1 G2 GT) (law : Lawful env) (gs : List G2) :
    ∃ p : List Nat, gs = polyGammas env p := by
  induction gs with
  | nil => exact ⟨[], rfl⟩
  | cons g gs ih =>
    obtain ⟨p, rfl⟩ := ih
    obtain ⟨n, rfl⟩ := law.g2_generates g
    exact ⟨n :: p, rfl⟩

example : newPolynomial [3, 4, 5] = some [3, 4, 5] := by decide +kernel
example : verifyPolyEval toyEnv 1 (polyValue [3, 4] 2 % order) (polyGammas toyEnv [3, 4]) 2 = true :=
  (C06_verifyPolyEval_exact toyEnv toyLawful [3, 4] 1 _ 2 (by decide) (by decide)).2 ⟨rfl, Nat.mod_mod _ _⟩

end

/-- **C52** The group order is prime. -/
theorem C52_order_prime : Nat.Prime order := order_prime'

/-- **C52** `invert` is the multiplicative inverse for every number that is not a multiple of the order. -/
theorem C52_invert_correct (x : Nat) (hx : x % order ≠ 0) : x * invert x % order = 1 := by
  have h1 : ((x * invert x : Nat) : F) = ((1 : Nat) : F) := by
    push_cast
    rw [invert_cast]
    apply mul_inv_cancel₀
    rw [Ne, ZMod.natCast_eq_zero_iff]
    intro h
    exact hx (Nat.mod_eq_zero_of_dvd h)
  rw [ZMod.natCast_eq_natCast_iff] at h1
  rw [h1]
  exact Nat.mod_eq_of_lt order_prime'.one_lt

example : (5 : Nat) % order ≠ 0 := by decide +kernel

end Shutter.Crypto.Props
