import Verif.Proofs.Wasm
import Verif.Proofs.Toy

/-! Property theorems C78 (encryption and decryption in web pages). -/

namespace Shutter.Wasm.Props
open Shutter.Crypto Shutter.Crypto.Props Shutter.Wasm
open Shutter.Events (hexutilEncode)

variable {G1 G2 GT : Type} [AddCommGroup G1] [AddCommGroup G2] [CommGroup GT] [DecidableEq G2]

theorem result_of (t : Err → Events.Text) (x : Except Err Crypto.Bytes) :
    (∃ b, Hex (encodeResult t x) b) ∨ Failed (encodeResult t x) := by
  cases x with
  | error e => exact Or.inr ⟨_, rfl⟩
  | ok b => exact Or.inl ⟨b, hex_encode b⟩

omit [AddCommGroup G1] [DecidableEq G2] in
/-- **C78** `shcrypto_encrypt` returns, for whatever arguments, either the hexadecimal text of a ciphertext or an error
text, never something that can be read as both; a hexadecimal text determines its bytes. -/
theorem C78_encrypt_result (lib : Lib G1 G2 GT) (args : List JsValue) :
    ((∃ b, Hex (jsEncrypt lib args) b) ∨ Failed (jsEncrypt lib args)) ∧
      ¬ ((∃ b, Hex (jsEncrypt lib args) b) ∧ Failed (jsEncrypt lib args)) ∧
      ∀ b b', Hex (jsEncrypt lib args) b → Hex (jsEncrypt lib args) b' → b = b' := by
  refine ⟨?_, ?_, fun b b' h h' => hex_unique h h'⟩
  · exact result_of lib.errorText _
  · rintro ⟨⟨b, h⟩, h'⟩
    exact not_both h h'

omit [AddCommGroup G1] [CommGroup GT] in
/-- **C78** The same for `shcrypto_decrypt`. -/
theorem C78_decrypt_result (lib : Lib G1 G2 GT) (args : List JsValue) :
    ((∃ b, Hex (jsDecrypt lib args) b) ∨ Failed (jsDecrypt lib args)) ∧
      ¬ ((∃ b, Hex (jsDecrypt lib args) b) ∧ Failed (jsDecrypt lib args)) ∧
      ∀ b b', Hex (jsDecrypt lib args) b → Hex (jsDecrypt lib args) b' → b = b' := by
  refine ⟨?_, ?_, fun b b' h h' => hex_unique h h'⟩
  · exact result_of lib.errorText _
  · rintro ⟨⟨b, h⟩, h'⟩
    exact not_both h h'

omit [AddCommGroup G1] [DecidableEq G2] in
/-- **C78** `shcrypto_encrypt` accepts exactly: four arrays of bytes, the second accepted as an eon public key, the third
of 8 bytes, the fourth of 32 bytes. The result is then the encryption for the epoch whose number is the big endian
value of the third argument. -/
theorem C78_encrypt_accepts (lib : Lib G1 G2 GT) (args : List JsValue) (c : Crypto.Bytes) :
    Hex (jsEncrypt lib args) c ↔
      ∃ a1 a2 a3 a4 message key epoch sigma pk, args = [a1, a2, a3, a4] ∧ Holds a1 message ∧ Holds a2 key ∧
        Holds a3 epoch ∧ Holds a4 sigma ∧ unmarshalPoint lib.codec2 lib.codec2.zero key = some pk ∧
        epoch.length = 8 ∧ sigma.length = 32 ∧
        c = marshalEncryptedMessage lib.codec2
          (encrypt lib.env message pk (lib.env.hashToG1 (1 :: epoch)) (fun i : Fin 32 => sigma.getD i 0)) := by
  have hid : ∀ e : Crypto.Bytes, e.length = 8 →
      Dkg.epochIDOf lib.env (beNat e) = lib.env.hashToG1 (1 :: e) := by
    intro e he
    simp [Dkg.epochIDOf, computeEpochID, hash1, beNat_lt8 he]
  have hbl : ∀ s : Crypto.Bytes, blockAt s 0 = fun i : Fin 32 => s.getD i 0 := by
    intro s; funext i; simp [blockAt]
  constructor
  · intro h
    unfold jsEncrypt at h
    split at h
    · next a1 a2 a3 a4 =>
      cases h1 : decodeBytesArg a1 with
      | error e => rw [h1] at h; exact absurd ⟨_, rfl⟩ (not_both h)
      | ok message =>
      cases h2 : decodeEonPublicKeyArg lib a2 with
      | error e => rw [h1, h2] at h; exact absurd ⟨_, rfl⟩ (not_both h)
      | ok pk =>
      cases h3 : decodeEpochIDArg lib a3 with
      | error e => rw [h1, h2, h3] at h; exact absurd ⟨_, rfl⟩ (not_both h)
      | ok epochID =>
      cases h4 : decodeSigmaArg a4 with
      | error e => rw [h1, h2, h3, h4] at h; exact absurd ⟨_, rfl⟩ (not_both h)
      | ok sigma =>
      rw [h1, h2, h3, h4] at h
      have hc := hex_unique h (hex_encode _)
      obtain ⟨key, k1, k2⟩ : ∃ key, decodeBytesArg a2 = .ok key ∧
          unmarshalPoint lib.codec2 lib.codec2.zero key = some pk := by
        unfold decodeEonPublicKeyArg at h2
        cases h5 : decodeBytesArg a2 with
        | error e => rw [h5] at h2; cases h2
        | ok key =>
          rw [h5] at h2
          refine ⟨key, rfl, ?_⟩
          change (match unmarshalPoint lib.codec2 lib.codec2.zero key with
            | none => Except.error Err.invalidEonPublicKey
            | some p => Except.ok p) = _ at h2
          split at h2
          · cases h2
          · next p hp => cases h2; exact hp
      obtain ⟨e, e1, e2, e3⟩ : ∃ e, decodeBytesArg a3 = .ok e ∧ e.length = 8 ∧
          epochID = lib.env.hashToG1 (1 :: e) := by
        unfold decodeEpochIDArg decodeUint64Arg at h3
        cases h5 : decodeBytesArg a3 with
        | error e => rw [h5] at h3; cases h3
        | ok e =>
          rw [h5] at h3
          by_cases he : e.length = 8
          · refine ⟨e, rfl, he, ?_⟩
            have : (Except.ok (Dkg.epochIDOf lib.env (beNat e)) : Except Err G1) = .ok epochID := by
              rw [← h3]
              show _ = (do let i ← (if e.length ≠ 8 then _ else _ : Except Err Nat); _)
              rw [if_neg (by omega)]; rfl
            cases this
            exact hid e he
          · exfalso
            have : (Except.error (Err.invalidEpochID e.length) : Except Err G1) = .ok epochID := by
              rw [← h3]
              show _ = (do let i ← (if e.length ≠ 8 then _ else _ : Except Err Nat); _)
              rw [if_pos he]; rfl
            cases this
      obtain ⟨s, s1, s2, s3⟩ : ∃ s, decodeBytesArg a4 = .ok s ∧ s.length = 32 ∧
          sigma = fun i : Fin 32 => s.getD i 0 := by
        unfold decodeSigmaArg at h4
        cases h5 : decodeBytesArg a4 with
        | error e => rw [h5] at h4; cases h4
        | ok s =>
          rw [h5] at h4
          change (if s.length ≠ 32 then Except.error (Err.invalidSigma s.length) else Except.ok (blockAt s 0)) = _ at h4
          split at h4
          · cases h4
          · next hs => cases h4; exact ⟨s, rfl, by omega, hbl s⟩
      subst e3 s3
      exact ⟨a1, a2, a3, a4, message, key, e, s, pk, rfl, decodeBytes_ok h1, decodeBytes_ok k1, decodeBytes_ok e1,
        decodeBytes_ok s1, k2, e2, s2, hc⟩
    · exact absurd ⟨_, rfl⟩ (not_both h)
  · rintro ⟨a1, a2, a3, a4, message, key, e, s, pk, rfl, h1, h2, h3, h4, hk, he, hs, rfl⟩
    have g1 := decodeBytes_of h1
    have g2 : decodeEonPublicKeyArg lib a2 = .ok pk := by
      unfold decodeEonPublicKeyArg; rw [decodeBytes_of h2]
      show (match unmarshalPoint lib.codec2 lib.codec2.zero key with
            | none => Except.error Err.invalidEonPublicKey
            | some p => Except.ok p) = _
      rw [hk]
    have g3 : decodeEpochIDArg lib a3 = .ok (lib.env.hashToG1 (1 :: e)) := by
      unfold decodeEpochIDArg decodeUint64Arg; rw [decodeBytes_of h3, ← hid e he]
      show (do let i ← (if e.length ≠ 8 then _ else _ : Except Err Nat); _) = _
      rw [if_neg (by omega)]; rfl
    have g4 : decodeSigmaArg a4 = .ok (fun i : Fin 32 => s.getD i 0) := by
      unfold decodeSigmaArg; rw [decodeBytes_of h4, ← hbl]
      show (if s.length ≠ 32 then _ else _ : Except Err Block) = _
      rw [if_neg (by omega)]
    show Hex (jsEncrypt lib [a1, a2, a3, a4]) _
    unfold jsEncrypt
    simp only [g1, g2, g3, g4]
    exact hex_encode _

/-- What `shcrypto_decrypt` does with the bytes of a ciphertext made for an epoch and that epoch's secret key. -/
theorem decrypt_arg (lib : Lib G1 G2 GT) (sound : lib.Sound) (sk : Nat) (epochID : G1) (message : Crypto.Bytes)
    (sigma : Block) (a1 a2 : JsValue)
    (h1 : Holds a1 (marshalEncryptedMessage lib.codec2 (encrypt lib.env message (sk • lib.env.g2) epochID sigma)))
    (h2 : Holds a2 (lib.codec1.compress (sk • epochID))) :
    jsDecrypt lib [a1, a2] = .text (hexutilEncode message) := by
  have g1 : decodeEncryptedMessageArg lib a1 = .ok (encrypt lib.env message (sk • lib.env.g2) epochID sigma) := by
    unfold decodeEncryptedMessageArg
    rw [decodeBytes_of h1]
    show (match unmarshalEncryptedMessage lib.codec2 none _ with
      | none => Except.error Err.invalidEncryptedMessage
      | some m => Except.ok m) = _
    rw [C07_roundtrip lib.codec2 sound.codec2 none _ (sound.inG2 _)]
  have g2 : decodeDecryptionKeyArg lib a2 = .ok (sk • epochID) := by
    unfold decodeDecryptionKeyArg
    rw [decodeBytes_of h2]
    show (match unmarshalPoint lib.codec1 lib.codec1.zero _ with
      | none => Except.error Err.invalidDecryptionKey
      | some m => Except.ok m) = _
    have : unmarshalPoint lib.codec1 lib.codec1.zero (lib.codec1.compress (sk • epochID)) = some (sk • epochID) := by
      simp [unmarshalPoint, PointCodec.uncompressInto, sound.roundtrip1 _ (sound.inG1 _), sound.inG1]
    rw [this]
  unfold jsDecrypt
  simp only [g1, g2]
  show encodeResult lib.errorText (match decrypt lib.env _ (sk • epochID) with
    | none => Except.error Err.decryptFailed
    | some message => Except.ok message) = _
  rw [C01_encrypt_decrypt lib.env sound.groups]
  rfl

/-- **C78** Round trip: a message encrypted in a web page for an eon public key and an epoch is, for every message and
every random 32 bytes, turned into a ciphertext that `shcrypto_decrypt` opens with that epoch's secret key, the one the
keypers compute (C04). -/
theorem C78_round_trip (lib : Lib G1 G2 GT) (sound : lib.Sound) (sk : Nat) (message epoch sigma : Crypto.Bytes)
    (epoch8 : epoch.length = 8) (sigma32 : sigma.length = 32) (a1 a2 a3 a4 : JsValue) (h1 : Holds a1 message)
    (h2 : Holds a2 (lib.codec2.compress (sk • lib.env.g2))) (h3 : Holds a3 epoch) (h4 : Holds a4 sigma) :
    ∃ c, Hex (jsEncrypt lib [a1, a2, a3, a4]) c ∧
      ∀ b1 b2, Holds b1 c → Holds b2 (lib.codec1.compress (sk • lib.env.hashToG1 (1 :: epoch))) →
        Hex (jsDecrypt lib [b1, b2]) message := by
  have hk : unmarshalPoint lib.codec2 lib.codec2.zero (lib.codec2.compress (sk • lib.env.g2)) =
      some (sk • lib.env.g2) := C08_point_roundtrip_partial _ sound.codec2 _ _ (sound.inG2 sk)
  refine ⟨_, (C78_encrypt_accepts lib _ _).2 ⟨a1, a2, a3, a4, message, _, epoch, sigma, _, rfl, h1, h2, h3, h4, hk,
    epoch8, sigma32, rfl⟩, ?_⟩
  intro b1 b2 hb1 hb2
  rw [decrypt_arg lib sound sk _ message _ b1 b2 hb1 hb2]
  exact hex_encode message

omit [AddCommGroup G1] [CommGroup GT] in
/-- **C78** `shcrypto_decrypt` returns a message exactly for two arrays of bytes that are accepted as an encrypted message
and as an epoch secret key, if the message decrypts with that key (C01, C03 and C07 say when). -/
theorem C78_decrypt_accepts (lib : Lib G1 G2 GT) (args : List JsValue) (message : Crypto.Bytes) :
    Hex (jsDecrypt lib args) message ↔
      ∃ a1 a2 c key m k, args = [a1, a2] ∧ Holds a1 c ∧ Holds a2 key ∧
        unmarshalEncryptedMessage lib.codec2 none c = some m ∧ unmarshalPoint lib.codec1 lib.codec1.zero key = some k ∧
        decrypt lib.env m k = some message := by
  have d1 : ∀ a c, decodeBytesArg a = .ok c → decodeEncryptedMessageArg lib a =
      (match unmarshalEncryptedMessage lib.codec2 none c with
      | none => Except.error Err.invalidEncryptedMessage
      | some m => Except.ok m) := by
    intro a c h; unfold decodeEncryptedMessageArg; rw [h]; rfl
  have d2 : ∀ a c, decodeBytesArg a = .ok c → decodeDecryptionKeyArg lib a =
      (match unmarshalPoint lib.codec1 lib.codec1.zero c with
      | none => Except.error Err.invalidDecryptionKey
      | some m => Except.ok m) := by
    intro a c h; unfold decodeDecryptionKeyArg; rw [h]; rfl
  constructor
  · intro h
    unfold jsDecrypt at h
    split at h
    · next a1 a2 =>
      cases h1 : decodeEncryptedMessageArg lib a1 with
      | error e => rw [h1] at h; exact absurd ⟨_, rfl⟩ (not_both h)
      | ok m =>
      cases h2 : decodeDecryptionKeyArg lib a2 with
      | error e => rw [h1, h2] at h; exact absurd ⟨_, rfl⟩ (not_both h)
      | ok k =>
      rw [h1, h2] at h
      change Hex (encodeResult lib.errorText (match decrypt lib.env m k with
        | none => Except.error Err.decryptFailed
        | some message => Except.ok message)) message at h
      cases h3 : decrypt lib.env m k with
      | none => rw [h3] at h; exact absurd ⟨_, rfl⟩ (not_both h)
      | some x =>
      rw [h3] at h
      cases hex_unique h (hex_encode x)
      cases e1 : decodeBytesArg a1 with
      | error e => unfold decodeEncryptedMessageArg at h1; rw [e1] at h1; cases h1
      | ok c =>
      cases e2 : decodeBytesArg a2 with
      | error e => unfold decodeDecryptionKeyArg at h2; rw [e2] at h2; cases h2
      | ok key =>
      rw [d1 a1 c e1] at h1
      rw [d2 a2 key e2] at h2
      cases u1 : unmarshalEncryptedMessage lib.codec2 none c with
      | none => rw [u1] at h1; cases h1
      | some m' =>
      cases u2 : unmarshalPoint lib.codec1 lib.codec1.zero key with
      | none => rw [u2] at h2; cases h2
      | some k' =>
      rw [u1] at h1; rw [u2] at h2
      cases h1; cases h2
      exact ⟨a1, a2, c, key, _, _, rfl, decodeBytes_ok e1, decodeBytes_ok e2, u1, u2, h3⟩
    · exact absurd ⟨_, rfl⟩ (not_both h)
  · rintro ⟨a1, a2, c, key, m, k, rfl, h1, h2, u1, u2, hd⟩
    have g1 := d1 a1 c (decodeBytes_of h1)
    have g2 := d2 a2 key (decodeBytes_of h2)
    rw [u1] at g1; rw [u2] at g2
    unfold jsDecrypt
    simp only [g1, g2]
    show Hex (encodeResult lib.errorText (match decrypt lib.env m k with
        | none => Except.error Err.decryptFailed
        | some message => Except.ok message)) message
    rw [hd]
    exact hex_encode message

/-- **C78** Keypers: a batch of ciphertexts that were all made in web pages for the same eon key and epoch is decrypted by
the keypers to exactly the messages of the users, in some order. -/
theorem C78_batch {σ : Type} (lib : Lib G1 G2 GT) (sound : lib.Sound) (sk : Nat) (epoch : Crypto.Bytes)
    (newSource : Nat → σ) (next : σ → Nat → Nat × σ) (users : List (List JsValue × Crypto.Bytes × Crypto.Bytes))
    (made : ∀ u ∈ users, Hex (jsEncrypt lib u.1) u.2.2 ∧ ∃ a1 a2 a3 a4, u.1 = [a1, a2, a3, a4] ∧ Holds a1 u.2.1 ∧
      Holds a2 (lib.codec2.compress (sk • lib.env.g2)) ∧ Holds a3 epoch) :
    (decryptTransactions lib.env lib.codec2 lib.codec1.compress newSource next (users.map (·.2.2))
      (sk • lib.env.hashToG1 (1 :: epoch))).Perm (users.map (·.2.1)) := by
  refine (C10_decryptTransactions_perm lib.env lib.codec2 _ newSource next _ _).trans ?_
  rw [List.filterMap_map]
  suffices h : users.filterMap ((fun t => (unmarshalEncryptedMessage lib.codec2 none t).bind fun m =>
      decrypt lib.env m (sk • lib.env.hashToG1 (1 :: epoch))) ∘ fun x => x.2.2) = users.map (·.2.1) by rw [h]
  rw [← List.filterMap_eq_map]
  apply List.filterMap_congr
  intro u hu
  obtain ⟨hx, a1, a2, a3, a4, ha, h1, h2, h3⟩ := made u hu
  obtain ⟨a1', a2', a3', a4', message, key, epoch', sigma, pk, ha', g1, g2, g3, g4, hk, _, _, hc⟩ :=
    (C78_encrypt_accepts lib _ _).1 hx
  rw [ha] at ha'
  simp only [List.cons.injEq, and_true] at ha'
  obtain ⟨rfl, rfl, rfl, rfl⟩ := ha'
  have uniq : ∀ {v : JsValue} {b b'}, Holds v b → Holds v b' → b = b' := by
    intro v b b' h h'
    have := (decodeBytes_of h).symm.trans (decodeBytes_of h')
    simpa using this
  cases uniq h1 g1
  cases uniq h2 g2
  cases uniq h3 g3
  have : pk = sk • lib.env.g2 := by
    have := C08_point_roundtrip_partial _ sound.codec2 lib.codec2.zero _ (sound.inG2 sk)
    rw [this] at hk
    exact (Option.some.inj hk).symm
  subst this
  simp only [Function.comp, hc]
  rw [C07_roundtrip lib.codec2 sound.codec2 none _ (sound.inG2 _)]
  simp only [Option.bind_some]
  rw [C01_encrypt_decrypt lib.env sound.groups]

omit [AddCommGroup G1] in
/-- **C78** `shcrypto_verifyDecryptionKey` returns a boolean or an error text, never a hexadecimal text; and a boolean
only for three arrays of bytes of which the last has 8 bytes. -/
theorem C78_verify_result (lib : Lib G1 G2 GT) (random : Option (Block × Crypto.Bytes)) (args : List JsValue) :
    ((∃ b, jsVerifyDecryptionKey lib random args = .bool b) ∨ Failed (jsVerifyDecryptionKey lib random args)) ∧
      (∀ b, ¬ Hex (jsVerifyDecryptionKey lib random args) b) ∧
      ∀ b, jsVerifyDecryptionKey lib random args = .bool b →
        ∃ a1 a2 a3 k pk e, args = [a1, a2, a3] ∧ Holds a1 k ∧ Holds a2 pk ∧ Holds a3 e ∧ e.length = 8 := by
  have h1 : (∃ b, jsVerifyDecryptionKey lib random args = .bool b) ∨ Failed (jsVerifyDecryptionKey lib random args) := by
    unfold jsVerifyDecryptionKey
    simp only
    split
    · exact Or.inr ⟨_, rfl⟩
    · exact Or.inl ⟨_, rfl⟩
  refine ⟨h1, ?_, ?_⟩
  · intro b hb
    rcases h1 with ⟨b', hb'⟩ | hf
    · obtain ⟨d, hd, _⟩ := hb
      rw [hb'] at hd
      cases hd
    · exact not_both hb hf
  · intro b hb
    unfold jsVerifyDecryptionKey at hb
    simp only at hb
    split at hb
    · cases hb
    · next b' hr =>
      split at hr
      · next a1 a2 a3 =>
        cases e1 : decodeBytesArg a1 with
        | error e =>
          have : decodeDecryptionKeyArg lib a1 = .error e := by unfold decodeDecryptionKeyArg; rw [e1]; rfl
          rw [this] at hr; cases hr
        | ok k =>
        cases g1 : decodeDecryptionKeyArg lib a1 with
        | error e => rw [g1] at hr; cases hr
        | ok k' =>
        cases e2 : decodeBytesArg a2 with
        | error e =>
          have : decodeEonPublicKeyArg lib a2 = .error e := by unfold decodeEonPublicKeyArg; rw [e2]; rfl
          rw [g1, this] at hr; cases hr
        | ok pk =>
        cases g2 : decodeEonPublicKeyArg lib a2 with
        | error e => rw [g1, g2] at hr; cases hr
        | ok pk' =>
        cases e3 : decodeBytesArg a3 with
        | error e =>
          have : decodeUint64Arg a3 = .error e := by unfold decodeUint64Arg; rw [e3]; rfl
          rw [g1, g2, this] at hr; cases hr
        | ok e =>
        by_cases he : e.length = 8
        · exact ⟨a1, a2, a3, k, pk, e, rfl, decodeBytes_ok e1, decodeBytes_ok e2, decodeBytes_ok e3, he⟩
        · have : decodeUint64Arg a3 = .error (.invalidEpochID e.length) := by
            unfold decodeUint64Arg; rw [e3]
            show (if e.length ≠ 8 then _ else _ : Except Err Nat) = _
            rw [if_pos he]
          rw [g1, g2, this] at hr; cases hr
      · cases hr

/-- The arguments of `shcrypto_verifyDecryptionKey`. -/
theorem verify_arg (lib : Lib G1 G2 GT) (sound : lib.Sound) (sk : Nat) (key : G1) (epoch : Crypto.Bytes)
    (epoch8 : epoch.length = 8) (sigma : Block) (message : Crypto.Bytes) (a1 a2 a3 : JsValue)
    (h1 : Holds a1 (lib.codec1.compress key)) (h2 : Holds a2 (lib.codec2.compress (sk • lib.env.g2)))
    (h3 : Holds a3 epoch) :
    jsVerifyDecryptionKey lib (some (sigma, message)) [a1, a2, a3] =
      .bool (verifyEpochSecretKeyDeterministic lib.env key (sk • lib.env.g2) epoch sigma message) := by
  have g1 : decodeDecryptionKeyArg lib a1 = .ok key := by
    unfold decodeDecryptionKeyArg
    rw [decodeBytes_of h1]
    show (match unmarshalPoint lib.codec1 lib.codec1.zero _ with
      | none => Except.error Err.invalidDecryptionKey
      | some m => Except.ok m) = _
    have : unmarshalPoint lib.codec1 lib.codec1.zero (lib.codec1.compress key) = some key := by
      simp [unmarshalPoint, PointCodec.uncompressInto, sound.roundtrip1 _ (sound.inG1 _), sound.inG1]
    rw [this]
  have g2 : decodeEonPublicKeyArg lib a2 = .ok (sk • lib.env.g2) := by
    unfold decodeEonPublicKeyArg
    rw [decodeBytes_of h2]
    show (match unmarshalPoint lib.codec2 lib.codec2.zero _ with
      | none => Except.error Err.invalidEonPublicKey
      | some p => Except.ok p) = _
    rw [C08_point_roundtrip_partial _ sound.codec2 _ _ (sound.inG2 sk)]
  have g3 : decodeUint64Arg a3 = .ok (beNat epoch) := by
    unfold decodeUint64Arg; rw [decodeBytes_of h3]
    show (if epoch.length ≠ 8 then _ else _ : Except Err Nat) = _
    rw [if_neg (by omega)]
  unfold jsVerifyDecryptionKey
  simp only [g1, g2, g3]
  show Result.bool _ = _
  rw [beNat_lt8 epoch8]

/-- **C78** `shcrypto_verifyDecryptionKey` returns true for the right key, whatever it draws at random. -/
theorem C78_verify_right (lib : Lib G1 G2 GT) (sound : lib.Sound) (sk : Nat) (epoch : Crypto.Bytes)
    (epoch8 : epoch.length = 8) (sigma : Block) (message : Crypto.Bytes) (a1 a2 a3 : JsValue)
    (h1 : Holds a1 (lib.codec1.compress (sk • lib.env.hashToG1 (1 :: epoch))))
    (h2 : Holds a2 (lib.codec2.compress (sk • lib.env.g2))) (h3 : Holds a3 epoch) :
    jsVerifyDecryptionKey lib (some (sigma, message)) [a1, a2, a3] = .bool true := by
  rw [verify_arg lib sound sk _ epoch epoch8 sigma message a1 a2 a3 h1 h2 h3]
  congr 1
  exact C01_verify_accepts_correct_key lib.env sound.groups sk epoch sigma message

/-- **C78** … and for a wrong key it returns true only if the random numbers hit a collision of the hash functions. -/
theorem C78_verify_wrong (lib : Lib G1 G2 GT) (sound : lib.Sound) (sk : Nat) (key : G1) (epoch : Crypto.Bytes)
    (epoch8 : epoch.length = 8) (sigma : Block) (message : Crypto.Bytes) (a1 a2 a3 : JsValue)
    (h1 : Holds a1 (lib.codec1.compress key))
    (h2 : Holds a2 (lib.codec2.compress (sk • lib.env.g2))) (h3 : Holds a3 epoch)
    (wrong : key ≠ sk • lib.env.hashToG1 (1 :: epoch))
    (no_collision_scalar : ∀ s : Block,
      beNat (lib.env.keccak (3 :: (s.toBytes ++ message))).toBytes % order =
        beNat (lib.env.keccak (3 :: (sigma.toBytes ++ message))).toBytes % order → s = sigma)
    (no_collision_gt : ∀ x : GT,
      lib.env.keccak (2 :: lib.env.gtBytes x) = lib.env.keccak (2 :: lib.env.gtBytes
        (lib.env.pair ((beNat (lib.env.keccak (3 :: (sigma.toBytes ++ message))).toBytes % order) • lib.env.g2)
          (sk • lib.env.hashToG1 (1 :: epoch)))) →
      x = lib.env.pair ((beNat (lib.env.keccak (3 :: (sigma.toBytes ++ message))).toBytes % order) • lib.env.g2)
          (sk • lib.env.hashToG1 (1 :: epoch)))
    (scalar_ne_zero : beNat (lib.env.keccak (3 :: (sigma.toBytes ++ message))).toBytes % order ≠ 0) :
    jsVerifyDecryptionKey lib (some (sigma, message)) [a1, a2, a3] = .bool false := by
  rw [verify_arg lib sound sk key epoch epoch8 sigma message a1 a2 a3 h1 h2 h3]
  congr 1
  by_contra h
  exact wrong (C05_key_verification_sound lib.env sound.groups sk key epoch sigma message no_collision_scalar
    no_collision_gt scalar_ne_zero (by simpa using h))

/-- **C78** (finding) An eon public key whose bytes are not the encoding of a point (say, of the wrong length) is not
refused but taken for the point at infinity (C08), and the ciphertext made with it can be read by everybody: the secret key
of every epoch is then the neutral element, whatever the message and the epoch. -/
theorem C78_bad_key_counterexample (lib : Lib G1 G2 GT) (sound : lib.Sound) (bad message epoch sigma : Crypto.Bytes)
    (hbad : lib.codec2.uncompress bad = none) (untouched : lib.codec2.afterFail lib.codec2.zero bad = lib.codec2.zero)
    (zero : lib.codec2.zero = 0) (epoch8 : epoch.length = 8) (sigma32 : sigma.length = 32) (a1 a2 a3 a4 : JsValue)
    (h1 : Holds a1 message) (h2 : Holds a2 bad) (h3 : Holds a3 epoch) (h4 : Holds a4 sigma) :
    ∃ c, Hex (jsEncrypt lib [a1, a2, a3, a4]) c ∧
      ∀ b1 b2, Holds b1 c → Holds b2 (lib.codec1.compress 0) → Hex (jsDecrypt lib [b1, b2]) message := by
  have inf : lib.codec2.inGroup lib.codec2.zero = true := by
    have := sound.inG2 0
    rwa [zero_smul, ← zero] at this
  have hk := C08_point_counterexample lib.codec2 bad lib.codec2.zero hbad untouched inf
  refine ⟨_, (C78_encrypt_accepts lib _ _).2 ⟨a1, a2, a3, a4, message, _, epoch, sigma, _, rfl, h1, h2, h3, h4, hk,
    epoch8, sigma32, rfl⟩, ?_⟩
  intro b1 b2 hb1 hb2
  rw [decrypt_arg lib sound 0 (lib.env.hashToG1 (1 :: epoch)) message (fun i : Fin 32 => sigma.getD i 0) b1 b2
    (by rwa [zero_smul, ← zero]) (by rwa [zero_smul])]
  exact hex_encode message

/-! ### Examples -/

/-- A codec of the toy group: 96 bytes, the last 32 of them the number, the first one marking valid encodings. -/
def toyPoint : PointCodec F where
  compress p := 0x80 :: (List.replicate 63 0 ++ (List.ofFn fun i : Fin 32 => UInt8.ofNat (ZMod.val p / 256 ^ i.1)))
  uncompress b := if b.length = 96 ∧ b.head? = some 0x80 then
      some (((b.drop 64).foldr (fun x acc => x.toNat + 256 * acc) 0 : Nat) : F) else none
  afterFail old _ := old
  inGroup _ := true
  zero := 0

theorem foldr_digits (k : Nat) : ∀ n : Nat,
    (List.ofFn fun i : Fin k => UInt8.ofNat (n / 256 ^ i.1)).foldr (fun x acc => x.toNat + 256 * acc) 0 = n % 256 ^ k := by
  induction k with
  | zero => intro n; simp [Nat.mod_one]
  | succ k ih =>
    intro n
    rw [List.ofFn_succ, List.foldr_cons]
    have : (List.ofFn fun i : Fin k => UInt8.ofNat (n / 256 ^ (i.succ).1)) =
        List.ofFn fun i : Fin k => UInt8.ofNat (n / 256 / 256 ^ i.1) := by
      congr 1; funext i; rw [Nat.div_div_eq_div_mul, Fin.val_succ, pow_succ, mul_comm]
    rw [this, ih]
    simp only [Fin.val_zero, pow_zero, Nat.div_one, UInt8.toNat_ofNat']
    rw [show (2 : Nat) ^ 8 = 256 by decide, pow_succ 256 k, mul_comm (256 ^ k), Nat.mod_mul]

/-- A library for the examples. -/
def toyLib : Lib F F (Multiplicative F) where
  env := toyEnv
  codec2 := toyPoint
  codec1 := toyPoint
  errorText _ := "no".toList

theorem toyPoint_roundtrip (p : F) : toyPoint.uncompress (toyPoint.compress p) = some p := by
  have hlt : ZMod.val p < 256 ^ 32 := lt_trans (ZMod.val_lt p) (by decide +kernel)
  have h1 : (toyPoint.compress p).length = 96 := by simp [toyPoint]
  have h2 : (toyPoint.compress p).drop 64 = List.ofFn fun i : Fin 32 => UInt8.ofNat (ZMod.val p / 256 ^ i.1) := by
    simp only [toyPoint]
    rw [← List.cons_append, List.drop_left' (by simp)]
  have h3 : toyPoint.uncompress (toyPoint.compress p) =
      some ((((toyPoint.compress p).drop 64).foldr (fun x acc => x.toNat + 256 * acc) 0 : Nat) : F) := by
    exact if_pos (e := none) (c := (toyPoint.compress p).length = 96 ∧ (toyPoint.compress p).head? = some 0x80) ⟨h1, rfl⟩
  rw [h3, h2, foldr_digits, Nat.mod_eq_of_lt hlt, ZMod.natCast_zmod_val]

theorem toyLib_sound : toyLib.Sound where
  groups := toyLawful
  codec2 := { length := fun p => by simp [toyLib, toyPoint], roundtrip := fun p _ => toyPoint_roundtrip p }
  inG2 _ := rfl
  roundtrip1 p _ := toyPoint_roundtrip p
  inG1 _ := rfl

/-- A page encrypts three bytes for epoch 258 and eon key `5 • g2`; the text decrypts with the key of that epoch; with two
bytes instead of a key everybody can read it; and with three arguments there is an error. -/
theorem C78_example :
    (∃ c, Hex (jsEncrypt toyLib [.uint8Array [1, 2, 3], .uint8ClampedArray (toyPoint.compress ((5 : ℕ) • (1 : F))),
        .uint8Array [0, 0, 0, 0, 0, 0, 1, 2], .uint8Array (List.replicate 32 9)]) c ∧
      Hex (jsDecrypt toyLib [.uint8Array c, .uint8Array (toyPoint.compress ((5 : ℕ) • toyEnv.hashToG1
        (1 :: [0, 0, 0, 0, 0, 0, 1, 2])))]) [1, 2, 3]) ∧
    (∃ c, Hex (jsEncrypt toyLib [.uint8Array [1, 2, 3], .uint8Array [7, 7],
        .uint8Array [0, 0, 0, 0, 0, 0, 1, 2], .uint8Array (List.replicate 32 9)]) c ∧
      Hex (jsDecrypt toyLib [.uint8Array c, .uint8Array (toyPoint.compress 0)]) [1, 2, 3]) ∧
    Failed (jsEncrypt toyLib [.uint8Array [1, 2, 3], .other, .uint8Array []]) := by
  refine ⟨?_, ?_, ⟨_, rfl⟩⟩
  · obtain ⟨c, h1, h2⟩ := C78_round_trip toyLib toyLib_sound 5 [1, 2, 3] [0, 0, 0, 0, 0, 0, 1, 2] (List.replicate 32 9)
      rfl rfl _ _ _ _ (Or.inl rfl) (Or.inr rfl) (Or.inl rfl) (Or.inl rfl)
    exact ⟨c, h1, h2 _ _ (Or.inl rfl) (Or.inl rfl)⟩
  · obtain ⟨c, h1, h2⟩ := C78_bad_key_counterexample toyLib toyLib_sound [7, 7] [1, 2, 3] [0, 0, 0, 0, 0, 0, 1, 2]
      (List.replicate 32 9) (by simp [toyLib, toyPoint]) rfl rfl
      rfl rfl _ _ _ _ (Or.inl rfl) (Or.inl rfl) (Or.inl rfl) (Or.inl rfl)
    exact ⟨c, h1, h2 _ _ (Or.inl rfl) (Or.inl rfl)⟩

/-- The hypotheses of `C78_verify_wrong` can be met: a library in which key 16 is refused for epoch 7 (the right key is 15). -/
theorem C78_verify_example :
    let lib : Lib F F (Multiplicative F) := { toyLib with env := separatingEnv }
    lib.Sound ∧
    jsVerifyDecryptionKey lib (some (fours, [8])) [.uint8Array (toyPoint.compress 16),
      .uint8Array (toyPoint.compress ((5 : ℕ) • separatingEnv.g2)), .uint8Array [0, 0, 0, 0, 0, 0, 0, 7]] = .bool false ∧
    jsVerifyDecryptionKey lib (some (fours, [8])) [.uint8Array (toyPoint.compress ((5 : ℕ) • (3 : F))),
      .uint8Array (toyPoint.compress ((5 : ℕ) • separatingEnv.g2)), .uint8Array [0, 0, 0, 0, 0, 0, 0, 7]] = .bool true := by
  intro lib
  have sound : lib.Sound :=
    { groups := separatingLawful, codec2 := toyLib_sound.codec2, inG2 := fun _ => rfl,
      roundtrip1 := toyLib_sound.roundtrip1, inG1 := fun _ => rfl }
  obtain ⟨_, _, c1, c3, c2⟩ := separating_example
  refine ⟨sound, ?_, ?_⟩
  · refine C78_verify_wrong lib sound 5 16 [0, 0, 0, 0, 0, 0, 0, 7] rfl fours [8] _ _ _ (Or.inl rfl) (Or.inl rfl)
      (Or.inl rfl) ?_ c1 c2 c3
    show (16 : F) ≠ (5 : ℕ) • (3 : F)
    decide +kernel
  · exact C78_verify_right lib sound 5 [0, 0, 0, 0, 0, 0, 0, 7] rfl fours [8] _ _ _ (Or.inl rfl) (Or.inl rfl)
      (Or.inl rfl)

end Shutter.Wasm.Props
