import Verif.Proofs.Tx
import Verif.Props.App

/-! Property theorems C77 (shuttermint/shmsg/encode.go, shmsg.proto, app.go `decodeTx`: transactions as bytes). -/

namespace Shutter.Tx.Props
open Shutter.App Shutter.Net Shutter.Decide Shutter.Decide.Spec Shutter.Tx

variable {E : Env} {sign : Crypto.Bytes → Crypto.Bytes} {own : Sol.Address}

/-- **C77** No transaction makes decoding panic. -/
theorem C77_no_panic (tx : Crypto.Bytes) : ∃ r, decodeTx E tx = some r := by
  unfold decodeTx getSigner getMessage
  cases unbase64 tx with
  | none => exact ⟨_, rfl⟩
  | some signed =>
    by_cases hl : signed.length < 65
    · simp [hl]
    · simp only [hl, if_false, Option.map_some]
      split <;> exact ⟨_, rfl⟩

/-- **C77** What a keyper sends is understood by the application exactly as it was sent, and as sent by the keyper. -/
theorem C77_round_trip (s : SignsFor E sign own) {m : MessageWithNonce} (fits : Fits m) : decodeTx E (encodeTx E sign m) = some (some (addrBytes own, m)) := by
  obtain ⟨h1, h2, h3⟩ := fits
  exact decodeTx_iff.2 ⟨_, _, own, unbase64_base64 _, s.2 _, rfl, Proto.unmarshal_marshal h1 h2 (by omega)⟩

/-- **C77** Messages written to the keyper's files are read again as they were. -/
theorem C77_saved {m : Msg} (numbers : Proto.Numbers m) (short : (Proto.marshalMessage m).length < 2 ^ 63) :
    Proto.unmarshalMessage .unknown (Proto.marshalMessage m) = some m :=
  Proto.unmarshalMessage_marshal numbers (by omega)

/-- **C77** A transaction is understood as a message of an account only if it carries a signature of this account for the bytes of the message, after the prefix, and
nothing is changed or added. -/
theorem C77_signed {tx : Crypto.Bytes} {signer : Addr} {m : MessageWithNonce} (h : decodeTx E tx = some (some (signer, m))) :
    ∃ sig data a, unbase64 tx = some (sig ++ data) ∧ sig.length = 65 ∧ Ecdsa.goRecover E.core (E.sha3 ([0x19] ++ "shmsg".toUTF8.toList ++ data)) sig = some a ∧
      signer = addrBytes a ∧ Proto.unmarshal data = some m := by
  obtain ⟨sig, data, a, h1, ⟨h2, h3⟩, h4, h5⟩ := decodeTx_iff.1 h
  refine ⟨sig, data, a, h1, h2, ?_, h4, h5⟩
  rw [← h3]
  have : [0x19] ++ "shmsg".toUTF8.toList = hashPrefix := by decide +kernel
  rw [this]
  rfl

/-- **C77** As long as its signatures are not forged, the application understands a transaction as one of the keyper only if it is a message the keyper has signed. -/
theorem C77_unforged (acc : E.Accounts) (hown : own < 2 ^ 160) {signed : MessageWithNonce → Prop} (fits : ∀ m, signed m → Fits m) {tx : Crypto.Bytes} (u : Unforged E own signed tx)
    {m : MessageWithNonce} (h : decodeTx E tx = some (some (addrBytes own, m))) : signed m := by
  obtain ⟨sig, data, a, h1, h2, h3, h4⟩ := decodeTx_iff.1 h
  have := addrBytes_inj hown (goRecover_lt acc h2.2) h3
  subst this
  obtain ⟨m', hm', hd, hc⟩ := u sig data h1 h2
  obtain ⟨f1, f2, f3⟩ := fits m' hm'
  rw [hc hd, Proto.unmarshal_marshal f1 f2 (by omega)] at h4
  simp only [Option.some.injEq] at h4
  exact h4 ▸ hm'

/-- **C77** What the application executes has signers with 20 bytes and numbers with 64 bits, whatever bytes it is given. -/
theorem C77_sane {log : List Rec} (raw : Raw E log) : Sane log := by
  intro r hr a m hd
  obtain ⟨b, tx, hb, hop⟩ := raw r hr (by rw [hd]; rfl)
  rw [hd] at hop
  cases hop
  obtain ⟨sig, data, a', _, _, rfl, h4⟩ := decodeTx_iff.1 hb
  refine ⟨addrBytes_length _, ?_⟩
  have := (Proto.unmarshal_numbers h4).1
  cases hm : m.msg <;> rw [hm] at this <;> simp only [Proto.Numbers] at this <;> simp only [Events.WireOk, Events.Uint64] <;> try exact this

/-- **C77** What C71 asks of the transactions in the name of a keyper holds if no transaction carries a forged signature of the keyper. -/
theorem C77_genuine {G1 G2 : Type} (acc : E.Accounts) (hown : own < 2 ^ 160) (w : Wire G1 G2) (rs : List (Round G1 G2)) {log : List Rec} (e : Nat)
    (h : ∀ pre r post, log = pre ++ r :: post → isDelivery r.op = true → ∃ b, RawDelivers E r b ∧ Unforged E own (SignedBefore w rs e pre) b) :
    Genuine w log (addrBytes own) e rs := by
  intro pre r post m hl hd he
  obtain ⟨b, ⟨tx, hb, hop⟩, u⟩ := h pre r post hl (by rw [hd]; rfl)
  rw [hd] at hop
  cases hop
  exact (C77_unforged acc hown (fun m hm => hm.1) u hb).2 he

/-- **C77** Whoever sees a transaction can make others from it that are understood in the same way: only the nonce keeps them from being executed again (C19). -/
theorem C77_variants (s t : Crypto.Bytes) : decodeTx E (s ++ 10 :: t) = decodeTx E (s ++ t) ∧ decodeTx E (s ++ 13 :: t) = decodeTx E (s ++ t) := by
  unfold decodeTx
  rw [unbase64_newline s t 10 (Or.inl rfl), unbase64_newline s t 13 (Or.inr rfl)]
  exact ⟨rfl, rfl⟩

/-- **C77** Of all transactions made from a signed message, or from two signed with the same nonce, only the first one delivered is executed. -/
theorem C77_once {ps : Parsers} {dev : Bool} {log : List Rec} {st : State} (h : Exec ps dev log st) {pre mid post : List Rec} {r r' : Rec} (split : log = pre ++ r :: mid ++ r' :: post)
    {b b' : Crypto.Bytes} (first : RawDelivers E r b) (second : RawDelivers E r' b') {signer : Addr} {m m' : MessageWithNonce} (dec : decodeTx E b = some (some (signer, m)))
    (dec' : decodeTx E b' = some (some (signer, m'))) (chain : m.chainId = r.before.chainID)
    (nonce : m'.randomNonce = m.randomNonce) : r'.resp = .deliverTx ⟨false, []⟩ ∧ r'.after = r'.before := by
  obtain ⟨t, h1, h2⟩ := first
  obtain ⟨t', h3, h4⟩ := second
  rw [dec] at h1
  rw [dec'] at h3
  cases h1
  cases h3
  exact App.Props.C19_nonce_once h split (m := m) (m' := m') h2 h4 chain nonce

/-- **C77** What is signed for a message is never what is signed for a decrypted batch, nor an Ethereum transaction or signed Ethereum message (whose first byte is at
least 0xc0, or below 0x80 and the type of the transaction, or 0x19 followed by a version or `E`). -/
theorem C77_domain (data : Crypto.Bytes) : (∀ batcher r, hashPrefix ++ data ≠ Sol.World.signaturePreimage batcher r) ∧
    ∀ other : Crypto.Bytes, (∀ rest, other ≠ 0x19 :: 0x73 :: rest) → hashPrefix ++ data ≠ other := by
  constructor
  · intro batcher r h
    unfold hashPrefix Sol.World.signaturePreimage at h
    simp at h
  · intro other ho h
    exact ho _ h.symm

/-! ## Instances -/

namespace Demo

/-- A toy hash function with 32 bytes, and signatures that consist of the account, the hash and a zero. -/
def env : Env where
  sha3 := fun b => Sol.World.beBytes (Crypto.beNat b) 32
  core := fun h r s v => if v = 0 ∧ s = Crypto.beNat (h.take 32) ∧ r < 2 ^ 160 then some r else none

def signer (own : Sol.Address) (h : Crypto.Bytes) : Crypto.Bytes := Sol.World.beBytes own 32 ++ Sol.World.beBytes (Crypto.beNat (h.take 32)) 32 ++ [0]

theorem beBytes_length (n k : Nat) : (Sol.World.beBytes n k).length = k := by simp [Sol.World.beBytes]

theorem signsFor {own : Sol.Address} (h : own < 2 ^ 160) : SignsFor env (signer own) own := by
  refine ⟨h, fun x => ⟨by simp [signer, beBytes_length], ?_⟩⟩
  have hb := Crypto.beNat_lt (x.take 32)
  have hb2 : Crypto.beNat (x.take 32) < 256 ^ 32 := lt_of_lt_of_le hb (Nat.pow_le_pow_right (by decide) (by simp))
  unfold Ecdsa.goRecover Ecdsa.split
  rw [if_neg (by simp [signer, beBytes_length])]
  have h1 : (signer own x).take 32 = Sol.World.beBytes own 32 := by
    unfold signer
    rw [List.append_assoc, List.take_left' (beBytes_length _ _)]
  have h2 : ((signer own x).drop 32).take 32 = Sol.World.beBytes (Crypto.beNat (x.take 32)) 32 := by
    unfold signer
    rw [List.append_assoc, List.drop_left' (beBytes_length _ _), List.take_left' (beBytes_length _ _)]
  have h3 : (signer own x)[64]? = some 0 := by
    unfold signer
    rw [List.getElem?_append_right (by simp [beBytes_length])]
    simp [beBytes_length]
  simp only [h1, h2, h3, Option.getD_some]
  rw [Crypto.beNat_beBytes, Crypto.beNat_beBytes, Nat.mod_eq_of_lt hb2, Nat.mod_eq_of_lt (lt_trans h (by norm_num))]
  simp only [env, true_and]
  rw [if_neg (by decide), if_pos ⟨by decide, h⟩]

theorem accounts : env.Accounts := by
  intro h r s v a ha
  simp only [env] at ha
  split at ha
  · next hc => cases ha; exact hc.2.2
  · cases ha

def msg : MessageWithNonce := ⟨.polyEval 300 [App.Demo.k 1, []] [[1, 2, 3], []], [115, 104], 2 ^ 64 - 1⟩

theorem fits : Fits msg := by refine ⟨?_, by decide +kernel, by decide +kernel⟩; simp [msg, Proto.Numbers]

/-- **C77** A message with the transaction for it; one bit changed in the signature; a line end added; the fields of the message given in another order and twice, with a group
in between; what is not base64, too short, or ends within a field. -/
theorem C77_example : decodeTx env (encodeTx env (signer 7) msg) = some (some (addrBytes 7, msg)) ∧
    (∀ m, decodeTx env (base64 ((signMessage env (signer 7) msg).set 40 1)) ≠ some (some (addrBytes 7, m))) ∧
    decodeTx env (10 :: encodeTx env (signer 7) msg) = some (some (addrBytes 7, msg)) ∧
    Proto.unmarshal [24, 5, 10, 6, 106, 4, 8, 1, 8, 2, 35, 8, 1, 36, 18, 1, 9, 24, 6, 18, 0] = some ⟨.eonStartVote 2, [], 6⟩ ∧
    decodeTx env [61] = some none ∧ decodeTx env (base64 [1, 2]) = some none ∧ Proto.unmarshal [24] = none ∧ Proto.unmarshal [10, 3, 1] = none ∧
    Proto.unmarshal [36] = none ∧ Unforged env 7 (fun m => m = msg) (encodeTx env (signer 7) msg) := by
  have h1 := C77_round_trip (signsFor (own := 7) (by decide)) fits
  refine ⟨h1, ?_, ?_, by decide +kernel, by decide +kernel, by decide +kernel, by decide +kernel, by decide +kernel, by decide +kernel, ?_⟩
  · intro m h
    have : (decodeTx env (base64 ((signMessage env (signer 7) msg).set 40 1))) = some none := by decide +kernel
    rw [this] at h
    simp at h
  · rw [← h1]
    exact (C77_variants [] _).1
  · intro sig data hb hv
    unfold encodeTx at hb
    rw [unbase64_base64] at hb
    simp only [Option.some.injEq, signMessage] at hb
    have := List.append_inj hb (by rw [((signsFor (own := 7) (by decide)).2 _).1, hv.1])
    refine ⟨msg, rfl, by rw [this.2], fun _ => this.2.symm⟩

/-- The bytes of a transaction. -/
def bytesOf : App.Tx → Crypto.Bytes
  | none => [61]
  | some (a, m) => encodeTx env (signer (addrNat a)) m

theorem addrNat_lt {a : Addr} (h : a.length = 20) : addrNat a < 2 ^ 160 := by
  have := Crypto.beNat_lt a
  rw [h] at this
  unfold addrNat
  calc _ < _ := this
    _ = _ := by norm_num

theorem addrBytes_addrNat {a : Addr} (h : a.length = 20) : addrBytes (addrNat a) = a := by
  refine Crypto.beNat_injective _ _ (by rw [addrBytes_length, h]) ?_
  unfold addrBytes
  rw [Crypto.beNat_beBytes]
  exact Nat.mod_eq_of_lt (by have := addrNat_lt h; unfold addrNat at this ⊢; calc _ < _ := this
                                                                                _ = _ := by norm_num)

theorem rawDelivers {r : Rec} {t : App.Tx} (h : r.op = .deliverTx t) (ok : ∀ a m, t = some (a, m) → a.length = 20 ∧ Fits m) : RawDelivers env r (bytesOf t) := by
  refine ⟨t, ?_, h⟩
  cases t with
  | none => decide +kernel
  | some x =>
    obtain ⟨a, m⟩ := x
    obtain ⟨h1, h2⟩ := ok a m rfl
    rw [bytesOf, C77_round_trip (signsFor (addrNat_lt h1)) h2, addrBytes_addrNat h1]

theorem unforged {G1 G2 : Type} {w : Wire G1 G2} {log : List Rec} {own : Addr} {e : Nat} {rs : List (Round G1 G2)} (hown : own.length = 20) (g : Genuine w log own e rs)
    {pre post : List Rec} {r : Rec} (hl : log = pre ++ r :: post) {t : App.Tx} (h : r.op = .deliverTx t) (ok : ∀ a m, t = some (a, m) → a.length = 20 ∧ Fits m) :
    Unforged env (addrNat own) (SignedBefore w rs e pre) (bytesOf t) := by
  intro sig data hb hv
  cases t with
  | none =>
    have : unbase64 (bytesOf none) = none := by decide +kernel
    rw [this] at hb
    cases hb
  | some x =>
    obtain ⟨a, m⟩ := x
    obtain ⟨h1, h2⟩ := ok a m rfl
    unfold bytesOf encodeTx at hb
    rw [unbase64_base64] at hb
    simp only [Option.some.injEq, signMessage] at hb
    have s := (signsFor (addrNat_lt h1)).2 (digest env (Proto.marshal m))
    obtain ⟨rfl, rfl⟩ := List.append_inj hb (by rw [s.1, hv.1])
    have ho := hv.2
    rw [s.2] at ho
    simp only [Option.some.injEq] at ho
    have : a = own := Crypto.beNat_injective _ _ (by rw [h1, hown]) ho
    subst this
    exact ⟨m, ⟨h2, fun he => g pre r post m hl h he⟩, rfl, fun _ => rfl⟩

end Demo

end Shutter.Tx.Props
