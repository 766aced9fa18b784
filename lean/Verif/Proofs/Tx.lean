import Verif.Spec.Tx
import Verif.Proofs.Proto
import Verif.Proofs.Bytes

/-! # Transactions as bytes: proofs -/

namespace Shutter.Tx
open Shutter.App (Addr Bytes MessageWithNonce)

/-! ## Base64 -/

theorem val6_char6 {n : Nat} (h : n < 64) : val6 (char6 n) = some n := by
  have : ∀ k : Fin 64, val6 (char6 k) = some k.1 := by decide
  exact this ⟨n, h⟩

theorem char6_ne {n : Nat} (h : n < 64) : (char6 n != 10 && char6 n != 13) = true := by
  have : ∀ k : Fin 64, (char6 k.1 != 10 && char6 k.1 != 13) = true := by decide
  exact this ⟨n, h⟩

/-- The values of the characters. -/
def sextets : Bytes → List Nat
  | a :: b :: c :: rest =>
    let v := a.toNat * 65536 + b.toNat * 256 + c.toNat
    v / 262144 :: v / 4096 % 64 :: v / 64 % 64 :: v % 64 :: sextets rest
  | [a, b] =>
    let v := a.toNat * 65536 + b.toNat * 256
    [v / 262144, v / 4096 % 64, v / 64 % 64]
  | [a] =>
    let v := a.toNat * 65536
    [v / 262144, v / 4096 % 64]
  | [] => []

theorem base64_eq (b : Bytes) : base64 b = (sextets b).map char6 := by
  induction b using base64.induct with
  | case1 a b c rest ih => rw [base64, sextets, ih]; rfl
  | case2 a b => rfl
  | case3 a => rfl
  | case4 => rfl

theorem sextets_lt (b : Bytes) : ∀ n ∈ sextets b, n < 64 := by
  induction b using base64.induct with
  | case1 a b c rest ih =>
    have := a.toNat_lt; have := b.toNat_lt; have := c.toNat_lt
    intro n hn
    simp only [sextets, List.mem_cons] at hn
    rcases hn with rfl | rfl | rfl | rfl | hn
    · omega
    · omega
    · omega
    · omega
    · exact ih n hn
  | case2 a b =>
    have := a.toNat_lt; have := b.toNat_lt
    intro n hn
    simp only [sextets, List.mem_cons, List.not_mem_nil, or_false] at hn
    omega
  | case3 a =>
    have := a.toNat_lt
    intro n hn
    simp only [sextets, List.mem_cons, List.not_mem_nil, or_false] at hn
    omega
  | case4 => simp [sextets]

theorem quanta_sextets (b : Bytes) : quanta (sextets b) = some b := by
  have key : ∀ (x : UInt8) (n : Nat), n = x.toNat → UInt8.ofNat n = x := by
    intro x n h; rw [h]; simp
  induction b using base64.induct with
  | case1 a b c rest ih =>
    have := a.toNat_lt; have := b.toNat_lt; have := c.toNat_lt
    simp only [sextets, quanta, ih, Option.map_some, Option.some.injEq, List.cons.injEq, and_true]
    refine ⟨key _ _ (by omega), key _ _ (by omega), key _ _ (by omega)⟩
  | case2 a b =>
    have := a.toNat_lt; have := b.toNat_lt
    simp only [sextets, quanta, Option.some.injEq, List.cons.injEq, and_true]
    exact ⟨key _ _ (by omega), key _ _ (by omega)⟩
  | case3 a =>
    have := a.toNat_lt
    simp only [sextets, quanta, Option.some.injEq, List.cons.injEq, and_true]
    exact key _ _ (by omega)
  | case4 => rfl

theorem unbase64_base64 (b : Bytes) : unbase64 (base64 b) = some b := by
  have hs := sextets_lt b
  have hq := quanta_sextets b
  unfold unbase64
  rw [base64_eq]
  generalize sextets b = l at hs hq
  have hf : (l.map char6).filter (fun c => c != 10 && c != 13) = l.map char6 := by
    rw [List.filter_eq_self]
    intro c hc
    obtain ⟨n, hn, rfl⟩ := List.mem_map.1 hc
    exact char6_ne (hs n hn)
  have hm : (l.map char6).mapM val6 = some l := by
    clear hf hq
    induction l with
    | nil => rfl
    | cons n l ih =>
      rw [List.map_cons, List.mapM_cons, val6_char6 (hs n (by simp)), ih (fun k hk => hs k (by simp [hk]))]
      rfl
  rw [hf, hm]
  exact hq

theorem unbase64_newline (s t : Bytes) (c : UInt8) (h : c = 10 ∨ c = 13) : unbase64 (s ++ c :: t) = unbase64 (s ++ t) := by
  unfold unbase64
  rw [List.filter_append, List.filter_append, List.filter_cons_of_neg]
  rcases h with rfl | rfl <;> decide

/-! ## Signed messages -/

theorem addrBytes_length (a : Sol.Address) : (addrBytes a).length = 20 := by
  unfold addrBytes
  simp [Sol.World.beBytes]

theorem addrBytes_inj {a b : Sol.Address} (ha : a < 2 ^ 160) (hb : b < 2 ^ 160) (h : addrBytes a = addrBytes b) : a = b := by
  have := congrArg Crypto.beNat h
  unfold addrBytes at this
  rw [Crypto.beNat_beBytes, Crypto.beNat_beBytes, Nat.mod_eq_of_lt (by norm_num; exact ha), Nat.mod_eq_of_lt (by norm_num; exact hb)] at this
  exact this

theorem goRecover_lt {E : Env} (acc : E.Accounts) {h sig : Crypto.Bytes} {a : Sol.Address} (hr : Ecdsa.goRecover E.core h sig = some a) : a < 2 ^ 160 := by
  unfold Ecdsa.goRecover at hr
  split at hr
  · cases hr
  · simp only at hr
    split at hr
    · cases hr
    · exact acc _ _ _ _ _ hr

/-- What it takes for a transaction to be understood. -/
theorem decodeTx_iff {E : Env} {tx : Bytes} {signer : Addr} {m : MessageWithNonce} : decodeTx E tx = some (some (signer, m)) ↔
    ∃ sig data a, unbase64 tx = some (sig ++ data) ∧ Valid E a data sig ∧ signer = addrBytes a ∧ Proto.unmarshal data = some m := by
  unfold decodeTx
  constructor
  · intro h
    split at h
    · simp at h
    · next signed hs =>
      unfold getSigner getMessage at h
      split at h
      · simp at h
      · next hn a ha =>
        split at ha
        · cases ha
        · next hl =>
          rw [if_neg hl] at h
          obtain ⟨a', ha', rfl⟩ := Option.map_eq_some_iff.1 ha
          simp only [Option.map_some, Option.some.injEq] at h
          obtain ⟨m', hm, h⟩ := Option.map_eq_some_iff.1 h
          simp only [Prod.mk.injEq] at h
          obtain ⟨rfl, rfl⟩ := h
          exact ⟨signed.take 65, signed.drop 65, a', by simpa using hs, ⟨by simp; omega, ha'⟩, rfl, hm⟩
  · rintro ⟨sig, data, a, hb, ⟨hl, hr⟩, rfl, hm⟩
    rw [hb]
    have h1 : ¬ (sig ++ data).length < 65 := by simp; omega
    have h2 : (sig ++ data).take 65 = sig := by rw [← hl]; simp
    have h3 : (sig ++ data).drop 65 = data := by rw [← hl]; simp
    unfold getSigner getMessage
    simp only [if_neg h1, h2, h3, hr, Option.map_some, hm]

end Shutter.Tx
