import Mathlib.Data.Nat.Digits.Defs
import Verif.Model.Events
import Verif.Proofs.Encoding

namespace Shutter.Events
open Shutter.App

/-! ## Digits -/

theorem hexVal_hexDigit (n : Nat) (h : n < 16) : hexVal (hexDigit n) = some n := by
  revert n; decide

theorem hexVal_toUpper (n : Nat) (h : n < 16) : hexVal (hexDigit n).toUpper = some n := by
  revert n; decide

theorem hexVal_comma {c : Char} (h : (hexVal c).isSome = true) : c ≠ ',' := by
  rintro rfl; revert h; decide

theorem digitVal_digitChar (n : Nat) (h : n < 10) : digitVal (Nat.digitChar n) = some n := by
  revert n; decide

theorem mapM_map_some {α β} (f : α → β) (g : β → Option α) (l : List α) (h : ∀ a ∈ l, g (f a) = some a) :
    (l.map f).mapM g = some l := by
  induction l with
  | nil => rfl
  | cons a l ih =>
    simp only [List.map_cons, List.mapM_cons, h a (by simp), ih (fun b hb => h b (by simp [hb]))]
    rfl

theorem foldl_digits (l : List Nat) : l.reverse.foldl (fun acc d => acc * 10 + d) 0 = Nat.ofDigits 10 l := by
  rw [List.foldl_reverse]
  induction l with
  | nil => rfl
  | cons d l ih => simp only [List.foldr_cons, Nat.ofDigits_cons, ih]; push_cast; ring

theorem parseUint_formatUint (n : Nat) (h : n < 2 ^ 64) : parseUint (formatUint n) = some n := by
  unfold formatUint
  split
  · next h0 => subst h0; decide
  next h0 =>
  have hne : ((Nat.digits 10 n).map Nat.digitChar).reverse ≠ [] := by
    simp [Nat.digits_ne_nil_iff_ne_zero.2 h0]
  have hm : (((Nat.digits 10 n).map Nat.digitChar).reverse).mapM digitVal = some (Nat.digits 10 n).reverse := by
    rw [← List.map_reverse]
    refine mapM_map_some _ _ _ (fun d hd => digitVal_digitChar d ?_)
    exact Nat.digits_lt_base (by decide) (by simpa using hd)
  unfold parseUint
  rw [if_neg hne, hm]
  simp only [foldl_digits, Nat.ofDigits_digits, h, if_true]

/-! ## Hex -/

theorem hexDecodeGo_congr : ∀ {s t : Text}, s.map hexVal = t.map hexVal → hexDecodeGo s = hexDecodeGo t
  | [], [], _ => rfl
  | [_], [_], _ => rfl
  | [], _ :: _, h => by simp at h
  | _ :: _, [], h => by simp at h
  | [_], _ :: _ :: _, h => by simp at h
  | _ :: _ :: _, [_], h => by simp at h
  | c :: d :: s, c' :: d' :: t, h => by
    simp only [List.map_cons, List.cons.injEq] at h
    simp only [hexDecodeGo, h.1, h.2.1, hexDecodeGo_congr h.2.2]

theorem hexDecodeGo_encode (b : Bytes) : hexDecodeGo (hexEncode b) = (b, true) := by
  induction b with
  | nil => rfl
  | cons x b ih =>
    have hx : x.toNat < 256 := x.toNat_lt
    simp only [hexEncode, List.flatMap_cons, List.cons_append, List.nil_append, hexDecodeGo]
    rw [hexVal_hexDigit _ (by omega), hexVal_hexDigit _ (by omega)]
    unfold hexEncode at ih
    simp only [ih]
    rw [show x.toNat / 16 * 16 + x.toNat % 16 = x.toNat by omega]
    simp

theorem hexDecode_encode (b : Bytes) : hexDecode (hexEncode b) = some b := by
  simp [hexDecode, hexDecodeGo_encode]

theorem hexEncode_length (b : Bytes) : (hexEncode b).length = 2 * b.length := by
  induction b with
  | nil => rfl
  | cons x b ih => unfold hexEncode at *; simp only [List.flatMap_cons, List.length_append, ih]; simp; omega

theorem hexEncode_mem {b : Bytes} {c : Char} (h : c ∈ hexEncode b) : ∃ n, n < 16 ∧ c = hexDigit n := by
  simp only [hexEncode, List.mem_flatMap] at h
  obtain ⟨x, _, hx⟩ := h
  have : x.toNat < 256 := x.toNat_lt
  simp at hx
  rcases hx with rfl | rfl
  · exact ⟨_, by omega, rfl⟩
  · exact ⟨_, by omega, rfl⟩

theorem hexutil_roundtrip (b : Bytes) : hexutilDecode (hexutilEncode b) = some b := by
  simp [hexutilDecode, hexutilEncode, strip0x, hexDecode_encode]

/-! ## Addresses -/

def cased (cx : Codecs) (a : Addr) : Text := (hexEncode a).mapIdx (fun i c => if cx.checksum a i then c.toUpper else c)

theorem cased_vals (cx : Codecs) (a : Addr) : (cased cx a).map hexVal = (hexEncode a).map hexVal := by
  apply List.ext_getElem
  · simp [cased]
  · intro i h1 h2
    simp only [cased, List.getElem_map, List.getElem_mapIdx]
    obtain ⟨n, hn, hc⟩ := hexEncode_mem (List.getElem_mem (l := hexEncode a) (n := i) (by simpa using h2))
    split
    · rw [hc, hexVal_toUpper n hn, hexVal_hexDigit n hn]
    · rfl

theorem cased_length (cx : Codecs) (a : Addr) : (cased cx a).length = 2 * a.length := by
  simp [cased, hexEncode_length]

theorem cased_hex (cx : Codecs) (a : Addr) {c} (h : c ∈ cased cx a) : (hexVal c).isSome = true := by
  have : hexVal c ∈ (cased cx a).map hexVal := List.mem_map_of_mem h
  rw [cased_vals] at this
  obtain ⟨d, hd, he⟩ := List.mem_map.1 this
  obtain ⟨n, hn, rfl⟩ := hexEncode_mem hd
  rw [← he, hexVal_hexDigit n hn]; rfl

theorem addressHex_eq (cx : Codecs) (a : Addr) : addressHex cx a = '0' :: 'x' :: cased cx a := rfl

theorem hexToAddress_hex (cx : Codecs) (a : Addr) (h : a.length = 20) : hexToAddress (addressHex cx a) = a := by
  have hl : (cased cx a).length % 2 ≠ 1 := by rw [cased_length, h]; decide
  have : fromHex (addressHex cx a) = a := by
    simp only [fromHex, addressHex_eq, strip0x, Option.getD_some, hl, if_false]
    rw [hexDecodeGo_congr (cased_vals cx a), hexDecodeGo_encode]
  rw [hexToAddress, this, bytesToAddress]
  simp [h]

theorem isHexAddress_hex (cx : Codecs) (a : Addr) (h : a.length = 20) : isHexAddress (addressHex cx a) = true := by
  simp only [isHexAddress, addressHex_eq, strip0x, Option.getD_some, Bool.and_eq_true, decide_eq_true_eq,
    List.all_eq_true]
  exact ⟨by rw [cased_length, h], fun c hc => cased_hex cx a hc⟩

theorem decodeAddress_hex (cx : Codecs) (a : Addr) (h : a.length = 20) :
    decodeAddress cx (addressHex cx a) = some a := by
  simp [decodeAddress, hexToAddress_hex cx a h]

/-- What `decodeAddress` accepts is exactly the checksummed form of the address returned. -/
theorem decodeAddress_exact {cx : Codecs} {s a} (h : decodeAddress cx s = some a) :
    s = addressHex cx a ∧ a.length = 20 := by
  unfold decodeAddress at h
  split at h
  · next he =>
    simp at h; subst h
    refine ⟨he.symm, ?_⟩
    simp only [hexToAddress, bytesToAddress]
    split
    · simp; omega
    · simp; omega
  · simp at h

/-! ## Comma separated lists -/

theorem splitComma_noComma {p : Text} (h : ',' ∉ p) : splitComma p = [p] := by
  induction p with
  | nil => rfl
  | cons c p ih =>
    simp only [List.mem_cons, not_or] at h
    simp only [splitComma, if_neg (Ne.symm h.1), ih h.2]

theorem splitComma_append {p : Text} (h : ',' ∉ p) (rest : Text) :
    splitComma (p ++ ',' :: rest) = p :: splitComma rest := by
  induction p with
  | nil => simp [splitComma]
  | cons c p ih =>
    simp only [List.mem_cons, not_or] at h
    simp only [List.cons_append, splitComma, if_neg (Ne.symm h.1), ih h.2]

theorem split_join : ∀ (ps : List Text), ps ≠ [] → (∀ p ∈ ps, ',' ∉ p) → splitComma (joinComma ps) = ps
  | [], h, _ => absurd rfl h
  | [p], _, h => by simp only [joinComma]; exact splitComma_noComma (h p (by simp))
  | p :: q :: ps, _, h => by
    simp only [joinComma]
    rw [splitComma_append (h p (by simp)), split_join (q :: ps) (by simp) (fun x hx => h x (by simp [hx]))]

theorem joinComma_ne_nil {p : Text} {ps : List Text} (h : p ≠ []) : joinComma (p :: ps) ≠ [] := by
  cases ps with
  | nil => simpa [joinComma] using h
  | cons q ps => simp [joinComma]

theorem hexEncode_noComma (b : Bytes) : ',' ∉ hexEncode b := by
  intro h
  obtain ⟨n, hn, hc⟩ := hexEncode_mem h
  exact hexVal_comma (c := ',') (by rw [hc, hexVal_hexDigit n hn]; rfl) rfl

theorem hexutilEncode_noComma (b : Bytes) : ',' ∉ hexutilEncode b := by
  simp only [hexutilEncode, List.mem_cons, not_or]
  exact ⟨by decide, by decide, hexEncode_noComma b⟩

theorem addressHex_noComma (cx : Codecs) (a : Addr) : ',' ∉ addressHex cx a := by
  rw [addressHex_eq]
  simp only [List.mem_cons, not_or]
  exact ⟨by decide, by decide, fun h => hexVal_comma (cased_hex cx a h) rfl⟩

theorem decodeAddresses_encode (cx : Codecs) (as : List Addr) (h : ∀ a ∈ as, a.length = 20) :
    decodeAddresses (encodeAddresses cx as) = some as := by
  cases as with
  | nil => rfl
  | cons a as =>
    have hne : encodeAddresses cx (a :: as) ≠ [] := joinComma_ne_nil (by simp [addressHex])
    unfold decodeAddresses
    rw [if_neg hne, encodeAddresses, split_join _ (by simp) (by
      intro p hp; obtain ⟨x, _, rfl⟩ := List.mem_map.1 hp; exact addressHex_noComma cx x)]
    refine mapM_map_some _ _ _ (fun x hx => ?_)
    rw [if_pos (isHexAddress_hex cx x (h x hx)), hexToAddress_hex cx x (h x hx)]

theorem decodeByteSequence_encode (bs : List Bytes) : decodeByteSequence (encodeByteSequence bs) = some bs := by
  cases bs with
  | nil => rfl
  | cons b bs =>
    have hne : encodeByteSequence (b :: bs) ≠ [] := joinComma_ne_nil (by simp [hexutilEncode])
    unfold decodeByteSequence
    rw [if_neg hne, encodeByteSequence, split_join _ (by simp) (by
      intro p hp; obtain ⟨x, _, rfl⟩ := List.mem_map.1 hp; exact hexutilEncode_noComma x)]
    exact mapM_map_some _ _ _ (fun x _ => hexutil_roundtrip x)

theorem decodeGammas_encode (cx : Codecs) (gs : List Bytes) (hne : gs ≠ []) (h : ∀ g ∈ gs, cx.g2 g = some g) :
    decodeGammas cx (encodeGammas gs) = some gs := by
  unfold decodeGammas encodeGammas
  rw [split_join _ (by simpa using hne) (by
      intro p hp; obtain ⟨x, _, rfl⟩ := List.mem_map.1 hp; exact hexEncode_noComma x)]
  refine mapM_map_some _ _ _ (fun x hx => ?_)
  simp only [hexDecode_encode, h x hx]

theorem bigOfBytes_natBytes (n : Nat) : bigOfBytes (Shutter.Crypto.natBytes n) = n := Shutter.Crypto.beNat_natBytes n

/-- Gammas: the empty list is encoded as the empty string, which decodes only if the empty byte string is a point. -/
theorem decodeGammas_empty (cx : Codecs) (h : cx.g2 [] = none) : decodeGammas cx (encodeGammas []) = none := by
  simp [decodeGammas, encodeGammas, joinComma, splitComma, hexDecode, hexDecodeGo, h]

end Shutter.Events
