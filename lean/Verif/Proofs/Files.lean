import Verif.Spec.Files
import Verif.Proofs.Events
import Verif.Proofs.Bytes

/-! # Writing and reading files -/

namespace Shutter.Files
open Shutter.App Shutter.Events

/-! ## JSON: tokens -/

theorem lex_space {c : Char} (h : jsonSpace c = true) (cs : Text) : lex .idle (c :: cs) = lex .idle cs := by
  simp [lex, jsonStart, h]

theorem lex_spaces {s : Text} (h : s.all jsonSpace = true) (cs : Text) : lex .idle (s ++ cs) = lex .idle cs := by
  induction s with
  | nil => rfl
  | cons c s ih =>
    simp only [List.all_cons, Bool.and_eq_true] at h
    rw [List.cons_append, lex_space h.1, ih h.2]

theorem lex_inStr {s : Text} (h : Plain s) (acc rest : Text) :
    lex (.inStr acc) (s ++ '"' :: rest) = (lex .idle rest).map (Tok.str (acc.reverse ++ s) :: ·) := by
  induction s generalizing acc with
  | nil => simp [lex]
  | cons c s ih =>
    obtain ⟨h1, h2, h3⟩ := h c (by simp)
    have h4 : ¬ c.toNat < 32 := by omega
    simp only [List.cons_append, lex, h1, h2, h4, if_false]
    rw [ih (fun d hd => h d (by simp [hd]))]
    simp

theorem lex_quote {s : Text} (h : Plain s) (rest : Text) :
    lex .idle (quote s ++ rest) = (lex .idle rest).map (Tok.str s :: ·) := by
  have : quote s ++ rest = '"' :: (s ++ '"' :: rest) := by simp [quote]
  rw [this]
  have hst : jsonStart '"' = some ([], .inStr []) := by decide
  simp only [lex, hst]
  rw [lex_inStr h]
  cases lex .idle rest <;> simp

theorem lex_inNum {s : Text} (h : ∀ c ∈ s, numChar c = true) (acc : Text) {d : Char} (hd : numChar d = false) (rest : Text) :
    lex (.inNum acc) (s ++ d :: rest) = (lex .idle (d :: rest)).map (Tok.num (acc.reverse ++ s) :: ·) := by
  induction s generalizing acc with
  | nil =>
    simp only [List.nil_append, lex, hd, Bool.false_eq_true, if_false, List.append_nil]
    cases jsonStart d with
    | none => rfl
    | some p => obtain ⟨ts, m⟩ := p; simp only []; cases lex m rest <;> simp
  | cons c s ih =>
    have hc := h c (by simp)
    have hstep : lex (.inNum acc) (c :: (s ++ d :: rest)) = lex (.inNum (c :: acc)) (s ++ d :: rest) := by simp [lex, hc]
    rw [List.cons_append, hstep, ih (fun e he => h e (by simp [he]))]
    simp

theorem numChar_start {c : Char} (h : numChar c = true) : jsonStart c = some ([], .inNum [c]) := by
  have hne : ∀ d : Char, numChar d = false → c ≠ d := fun d hd hc => by rw [hc, hd] at h; cases h
  have h1 := hne ' ' (by decide); have h2 := hne '\n' (by decide); have h3 := hne '\t' (by decide); have h4 := hne '\r' (by decide)
  have h5 := hne '{' (by decide); have h6 := hne '}' (by decide); have h7 := hne '[' (by decide); have h8 := hne ']' (by decide)
  have h9 := hne ':' (by decide); have h10 := hne ',' (by decide); have h11 := hne '"' (by decide)
  simp [jsonStart, jsonSpace, *]

theorem lex_num {s : Text} (hs : s ≠ []) (h : ∀ c ∈ s, numChar c = true) {d : Char} (hd : numChar d = false) (rest : Text) :
    lex .idle (s ++ d :: rest) = (lex .idle (d :: rest)).map (Tok.num s :: ·) := by
  cases s with
  | nil => exact absurd rfl hs
  | cons c s =>
    simp only [List.cons_append]
    rw [lex, numChar_start (h c (by simp))]
    simp only []
    rw [lex_inNum (fun e he => h e (by simp [he])) _ hd]
    cases lex .idle (d :: rest) <;> simp

theorem lex_punct {c : Char} {t : Tok} (h : jsonStart c = some ([t], .idle)) (cs : Text) :
    lex .idle (c :: cs) = (lex .idle cs).map (t :: ·) := by
  simp only [lex, h]; cases lex .idle cs <;> simp

/-- Values that can be printed. -/
def Json.Ok : Json → Prop
  | .str s => Plain s
  | .num s => s ≠ [] ∧ ∀ c ∈ s, numChar c = true
  | .strs l => ∀ s ∈ l, Plain s

def elemToks : List Text → List Tok
  | [] => [.rbrack]
  | [s] => [.str s, .rbrack]
  | s :: t :: l => .str s :: .comma :: elemToks (t :: l)

def valueToks : Json → List Tok
  | .str s => [.str s]
  | .num s => [.num s]
  | .strs l => .lbrack :: elemToks l

def memberToks : List (Text × Json) → List Tok
  | [] => [.rbrace]
  | [kv] => .str kv.1 :: .colon :: (valueToks kv.2 ++ [.rbrace])
  | kv :: kv' :: l => .str kv.1 :: .colon :: (valueToks kv.2 ++ (.comma :: memberToks (kv' :: l)))

theorem indent_space (n : Nat) : (indent n).all jsonSpace = true := by
  simp [indent, jsonSpace]

theorem lex_elems : ∀ (l : List Text) (s : Text), (∀ t ∈ s :: l, Plain t) → ∀ rest,
    lex .idle (printElems (s :: l) ++ (indent 4 ++ (']' :: rest))) = (lex .idle rest).map (elemToks (s :: l) ++ ·)
  | [], s, h, rest => by
    simp only [printElems, List.append_assoc]
    rw [lex_spaces (indent_space 8), lex_quote (h s (by simp)), lex_spaces (indent_space 4),
      lex_punct (t := .rbrack) (by decide)]
    generalize lex .idle rest = x
    cases x <;> simp [elemToks]
  | t :: l, s, h, rest => by
    have ih := lex_elems l t (fun u hu => h u (by simp only [List.mem_cons] at hu ⊢; tauto)) rest
    simp only [printElems, List.append_assoc, List.cons_append]
    rw [lex_spaces (indent_space 8), lex_quote (h s (by simp)), lex_punct (t := .comma) (by decide), ih]
    generalize lex .idle rest = x
    cases x <;> simp [elemToks]

theorem lex_value {v : Json} (h : v.Ok) {d : Char} (hd : numChar d = false) (rest : Text) :
    lex .idle (printValue v ++ d :: rest) = (lex .idle (d :: rest)).map (valueToks v ++ ·) := by
  cases v with
  | str s => simp only [printValue]; rw [lex_quote h]; simp [valueToks]
  | num s => simp only [printValue]; rw [lex_num h.1 h.2 hd]; simp [valueToks]
  | strs l =>
    cases l with
    | nil =>
      have : printValue (.strs []) ++ d :: rest = '[' :: ']' :: (d :: rest) := rfl
      rw [this, lex_punct (t := .lbrack) (by decide), lex_punct (t := .rbrack) (by decide)]
      generalize lex .idle (d :: rest) = x
      cases x <;> simp [valueToks, elemToks]
    | cons s l =>
      simp only [printValue, List.cons_append, List.append_assoc, List.nil_append]
      rw [lex_punct (t := .lbrack) (by decide), lex_elems l s h]
      generalize lex .idle (d :: rest) = x
      cases x <;> simp [valueToks]

theorem lex_member {kv : Text × Json} (hk : Plain kv.1) (h : kv.2.Ok) {d : Char} (hd : numChar d = false) (rest : Text) :
    lex .idle (printMember kv ++ d :: rest) =
      (lex .idle (d :: rest)).map (fun r => .str kv.1 :: .colon :: (valueToks kv.2 ++ r)) := by
  simp only [printMember, List.append_assoc, List.cons_append]
  rw [lex_spaces (indent_space 4), lex_quote hk, lex_punct (t := .colon) (by decide), lex_space (by decide), lex_value h hd]
  generalize lex .idle (d :: rest) = x
  cases x <;> simp

theorem lex_members : ∀ (l : List (Text × Json)) (kv : Text × Json), (∀ x ∈ kv :: l, Plain x.1 ∧ x.2.Ok) →
    lex .idle (printMembers (kv :: l) ++ ['\n', '}']) = some (memberToks (kv :: l))
  | [], kv, h => by
    simp only [printMembers]
    rw [lex_member (h kv (by simp)).1 (h kv (by simp)).2 (by decide)]
    rfl
  | kv' :: l, kv, h => by
    have ih := lex_members l kv' (fun u hu => h u (by simp only [List.mem_cons] at hu ⊢; tauto))
    simp only [printMembers, List.append_assoc, List.cons_append]
    rw [lex_member (h kv (by simp)).1 (h kv (by simp)).2 (by decide), lex_punct (t := .comma) (by decide), ih]
    simp [memberToks]

theorem lex_object (o : List (Text × Json)) (ho : o ≠ []) (h : ∀ x ∈ o, Plain x.1 ∧ x.2.Ok) :
    lex .idle (printObject o) = some (.lbrace :: memberToks o) := by
  cases o with
  | nil => exact absurd rfl ho
  | cons kv l =>
    rw [printObject, lex_punct (t := .lbrace) (by decide), lex_members l kv h]; rfl

/-! ## JSON: objects -/

theorem elems_toks : ∀ (l : List Text) (s : Text) (rest : List Tok),
    elems (elemToks (s :: l) ++ rest) = some (s :: l, rest)
  | [], s, rest => by simp [elemToks, elems]
  | t :: l, s, rest => by
    simp only [elemToks, List.cons_append, elems]
    rw [elems_toks l t rest]; rfl

theorem value_toks (v : Json) (rest : List Tok) : value (valueToks v ++ rest) = some (v, rest) := by
  cases v with
  | str s => rfl
  | num s => rfl
  | strs l =>
    cases l with
    | nil => rfl
    | cons s l =>
      have hne : ∃ u, elemToks (s :: l) ++ rest = .str s :: u := by
        cases l <;> exact ⟨_, rfl⟩
      obtain ⟨u, hu⟩ := hne
      have h2 : value (.lbrack :: (.str s :: u)) = (elems (.str s :: u)).map (fun r => (.strs r.1, r.2)) := rfl
      simp only [valueToks, List.cons_append]
      rw [hu, h2, ← hu, elems_toks]; rfl

theorem members_toks : ∀ (l : List (Text × Json)) (kv : Text × Json) (n : Nat), l.length < n →
    members n (memberToks (kv :: l)) = some (kv :: l)
  | [], kv, n, h => by
    obtain ⟨m, rfl⟩ : ∃ m, n = m + 1 := ⟨n - 1, by simp at h; omega⟩
    simp only [memberToks, members, value_toks]
  | kv' :: l, kv, n, h => by
    obtain ⟨m, rfl⟩ : ∃ m, n = m + 1 := ⟨n - 1, by simp at h; omega⟩
    simp only [memberToks, members, value_toks]
    rw [members_toks l kv' m (by simp at h; omega)]; rfl

theorem memberToks_length : ∀ (l : List (Text × Json)) (kv : Text × Json), l.length < (memberToks (kv :: l)).length
  | [], kv => by simp [memberToks]
  | kv' :: l, kv => by
    have := memberToks_length l kv'
    simp only [memberToks, List.length_cons, List.length_append]; omega

theorem parse_print (o : List (Text × Json)) (ho : o ≠ []) (h : ∀ x ∈ o, Plain x.1 ∧ x.2.Ok) :
    parseObject (printObject o) = some o := by
  unfold parseObject
  rw [lex_object o ho h]
  cases o with
  | nil => exact absurd rfl ho
  | cons kv l =>
    have hne : ∃ k u, memberToks (kv :: l) = .str k :: u := by cases l <;> exact ⟨_, _, rfl⟩
    obtain ⟨k, u, hu⟩ := hne
    have := members_toks l kv _ (memberToks_length l kv)
    rw [hu] at this ⊢
    exact this

/-! ## What stands in quotes -/

theorem hexVal_plain {c : Char} (h : (hexVal c).isSome = true) : c ≠ '"' ∧ c ≠ '\\' ∧ 32 ≤ c.toNat := by
  unfold hexVal at h
  refine ⟨?_, ?_, ?_⟩
  · rintro rfl; revert h; decide
  · rintro rfl; revert h; decide
  · split at h
    · next h1 => have := h1.1; have h' : '0'.toNat ≤ c.toNat := this; have : '0'.toNat = 48 := rfl; omega
    · split at h
      · next h1 => have := h1.1; have h' : 'a'.toNat ≤ c.toNat := this; have : 'a'.toNat = 97 := rfl; omega
      · split at h
        · next h1 => have := h1.1; have h' : 'A'.toNat ≤ c.toNat := this; have : 'A'.toNat = 65 := rfl; omega
        · cases h

theorem plain_hex (b : Bytes) : Plain (hexEncode b) := by
  intro c hc
  obtain ⟨n, hn, rfl⟩ := hexEncode_mem hc
  exact hexVal_plain (by rw [hexVal_hexDigit n hn]; rfl)

theorem plain_cons {c : Char} {s : Text} (h : c ≠ '"' ∧ c ≠ '\\' ∧ 32 ≤ c.toNat) (hs : Plain s) : Plain (c :: s) := by
  intro d hd; rcases List.mem_cons.1 hd with rfl | hd
  · exact h
  · exact hs d hd

theorem plain_hexutil (b : Bytes) : Plain (hexutilEncode b) :=
  plain_cons (by decide) (plain_cons (by decide) (plain_hex b))

theorem plain_address (cx : Codecs) (a : Addr) : Plain (addressHex cx a) := by
  rw [addressHex_eq]
  refine plain_cons (by decide) (plain_cons (by decide) ?_)
  intro c hc; exact hexVal_plain (cased_hex cx a hc)

theorem formatUint_chars (n : Nat) : formatUint n ≠ [] ∧ ∀ c ∈ formatUint n, c.isDigit = true := by
  unfold formatUint
  split
  · simp
  · next h =>
    refine ⟨by simpa using Nat.digits_ne_nil_iff_ne_zero.2 h, ?_⟩
    intro c hc
    simp only [List.mem_reverse, List.mem_map] at hc
    obtain ⟨d, hd, rfl⟩ := hc
    have : d < 10 := Nat.digits_lt_base (by decide) hd
    interval_cases d <;> rfl

theorem formatUint_num (n : Nat) : formatUint n ≠ [] ∧ ∀ c ∈ formatUint n, numChar c = true := by
  refine ⟨(formatUint_chars n).1, fun c hc => ?_⟩
  simp [numChar, (formatUint_chars n).2 c hc]

theorem formatUint_head (n : Nat) : (formatUint n).head? = some '0' → formatUint n = ['0'] := by
  unfold formatUint
  split
  · simp
  · next h =>
    intro hh
    exfalso
    rw [List.head?_reverse, List.getLast?_map] at hh
    have hne : Nat.digits 10 n ≠ [] := Nat.digits_ne_nil_iff_ne_zero.2 h
    rw [List.getLast?_eq_getLast_of_ne_nil hne] at hh
    have h0 := Nat.getLast_digit_ne_zero 10 h
    have hlt : (Nat.digits 10 n).getLast hne < 10 := Nat.digits_lt_base (by decide) (List.getLast_mem hne)
    simp only [Option.map_some, Option.some.injEq] at hh
    generalize (Nat.digits 10 n).getLast hne = d at *
    interval_cases d <;> simp_all (config := { decide := true })

/-! ## Addresses and keys -/

theorem bytesToAddress_length (b : Bytes) : (bytesToAddress b).length = 20 := by
  simp only [bytesToAddress]
  split
  · simp; omega
  · simp; omega

theorem stringToAddress_iff (cx : Codecs) (s : Text) (a : Addr) :
    stringToAddress cx s = some a ↔ a.length = 20 ∧ s = addressHex cx a := by
  unfold stringToAddress
  constructor
  · intro h
    simp only [] at h
    split at h
    · next he =>
      simp only [Option.some.injEq] at h; subst h
      exact ⟨bytesToAddress_length _, he.symm⟩
    · cases h
  · rintro ⟨hl, rfl⟩
    simp [hexToAddress_hex cx a hl]

theorem readChecksum_iff (cx : Codecs) (s : Text) (a : Addr) :
    readChecksum cx s = some a ↔ a.length = 20 ∧ s = addressHex cx a := by
  rw [← stringToAddress_iff]
  unfold readChecksum stringToAddress
  constructor
  · intro h
    split at h
    · exact h
    · cases h
  · intro h
    have h2 := (stringToAddress_iff cx s a).1 h
    rw [if_pos (by rw [h2.2]; exact isHexAddress_hex cx a h2.1)]; exact h

theorem hexVal_lower (c : Char) (n : Nat) : hexVal c = some n ↔ n < 16 ∧ c.toLower = hexDigit n := by
  constructor
  · intro h
    unfold hexVal at h
    split at h
    · next h1 =>
      obtain ⟨ha, hb⟩ := h1
      have ha' : 48 ≤ c.toNat := ha
      have hb' : c.toNat ≤ 57 := hb
      simp only [Option.some.injEq] at h
      have : c = Char.ofNat c.toNat := (Char.ofNat_toNat c).symm
      generalize hm : c.toNat = m at *
      subst this
      interval_cases m <;> subst h <;> decide
    · split at h
      · next h1 =>
        obtain ⟨ha, hb⟩ := h1
        have ha' : 97 ≤ c.toNat := ha
        have hb' : c.toNat ≤ 102 := hb
        simp only [Option.some.injEq] at h
        have : c = Char.ofNat c.toNat := (Char.ofNat_toNat c).symm
        generalize hm : c.toNat = m at *
        subst this
        interval_cases m <;> subst h <;> decide
      · split at h
        · next h1 =>
          obtain ⟨ha, hb⟩ := h1
          have ha' : 65 ≤ c.toNat := ha
          have hb' : c.toNat ≤ 70 := hb
          simp only [Option.some.injEq] at h
          have : c = Char.ofNat c.toNat := (Char.ofNat_toNat c).symm
          generalize hm : c.toNat = m at *
          subst this
          interval_cases m <;> subst h <;> decide
        · cases h
  · rintro ⟨hn, h⟩
    by_cases hu : 65 ≤ c.toNat ∧ c.toNat ≤ 90
    · have : c = Char.ofNat c.toNat := (Char.ofNat_toNat c).symm
      obtain ⟨h1, h2⟩ := hu
      generalize hm : c.toNat = m at *
      subst this
      interval_cases m <;> interval_cases n <;> first | rfl | (exfalso; revert h; decide)
    · have hl : c.toLower = c := by
        unfold Char.toLower
        rw [dif_neg]
        intro hh
        exact hu ⟨hh.1, hh.2⟩
      rw [hl] at h; subst h
      exact hexVal_hexDigit n hn

theorem hexDecodeGo_iff : ∀ (s : Text) (b : Bytes), hexDecodeGo s = (b, true) ↔ s.map Char.toLower = hexEncode b
  | [], b => by
    simp only [hexDecodeGo, Prod.mk.injEq, and_true, List.map_nil]
    constructor
    · rintro rfl; rfl
    · intro h
      cases b with
      | nil => rfl
      | cons x b => simp [hexEncode] at h
  | [c], b => by
    simp only [hexDecodeGo, Prod.mk.injEq, Bool.false_eq_true, and_false, List.map_cons, List.map_nil, false_iff]
    intro h
    have := congrArg List.length h
    rw [hexEncode_length] at this
    simp at this; omega
  | c :: d :: rest, b => by
    cases b with
    | nil =>
      constructor
      · intro h
        simp only [hexDecodeGo] at h
        split at h <;> simp at h
      · intro h; simp [hexEncode] at h
    | cons x b =>
      have hx : hexEncode (x :: b) = hexDigit (x.toNat / 16) :: hexDigit (x.toNat % 16) :: hexEncode b := by simp [hexEncode]
      have hlt : x.toNat < 256 := x.toNat_lt
      rw [hx, List.map_cons, List.map_cons, List.cons.injEq, List.cons.injEq, ← hexDecodeGo_iff rest b]
      have e1 := hexVal_lower c (x.toNat / 16)
      have e2 := hexVal_lower d (x.toNat % 16)
      constructor
      · intro h
        simp only [hexDecodeGo] at h
        split at h
        · next u v hu hv =>
          simp only [Prod.mk.injEq, List.cons.injEq] at h
          obtain ⟨⟨h1, h2⟩, h3⟩ := h
          have hu' := ((hexVal_lower c u).1 hu).1
          have hv' := ((hexVal_lower d v).1 hv).1
          have hxv : x.toNat = u * 16 + v := by
            rw [← h1, UInt8.toNat_ofNat']; exact Nat.mod_eq_of_lt (by omega)
          have hu2 : u = x.toNat / 16 := by omega
          have hv2 : v = x.toNat % 16 := by omega
          subst hu2
          refine ⟨(e1.1 hu).2, (e2.1 (hv2 ▸ hv)).2, ?_⟩
          rw [← h2, ← h3]
        · simp at h
      · rintro ⟨h1, h2, h3⟩
        have hu := e1.2 ⟨by omega, h1⟩
        have hv := e2.2 ⟨by omega, h2⟩
        simp only [hexDecodeGo, hu, hv, h3]
        have : x.toNat / 16 * 16 + x.toNat % 16 = x.toNat := by omega
        rw [this]
        simp

theorem hexDecode_iff (s : Text) (b : Bytes) : hexDecode s = some b ↔ s.map Char.toLower = hexEncode b := by
  rw [← hexDecodeGo_iff]
  unfold hexDecode
  constructor
  · intro h
    split at h
    · next ht => simp only [Option.some.injEq] at h; rw [← h, ← ht]
    · cases h
  · intro h; rw [h]; simp

theorem hexEncode_inj {a b : Bytes} (h : hexEncode a = hexEncode b) : a = b := by
  have := hexDecode_encode a
  rw [h, hexDecode_encode] at this
  simpa using this.symm

theorem hexToECDSA_iff (s : Text) (d : Nat) : hexToECDSA s = some d ↔ IsKey d ∧ s.map Char.toLower = keyText d := by
  have hord : Ecdsa.order < 256 ^ 32 := by decide
  unfold hexToECDSA
  constructor
  · intro h
    split at h
    · cases h
    · next b hb =>
      simp only [] at h
      split at h
      · next hl =>
        split at h
        · cases h
        · next h1 =>
          split at h
          · cases h
          · next h2 =>
            simp only [Option.some.injEq] at h; subst h
            refine ⟨⟨by omega, by omega⟩, ?_⟩
            rw [(hexDecode_iff s b).1 hb, keyText]
            have := Crypto.beBytes_beNat b
            rw [hl] at this
            rw [this]
      · cases h
  · rintro ⟨⟨h0, h1⟩, hs⟩
    have := (hexDecode_iff s (Sol.World.beBytes d 32)).2 hs
    rw [this]
    have hd : Crypto.beNat (Sol.World.beBytes d 32) = d := by
      rw [Crypto.beNat_beBytes, Nat.mod_eq_of_lt (by omega)]
    simp only [Crypto.beBytes_length, if_true, hd]
    rw [if_neg (by omega), if_neg (by omega)]

theorem stringToSeed_iff (s : Text) (b : Bytes) : stringToSeed s = some b ↔ b.length = 32 ∧ s.map Char.toLower = seedText b := by
  unfold stringToSeed seedText
  constructor
  · intro h
    split at h
    · cases h
    · next b' hb =>
      split at h
      · next hl => simp only [Option.some.injEq] at h; subst h; exact ⟨hl, (hexDecode_iff s _).1 hb⟩
      · cases h
  · rintro ⟨hl, hs⟩
    rw [(hexDecode_iff s b).2 hs]; simp [hl]

theorem lower_hex (b : Bytes) : (hexEncode b).map Char.toLower = hexEncode b :=
  (hexDecode_iff _ b).1 (hexDecode_encode b)

theorem plain_key (d : Nat) : Plain (keyText d) := plain_hex _
theorem plain_seed (b : Bytes) : Plain (seedText b) := plain_hex _

end Shutter.Files
