import Verif.Spec.Proto
import Mathlib.Tactic

/-! # Protocol buffers: proofs -/

namespace Shutter.Proto
open Shutter.App (Bytes Msg BatchConfigMsg MessageWithNonce)

/-! ## Varints -/

theorem toNat_ofNat {n : Nat} (h : n < 256) : (UInt8.ofNat n).toNat = n := by
  simp [Nat.mod_eq_of_lt h]

theorem consumeVarintN_varintN (k n : Nat) (h : n < 2 ^ (7 * k + 1)) (r : Bytes) : consumeVarintN (k + 1) (varintN (k + 1) n ++ r) = some (n, r) := by
  induction k generalizing n with
  | zero =>
    have h2 : n < 2 := by simpa using h
    have h1 : n < 128 := by omega
    rw [varintN, if_pos h1, List.singleton_append, consumeVarintN, toNat_ofNat (by omega), if_pos h1]
    simp; omega
  | succ k ih =>
    rw [varintN]
    split
    · next h1 =>
      rw [List.singleton_append, consumeVarintN, toNat_ofNat (by omega), if_pos h1]
      simp
    · next h1 =>
      rw [List.cons_append, consumeVarintN, toNat_ofNat (by omega), if_neg (by omega), ih (n / 128) ?_]
      · simp only [Option.map_some, Option.some.injEq, Prod.mk.injEq, and_true]; omega
      · have : 2 ^ (7 * (k + 1) + 1) = 128 * 2 ^ (7 * k + 1) := by rw [show 7 * (k + 1) + 1 = 7 + (7 * k + 1) by ring, pow_add]; norm_num
        omega

theorem consumeVarint_varint {n : Nat} (h : n < 2 ^ 64) (r : Bytes) : consumeVarint (varint n ++ r) = some (n, r) :=
  consumeVarintN_varintN 9 n h r

theorem consumeVarintN_lt {k : Nat} {b : Bytes} {x : Nat × Bytes} (h : consumeVarintN (k + 1) b = some x) : x.1 < 2 ^ (7 * k + 1) ∧ x.2.length < b.length := by
  induction k generalizing b x with
  | zero =>
    cases b with
    | nil => simp [consumeVarintN] at h
    | cons c b =>
      rw [consumeVarintN] at h
      split at h
      · split at h
        · cases h
        · next hc => cases h; simp at hc ⊢; omega
      · simp [consumeVarintN] at h
  | succ k ih =>
    cases b with
    | nil => simp [consumeVarintN] at h
    | cons c b =>
      rw [consumeVarintN] at h
      have e : 2 ^ (7 * (k + 1) + 1) = 128 * 2 ^ (7 * k + 1) := by rw [show 7 * (k + 1) + 1 = 7 + (7 * k + 1) by ring, pow_add]; norm_num
      have p : 0 < 2 ^ (7 * k + 1) := by positivity
      split at h
      · next hc => simp at h; subst h; simp; omega
      · obtain ⟨y, hy, rfl⟩ := Option.map_eq_some_iff.1 h
        obtain ⟨h1, h2⟩ := ih hy
        have := c.toNat_lt
        simp only [List.length_cons]
        omega

theorem consumeVarint_lt {b : Bytes} {x : Nat × Bytes} (h : consumeVarint b = some x) : x.1 < 2 ^ 64 ∧ x.2.length < b.length :=
  consumeVarintN_lt (k := 9) h

theorem consumeBytes_le {b : Bytes} {x : Bytes × Bytes} (h : consumeBytes b = some x) : x.2.length ≤ b.length := by
  obtain ⟨y, hy, h1⟩ := Option.bind_eq_some_iff.1 h
  split at h1
  · cases h1
    have := (consumeVarint_lt hy).2
    simp
    omega
  · cases h1

/-! ## Reading fields never runs out of fuel -/

mutual
theorem consumeValue_le {f num typ : Nat} {b : Bytes} {x : Value × Bytes} (h : consumeValue f num typ b = some x) : x.2.length ≤ b.length := by
  cases f with
  | zero => cases h
  | succ f =>
    unfold consumeValue at h
    split at h
    · obtain ⟨y, hy, rfl⟩ := Option.map_eq_some_iff.1 h
      exact (consumeVarint_lt hy).2.le
    split at h
    · split at h
      · cases h; simp
      · cases h
    split at h
    · obtain ⟨y, hy, rfl⟩ := Option.map_eq_some_iff.1 h
      exact consumeBytes_le hy
    split at h
    · obtain ⟨y, hy, rfl⟩ := Option.map_eq_some_iff.1 h
      exact consumeGroup_le hy
    split at h
    · split at h
      · cases h; simp
      · cases h
    · cases h
theorem consumeGroup_le {f num : Nat} {b x : Bytes} (h : consumeValue.consumeGroup f num b = some x) : x.length ≤ b.length := by
  cases f with
  | zero => cases h
  | succ f =>
    unfold consumeValue.consumeGroup at h
    obtain ⟨y, hy, h1⟩ := Option.bind_eq_some_iff.1 h
    have hl := (consumeVarint_lt hy).2
    split at h1
    · cases h1
    split at h1
    · split at h1
      · cases h1; exact hl.le
      · cases h1
    · obtain ⟨z, hz, h2⟩ := Option.bind_eq_some_iff.1 h1
      have := consumeValue_le hz
      have := consumeGroup_le h2
      omega
end

mutual
theorem consumeValue_fuel {n f f' num typ : Nat} {b : Bytes} (hb : b.length ≤ n) (hf : 2 * n + 2 ≤ f) (hf' : 2 * n + 2 ≤ f') :
    consumeValue f num typ b = consumeValue f' num typ b := by
  obtain ⟨f, rfl⟩ : ∃ g, f = g + 1 := ⟨f - 1, by omega⟩
  obtain ⟨f', rfl⟩ : ∃ g, f' = g + 1 := ⟨f' - 1, by omega⟩
  unfold consumeValue
  rw [consumeGroup_fuel (n := n) (f := f) (f' := f') hb (by omega) (by omega)]
termination_by 2 * n + 1
theorem consumeGroup_fuel {n f f' num : Nat} {b : Bytes} (hb : b.length ≤ n) (hf : 2 * n + 1 ≤ f) (hf' : 2 * n + 1 ≤ f') :
    consumeValue.consumeGroup f num b = consumeValue.consumeGroup f' num b := by
  obtain ⟨f, rfl⟩ : ∃ g, f = g + 1 := ⟨f - 1, by omega⟩
  obtain ⟨f', rfl⟩ : ∃ g, f' = g + 1 := ⟨f' - 1, by omega⟩
  unfold consumeValue.consumeGroup
  cases hx : consumeVarint b with
  | none => rfl
  | some x =>
    have hl := (consumeVarint_lt hx).2
    obtain ⟨m, rfl⟩ : ∃ m, n = m + 1 := ⟨n - 1, by omega⟩
    simp only [Option.bind_some]
    split
    · rfl
    split
    · rfl
    · rw [consumeValue_fuel (n := m) (f := f) (f' := f') (b := x.2) (by omega) (by omega) (by omega)]
      cases hz : consumeValue f' (x.1 / 8) (x.1 % 8) x.2 with
      | none => rfl
      | some z =>
        have := consumeValue_le hz
        simp only [Option.bind_some]
        exact consumeGroup_fuel (n := m) (by omega) (by omega) (by omega)
termination_by 2 * n
end

theorem fieldsN_fuel {f f' : Nat} {b : Bytes} (hf : b.length ≤ f) (hf' : b.length ≤ f') : fieldsN f b = fieldsN f' b := by
  induction f generalizing f' b with
  | zero =>
    have : b = [] := List.eq_nil_of_length_eq_zero (by omega)
    subst this
    cases f' <;> rfl
  | succ f ih =>
    cases b with
    | nil => cases f' <;> rfl
    | cons c b =>
      obtain ⟨f', rfl⟩ : ∃ g, f' = g + 1 := ⟨f' - 1, by simp at hf'; omega⟩
      unfold fieldsN
      cases hx : consumeVarint (c :: b) with
      | none => rfl
      | some x =>
        have hl := (consumeVarint_lt hx).2
        simp only [Option.bind_some]
        split
        · rfl
        split
        · rfl
        · cases hz : consumeValue (2 * x.2.length + 2) (x.1 / 8) (x.1 % 8) x.2 with
          | none => rfl
          | some z =>
            have := consumeValue_le hz
            simp only [Option.bind_some]
            rw [ih (f' := f')] <;> omega

/-! ## Reading what was written -/

/-- A field as it is written. -/
def Field.put (f : Field) : Bytes :=
  match f.value with
  | .varint n => tag f.num 0 ++ varint n
  | .bytes b => putElement f.num b
  | .other => []

def Field.Ok (f : Field) : Prop := 1 ≤ f.num ∧ f.num < 16 ∧
  match f.value with
  | .varint n => n < 2 ^ 64
  | .bytes b => b.length < 2 ^ 64
  | .other => False

theorem varint_length (n : Nat) : 1 ≤ (varint n).length := by
  unfold varint varintN
  split <;> simp

theorem put_length {f : Field} (ok : f.Ok) : 1 ≤ f.put.length := by
  obtain ⟨num, v⟩ := f
  have := varint_length (num * 8)
  have := varint_length (num * 8 + 2)
  cases v <;> simp [Field.put, Field.Ok, putElement, tag] at ok ⊢ <;> omega

theorem fieldsN_put {f : Field} (ok : f.Ok) (k : Nat) (r : Bytes) : fieldsN (k + 1) (f.put ++ r) = (fieldsN k r).map (fun fs => f :: fs) := by
  have hl := put_length ok
  obtain ⟨num, v⟩ := f
  have hne : Field.put ⟨num, v⟩ ++ r ≠ [] := by
    intro h
    simp only [List.append_eq_nil_iff] at h
    rw [h.1] at hl
    simp at hl
  rw [fieldsN.eq_def]
  cases hb : Field.put ⟨num, v⟩ ++ r with
  | nil => exact absurd hb hne
  | cons c b =>
    simp only
    rw [← hb]
    obtain ⟨h1, h2, h3⟩ := ok
    simp only at h1 h2 h3
    cases v with
    | varint n =>
      simp only at h3
      simp only [Field.put, tag, List.append_assoc]
      rw [consumeVarint_varint (by omega)]
      simp only [Option.bind_some]
      rw [if_neg (by omega), if_neg (by omega), show (num * 8 + 0) / 8 = num by omega, show (num * 8 + 0) % 8 = 0 by omega, consumeValue]
      rw [if_pos rfl, consumeVarint_varint h3]
      simp
    | bytes b =>
      simp only at h3
      simp only [Field.put, putElement, tag, List.append_assoc]
      rw [consumeVarint_varint (by omega)]
      simp only [Option.bind_some]
      rw [if_neg (by omega), if_neg (by omega), show (num * 8 + 2) / 8 = num by omega, show (num * 8 + 2) % 8 = 2 by omega, consumeValue]
      rw [if_neg (by decide), if_neg (by decide), if_pos rfl, consumeBytes, consumeVarint_varint h3]
      simp
    | other => exact absurd h3 id

theorem fieldsN_puts {fs : List Field} (ok : ∀ f ∈ fs, f.Ok) {k : Nat} (hk : fs.length ≤ k) : fieldsN k (fs.flatMap Field.put) = some fs := by
  induction fs generalizing k with
  | nil => cases k <;> rfl
  | cons f fs ih =>
    obtain ⟨k, rfl⟩ : ∃ g, k = g + 1 := ⟨k - 1, by simp at hk; omega⟩
    rw [List.flatMap_cons, fieldsN_put (ok f (by simp)), ih (fun x hx => ok x (by simp [hx])) (by simpa using hk)]
    rfl

theorem puts_length {fs : List Field} (ok : ∀ f ∈ fs, f.Ok) : fs.length ≤ (fs.flatMap Field.put).length := by
  induction fs with
  | nil => simp
  | cons f fs ih =>
    have := put_length (ok f (by simp))
    have := ih (fun x hx => ok x (by simp [hx]))
    simp only [List.flatMap_cons, List.length_append, List.length_cons]
    omega

theorem fields_puts {fs : List Field} (ok : ∀ f ∈ fs, f.Ok) : fields (fs.flatMap Field.put) = some fs := fieldsN_puts ok (puts_length ok)

/-! ## Numbers read have 64 bits -/

theorem consumeValue_varint {f num typ : Nat} {b : Bytes} {n : Nat} {r : Bytes} (h : consumeValue f num typ b = some (.varint n, r)) : n < 2 ^ 64 := by
  cases f with
  | zero => cases h
  | succ f =>
    unfold consumeValue at h
    split at h
    · obtain ⟨y, hy, h1⟩ := Option.map_eq_some_iff.1 h
      simp only [Prod.mk.injEq, Value.varint.injEq] at h1
      rw [← h1.1]
      exact (consumeVarint_lt hy).1
    split at h
    · split at h <;> simp at h
    split at h
    · obtain ⟨y, hy, h1⟩ := Option.map_eq_some_iff.1 h
      simp at h1
    split at h
    · obtain ⟨y, hy, h1⟩ := Option.map_eq_some_iff.1 h
      simp at h1
    split at h
    · split at h <;> simp at h
    · cases h

theorem fieldsN_varint {k : Nat} {b : Bytes} {fs : List Field} (h : fieldsN k b = some fs) {f : Field} (hf : f ∈ fs) {n : Nat} (hn : f.value = .varint n) : n < 2 ^ 64 := by
  induction k generalizing b fs with
  | zero =>
    cases b with
    | nil => simp [fieldsN] at h; subst h; simp at hf
    | cons c b => simp [fieldsN] at h
  | succ k ih =>
    cases b with
    | nil => simp [fieldsN] at h; subst h; simp at hf
    | cons c b =>
      unfold fieldsN at h
      obtain ⟨x, hx, h⟩ := Option.bind_eq_some_iff.1 h
      split at h
      · cases h
      split at h
      · cases h
      obtain ⟨y, hy, h⟩ := Option.bind_eq_some_iff.1 h
      obtain ⟨fs', hfs, rfl⟩ := Option.map_eq_some_iff.1 h
      rcases List.mem_cons.1 hf with rfl | hf
      · simp only at hn
        obtain ⟨v, r⟩ := y
        simp only at hn
        subst hn
        exact consumeValue_varint hy
      · exact ih hfs hf

theorem fields_varint {b : Bytes} {fs : List Field} (h : fields b = some fs) {f : Field} (hf : f ∈ fs) {n : Nat} (hn : f.value = .varint n) : n < 2 ^ 64 :=
  fieldsN_varint h hf hn

/-! ## Messages -/

def numF (num n : Nat) : List Field := if n = 0 then [] else [⟨num, .varint n⟩]
def flagF (num : Nat) (b : Bool) : List Field := if b then [⟨num, .varint 1⟩] else []
def elF (num : Nat) (b : Bytes) : List Field := [⟨num, .bytes b⟩]
def bytesF (num : Nat) (b : Bytes) : List Field := if b = [] then [] else [⟨num, .bytes b⟩]
def listF (num : Nat) (l : List Bytes) : List Field := l.map (fun b => ⟨num, .bytes b⟩)

theorem putNumber_eq (num n : Nat) : putNumber num n = (numF num n).flatMap Field.put := by
  unfold putNumber numF; split <;> simp [Field.put]
theorem putFlag_eq (num : Nat) (b : Bool) : putFlag num b = (flagF num b).flatMap Field.put := by
  unfold putFlag flagF; split <;> simp [Field.put]
theorem putElement_eq (num : Nat) (b : Bytes) : putElement num b = (elF num b).flatMap Field.put := by
  simp [elF, Field.put]
theorem putBytes_eq (num : Nat) (b : Bytes) : putBytes num b = (bytesF num b).flatMap Field.put := by
  unfold putBytes bytesF; split <;> simp [Field.put]
theorem putList_eq (num : Nat) (l : List Bytes) : putList num l = (listF num l).flatMap Field.put := by
  unfold putList listF; rw [List.flatMap_map]; rfl

/-- The fields of a payload, with the number of the payload. -/
def payload : Msg → Option (Nat × List Field)
  | .batchConfig m => some (4, numF 1 m.startBatchIndex ++ listF 2 m.keypers ++ numF 3 m.threshold ++ bytesF 4 m.configContractAddress ++ numF 5 m.configIndex ++
      flagF 6 m.started ++ flagF 7 m.validatorsUpdated)
  | .batchConfigStarted n => some (6, numF 1 n)
  | .checkIn v e => some (7, bytesF 1 v ++ bytesF 2 e)
  | .decryptionSignature n s => some (8, numF 1 n ++ bytesF 2 s)
  | .polyEval n r e => some (9, numF 1 n ++ listF 2 r ++ listF 3 e)
  | .polyCommitment n g => some (10, numF 1 n ++ listF 2 g)
  | .accusation n a => some (11, numF 1 n ++ listF 2 a)
  | .apology n a e => some (12, numF 1 n ++ listF 2 a ++ listF 3 e)
  | .eonStartVote n => some (13, numF 1 n)
  | .epochSecretKeyShare n e s => some (14, numF 1 n ++ numF 2 e ++ bytesF 3 s)
  | .unknown => none

theorem marshalMessage_eq (m : Msg) : marshalMessage m = match payload m with
    | none => []
    | some (num, fs) => putElement num (fs.flatMap Field.put) := by
  cases m <;> simp only [marshalMessage, payload, putNumber_eq, putFlag_eq, putBytes_eq, putList_eq, List.flatMap_append]

/-! ### Fields of messages that fit -/

/-- A byte string in a field is not longer than the field. -/
theorem bytes_length {fs : List Field} {num : Nat} {b : Bytes} (h : ⟨num, .bytes b⟩ ∈ fs) : b.length ≤ (fs.flatMap Field.put).length := by
  induction fs with
  | nil => cases h
  | cons f fs ih =>
    rw [List.flatMap_cons, List.length_append]
    rcases List.mem_cons.1 h with rfl | h
    · simp [Field.put, putElement]; omega
    · have := ih h; omega

/-- The values of the fields but the length of byte strings. -/
def Field.Pre (f : Field) : Prop := 1 ≤ f.num ∧ f.num < 16 ∧
  match f.value with
  | .varint n => n < 2 ^ 64
  | .bytes _ => True
  | .other => False

theorem ok_of_pre {fs : List Field} (h : ∀ f ∈ fs, f.Pre) (hl : (fs.flatMap Field.put).length < 2 ^ 64) : ∀ f ∈ fs, f.Ok := by
  intro f hf
  obtain ⟨h1, h2, h3⟩ := h f hf
  refine ⟨h1, h2, ?_⟩
  obtain ⟨num, v⟩ := f
  cases v with
  | varint n => exact h3
  | bytes b => exact lt_of_le_of_lt (bytes_length hf) hl
  | other => exact h3

theorem numF_pre {num n : Nat} (h1 : 1 ≤ num) (h2 : num < 16) (hn : n < 2 ^ 64) : ∀ f ∈ numF num n, f.Pre := by
  unfold numF; split <;> simp [Field.Pre, h1, h2]; omega
theorem flagF_pre {num : Nat} {b : Bool} (h1 : 1 ≤ num) (h2 : num < 16) : ∀ f ∈ flagF num b, f.Pre := by
  unfold flagF; split <;> simp [Field.Pre, h1, h2]
theorem bytesF_pre {num : Nat} {b : Bytes} (h1 : 1 ≤ num) (h2 : num < 16) : ∀ f ∈ bytesF num b, f.Pre := by
  unfold bytesF; split <;> simp [Field.Pre, h1, h2]
theorem elF_pre {num : Nat} {b : Bytes} (h1 : 1 ≤ num) (h2 : num < 16) : ∀ f ∈ elF num b, f.Pre := by
  simp [elF, Field.Pre, h1, h2]
theorem listF_pre {num : Nat} {l : List Bytes} (h1 : 1 ≤ num) (h2 : num < 16) : ∀ f ∈ listF num l, f.Pre := by
  simp [listF, Field.Pre, h1, h2]

theorem append_pre {fs gs : List Field} (hf : ∀ f ∈ fs, f.Pre) (hg : ∀ f ∈ gs, f.Pre) : ∀ f ∈ fs ++ gs, f.Pre := by
  intro f h
  rcases List.mem_append.1 h with h | h
  · exact hf f h
  · exact hg f h

theorem payload_pre {m : Msg} (hm : Numbers m) {num : Nat} {fs : List Field} (h : payload m = some (num, fs)) : 1 ≤ num ∧ num < 16 ∧ ∀ f ∈ fs, f.Pre := by
  cases m <;> simp only [payload, Option.some.injEq, Prod.mk.injEq, reduceCtorEq] at h <;> obtain ⟨rfl, rfl⟩ := h <;> refine ⟨by decide, by decide, ?_⟩ <;>
    simp only [Numbers] at hm
  · obtain ⟨a, b, c⟩ := hm
    exact append_pre (append_pre (append_pre (append_pre (append_pre (append_pre (numF_pre (by decide) (by decide) a) (listF_pre (by decide) (by decide)))
      (numF_pre (by decide) (by decide) b)) (bytesF_pre (by decide) (by decide))) (numF_pre (by decide) (by decide) c)) (flagF_pre (by decide) (by decide)))
      (flagF_pre (by decide) (by decide))
  · exact numF_pre (by decide) (by decide) hm
  · exact append_pre (bytesF_pre (by decide) (by decide)) (bytesF_pre (by decide) (by decide))
  · exact numF_pre (by decide) (by decide) hm
  · exact append_pre (numF_pre (by decide) (by decide) hm) (bytesF_pre (by decide) (by decide))
  · exact append_pre (append_pre (numF_pre (by decide) (by decide) hm) (listF_pre (by decide) (by decide))) (listF_pre (by decide) (by decide))
  · exact append_pre (numF_pre (by decide) (by decide) hm) (listF_pre (by decide) (by decide))
  · exact append_pre (numF_pre (by decide) (by decide) hm) (listF_pre (by decide) (by decide))
  · exact append_pre (append_pre (numF_pre (by decide) (by decide) hm) (listF_pre (by decide) (by decide))) (listF_pre (by decide) (by decide))
  · exact append_pre (append_pre (numF_pre (by decide) (by decide) hm.1) (numF_pre (by decide) (by decide) hm.2)) (bytesF_pre (by decide) (by decide))

/-! ### Taking up the fields again -/

theorem foldl_numF {α : Type} (step : α → Field → α) (num n : Nat) (a : α) :
    (numF num n).foldl step a = if n = 0 then a else step a ⟨num, .varint n⟩ := by
  unfold numF; split <;> rfl
theorem foldl_bytesF {α : Type} (step : α → Field → α) (num : Nat) (b : Bytes) (a : α) :
    (bytesF num b).foldl step a = if b = [] then a else step a ⟨num, .bytes b⟩ := by
  unfold bytesF; split <;> rfl
theorem foldl_flagF {α : Type} (step : α → Field → α) (num : Nat) (b : Bool) (a : α) :
    (flagF num b).foldl step a = if b then step a ⟨num, .varint 1⟩ else a := by
  unfold flagF; split <;> rfl

theorem foldl_keypers (l : List Bytes) (m : BatchConfigMsg) : (listF 2 l).foldl batchConfigField m = { m with keypers := m.keypers ++ l } := by
  induction l generalizing m with
  | nil => simp [listF]
  | cons b l ih => simp only [listF, List.map_cons, List.foldl_cons]; rw [← listF, ih]; simp [batchConfigField]
theorem foldl_list2 (l : List Bytes) (m : Nat × List Bytes × List Bytes) : (listF 2 l).foldl numberListsField m = (m.1, m.2.1 ++ l, m.2.2) := by
  induction l generalizing m with
  | nil => simp [listF]
  | cons b l ih => simp only [listF, List.map_cons, List.foldl_cons]; rw [← listF, ih]; simp [numberListsField]
theorem foldl_list3 (l : List Bytes) (m : Nat × List Bytes × List Bytes) : (listF 3 l).foldl numberListsField m = (m.1, m.2.1, m.2.2 ++ l) := by
  induction l generalizing m with
  | nil => simp [listF]
  | cons b l ih => simp only [listF, List.map_cons, List.foldl_cons]; rw [← listF, ih]; simp [numberListsField]
theorem foldl_list (l : List Bytes) (m : Nat × List Bytes) : (listF 2 l).foldl numberListField m = (m.1, m.2 ++ l) := by
  induction l generalizing m with
  | nil => simp [listF]
  | cons b l ih => simp only [listF, List.map_cons, List.foldl_cons]; rw [← listF, ih]; simp [numberListField]

theorem messageField_payload {m : Msg} {num : Nat} {fs : List Field} (h : payload m = some (num, fs)) (ok : ∀ f ∈ fs, f.Ok) :
    messageField .unknown ⟨num, .bytes (fs.flatMap Field.put)⟩ = some m := by
  have hf := fields_puts ok
  cases m <;> simp only [payload, Option.some.injEq, Prod.mk.injEq, reduceCtorEq] at h <;> obtain ⟨rfl, rfl⟩ := h <;> simp only [messageField, hf, Option.map_some, Option.some.injEq] <;>
    simp only [List.foldl_append, foldl_numF, foldl_bytesF, foldl_flagF, foldl_keypers, foldl_list, foldl_list2, foldl_list3]
  · rename_i m
    obtain ⟨a, b, c, d, e, f, g⟩ := m
    by_cases h1 : a = 0 <;> by_cases h2 : c = 0 <;> by_cases h3 : d = [] <;> by_cases h4 : e = 0 <;> cases f <;> cases g <;> simp [h1, h2, h3, h4, batchConfigField]
  · rename_i n; by_cases h1 : n = 0 <;> simp [h1, numberField]
  · rename_i v e; by_cases h1 : v = [] <;> by_cases h2 : e = [] <;> simp [h1, h2, checkInField]
  · rename_i n; by_cases h1 : n = 0 <;> simp [h1, numberField]
  · rename_i n s; by_cases h1 : n = 0 <;> by_cases h2 : s = [] <;> simp [h1, h2, signatureField]
  · rename_i n r e; by_cases h1 : n = 0 <;> simp [h1, numberListsField]
  · rename_i n r; by_cases h1 : n = 0 <;> simp [h1, numberListField]
  · rename_i n r; by_cases h1 : n = 0 <;> simp [h1, numberListField]
  · rename_i n r e; by_cases h1 : n = 0 <;> simp [h1, numberListsField]
  · rename_i n e s; by_cases h1 : n = 0 <;> by_cases h2 : e = 0 <;> by_cases h3 : s = [] <;> simp [h1, h2, h3, shareField]

theorem unmarshalMessage_marshal {m : Msg} (hm : Numbers m) (hl : (marshalMessage m).length < 2 ^ 64) : unmarshalMessage .unknown (marshalMessage m) = some m := by
  rw [marshalMessage_eq] at hl ⊢
  cases hp : payload m with
  | none => cases m <;> simp [payload] at hp; rfl
  | some x =>
    obtain ⟨num, fs⟩ := x
    rw [hp] at hl
    simp only at hl ⊢
    obtain ⟨h1, h2, h3⟩ := payload_pre hm hp
    have hle : (fs.flatMap Field.put).length ≤ (putElement num (fs.flatMap Field.put)).length := by simp [putElement]; omega
    rw [putElement_eq] at hl ⊢
    unfold unmarshalMessage
    rw [fields_puts (ok_of_pre (elF_pre h1 h2) hl)]
    simp only [Option.bind_some, elF, List.foldlM_cons, List.foldlM_nil]
    rw [messageField_payload hp (ok_of_pre h3 (by rw [putElement_eq] at hle; omega))]
    rfl

theorem unmarshal_marshal {m : MessageWithNonce} (hm : Numbers m.msg) (hn : m.randomNonce < 2 ^ 64) (hl : (marshal m).length < 2 ^ 64) : unmarshal (marshal m) = some m := by
  have hle : (marshalMessage m.msg).length ≤ (marshal m).length := by simp [marshal, putElement]; omega
  unfold marshal unmarshal at *
  rw [putElement_eq, putBytes_eq, putNumber_eq, ← List.flatMap_append, ← List.flatMap_append] at *
  rw [fields_puts (ok_of_pre (append_pre (append_pre (elF_pre (by decide) (by decide)) (bytesF_pre (by decide) (by decide))) (numF_pre (by decide) (by decide) hn)) hl)]
  simp only [Option.bind_some, List.foldlM_append, elF, List.foldlM_cons, List.foldlM_nil]
  simp only [nonceField]
  rw [unmarshalMessage_marshal hm (by omega)]
  obtain ⟨msg, c, n⟩ := m
  simp only [Option.map_some, Option.bind_eq_bind, Option.bind_some, Option.pure_def]
  unfold bytesF numF
  split <;> split <;> simp_all [nonceField]

/-! ### Messages read have numbers of 64 bits -/

/-- The fields with numbers of 64 bits. -/
def Small (fs : List Field) : Prop := ∀ f ∈ fs, ∀ n, f.value = .varint n → n < 2 ^ 64

theorem foldl_small {α : Type} {step : α → Field → α} {P : α → Prop} (h : ∀ a f, P a → (∀ n, f.value = .varint n → n < 2 ^ 64) → P (step a f)) {fs : List Field}
    (hs : Small fs) {a : α} (ha : P a) : P (fs.foldl step a) := by
  induction fs generalizing a with
  | nil => exact ha
  | cons f fs ih => exact ih (fun g hg => hs g (by simp [hg])) (h _ _ ha (hs f (by simp)))

theorem messageField_numbers {m m' : Msg} {f : Field} (hm : Numbers m) (h : messageField m f = some m') : Numbers m' := by
  obtain ⟨num, v⟩ := f
  have small : ∀ {b fs}, fields b = some fs → Small fs := fun h f hf n hn => fields_varint h hf hn
  unfold messageField at h
  split at h
  case h_11 => cases h; exact hm
  all_goals
    obtain ⟨fs, hfs, rfl⟩ := Option.map_eq_some_iff.1 h
    have hs := small hfs
    simp only [Numbers]
  · refine foldl_small (P := fun m : BatchConfigMsg => m.startBatchIndex < 2 ^ 64 ∧ m.threshold < 2 ^ 64 ∧ m.configIndex < 2 ^ 64) ?_ hs ?_
    · intro a f ha hf
      unfold batchConfigField
      split <;> simp_all
    · split
      · exact hm
      · simp
  · refine foldl_small (P := fun n : Nat => n < 2 ^ 64) ?_ hs ?_
    · intro a f ha hf
      unfold numberField
      split <;> simp_all
    · split
      · exact hm
      · simp
  · refine foldl_small (P := fun m : Nat × Bytes => m.1 < 2 ^ 64) ?_ hs ?_
    · intro a f ha hf
      unfold signatureField
      split <;> simp_all
    · split
      · exact hm
      · simp
  · refine foldl_small (P := fun m : Nat × List Bytes × List Bytes => m.1 < 2 ^ 64) ?_ hs ?_
    · intro a f ha hf
      unfold numberListsField
      split <;> simp_all
    · split
      · exact hm
      · simp
  · refine foldl_small (P := fun m : Nat × List Bytes => m.1 < 2 ^ 64) ?_ hs ?_
    · intro a f ha hf
      unfold numberListField
      split <;> simp_all
    · split
      · exact hm
      · simp
  · refine foldl_small (P := fun m : Nat × List Bytes => m.1 < 2 ^ 64) ?_ hs ?_
    · intro a f ha hf
      unfold numberListField
      split <;> simp_all
    · split
      · exact hm
      · simp
  · refine foldl_small (P := fun m : Nat × List Bytes × List Bytes => m.1 < 2 ^ 64) ?_ hs ?_
    · intro a f ha hf
      unfold numberListsField
      split <;> simp_all
    · split
      · exact hm
      · simp
  · refine foldl_small (P := fun n : Nat => n < 2 ^ 64) ?_ hs ?_
    · intro a f ha hf
      unfold numberField
      split <;> simp_all
    · split
      · exact hm
      · simp
  · refine foldl_small (P := fun m : Nat × Nat × Bytes => m.1 < 2 ^ 64 ∧ m.2.1 < 2 ^ 64) ?_ hs ?_
    · intro a f ha hf
      unfold shareField
      split <;> simp_all
    · split
      · exact hm
      · simp

theorem unmarshalMessage_numbers {m m' : Msg} {b : Bytes} (hm : Numbers m) (h : unmarshalMessage m b = some m') : Numbers m' := by
  obtain ⟨fs, hfs, h'⟩ := Option.bind_eq_some_iff.1 h
  clear h hfs
  rename' h' => h
  induction fs generalizing m with
  | nil => simp at h; exact h ▸ hm
  | cons f fs ih =>
    rw [List.foldlM_cons] at h
    obtain ⟨m1, h1, h2⟩ := Option.bind_eq_some_iff.1 h
    exact ih (messageField_numbers hm h1) h2

theorem unmarshal_numbers {m : MessageWithNonce} {b : Bytes} (h : unmarshal b = some m) : Numbers m.msg ∧ m.randomNonce < 2 ^ 64 := by
  obtain ⟨fs, hfs, h⟩ := Option.bind_eq_some_iff.1 h
  have hs : Small fs := fun f hf n hn => fields_varint hfs hf hn
  have : ∀ (fs : List Field) (m0 : MessageWithNonce), Small fs → Numbers m0.msg ∧ m0.randomNonce < 2 ^ 64 → fs.foldlM nonceField m0 = some m →
      Numbers m.msg ∧ m.randomNonce < 2 ^ 64 := by
    intro fs
    induction fs with
    | nil => intro m0 _ h0 h; simp at h; exact h ▸ h0
    | cons f fs ih =>
      intro m0 hs h0 h
      rw [List.foldlM_cons] at h
      obtain ⟨m1, h1, h2⟩ := Option.bind_eq_some_iff.1 h
      refine ih m1 (fun g hg => hs g (by simp [hg])) ?_ h2
      have hf := hs f (by simp)
      obtain ⟨num, v⟩ := f
      unfold nonceField at h1
      split at h1
      · obtain ⟨m2, h3, rfl⟩ := Option.map_eq_some_iff.1 h1
        exact ⟨unmarshalMessage_numbers h0.1 h3, h0.2⟩
      · cases h1; exact h0
      · cases h1; simp_all
      · cases h1; exact h0
  exact this fs ⟨.unknown, [], 0⟩ hs ⟨trivial, Nat.two_pow_pos 64⟩ h

end Shutter.Proto
