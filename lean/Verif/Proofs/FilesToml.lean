import Verif.Proofs.Files

/-! # The files of the operator and the keypers: reading what was written -/

namespace Shutter.Files
open Shutter.App Shutter.Events

/-! ## Members by name -/

def lowered (s : Text) : Text := s.map Char.toLower

theorem sameName_iff (a b : Text) : sameName a b = true ↔ lowered a = lowered b := by simp [sameName, lowered]

theorem filter_name {α : Type} {k : Text} {v : α} : ∀ {o : List (Text × α)}, (o.map (fun kv => lowered kv.1)).Nodup →
    (k, v) ∈ o → o.filter (fun kv => sameName kv.1 k) = [(k, v)]
  | [], _, h => by simp at h
  | (k', v') :: o, hn, h => by
    simp only [List.map_cons, List.nodup_cons] at hn
    rcases List.mem_cons.1 h with he | hm
    · cases he
      have h1 : sameName k k = true := (sameName_iff _ _).2 rfl
      have h2 : o.filter (fun kv => sameName kv.1 k) = [] := by
        rw [List.filter_eq_nil_iff]
        intro kv hkv hs
        exact hn.1 (List.mem_map.2 ⟨kv, hkv, (sameName_iff _ _).1 hs⟩)
      simp [h1, h2]
    · have h1 : sameName k' k = false := by
        rw [Bool.eq_false_iff]
        intro hs
        exact hn.1 (List.mem_map.2 ⟨(k, v), hm, ((sameName_iff _ _).1 hs).symm⟩)
      simp [h1, filter_name hn.2 hm]

theorem readField_mem {α : Type} {o : List (Text × Json)} {name : String} {v : Json}
    (hn : (o.map (fun kv => lowered kv.1)).Nodup) (hm : (name.toList, v) ∈ o) (dec : Json → Option α) (old : α) :
    readField o name dec old = dec v := by
  unfold readField
  rw [filter_name hn hm]
  simp [List.foldlM]

theorem fromFile_mem {kvs : List (Text × TVal)} {name : String} {v : TVal}
    (hn : (kvs.map (fun kv => lowered kv.1)).Nodup) (hm : (name.toList, v) ∈ kvs) : fromFile kvs name = some v := by
  unfold fromFile
  rw [← List.head?_filter, filter_name hn hm]; rfl

/-! ## contracts.json -/

theorem contracts_nodup (cx : Codecs) (c : Contracts) : ((c.members cx).map (fun kv => lowered kv.1)).Nodup := by
  have : (c.members cx).map (fun kv => lowered kv.1) =
    ["ConfigContract".toList, "KeyBroadcastContract".toList, "FeeBankContract".toList, "BatcherContract".toList,
      "ExecutorContract".toList, "TokenContract".toList, "DepositContract".toList, "KeyperSlasherContract".toList,
      "TargetProxyContract".toList, "TargetContract".toList].map lowered := rfl
  rw [this]; decide +kernel

theorem jsonAddr_hex (cx : Codecs) {a : Addr} (h : IsAddress a) : jsonAddr cx (.str (checksumText cx a)) = some a :=
  (readChecksum_iff cx _ a).2 ⟨h, rfl⟩

theorem plain_names : ∀ n ∈ ["ConfigContract", "KeyBroadcastContract", "FeeBankContract", "BatcherContract",
      "ExecutorContract", "TokenContract", "DepositContract", "KeyperSlasherContract", "TargetProxyContract", "TargetContract",
      "TargetFunctionSelector", "TargetAddress", "FeeReceiver", "Keypers", "StartBatchIndex", "StartBlockNumber", "Threshold",
      "BatchSpan", "BatchSizeLimit", "TransactionSizeLimit", "TransactionGasLimit", "ExecutionTimeout"], Plain n.toList := by
  decide +kernel

theorem contracts_parse (cx : Codecs) (c : Contracts) : parseObject (c.save cx) = some (c.members cx) := by
  refine parse_print _ (by simp [Contracts.members]) ?_
  intro x hx
  simp only [Contracts.members, List.mem_cons, List.not_mem_nil, or_false] at hx
  rcases hx with rfl | rfl | rfl | rfl | rfl | rfl | rfl | rfl | rfl | rfl <;>
    exact ⟨plain_names _ (by simp), plain_address cx _⟩

theorem contracts_load_save (cx : Codecs) (c : Contracts) (h : c.Valid) : Contracts.load cx (c.save cx) = some c := by
  obtain ⟨h1, h2, h3, h4, h5, h6, h7, h8, h9, h10⟩ := h
  have hn := contracts_nodup cx c
  have key : ∀ (name : String) (a : Addr), IsAddress a → (name.toList, Json.str (checksumText cx a)) ∈ c.members cx →
      readField (c.members cx) name (jsonAddr cx) zeroAddr = some a := by
    intro name a ha hm
    rw [readField_mem hn hm, jsonAddr_hex cx ha]
  unfold Contracts.load
  rw [contracts_parse]
  simp only [Option.bind_eq_bind, Option.bind_some,
    key "ConfigContract" c.config h1 (by simp [Contracts.members]),
    key "KeyBroadcastContract" c.keyBroadcast h2 (by simp [Contracts.members]),
    key "FeeBankContract" c.feeBank h3 (by simp [Contracts.members]),
    key "BatcherContract" c.batcher h4 (by simp [Contracts.members]),
    key "ExecutorContract" c.executor h5 (by simp [Contracts.members]),
    key "TokenContract" c.token h6 (by simp [Contracts.members]),
    key "DepositContract" c.deposit h7 (by simp [Contracts.members]),
    key "KeyperSlasherContract" c.slasher h8 (by simp [Contracts.members]),
    key "TargetProxyContract" c.targetProxy h9 (by simp [Contracts.members]),
    key "TargetContract" c.target h10 (by simp [Contracts.members])]
  rfl

theorem readField_addr {cx : Codecs} {o : List (Text × Json)} {name : String} {a : Addr}
    (h : readField o name (jsonAddr cx) zeroAddr = some a) : IsAddress a := by
  unfold readField at h
  generalize (o.filter _) = l at h
  suffices H : ∀ (l : List (Text × Json)) (b : Addr), IsAddress b →
      l.foldlM (fun _ kv => jsonAddr cx kv.2) b = some a → IsAddress a from H l zeroAddr rfl h
  intro l
  induction l with
  | nil => intro b hb h; simp at h; exact h ▸ hb
  | cons kv l ih =>
    intro b hb h
    rw [List.foldlM_cons] at h
    cases hj : jsonAddr cx kv.2 with
    | none => rw [hj] at h; cases h
    | some x =>
      rw [hj] at h
      refine ih x ?_ h
      cases hv : kv.2 with
      | str s => rw [hv] at hj; exact ((readChecksum_iff cx s x).1 hj).1
      | num s => rw [hv] at hj; cases hj
      | strs s => rw [hv] at hj; cases hj

theorem contracts_load_valid {cx : Codecs} {t : Text} {c : Contracts} (h : Contracts.load cx t = some c) : c.Valid := by
  unfold Contracts.load at h
  simp only [Option.bind_eq_bind, Option.bind_eq_some_iff] at h
  obtain ⟨o, -, a1, h1, a2, h2, a3, h3, a4, h4, a5, h5, a6, h6, a7, h7, a8, h8, a9, h9, a10, h10, he⟩ := h
  cases he
  exact ⟨readField_addr h1, readField_addr h2, readField_addr h3, readField_addr h4, readField_addr h5, readField_addr h6,
    readField_addr h7, readField_addr h8, readField_addr h9, readField_addr h10⟩

/-! ## config.json -/

theorem fileConfig_nodup (cx : Codecs) (c : FileConfig) : ((c.members cx).map (fun kv => lowered kv.1)).Nodup := by
  have : (c.members cx).map (fun kv => lowered kv.1) =
    ["TargetFunctionSelector".toList, "TargetAddress".toList, "FeeReceiver".toList, "Keypers".toList, "StartBatchIndex".toList,
      "StartBlockNumber".toList, "Threshold".toList, "BatchSpan".toList, "BatchSizeLimit".toList,
      "TransactionSizeLimit".toList, "TransactionGasLimit".toList, "ExecutionTimeout".toList].map lowered := rfl
  rw [this]; decide +kernel

theorem fileConfig_parse (cx : Codecs) (c : FileConfig) : parseObject (c.save cx) = some (c.members cx) := by
  refine parse_print _ (by simp [FileConfig.members]) ?_
  intro x hx
  simp only [FileConfig.members, List.mem_cons, List.not_mem_nil, or_false] at hx
  rcases hx with rfl | rfl | rfl | rfl | rfl | rfl | rfl | rfl | rfl | rfl | rfl | rfl
  · exact ⟨plain_names _ (by simp), plain_hexutil _⟩
  · exact ⟨plain_names _ (by simp), plain_address cx _⟩
  · exact ⟨plain_names _ (by simp), plain_address cx _⟩
  · refine ⟨plain_names _ (by simp), ?_⟩
    intro s hs
    obtain ⟨a, -, rfl⟩ := List.mem_map.1 hs
    exact plain_address cx a
  all_goals exact ⟨plain_names _ (by simp), formatUint_num _⟩

theorem jsonUint_format {n : Nat} (h : Uint64 n) : jsonUint (.num (formatUint n)) = some n := parseUint_formatUint n h

theorem jsonAddrs_hex (cx : Codecs) {l : List Addr} (h : ∀ a ∈ l, IsAddress a) :
    jsonAddrs cx (.strs (l.map (checksumText cx))) = some l :=
  mapM_map_some _ _ l (fun a ha => (readChecksum_iff cx _ a).2 ⟨h a ha, rfl⟩)

theorem bind_of {α β : Type} {o : Option α} {a : α} (h : o = some a) (f : α → Option β) : (o >>= f) = f a := by
  rw [h]; rfl

/-- The config that was written is read if its threshold is sensible; otherwise it is refused. -/
theorem fileConfig_load_save (cx : Codecs) (c : FileConfig) (h : c.Typed) :
    FileConfig.load cx (c.save cx) = if Operator.validateThreshold c.threshold c.keypers.length then some c else none := by
  obtain ⟨h1, h2, h3, h4, h5, h6, h7, h8, h9, h10, h11, h12⟩ := h
  have hn := fileConfig_nodup cx c
  have addr : ∀ (name : String) (a : Addr), IsAddress a → (name.toList, Json.str (checksumText cx a)) ∈ c.members cx →
      readField (c.members cx) name (jsonAddr cx) zeroAddr = some a := by
    intro name a ha hm
    rw [readField_mem hn hm, jsonAddr_hex cx ha]
  have num : ∀ (name : String) (n : Nat), Uint64 n → (name.toList, Json.num (formatUint n)) ∈ c.members cx →
      readField (c.members cx) name jsonUint 0 = some n := by
    intro name a ha hm
    rw [readField_mem hn hm, jsonUint_format ha]
  have hsel : readField (c.members cx) "TargetFunctionSelector" jsonText [] = some (hexutilEncode c.targetFunctionSelector) :=
    by
    rw [readField_mem hn (v := .str (hexutilEncode c.targetFunctionSelector)) (by simp [FileConfig.members])]; rfl
  have hks : readField (c.members cx) "Keypers" (jsonAddrs cx) [] = some c.keypers := by
    rw [readField_mem hn (v := .strs (c.keypers.map (checksumText cx))) (by simp [FileConfig.members]), jsonAddrs_hex cx h3]
  unfold FileConfig.load
  refine (bind_of (fileConfig_parse cx c) _).trans ?_
  refine (bind_of hsel _).trans ?_
  refine (bind_of (addr "TargetAddress" c.targetAddress h10 (by simp [FileConfig.members])) _).trans ?_
  refine (bind_of (addr "FeeReceiver" c.feeReceiver h9 (by simp [FileConfig.members])) _).trans ?_
  refine (bind_of hks _).trans ?_
  refine (bind_of (num "StartBatchIndex" c.startBatchIndex h1 (by simp [FileConfig.members])) _).trans ?_
  refine (bind_of (num "StartBlockNumber" c.startBlockNumber h2 (by simp [FileConfig.members])) _).trans ?_
  refine (bind_of (num "Threshold" c.threshold h4 (by simp [FileConfig.members])) _).trans ?_
  refine (bind_of (num "BatchSpan" c.batchSpan h5 (by simp [FileConfig.members])) _).trans ?_
  refine (bind_of (num "BatchSizeLimit" c.batchSizeLimit h6 (by simp [FileConfig.members])) _).trans ?_
  refine (bind_of (num "TransactionSizeLimit" c.transactionSizeLimit h7 (by simp [FileConfig.members])) _).trans ?_
  refine (bind_of (num "TransactionGasLimit" c.transactionGasLimit h8 (by simp [FileConfig.members])) _).trans ?_
  refine (bind_of (num "ExecutionTimeout" c.executionTimeout h12 (by simp [FileConfig.members])) _).trans ?_
  refine (bind_of (hexutil_roundtrip _) _).trans ?_
  simp only [h11, ne_eq, not_true, if_false]

theorem validateThreshold_iff (t n : Nat) : Operator.validateThreshold t n = true ↔ 1 ≤ t ∧ t ≤ n := by
  unfold Operator.validateThreshold
  split
  · simp; omega
  · split
    · simp; omega
    · split
      · simp; omega
      · simp; omega

theorem parseUint_lt {s : Text} {n : Nat} (h : parseUint s = some n) : n < 2 ^ 64 := by
  unfold parseUint at h
  split at h
  · cases h
  · split at h
    · cases h
    · split at h
      · next hlt => simp only [Option.some.injEq] at h; rw [← h]; exact hlt
      · cases h

theorem readField_inv {α : Type} (P : α → Prop) {o : List (Text × Json)} {name : String} {dec : Json → Option α} {old a : α}
    (hold : P old) (hdec : ∀ v x, dec v = some x → P x) (h : readField o name dec old = some a) : P a := by
  unfold readField at h
  generalize (o.filter _) = l at h
  induction l generalizing old with
  | nil => simp at h; exact h ▸ hold
  | cons kv l ih =>
    rw [List.foldlM_cons] at h
    cases hj : dec kv.2 with
    | none => rw [hj] at h; cases h
    | some x => rw [hj] at h; exact ih (hdec _ _ hj) h

theorem mapM_all {α β : Type} {f : α → Option β} {P : β → Prop} (hf : ∀ a b, f a = some b → P b) :
    ∀ {l : List α} {r : List β}, l.mapM f = some r → ∀ b ∈ r, P b
  | [], r, h => by simp at h; subst h; simp
  | a :: l, r, h => by
    simp only [List.mapM_cons, Option.bind_eq_bind, Option.bind_eq_some_iff] at h
    obtain ⟨b, hb, r', hr', he⟩ := h
    cases he
    intro x hx
    rcases List.mem_cons.1 hx with rfl | hx
    · exact hf _ _ hb
    · exact mapM_all hf hr' x hx

theorem fileConfig_load_typed {cx : Codecs} {t : Text} {c : FileConfig} (h : FileConfig.load cx t = some c) :
    c.Typed ∧ c.Sensible := by
  unfold FileConfig.load at h
  obtain ⟨o, -, h⟩ := Option.bind_eq_some_iff.1 h
  obtain ⟨s, -, h⟩ := Option.bind_eq_some_iff.1 h
  obtain ⟨ta, h2, h⟩ := Option.bind_eq_some_iff.1 h
  obtain ⟨fe, h3, h⟩ := Option.bind_eq_some_iff.1 h
  obtain ⟨ks, h4, h⟩ := Option.bind_eq_some_iff.1 h
  obtain ⟨n1, h5, h⟩ := Option.bind_eq_some_iff.1 h
  obtain ⟨n2, h6, h⟩ := Option.bind_eq_some_iff.1 h
  obtain ⟨th, h7, h⟩ := Option.bind_eq_some_iff.1 h
  obtain ⟨n3, h8, h⟩ := Option.bind_eq_some_iff.1 h
  obtain ⟨n4, h9, h⟩ := Option.bind_eq_some_iff.1 h
  obtain ⟨n5, h10, h⟩ := Option.bind_eq_some_iff.1 h
  obtain ⟨n6, h11, h⟩ := Option.bind_eq_some_iff.1 h
  obtain ⟨n7, h12, h⟩ := Option.bind_eq_some_iff.1 h
  obtain ⟨sel, h13, h⟩ := Option.bind_eq_some_iff.1 h
  have u : ∀ {name n}, readField o name jsonUint 0 = some n → Uint64 n := by
    intro name n hh
    refine readField_inv Uint64 (by unfold Uint64; decide) ?_ hh
    intro v x hv
    cases v with
    | num s => exact parseUint_lt hv
    | str s => cases hv
    | strs s => cases hv
  have hks : ∀ k ∈ ks, IsAddress k := by
    refine readField_inv (fun l => ∀ k ∈ l, IsAddress k) (by simp) ?_ h4
    intro v x hv
    cases v with
    | num s => cases hv
    | str s => cases hv
    | strs s => exact mapM_all (fun a b hb => ((readChecksum_iff cx a b).1 hb).1) hv
  split at h
  · cases h
  · next hl =>
    split at h
    · next hv =>
      cases h
      exact ⟨⟨u h5, u h6, hks, u h7, u h8, u h9, u h10, u h11, readField_addr h3, readField_addr h2, by simpa using hl, u h12⟩,
        (validateThreshold_iff _ _).1 hv⟩
    · cases h

/-! ## TOML -/

theorem splitLines_line : ∀ {l : Text}, '\n' ∉ l → ∀ rest, splitLines (l ++ '\n' :: rest) = l :: splitLines rest
  | [], _, rest => by simp [splitLines]
  | c :: l, h, rest => by
    have hc : c ≠ '\n' := fun hc => h (by simp [hc])
    have ih := splitLines_line (l := l) (fun hm => h (by simp [hm])) rest
    simp only [List.cons_append, splitLines, hc, if_false, ih]

theorem splitLines_lines : ∀ {ls : List Text}, (∀ l ∈ ls, '\n' ∉ l) → splitLines (ls.flatMap (fun l => l ++ ['\n'])) = ls ++ [[]]
  | [], _ => rfl
  | l :: ls, h => by
    have ih := splitLines_lines (ls := ls) (fun x hx => h x (by simp [hx]))
    simp only [List.flatMap_cons, List.append_assoc, List.singleton_append]
    rw [splitLines_line (h l (by simp)), ih]; rfl

theorem strBody_plain {v : Text} (h : Plain v) (rest : Text) : strBody (v ++ '"' :: rest) = some (v, rest) := by
  induction v with
  | nil => rw [List.nil_append, strBody.eq_def]; simp
  | cons c v ih =>
    obtain ⟨h1, h2, h3⟩ := h c (by simp)
    have h4 : ¬ c.toNat < 32 := by omega
    rw [List.cons_append, strBody.eq_def]
    simp only [h1, h2, h4, if_false]
    rw [ih (fun d hd => h d (by simp [hd]))]; rfl

theorem lineValue_quote {v : Text} (h : Plain v) : lineValue (quote v) = some (.str v) := by
  have hb : strBody (v ++ ['"']) = some (v, []) := strBody_plain h []
  have hq : quote v = '"' :: (v ++ ['"']) := rfl
  rw [hq]
  have he : lineEnd [] = true := rfl
  unfold lineValue
  split
  · next r heq =>
    exfalso
    simp only [List.cons.injEq, true_and] at heq
    cases v with
    | nil => simp at heq
    | cons c v => simp only [List.cons_append, List.cons.injEq] at heq; exact (h c (by simp)).1 heq.1
  · next s hs heq =>
    simp only [List.cons.injEq, true_and] at heq
    subst heq
    rw [hb]; simp [he]
  · next h1 h2 => exact absurd rfl (h2 _)

theorem takeWhile_all {p : Char → Bool} {l : Text} (h : ∀ c ∈ l, p c = true) : l.takeWhile p = l := by
  induction l with
  | nil => rfl
  | cons c l ih => simp [h c (by simp), ih (fun d hd => h d (by simp [hd]))]

theorem dropWhile_all {p : Char → Bool} {l : Text} (h : ∀ c ∈ l, p c = true) : l.dropWhile p = [] := by
  induction l with
  | nil => rfl
  | cons c l ih => simp [h c (by simp), ih (fun d hd => h d (by simp [hd]))]

theorem takeWhile_split {p : Char → Bool} {l : Text} (h : ∀ c ∈ l, p c = true) {d : Char} (hd : p d = false) (r : Text) :
    (l ++ d :: r).takeWhile p = l := by
  induction l with
  | nil => simp [hd]
  | cons c l ih => simp [h c (by simp), ih (fun e he => h e (by simp [he]))]

theorem dropWhile_split {p : Char → Bool} {l : Text} (h : ∀ c ∈ l, p c = true) {d : Char} (hd : p d = false) (r : Text) :
    (l ++ d :: r).dropWhile p = d :: r := by
  induction l with
  | nil => simp [hd]
  | cons c l ih => simp [h c (by simp), ih (fun e he => h e (by simp [he]))]

theorem lineValue_num {v : Text} (hne : v ≠ []) (h : ∀ c ∈ v, numChar c = true) : lineValue v = some (.num v) := by
  have hq : numChar '"' = false := by decide
  unfold lineValue
  split
  · next r => have := h '"' (by simp); rw [hq] at this; cases this
  · next r _ => have := h '"' (by simp); rw [hq] at this; cases this
  · simp only [takeWhile_all h, dropWhile_all h, hne, if_false]
    rfl

/-- A line of the template: a key, space, the equals sign and a value. -/
theorem parseLine_value {key space v : Text} {x : TVal} (hk : key ≠ []) (hkc : ∀ c ∈ key, keyChar c = true)
    (hsp : space ≠ []) (hs : ∀ c ∈ space, tomlSpace c = true)
    (hv : v.head? ≠ some ' ' ∧ v.head? ≠ some '\t') (hx : lineValue v = some x) :
    parseLine (key ++ (space ++ ('=' :: ' ' :: v))) = some (some (key, x)) := by
  obtain ⟨c, k, rfl⟩ : ∃ c k, key = c :: k := by cases key with
    | nil => exact absurd rfl hk
    | cons c k => exact ⟨c, k, rfl⟩
  obtain ⟨d, sp, rfl⟩ : ∃ c k, space = c :: k := by cases space with
    | nil => exact absurd rfl hsp
    | cons c k => exact ⟨c, k, rfl⟩
  have hc := hkc c (by simp)
  have hd := hs d (by simp)
  have hc1 : tomlSpace c = false := by
    rw [Bool.eq_false_iff]; intro ht
    simp only [tomlSpace, Bool.or_eq_true, decide_eq_true_eq] at ht
    rcases ht with rfl | rfl <;> revert hc <;> decide
  have hc2 : c ≠ '#' := by rintro rfl; revert hc; decide
  have hd1 : keyChar d = false := by
    rw [Bool.eq_false_iff]; intro ht
    simp only [tomlSpace, Bool.or_eq_true, decide_eq_true_eq] at hd
    rcases hd with rfl | rfl <;> revert ht <;> decide
  have heq : tomlSpace '=' = false := by decide
  have hv1 : (' ' :: v).dropWhile tomlSpace = v := by
    have hsp : tomlSpace ' ' = true := by decide
    rw [List.dropWhile_cons, if_pos hsp]
    cases v with
    | nil => rfl
    | cons e v =>
      simp only [List.head?_cons, ne_eq, Option.some.injEq] at hv
      have : tomlSpace e = false := by simp [tomlSpace, hv.1, hv.2]
      simp [this]
  have e1 : ((c :: k) ++ ((d :: sp) ++ ('=' :: ' ' :: v))).dropWhile tomlSpace = c :: (k ++ (d :: (sp ++ ('=' :: ' ' :: v)))) := by
    simp [hc1]
  have e2 : (c :: (k ++ (d :: (sp ++ ('=' :: ' ' :: v))))).takeWhile keyChar = c :: k :=
    takeWhile_split (l := c :: k) hkc hd1 _
  have e3 : (c :: (k ++ (d :: (sp ++ ('=' :: ' ' :: v))))).dropWhile keyChar = d :: (sp ++ ('=' :: ' ' :: v)) :=
    dropWhile_split (l := c :: k) hkc hd1 _
  have e4 : (d :: (sp ++ ('=' :: ' ' :: v))).dropWhile tomlSpace = '=' :: ' ' :: v :=
    dropWhile_split (l := d :: sp) hs heq _
  unfold parseLine
  rw [e1]
  simp only [hc2, if_false, e2, e3, e4, hv1, hx]
  simp

theorem parseLine_strLine {key space : String} {v : Text} (hk : key.toList ≠ [] ∧ ∀ c ∈ key.toList, keyChar c = true)
    (hs : space.toList ≠ [] ∧ ∀ c ∈ space.toList, tomlSpace c = true) (hv : Plain v) :
    parseLine (strLine key space v) = some (some (key.toList, .str v)) :=
  parseLine_value hk.1 hk.2 hs.1 hs.2 (by simp [quote]) (lineValue_quote hv)

theorem parseLine_numLine {key space : String} {v : Text} (hk : key.toList ≠ [] ∧ ∀ c ∈ key.toList, keyChar c = true)
    (hs : space.toList ≠ [] ∧ ∀ c ∈ space.toList, tomlSpace c = true) (hv : v ≠ [] ∧ ∀ c ∈ v, numChar c = true) :
    parseLine (numLine key space v) = some (some (key.toList, .num v)) := by
  refine parseLine_value hk.1 hk.2 hs.1 hs.2 ?_ (lineValue_num hv.1 hv.2)
  cases v with
  | nil => exact absurd rfl hv.1
  | cons c v =>
    have := hv.2 c (by simp)
    simp only [List.head?_cons, ne_eq, Option.some.injEq]
    constructor <;> rintro rfl <;> revert this <;> decide

theorem parseLine_comment {t : Text} : parseLine ('#' :: t) = some none := by
  have : tomlSpace '#' = false := by decide
  simp [parseLine, this]

end Shutter.Files
