import Verif.Proofs.FilesToml

/-! # The files of the keypers -/

namespace Shutter.Files
open Shutter.App Shutter.Events

variable {F : Type}

/-- The keys and values in the file of a keyper. -/
def KConfig.entries (lib : Lib F) (c : KConfig F) (signing encryption : Nat) (seed : Bytes) : List (Text × TVal) :=
  [ ("BatcherContract".toList, .str (addressHex lib.cx c.batcherContract)),
    ("ConfigContract".toList, .str (addressHex lib.cx c.configContract)),
    ("DepositContract".toList, .str (addressHex lib.cx c.depositContract)),
    ("ExecutorContract".toList, .str (addressHex lib.cx c.executorContract)),
    ("KeyBroadcastContract".toList, .str (addressHex lib.cx c.keyBroadcastContract)),
    ("KeyperSlasher".toList, .str (addressHex lib.cx c.keyperSlasher)),
    ("EthereumURL".toList, .str c.ethereumURL),
    ("ShuttermintURL".toList, .str c.shuttermintURL),
    ("DBDir".toList, .str c.dbDir),
    ("DKGPhaseLength".toList, .num (formatUint c.dkgPhaseLength)),
    ("ExecutionStaggering".toList, .num (formatUint c.executionStaggering)),
    ("MainChainFollowDistance".toList, .num (formatUint c.mainChainFollowDistance)),
    ("GasPriceMultiplier".toList, .num (lib.showFloat c.gasPriceMultiplier)),
    ("EncryptionKey".toList, .str (keyText encryption)),
    ("SigningKey".toList, .str (keyText signing)),
    ("ValidatorSeed".toList, .str (seedText seed)) ]

def keyNames : List String :=
  ["BatcherContract", "ConfigContract", "DepositContract", "ExecutorContract", "KeyBroadcastContract", "KeyperSlasher",
    "EthereumURL", "ShuttermintURL", "DBDir", "DKGPhaseLength", "ExecutionStaggering", "MainChainFollowDistance",
    "GasPriceMultiplier", "EncryptionKey", "SigningKey", "ValidatorSeed"]

theorem entries_names (lib : Lib F) (c : KConfig F) (s e : Nat) (v : Bytes) :
    (c.entries lib s e v).map (·.1) = keyNames.map (·.toList) := rfl

theorem entries_lowered (lib : Lib F) (c : KConfig F) (s e : Nat) (v : Bytes) :
    ((c.entries lib s e v).map (fun kv => lowered kv.1)).Nodup := by
  have : (c.entries lib s e v).map (fun kv => lowered kv.1) = (keyNames.map (·.toList)).map lowered := rfl
  rw [this]; decide +kernel

theorem names_keyChars : ∀ n ∈ keyNames, n.toList ≠ [] ∧ ∀ c ∈ n.toList, keyChar c = true := by decide +kernel

theorem spaces_ok : ∀ n ∈ ["\t", "\t\t", "\t\t\t", " ", "      "], n.toList ≠ [] ∧ ∀ c ∈ n.toList, tomlSpace c = true := by
  decide +kernel

theorem newline_plain {v : Text} (h : Plain v) : '\n' ∉ v := by
  intro hm; have := (h _ hm).2.2; revert this; decide

theorem newline_num {v : Text} (h : ∀ c ∈ v, numChar c = true) : '\n' ∉ v := by
  intro hm; have := h _ hm; revert this; decide

theorem newline_names : ∀ n ∈ keyNames ++ ["\t", "\t\t", "\t\t\t", " ", "      "], '\n' ∉ n.toList := by decide +kernel

theorem newline_strLine {key space : String} {v : Text} (hk : '\n' ∉ key.toList) (hs : '\n' ∉ space.toList) (hv : Plain v) :
    '\n' ∉ strLine key space v := by
  simp only [strLine, quote, List.mem_append, List.mem_cons, List.not_mem_nil, or_false, not_or]
  exact ⟨hk, hs, by decide, by decide, by decide, newline_plain hv, by decide⟩

theorem newline_numLine {key space : String} {v : Text} (hk : '\n' ∉ key.toList) (hs : '\n' ∉ space.toList)
    (hv : ∀ c ∈ v, numChar c = true) : '\n' ∉ numLine key space v := by
  simp only [numLine, List.mem_append, List.mem_cons, not_or]
  exact ⟨hk, hs, by decide, by decide, newline_num hv⟩

/-- A line as the template writes them. -/
inductive GoodLine : Text → Option (Text × TVal) → Prop
  | empty : GoodLine [] none
  | comment (t : Text) : '\n' ∉ t → GoodLine ('#' :: t) none
  | str {key space : String} {v : Text} : key ∈ keyNames → space ∈ ["\t", "\t\t", "\t\t\t", " ", "      "] → Plain v →
      GoodLine (strLine key space v) (some (key.toList, .str v))
  | num {key space : String} {v : Text} : key ∈ keyNames → space ∈ ["\t", "\t\t", "\t\t\t", " ", "      "] →
      (v ≠ [] ∧ ∀ c ∈ v, numChar c = true) → GoodLine (numLine key space v) (some (key.toList, .num v))

theorem GoodLine.parse {l : Text} {r : Option (Text × TVal)} (h : GoodLine l r) : parseLine l = some r := by
  cases h with
  | empty => rfl
  | comment t _ => exact parseLine_comment
  | str hk hs hv => exact parseLine_strLine (names_keyChars _ hk) (spaces_ok _ hs) hv
  | num hk hs hv => exact parseLine_numLine (names_keyChars _ hk) (spaces_ok _ hs) hv

theorem GoodLine.newline {l : Text} {r : Option (Text × TVal)} (h : GoodLine l r) : '\n' ∉ l := by
  cases h with
  | empty => simp
  | comment t h =>
    intro hm
    rcases List.mem_cons.1 hm with hm | hm
    · revert hm; decide
    · exact h hm
  | str hk hs hv => exact newline_strLine (newline_names _ (by simp [hk])) (newline_names _ (by rw [List.mem_append]; exact .inr hs)) hv
  | num hk hs hv => exact newline_numLine (newline_names _ (by simp [hk])) (newline_names _ (by rw [List.mem_append]; exact .inr hs)) hv.2

theorem mapM_good {ls : List Text} {rs : List (Option (Text × TVal))} (h : List.Forall₂ GoodLine ls rs) :
    ls.mapM parseLine = some rs := by
  induction h with
  | nil => rfl
  | cons h _ ih => simp [List.mapM_cons, h.parse, ih]

theorem forall₂_left {α β : Type} {R : α → β → Prop} {P : α → Prop} (hR : ∀ a b, R a b → P a) {l : List α} {r : List β}
    (h : List.Forall₂ R l r) : ∀ a ∈ l, P a := by
  induction h with
  | nil => simp
  | cons h _ ih =>
    intro a ha
    rcases List.mem_cons.1 ha with rfl | ha
    · exact hR _ _ h
    · exact ih a ha

theorem parseToml_lines {ls : List Text} {rs : List (Option (Text × TVal))} (h : List.Forall₂ GoodLine ls rs)
    (hn : ((rs.filterMap id).map Prod.fst).Nodup) :
    parseToml (ls.flatMap (fun l => l ++ ['\n'])) = some (rs.filterMap id) := by
  have hnl : ∀ l ∈ ls, '\n' ∉ l := forall₂_left (fun a b hr => GoodLine.newline hr) h
  have : (ls ++ [[]]).mapM parseLine = some (rs ++ [none]) := by
    have h2 : List.Forall₂ GoodLine (ls ++ [[]]) (rs ++ [none]) :=
      List.rel_append h (.cons .empty .nil)
    exact mapM_good h2
  unfold parseToml
  rw [splitLines_lines hnl, this]
  have e : (rs ++ [none]).filterMap id = rs.filterMap id := by simp
  simp only [e]
  rw [if_pos hn]

theorem lines_good (lib : Lib F) (hlib : lib.Lawful) (c : KConfig F) (s e : Nat) (v : Bytes)
    (h1 : Plain c.shuttermintURL) (h2 : Plain c.ethereumURL) (h3 : Plain c.dbDir) :
    parseToml ((c.lines lib s e v).flatMap (fun l => l ++ ['\n'])) = some (c.entries lib s e v) := by
  let b := fun (k : Text) (x : TVal) => some (k, x)
  have hadd : '\n' ∉ " Shutter keyper configuration for ".toList ++ addressHex lib.cx (lib.addressOf s) := by
    rw [List.mem_append]
    rintro (hm | hm)
    · revert hm; decide +kernel
    · exact newline_plain (plain_address _ _) hm
  have e1 : "# Shutter keyper configuration for ".toList ++ addressHex lib.cx (lib.addressOf s) =
      '#' :: (" Shutter keyper configuration for ".toList ++ addressHex lib.cx (lib.addressOf s)) := by
    rw [show "# Shutter keyper configuration for ".toList = '#' :: " Shutter keyper configuration for ".toList by decide +kernel]
    rfl
  have e2 : "# Contract addresses".toList = '#' :: " Contract addresses".toList := by decide +kernel
  have e3 : "# Secret Keys".toList = '#' :: " Secret Keys".toList := by decide +kernel
  have hpa := plain_address lib.cx
  have hst : ∀ (key space : String) (v : Text), key ∈ keyNames → space ∈ ["\t", "\t\t", "\t\t\t", " ", "      "] → Plain v →
      GoodLine (strLine key space v) (some (key.toList, .str v)) := fun _ _ _ a b c => .str a b c
  have hnu : ∀ (key space : String) (v : Text), key ∈ keyNames → space ∈ ["\t", "\t\t", "\t\t\t", " ", "      "] →
      (v ≠ [] ∧ ∀ c ∈ v, numChar c = true) → GoodLine (numLine key space v) (some (key.toList, .num v)) :=
    fun _ _ _ a b c => .num a b c
  have hg : List.Forall₂ GoodLine (c.lines lib s e v)
      (none :: none :: none ::
        (((c.entries lib s e v).take 6).map some ++ (none :: ((((c.entries lib s e v).drop 6).take 7).map some ++
        (none :: none :: ((c.entries lib s e v).drop 13).map some))))) := by
    unfold KConfig.lines
    rw [e1, e2, e3]
    refine .cons (.comment _ hadd) (.cons .empty (.cons (.comment _ (by decide +kernel)) ?_))
    refine .cons (hst _ _ _ (by decide) (by decide) (hpa _)) ?_
    refine .cons (hst _ _ _ (by decide) (by decide) (hpa _)) ?_
    refine .cons (hst _ _ _ (by decide) (by decide) (hpa _)) ?_
    refine .cons (hst _ _ _ (by decide) (by decide) (hpa _)) ?_
    refine .cons (hst _ _ _ (by decide) (by decide) (hpa _)) ?_
    refine .cons (hst _ _ _ (by decide) (by decide) (hpa _)) ?_
    refine .cons .empty ?_
    refine .cons (hst _ _ _ (by decide) (by decide) h2) ?_
    refine .cons (hst _ _ _ (by decide) (by decide) h1) ?_
    refine .cons (hst _ _ _ (by decide) (by decide) h3) ?_
    refine .cons (hnu _ _ _ (by decide) (by decide) (formatUint_num _)) ?_
    refine .cons (hnu _ _ _ (by decide) (by decide) (formatUint_num _)) ?_
    refine .cons (hnu _ _ _ (by decide) (by decide) (formatUint_num _)) ?_
    refine .cons (hnu _ _ _ (by decide) (by decide) (hlib.chars _)) ?_
    refine .cons .empty (.cons (.comment _ (by decide +kernel)) ?_)
    refine .cons (hst _ _ _ (by decide) (by decide) (plain_key _)) ?_
    refine .cons (hst _ _ _ (by decide) (by decide) (plain_key _)) ?_
    refine .cons (hst _ _ _ (by decide) (by decide) (plain_seed _)) .nil
  have hfm : (none :: none :: none ::
        (((c.entries lib s e v).take 6).map some ++ (none :: ((((c.entries lib s e v).drop 6).take 7).map some ++
        (none :: none :: ((c.entries lib s e v).drop 13).map some))))).filterMap id = c.entries lib s e v := rfl
  have := parseToml_lines hg (by rw [hfm, show ((c.entries lib s e v).map Prod.fst) = keyNames.map (·.toList) from rfl]; decide +kernel)
  rw [this, hfm]

theorem decUint_format {n : Nat} (h : n < 2 ^ 63) : decUint (some (.num (formatUint n))) = some n := by
  have h1 : ¬ ((formatUint n).head? = some '0' ∧ formatUint n ≠ ['0']) := fun ⟨a, b⟩ => b (formatUint_head n a)
  simp only [decUint, h1, if_false, parseUint_formatUint n (by omega), Option.bind_some, h, if_true]

/-- What is read from the file, if the values of the keys are those of the file but for some. -/
theorem unmarshal_entries (lib : Lib F) (hlib : lib.Lawful) (c : KConfig F) (hc : c.Valid) {s e : Nat} {v : Bytes}
    (hs : c.signingKey = some s) (he : c.encryptionKey = some e) (hv : c.validatorSeed = some v) {src : String → Option TVal}
    (hsrc : ∀ n ∈ keyNames, src n = fromFile (c.entries lib s e v) n) : unmarshal lib src = some c := by
  have hn := entries_lowered lib c s e v
  obtain ⟨k1, hk1, hks⟩ := hc.signingKey
  obtain ⟨k2, hk2, hke⟩ := hc.encryptionKey
  obtain ⟨k3, hk3, hkv⟩ := hc.validatorSeed
  rw [hs] at hk1; cases hk1
  rw [he] at hk2; cases hk2
  rw [hv] at hk3; cases hk3
  have get : ∀ (name : String) (x : TVal), name ∈ keyNames → (name.toList, x) ∈ c.entries lib s e v → src name = some x :=
    fun name x hk hm => by rw [hsrc name hk, fromFile_mem hn hm]
  have addr : ∀ (name : String) (a : Addr), name ∈ keyNames → (name.toList, TVal.str (addressHex lib.cx a)) ∈ c.entries lib s e v →
      IsAddress a → decAddr lib.cx (src name) = some a := by
    intro name a hk hm ha
    rw [get name _ hk hm]
    exact (stringToAddress_iff lib.cx _ a).2 ⟨ha, rfl⟩
  have num : ∀ (name : String) (n : Nat), name ∈ keyNames → (name.toList, TVal.num (formatUint n)) ∈ c.entries lib s e v →
      n < 2 ^ 63 → decUint (src name) = some n := by
    intro name n hk hm hlt
    rw [get name _ hk hm, decUint_format hlt]
  have g1 : decText (src "ShuttermintURL") = some c.shuttermintURL := by
    rw [get "ShuttermintURL" (.str c.shuttermintURL) (by decide) (by simp [KConfig.entries])]; rfl
  have g2 : decText (src "EthereumURL") = some c.ethereumURL := by
    rw [get "EthereumURL" (.str c.ethereumURL) (by decide) (by simp [KConfig.entries])]; rfl
  have g3 : decText (src "DBDir") = some c.dbDir := by
    rw [get "DBDir" (.str c.dbDir) (by decide) (by simp [KConfig.entries])]; rfl
  have g4 : decKey (src "SigningKey") = some c.signingKey := by
    rw [get "SigningKey" (.str (keyText s)) (by decide) (by simp [KConfig.entries]), hs]
    simp only [decKey, (hexToECDSA_iff (keyText s) s).2 ⟨hks, lower_hex _⟩, Option.map_some]
  have g5 : decSeed (src "ValidatorSeed") = some c.validatorSeed := by
    rw [get "ValidatorSeed" (.str (seedText v)) (by decide) (by simp [KConfig.entries]), hv]
    simp only [decSeed, (stringToSeed_iff (seedText v) v).2 ⟨hkv, lower_hex _⟩, Option.map_some]
  have g6 : decKey (src "EncryptionKey") = some c.encryptionKey := by
    rw [get "EncryptionKey" (.str (keyText e)) (by decide) (by simp [KConfig.entries]), he]
    simp only [decKey, (hexToECDSA_iff (keyText e) e).2 ⟨hke, lower_hex _⟩, Option.map_some]
  have g7 : decFloat lib (src "GasPriceMultiplier") = some c.gasPriceMultiplier := by
    rw [get "GasPriceMultiplier" (.num (lib.showFloat c.gasPriceMultiplier)) (by decide) (by simp [KConfig.entries])]
    exact hlib.float _
  unfold unmarshal
  refine (bind_of g1 _).trans ?_
  refine (bind_of g2 _).trans ?_
  refine (bind_of g3 _).trans ?_
  refine (bind_of g4 _).trans ?_
  refine (bind_of g5 _).trans ?_
  refine (bind_of g6 _).trans ?_
  refine (bind_of (addr "ConfigContract" c.configContract (by decide) (by simp [KConfig.entries]) hc.configContract) _).trans ?_
  refine (bind_of (addr "BatcherContract" c.batcherContract (by decide) (by simp [KConfig.entries]) hc.batcherContract) _).trans ?_
  refine (bind_of (addr "KeyBroadcastContract" c.keyBroadcastContract (by decide) (by simp [KConfig.entries]) hc.keyBroadcastContract) _).trans ?_
  refine (bind_of (addr "ExecutorContract" c.executorContract (by decide) (by simp [KConfig.entries]) hc.executorContract) _).trans ?_
  refine (bind_of (addr "DepositContract" c.depositContract (by decide) (by simp [KConfig.entries]) hc.depositContract) _).trans ?_
  refine (bind_of (addr "KeyperSlasher" c.keyperSlasher (by decide) (by simp [KConfig.entries]) hc.keyperSlasher) _).trans ?_
  refine (bind_of (num "MainChainFollowDistance" c.mainChainFollowDistance (by decide) (by simp [KConfig.entries]) hc.mainChainFollowDistance) _).trans ?_
  refine (bind_of (num "ExecutionStaggering" c.executionStaggering (by decide) (by simp [KConfig.entries]) hc.executionStaggering) _).trans ?_
  refine (bind_of (num "DKGPhaseLength" c.dkgPhaseLength (by decide) (by simp [KConfig.entries]) hc.dkgPhaseLength) _).trans ?_
  refine (bind_of g7 _).trans ?_
  rfl

theorem decUint_str {n : Nat} (h : n < 2 ^ 63) : decUint (some (.str (formatUint n))) = some n := by
  have h1 : ¬ ((formatUint n).head? = some '0' ∧ formatUint n ≠ ['0']) := fun ⟨a, b⟩ => b (formatUint_head n a)
  simp only [decUint, h1, if_false, parseUint_formatUint n (by omega)]

theorem source_env {env : String → Text} {kvs : List (Text × TVal)} {n : String} (hb : n ∈ bound) (he : env n ≠ []) :
    source env kvs n = some (.str (env n)) := by
  unfold source; rw [if_pos ⟨hb, he⟩]

theorem source_file {env : String → Text} {kvs : List (Text × TVal)} {n : String} {v : TVal} (he : n ∉ bound ∨ env n = [])
    (hf : fromFile kvs n = some v) : source env kvs n = some v := by
  unfold source
  rw [if_neg (by rintro ⟨h1, h2⟩; rcases he with he | he
                 · exact he h1
                 · exact h2 he), hf]

theorem keyText_ne (d : Nat) : keyText d ≠ [] := by
  intro h; have := congrArg List.length h; simp [keyText, hexEncode_length] at this

theorem unmarshal_env (lib : Lib F) (hlib : lib.Lawful) (c c' : KConfig F) (hc : c.Valid) (hc' : c'.Valid) (S : String → Bool)
    (hsu : c'.shuttermintURL ≠ []) (heu : c'.ethereumURL ≠ []) {s e : Nat} {v : Bytes}
    (hs : c.signingKey = some s) (he : c.encryptionKey = some e) (hv : c.validatorSeed = some v) :
    unmarshal lib (source (envOf lib c' S) (c.entries lib s e v)) = some (overridden S c c') := by
  have hn := entries_lowered lib c s e v
  obtain ⟨k1, hk1, hks⟩ := hc.signingKey
  obtain ⟨k2, hk2, hke⟩ := hc.encryptionKey
  obtain ⟨k3, hk3, hkv⟩ := hc.validatorSeed
  rw [hs] at hk1; cases hk1
  rw [he] at hk2; cases hk2
  rw [hv] at hk3; cases hk3
  obtain ⟨s', hs', hks'⟩ := hc'.signingKey
  obtain ⟨e', he', hke'⟩ := hc'.encryptionKey
  obtain ⟨v', hv', hkv'⟩ := hc'.validatorSeed
  -- a key that can be set in the environment
  have env : ∀ (name : String) (x : TVal) (t : Text), name ∈ bound → (name.toList, x) ∈ c.entries lib s e v → t ≠ [] →
      (S name = true → envOf lib c' S name = t) →
      source (envOf lib c' S) (c.entries lib s e v) name = if S name then some (.str t) else some x := by
    intro name x t hb hm ht he
    by_cases hS : S name = true
    · rw [source_env hb (by rw [he hS]; exact ht), he hS, if_pos hS]
    · rw [source_file (.inr (by simp [envOf, hS])) (fromFile_mem hn hm), if_neg hS]
  have addr : ∀ (name : String) (a a' : Addr), name ∈ bound → (name.toList, TVal.str (addressHex lib.cx a)) ∈ c.entries lib s e v →
      (S name = true → envOf lib c' S name = addressHex lib.cx a') → IsAddress a → IsAddress a' →
      decAddr lib.cx (source (envOf lib c' S) (c.entries lib s e v) name) = some (if S name then a' else a) := by
    intro name a a' hb hm he ha ha'
    rw [env name _ _ hb hm (by simp [addressHex]) he]
    split
    · exact (stringToAddress_iff lib.cx _ a').2 ⟨ha', rfl⟩
    · exact (stringToAddress_iff lib.cx _ a).2 ⟨ha, rfl⟩
  have num : ∀ (name : String) (n n' : Nat), name ∈ bound → (name.toList, TVal.num (formatUint n)) ∈ c.entries lib s e v →
      (S name = true → envOf lib c' S name = formatUint n') → n < 2 ^ 63 → n' < 2 ^ 63 →
      decUint (source (envOf lib c' S) (c.entries lib s e v) name) = some (if S name then n' else n) := by
    intro name n n' hb hm he ha ha'
    rw [env name _ _ hb hm (formatUint_num _).1 he]
    split
    · exact decUint_str ha'
    · exact decUint_format ha
  have text : ∀ (name : String) (t t' : Text), name ∈ bound → (name.toList, TVal.str t) ∈ c.entries lib s e v → t' ≠ [] →
      (S name = true → envOf lib c' S name = t') →
      decText (source (envOf lib c' S) (c.entries lib s e v) name) = some (if S name then t' else t) := by
    intro name t t' hb hm ht he
    rw [env name _ _ hb hm ht he]
    split <;> rfl
  have key : ∀ (name : String) (k k' : Nat), name ∈ bound → (name.toList, TVal.str (keyText k)) ∈ c.entries lib s e v →
      (S name = true → envOf lib c' S name = keyText k') → IsKey k → IsKey k' →
      decKey (source (envOf lib c' S) (c.entries lib s e v) name) = some (if S name then some k' else some k) := by
    intro name k k' hb hm he hk hk'
    rw [env name _ _ hb hm (keyText_ne _) he]
    split
    · simp only [decKey, (hexToECDSA_iff (keyText k') k').2 ⟨hk', lower_hex _⟩, Option.map_some]
    · simp only [decKey, (hexToECDSA_iff (keyText k) k).2 ⟨hk, lower_hex _⟩, Option.map_some]
  have g1 := text "ShuttermintURL" c.shuttermintURL c'.shuttermintURL (by decide) (by simp [KConfig.entries]) hsu
    (fun h => by simp [envOf, h])
  have g2 := text "EthereumURL" c.ethereumURL c'.ethereumURL (by decide) (by simp [KConfig.entries]) heu
    (fun h => by simp [envOf, h])
  have g3 : decText (source (envOf lib c' S) (c.entries lib s e v) "DBDir") = some c.dbDir := by
    rw [source_file (v := .str c.dbDir) (.inl (by decide)) (fromFile_mem hn (by simp [KConfig.entries]))]; rfl
  have g4 := key "SigningKey" s s' (by decide) (by simp [KConfig.entries]) (fun h => by simp [envOf, h, hs']) hks hks'
  have g6 := key "EncryptionKey" e e' (by decide) (by simp [KConfig.entries]) (fun h => by simp [envOf, h, he']) hke hke'
  have g5 : decSeed (source (envOf lib c' S) (c.entries lib s e v) "ValidatorSeed") =
      some (if S "ValidatorSeed" then some v' else some v) := by
    rw [env "ValidatorSeed" (.str (seedText v)) (seedText v') (by decide) (by simp [KConfig.entries])
      (by intro h; have := congrArg List.length h; simp [seedText, hexEncode_length, hkv'] at this) (fun h => by simp [envOf, h, hv'])]
    split
    · simp only [decSeed, (stringToSeed_iff (seedText v') v').2 ⟨hkv', lower_hex _⟩, Option.map_some]
    · simp only [decSeed, (stringToSeed_iff (seedText v) v).2 ⟨hkv, lower_hex _⟩, Option.map_some]
  have g7 : decFloat lib (source (envOf lib c' S) (c.entries lib s e v) "GasPriceMultiplier") = some c.gasPriceMultiplier := by
    rw [source_file (v := .num (lib.showFloat c.gasPriceMultiplier)) (.inl (by decide)) (fromFile_mem hn (by simp [KConfig.entries]))]
    exact hlib.float _
  unfold unmarshal
  refine (bind_of g1 _).trans ?_
  refine (bind_of g2 _).trans ?_
  refine (bind_of g3 _).trans ?_
  refine (bind_of g4 _).trans ?_
  refine (bind_of g5 _).trans ?_
  refine (bind_of g6 _).trans ?_
  refine (bind_of (addr "ConfigContract" c.configContract c'.configContract (by decide) (by simp [KConfig.entries])
    (fun h => by simp [envOf, h]) hc.configContract hc'.configContract) _).trans ?_
  refine (bind_of (addr "BatcherContract" c.batcherContract c'.batcherContract (by decide) (by simp [KConfig.entries])
    (fun h => by simp [envOf, h]) hc.batcherContract hc'.batcherContract) _).trans ?_
  refine (bind_of (addr "KeyBroadcastContract" c.keyBroadcastContract c'.keyBroadcastContract (by decide) (by simp [KConfig.entries])
    (fun h => by simp [envOf, h]) hc.keyBroadcastContract hc'.keyBroadcastContract) _).trans ?_
  refine (bind_of (addr "ExecutorContract" c.executorContract c'.executorContract (by decide) (by simp [KConfig.entries])
    (fun h => by simp [envOf, h]) hc.executorContract hc'.executorContract) _).trans ?_
  refine (bind_of (addr "DepositContract" c.depositContract c'.depositContract (by decide) (by simp [KConfig.entries])
    (fun h => by simp [envOf, h]) hc.depositContract hc'.depositContract) _).trans ?_
  refine (bind_of (addr "KeyperSlasher" c.keyperSlasher c'.keyperSlasher (by decide) (by simp [KConfig.entries])
    (fun h => by simp [envOf, h]) hc.keyperSlasher hc'.keyperSlasher) _).trans ?_
  refine (bind_of (num "MainChainFollowDistance" c.mainChainFollowDistance c'.mainChainFollowDistance (by decide) (by simp [KConfig.entries])
    (fun h => by simp [envOf, h]) hc.mainChainFollowDistance hc'.mainChainFollowDistance) _).trans ?_
  refine (bind_of (num "ExecutionStaggering" c.executionStaggering c'.executionStaggering (by decide) (by simp [KConfig.entries])
    (fun h => by simp [envOf, h]) hc.executionStaggering hc'.executionStaggering) _).trans ?_
  refine (bind_of (num "DKGPhaseLength" c.dkgPhaseLength c'.dkgPhaseLength (by decide) (by simp [KConfig.entries])
    (fun h => by simp [envOf, h]) hc.dkgPhaseLength hc'.dkgPhaseLength) _).trans ?_
  refine (bind_of g7 _).trans ?_
  simp only [overridden, hs, he, hv, hs', he', hv']
  rfl

end Shutter.Files
