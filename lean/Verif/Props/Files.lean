import Verif.Proofs.FilesKeyper

/-!
# C90: The keypers run with the keys and contracts they were prepared for

What the commands write into files is what the other commands and the keypers read. Addresses must be written with their checksum;
everything else is refused.
-/

namespace Shutter.Files.Props
open Shutter.App Shutter.Events Shutter.Files

variable {F : Type}

/-! ## Addresses and keys as text -/

/-- An address is accepted, in the files of keypers as in JSON files, exactly in its form with checksum. -/
theorem C90_address (cx : Codecs) (s : Text) (a : Addr) :
    (stringToAddress cx s = some a ↔ IsAddress a ∧ s = addressHex cx a) ∧
    (readChecksum cx s = some a ↔ IsAddress a ∧ s = addressHex cx a) :=
  ⟨stringToAddress_iff cx s a, readChecksum_iff cx s a⟩

theorem lower_address (cx : Codecs) (a : Addr) : (addressHex cx a).map Char.toLower = '0' :: 'x' :: hexEncode a := by
  have h : hexDecodeGo (cased cx a) = (a, true) := by rw [hexDecodeGo_congr (cased_vals cx a), hexDecodeGo_encode]
  rw [addressHex_eq, List.map_cons, List.map_cons, (hexDecodeGo_iff _ _).1 h]
  rfl

/-- An address with a letter in the wrong case is refused. -/
theorem C90_address_case (cx : Codecs) (a : Addr) (s : Text) (hcase : s.map Char.toLower = (addressHex cx a).map Char.toLower)
    (hne : s ≠ addressHex cx a) : stringToAddress cx s = none ∧ readChecksum cx s = none := by
  have key : ∀ a', s = addressHex cx a' → False := by
    intro a' hs
    rw [hs, lower_address, lower_address] at hcase
    simp only [List.cons.injEq, true_and] at hcase
    rw [hexEncode_inj hcase] at hs
    exact hne hs
  constructor
  · cases h : stringToAddress cx s with
    | none => rfl
    | some a' => exact absurd ((stringToAddress_iff cx s a').1 h).2 (key a')
  · cases h : readChecksum cx s with
    | none => rfl
    | some a' => exact absurd ((readChecksum_iff cx s a').1 h).2 (key a')

/-- A key is accepted exactly as the 64 hexadecimal digits (of either case) of a number that is a key, a seed of a validator key
as its 32 bytes. -/
theorem C90_key (s : Text) :
    (∀ d, hexToECDSA s = some d ↔ (0 < d ∧ d < Ecdsa.order) ∧ s.map Char.toLower = keyText d) ∧
    (∀ b, stringToSeed s = some b ↔ b.length = 32 ∧ s.map Char.toLower = hexEncode b) :=
  ⟨fun d => hexToECDSA_iff s d, fun b => stringToSeed_iff s b⟩

/-- The digits of a key: 64 of them, and different ones for different keys. -/
theorem C90_key_text (d : Nat) : (keyText d).length = 64 ∧
    ∀ d', 0 < d ∧ d < Ecdsa.order → 0 < d' ∧ d' < Ecdsa.order → keyText d = keyText d' → d = d' := by
  refine ⟨by simp [keyText, hexEncode_length], fun d' h h' he => ?_⟩
  have h1 := (hexToECDSA_iff (keyText d) d).2 ⟨h, lower_hex _⟩
  have h2 := (hexToECDSA_iff (keyText d') d').2 ⟨h', lower_hex _⟩
  rw [he, h2] at h1
  exact (Option.some.inj h1).symm

/-! ## contracts.json and config.json -/

/-- contracts.json: the addresses that were saved are those that are loaded, and whatever is loaded consists of addresses. -/
theorem C90_contracts (cx : Codecs) (c : Contracts) (h : c.Valid) :
    Contracts.load cx (c.save cx) = some c ∧ ∀ t c', Contracts.load cx t = some c' → c'.Valid :=
  ⟨contracts_load_save cx c h, fun _ _ => contracts_load_valid⟩

/-- config.json: a config is read as it was written if its threshold lies between one and the number of keypers, and refused
otherwise. Whatever is read is such a config, and the operator's command takes it as it is (`Operator.readFile`, C87). -/
theorem C90_config (cx : Codecs) (c : FileConfig) (h : c.Typed) :
    (c.Sensible → FileConfig.load cx (c.save cx) = some c) ∧
    (¬ c.Sensible → FileConfig.load cx (c.save cx) = none) ∧
    (∀ t c', FileConfig.load cx t = some c' → c'.Typed ∧ c'.Sensible ∧ Operator.readFile c'.toSol = some c'.toSol) := by
  have hl := fileConfig_load_save cx c h
  refine ⟨fun hs => ?_, fun hs => ?_, fun t c' hc' => ?_⟩
  · rw [hl, if_pos ((validateThreshold_iff _ _).2 hs)]
  · rw [hl, if_neg (fun hv => hs ((validateThreshold_iff _ _).1 hv))]
  · obtain ⟨h1, h2⟩ := fileConfig_load_typed hc'
    refine ⟨h1, h2, ?_⟩
    unfold Operator.readFile
    rw [if_pos]
    simpa [FileConfig.toSol] using (validateThreshold_iff _ _).2 h2

/-! ## The file of a keyper -/

theorem write_valid (lib : Lib F) (c : KConfig F) {file : Text} (h : c.write lib = some file) :
    ∃ s e v, c.signingKey = some s ∧ c.encryptionKey = some e ∧ c.validatorSeed = some v ∧
      file = (c.lines lib s e v).flatMap (fun l => l ++ ['\n']) := by
  unfold KConfig.write at h
  split at h
  · next s e v hs he hv => exact ⟨s, e, v, hs, he, hv, by simpa using h.symm⟩
  · cases h

theorem source_noEnv {kvs : List (Text × TVal)} {n : String} {v : TVal} (h : fromFile kvs n = some v) :
    source noEnv kvs n = fromFile kvs n := by rw [source_file (.inr rfl) h, h]

theorem entries_some (lib : Lib F) (c : KConfig F) (s e : Nat) (v : Bytes) {n : String} (hn : n ∈ keyNames) :
    ∃ x, fromFile (c.entries lib s e v) n = some x := by
  have h1 : n.toList ∈ (c.entries lib s e v).map (·.1) := by rw [entries_names]; exact List.mem_map.2 ⟨n, hn, rfl⟩
  obtain ⟨⟨k, x⟩, hm, hk⟩ := List.mem_map.1 h1
  simp only at hk; subst hk
  exact ⟨x, fromFile_mem (entries_lowered lib c s e v) hm⟩

/-- A keyper that is started with the file written for a config, and no variables set in its environment, has this config; the
directory for its state is relative to the file. `unfund` takes the same signing key from the file. -/
theorem C90_keyper (lib : Lib F) (hlib : lib.Lawful) (c : KConfig F) (hc : c.Valid) (hws : isWebsocketURL c.ethereumURL = true)
    (hm : lib.negative c.gasPriceMultiplier = false) :
    ∃ file k, c.write lib = some file ∧ c.signingKey = some k ∧ readKeyFromConfig lib file = some (some k) ∧
      ∀ path, keyperMain lib noEnv path file =
        .runs { c with dbDir := if c.dbDir.head? = some '/' then c.dbDir else lib.inDirOf path c.dbDir } (lib.addressOf k) := by
  obtain ⟨s, hs, hks⟩ := hc.signingKey
  obtain ⟨e, he, hke⟩ := hc.encryptionKey
  obtain ⟨v, hv, hkv⟩ := hc.validatorSeed
  have hw : c.write lib = some ((c.lines lib s e v).flatMap (fun l => l ++ ['\n'])) := by
    unfold KConfig.write; rw [hs, he, hv]
  have hp := lines_good lib hlib c s e v hc.shuttermintURL hc.ethereumURL hc.dbDir
  refine ⟨_, s, hw, hs, ?_, ?_⟩
  · unfold readKeyFromConfig
    refine (bind_of hp _).trans ?_
    refine (bind_of (unmarshal_entries lib hlib c hc hs he hv (fun _ _ => rfl)) _).trans ?_
    show some c.signingKey = _
    rw [hs]
  · intro path
    have hu := unmarshal_entries lib hlib c hc hs he hv (src := source noEnv (c.entries lib s e v))
      (fun n hn => by obtain ⟨x, hx⟩ := entries_some lib c s e v hn; exact source_noEnv hx)
    have hr : readKeyper lib noEnv path ((c.lines lib s e v).flatMap (fun l => l ++ ['\n'])) =
        some { c with dbDir := if c.dbDir.head? = some '/' then c.dbDir else lib.inDirOf path c.dbDir } := by
      unfold readKeyper
      refine (bind_of hp _).trans ?_
      refine (bind_of hu _).trans ?_
      by_cases hd : c.dbDir.head? = some '/'
      · simp only [hd, if_true, hws]
      · simp only [hd, if_false, hws, if_true]
    unfold keyperMain
    rw [hr]
    simp only [hm, hs, Bool.false_eq_true, if_false]

/-- Variables of the environment take precedence over the file, each for its own key, whichever of them are set; the multiplier of
the gas price and the directory can only be set in the file. -/
theorem C90_environment (lib : Lib F) (hlib : lib.Lawful) (c c' : KConfig F) (hc : c.Valid) (hc' : c'.Valid)
    (S : String → Bool) (hsu : c'.shuttermintURL ≠ []) (hws : isWebsocketURL c.ethereumURL = true)
    (hws' : isWebsocketURL c'.ethereumURL = true) :
    ∃ file, c.write lib = some file ∧
      ∀ path, readKeyper lib (envOf lib c' S) path file = some (located lib path (overridden S c c')) := by
  obtain ⟨s, hs, hks⟩ := hc.signingKey
  obtain ⟨e, he, hke⟩ := hc.encryptionKey
  obtain ⟨v, hv, hkv⟩ := hc.validatorSeed
  have heu : c'.ethereumURL ≠ [] := by intro h; rw [h] at hws'; revert hws'; decide +kernel
  have hw : c.write lib = some ((c.lines lib s e v).flatMap (fun l => l ++ ['\n'])) := by
    unfold KConfig.write; rw [hs, he, hv]
  refine ⟨_, hw, fun path => ?_⟩
  unfold readKeyper
  refine (bind_of (lines_good lib hlib c s e v hc.shuttermintURL hc.ethereumURL hc.dbDir) _).trans ?_
  refine (bind_of (unmarshal_env lib hlib c c' hc hc' S hsu heu hs he hv) _).trans ?_
  have hweb : isWebsocketURL (overridden S c c').ethereumURL = true := by
    simp only [overridden]; split
    · exact hws'
    · exact hws
  unfold located
  by_cases hd : (overridden S c c').dbDir.head? = some '/'
  · simp only [hd, if_true, hweb]
  · simp only [hd, if_false, hweb, if_true]

/-- Whatever file and environment a keyper accepts: its signing key and the addresses of the contracts are those written there, the
address in the form with checksum, or not written there at all. -/
theorem C90_accepted (lib : Lib F) (env : String → Text) (path file : Text) (c : KConfig F)
    (h : readKeyper lib env path file = some c) :
    isWebsocketURL c.ethereumURL = true ∧
    ∃ kvs, parseToml file = some kvs ∧
      (∀ k, c.signingKey = some k → ∃ t, source env kvs "SigningKey" = some (.str t) ∧ IsKey k ∧ t.map Char.toLower = keyText k) ∧
      (c.signingKey = none → source env kvs "SigningKey" = none) ∧
      ∀ p ∈ [("ConfigContract", c.configContract), ("BatcherContract", c.batcherContract),
          ("KeyBroadcastContract", c.keyBroadcastContract), ("ExecutorContract", c.executorContract),
          ("DepositContract", c.depositContract), ("KeyperSlasher", c.keyperSlasher)],
        source env kvs p.1 = some (.str (addressHex lib.cx p.2)) ∨ (source env kvs p.1 = none ∧ p.2 = zeroAddr) := by
  unfold readKeyper at h
  obtain ⟨kvs, hk, h⟩ := Option.bind_eq_some_iff.1 h
  obtain ⟨c0, hu, h⟩ := Option.bind_eq_some_iff.1 h
  have hc : isWebsocketURL c.ethereumURL = true ∧ ∃ d, c = { c0 with dbDir := d } := by
    by_cases hd : c0.dbDir.head? = some '/'
    · simp only [hd, if_true] at h
      split at h
      · next hw => cases h; exact ⟨hw, _, rfl⟩
      · cases h
    · simp only [hd, if_false] at h
      split at h
      · next hw => cases h; exact ⟨hw, _, rfl⟩
      · cases h
  obtain ⟨hw, d, rfl⟩ := hc
  refine ⟨hw, kvs, hk, ?_⟩
  unfold unmarshal at hu
  obtain ⟨x1, -, hu⟩ := Option.bind_eq_some_iff.1 hu
  obtain ⟨x2, -, hu⟩ := Option.bind_eq_some_iff.1 hu
  obtain ⟨x3, -, hu⟩ := Option.bind_eq_some_iff.1 hu
  obtain ⟨x4, h4, hu⟩ := Option.bind_eq_some_iff.1 hu
  obtain ⟨x5, -, hu⟩ := Option.bind_eq_some_iff.1 hu
  obtain ⟨x6, -, hu⟩ := Option.bind_eq_some_iff.1 hu
  obtain ⟨x7, h7, hu⟩ := Option.bind_eq_some_iff.1 hu
  obtain ⟨x8, h8, hu⟩ := Option.bind_eq_some_iff.1 hu
  obtain ⟨x9, h9, hu⟩ := Option.bind_eq_some_iff.1 hu
  obtain ⟨x10, h10, hu⟩ := Option.bind_eq_some_iff.1 hu
  obtain ⟨x11, h11, hu⟩ := Option.bind_eq_some_iff.1 hu
  obtain ⟨x12, h12, hu⟩ := Option.bind_eq_some_iff.1 hu
  obtain ⟨x13, -, hu⟩ := Option.bind_eq_some_iff.1 hu
  obtain ⟨x14, -, hu⟩ := Option.bind_eq_some_iff.1 hu
  obtain ⟨x15, -, hu⟩ := Option.bind_eq_some_iff.1 hu
  obtain ⟨x16, -, hu⟩ := Option.bind_eq_some_iff.1 hu
  cases hu
  have addr : ∀ {n : String} {a : Addr}, decAddr lib.cx (source env kvs n) = some a →
      source env kvs n = some (.str (addressHex lib.cx a)) ∨ (source env kvs n = none ∧ a = zeroAddr) := by
    intro n a ha
    cases hsrc : source env kvs n with
    | none => rw [hsrc] at ha; exact .inr ⟨rfl, (Option.some.inj ha).symm⟩
    | some x =>
      rw [hsrc] at ha
      cases x with
      | str s => rw [((stringToAddress_iff lib.cx s a).1 ha).2]; exact .inl rfl
      | num s => cases ha
  refine ⟨?_, ?_, ?_⟩
  · intro k hx
    simp only at hx; subst hx
    cases hsrc : source env kvs "SigningKey" with
    | none => rw [hsrc] at h4; cases h4
    | some x =>
      rw [hsrc] at h4
      cases x with
      | str s =>
        simp only [decKey, Option.map_eq_some_iff, Option.some.injEq] at h4
        obtain ⟨k', hk', rfl⟩ := h4
        exact ⟨s, rfl, (hexToECDSA_iff s k').1 hk'⟩
      | num s => cases h4
  · intro hx
    simp only at hx; subst hx
    cases hsrc : source env kvs "SigningKey" with
    | none => rfl
    | some x =>
      rw [hsrc] at h4
      cases x with
      | str s => simp [decKey] at h4
      | num s => cases h4
  · intro p hp
    simp only [List.mem_cons, List.not_mem_nil, or_false] at hp
    rcases hp with rfl | rfl | rfl | rfl | rfl | rfl
    · exact addr h7
    · exact addr h8
    · exact addr h9
    · exact addr h10
    · exact addr h11
    · exact addr h12

/-! ## The command that prepares the files -/

theorem mapM_some {α β : Type} {f : α → Option β} {g : α → β} : ∀ {l : List α}, (∀ a ∈ l, f a = some (g a)) →
    l.mapM f = some (l.map g)
  | [], _ => rfl
  | a :: l, h => by
    have ih := mapM_some (f := f) (g := g) (l := l) (fun b hb => h b (List.mem_cons_of_mem _ hb))
    simp [List.mapM_cons, h a (by simp), ih]

/-- From the file that was written when the contracts were deployed, `prepare configs` makes files with which each keyper runs with
its own keys, its own address, and the contracts that were deployed; and config.json with exactly these keypers in their order, a
threshold of two thirds of them, rounded up, and the target that was deployed. Config.json is accepted by the other commands. -/
theorem C90_prepare (lib : Lib F) (hlib : lib.Lawful) (cs : Contracts) (hcs : cs.Valid) (keys : List Keys) (hne : keys ≠ [])
    (hkeys : ∀ k ∈ keys, k.Valid) (hsize : keys.length < 2 ^ 62) (ethereumURL shuttermintURL : Text) (he : Plain ethereumURL)
    (hs : Plain shuttermintURL) (hws : isWebsocketURL ethereumURL = true) (multiplier : F)
    (hm : lib.negative multiplier = false) :
    ∃ files json, prepare lib ethereumURL shuttermintURL multiplier (cs.save lib.cx) keys = some (files, json) ∧
      files.length = keys.length ∧
      (∀ (i : Nat) (k : Keys) (f : Text), keys[i]? = some k → files[i]? = some f →
        readKeyFromConfig lib f = some (some k.signing) ∧
        ∀ path, keyperMain lib noEnv path f = .runs
          { shuttermintURL := shuttermintURL, ethereumURL := ethereumURL, dbDir := lib.inDirOf path [],
            signingKey := some k.signing, validatorSeed := some k.seed, encryptionKey := some k.encryption,
            configContract := cs.config, batcherContract := cs.batcher, keyBroadcastContract := cs.keyBroadcast,
            executorContract := cs.executor, depositContract := cs.deposit, keyperSlasher := cs.slasher,
            mainChainFollowDistance := 0, executionStaggering := 5, dkgPhaseLength := 30,
            gasPriceMultiplier := multiplier } (lib.addressOf k.signing)) ∧
      ∃ bc, FileConfig.load lib.cx json = some bc ∧ Operator.readFile bc.toSol = some bc.toSol ∧
        bc.keypers = keys.map (fun k => lib.addressOf k.signing) ∧ bc.targetAddress = cs.target ∧
        2 * keys.length ≤ 3 * bc.threshold ∧ 3 * bc.threshold < 2 * keys.length + 3 := by
  have hval : ∀ k ∈ keys, (newConfig ethereumURL shuttermintURL multiplier cs k).Valid := by
    intro k hk
    obtain ⟨h1, h2, h3⟩ := hkeys k hk
    obtain ⟨c1, c2, c3, c4, c5, c6, c7, c8, c9, c10⟩ := hcs
    exact { shuttermintURL := hs, ethereumURL := he, dbDir := by intro c hc; simp [newConfig] at hc,
            signingKey := ⟨_, rfl, h1⟩, encryptionKey := ⟨_, rfl, h2⟩, validatorSeed := ⟨_, rfl, h3⟩,
            configContract := c1, batcherContract := c4, keyBroadcastContract := c2, executorContract := c5,
            depositContract := c7, keyperSlasher := c8, mainChainFollowDistance := by simp [newConfig],
            executionStaggering := by simp [newConfig], dkgPhaseLength := by simp [newConfig] }
  let g : Keys → Text := fun k =>
    ((newConfig ethereumURL shuttermintURL multiplier cs k).lines lib k.signing k.encryption k.seed).flatMap (fun l => l ++ ['\n'])
  have hw : ∀ k ∈ keys, (newConfig ethereumURL shuttermintURL multiplier cs k).write lib = some (g k) := fun k _ => rfl
  refine ⟨keys.map g, (generatedConfig cs (keys.map (fun k => lib.addressOf k.signing))).save lib.cx, ?_, by simp, ?_, ?_⟩
  · unfold prepare
    rw [if_neg hne]
    refine (bind_of (contracts_load_save lib.cx cs hcs) _).trans ?_
    exact (bind_of (mapM_some hw) _).trans rfl
  · intro i k f hk hf
    rw [List.getElem?_map, hk] at hf
    have hkm := List.mem_of_getElem? hk
    obtain ⟨file, s, h1, h2, h3, h4⟩ := C90_keyper lib hlib _ (hval k hkm) hws hm
    rw [hw k hkm] at h1
    cases h1
    cases hf
    cases h2
    exact ⟨h3, h4⟩
  · have htyp : (generatedConfig cs (keys.map (fun k => lib.addressOf k.signing))).Typed := by
      refine ⟨by simp [Uint64, generatedConfig], by simp [Uint64, generatedConfig], ?_, ?_, by simp [Uint64, generatedConfig], by simp [Uint64, generatedConfig],
        by simp [Uint64, generatedConfig], by simp [Uint64, generatedConfig], by simp [IsAddress, generatedConfig], hcs.2.2.2.2.2.2.2.2.2, rfl,
        by simp [Uint64, generatedConfig]⟩
      · intro k hk
        obtain ⟨x, -, rfl⟩ := List.mem_map.1 hk
        exact hlib.address _
      · show (2 * _ + 2) / 3 < 2 ^ 64
        rw [List.length_map]; omega
    have hlen : 1 ≤ keys.length := by
      cases keys with
      | nil => exact absurd rfl hne
      | cons k l => simp
    have hsens : (generatedConfig cs (keys.map (fun k => lib.addressOf k.signing))).Sensible := by
      refine ⟨?_, ?_⟩
      · show 1 ≤ (2 * _ + 2) / 3
        rw [List.length_map]; omega
      · show (2 * _ + 2) / 3 ≤ (keys.map _).length
        rw [List.length_map]; omega
    obtain ⟨h1, -, h3⟩ := C90_config lib.cx _ htyp
    refine ⟨_, h1 hsens, (h3 _ _ (h1 hsens)).2.2, rfl, rfl, ?_, ?_⟩
    · show 2 * keys.length ≤ 3 * ((2 * _ + 2) / 3)
      rw [List.length_map]; omega
    · show 3 * ((2 * _ + 2) / 3) < _
      rw [List.length_map]; omega

/-! ## Concrete cases -/

namespace Demo

def cx : Codecs := ⟨fun a i => a.length = 20 && i % 3 = 0, fun _ => [], fun _ => none, fun _ => none, fun _ => none, fun _ => none⟩

/-- Two numbers: one and a half, and zero. -/
def lib : Lib Bool :=
  { cx := cx
    showFloat := fun b => if b then ['1', '.', '5'] else ['0']
    readFloat := fun t => if t = ['1', '.', '5'] then some true else if t = ['0'] then some false else none
    zero := false
    negative := fun _ => false
    addressOf := fun k => Sol.World.beBytes k 20
    inDirOf := fun path p => path ++ p }

theorem lawful : lib.Lawful where
  float := by decide
  chars := by decide
  address := fun k => Crypto.beBytes_length k 20

def addr (n : Nat) : Addr := Sol.World.beBytes n 20

def cs : Contracts := ⟨addr 0xabcdef01, addr 2, addr 3, addr 4, addr 5, addr 6, addr 7, addr 8, addr 9, addr 10⟩

def keys : List Keys := [⟨1, 2, List.replicate 32 7⟩, ⟨3, 4, List.replicate 32 8⟩, ⟨5, 6, List.replicate 32 9⟩]

def url : Text := "ws://localhost:8545".toList
def surl : Text := "http://localhost:26657".toList

theorem cs_valid : cs.Valid := by
  simp [Contracts.Valid, IsAddress, cs, addr, Crypto.beBytes_length]

theorem keys_valid : ∀ k ∈ keys, k.Valid := by
  intro k hk
  simp only [keys, List.mem_cons, List.not_mem_nil, or_false] at hk
  rcases hk with rfl | rfl | rfl <;> exact ⟨⟨by decide, by decide⟩, ⟨by decide, by decide⟩, rfl⟩

end Demo

open Demo in
/-- The hypotheses of `C90_prepare` are met by three keypers, whose config.json has threshold two. -/
theorem C90_example : ∃ files json bc, prepare lib url surl true (cs.save lib.cx) keys = some (files, json) ∧ files.length = 3 ∧
    FileConfig.load lib.cx json = some bc ∧ bc.threshold = 2 ∧ bc.keypers = [addr 1, addr 3, addr 5] := by
  obtain ⟨files, json, h1, h2, -, bc, h4, -, h6, -, h8, h9⟩ := C90_prepare lib lawful cs cs_valid keys (by decide) keys_valid (by decide)
    url surl (by decide +kernel) (by decide +kernel) (by decide +kernel) true rfl
  refine ⟨files, json, bc, h1, h2, h4, ?_, h6⟩
  have : keys.length = 3 := rfl
  omega

/-- A keyper runs only with a signing key, and a multiplier of the gas price that is not negative. -/
theorem C90_runs (lib : Lib F) (env : String → Text) {path file : Text} {c : KConfig F} {who : Addr} (h : keyperMain lib env path file = .runs c who) :
    readKeyper lib env path file = some c ∧ lib.negative c.gasPriceMultiplier = false ∧ ∃ k, c.signingKey = some k ∧ who = lib.addressOf k := by
  unfold keyperMain at h
  split at h
  · cases h
  · next c' hc' =>
    split at h
    · cases h
    · next hn =>
      split at h
      · cases h
      · next k hk =>
        cases h
        exact ⟨hc', by simpa using hn, k, hk, rfl⟩

open Demo in
/-- The command that prepares the files takes any URL. With a backslash in it the keyper reads another one. -/
theorem C90_backslash_counterexample :
    ∃ files json f c, prepare lib "ws://h/a\\b".toList surl true (cs.save lib.cx) [⟨1, 2, List.replicate 32 7⟩] = some (files, json) ∧
      files = [f] ∧ readKeyper lib noEnv [] f = some c ∧ c.ethereumURL = "ws://h/a\x08".toList ∧
      c.ethereumURL ≠ "ws://h/a\\b".toList := by
  have hc := contracts_load_save lib.cx cs cs_valid
  let nc := newConfig "ws://h/a\\b".toList surl true cs ⟨1, 2, List.replicate 32 7⟩
  let f := (nc.lines lib 1 2 (List.replicate 32 7)).flatMap (fun l => l ++ ['\n'])
  have hr : (readKeyper lib noEnv [] f).map (·.ethereumURL) = some "ws://h/a\x08".toList := by decide +kernel
  rw [Option.map_eq_some_iff] at hr
  obtain ⟨c, hr, hu⟩ := hr
  refine ⟨[f], (generatedConfig cs [lib.addressOf 1]).save lib.cx, f, c, ?_, rfl, hr, hu, ?_⟩
  · unfold prepare
    rw [if_neg (by simp)]
    exact (bind_of hc _).trans rfl
  · rw [hu]; decide +kernel

open Demo in
/-- Without an Ethereum URL (the flag is optional) the command makes files that no keyper accepts. -/
theorem C90_no_url_counterexample :
    ∃ files json f, prepare lib [] surl true (cs.save lib.cx) [⟨1, 2, List.replicate 32 7⟩] = some (files, json) ∧
      files = [f] ∧ keyperMain lib noEnv [] f = .refused := by
  have hc := contracts_load_save lib.cx cs cs_valid
  let nc := newConfig [] surl true cs ⟨1, 2, List.replicate 32 7⟩
  let f := (nc.lines lib 1 2 (List.replicate 32 7)).flatMap (fun l => l ++ ['\n'])
  refine ⟨[f], (generatedConfig cs [lib.addressOf 1]).save lib.cx, f, ?_, rfl, by decide +kernel⟩
  unfold prepare
  rw [if_neg (by simp)]
  exact (bind_of hc _).trans rfl

open Demo in
/-- What is missing in the file of a keyper is not reported: with nothing but its key and a URL in the file it runs, pays a gas price of
zero, and calls contracts at address zero. -/
theorem C90_missing_counterexample :
    ∃ c, keyperMain lib noEnv [] ("EthereumURL = \"ws://h\"\nSigningKey = \"".toList ++ (keyText 1 ++ "\"\n".toList)) = .runs c (addr 1) ∧
      c.gasPriceMultiplier = lib.zero ∧ c.executorContract = zeroAddr ∧ c.configContract = zeroAddr := by
  let t := "EthereumURL = \"ws://h\"\nSigningKey = \"".toList ++ (keyText 1 ++ "\"\n".toList)
  have h : ∃ c, readKeyper lib noEnv [] t = some c ∧ c.gasPriceMultiplier = lib.zero ∧ c.executorContract = zeroAddr ∧
      c.configContract = zeroAddr ∧ c.signingKey = some 1 := by
    have : (readKeyper lib noEnv [] t).any (fun c => decide (c.gasPriceMultiplier = lib.zero ∧ c.executorContract = zeroAddr ∧
      c.configContract = zeroAddr ∧ c.signingKey = some 1)) = true := by decide +kernel
    rw [Option.any_eq_true] at this
    obtain ⟨c, h1, h2⟩ := this
    exact ⟨c, h1, by simpa using h2⟩
  obtain ⟨c, h1, h2, h3, h4, h5⟩ := h
  refine ⟨c, ?_, h2, h3, h4⟩
  show keyperMain lib noEnv [] t = _
  unfold keyperMain
  rw [h1]
  simp only [h5]
  rfl

end Shutter.Files.Props
