import Verif.Proofs.Init
import Verif.Props.Bootstrap

/-!
# C100: `init` makes nodes that can run side by side, and can be run again

For all directories, options, random keys, ways to scale the timeouts, and moments of a crash.
-/

namespace Shutter.Init.Props

open Spec
open Shutter.App (Bytes Addr InitRequest)

variable {ganache : Addr} {std scaled : List Nat} {valid : TmConfig → Bool} {fl : Flags} {f : Fresh} {d : Dir}

theorem initFiles_eq (n : Nat) : initFiles ganache std scaled valid fl f n d = (keypersOf ganache fl).bind fun ks =>
    (configOf scaled fl).bind fun c => if valid c then (runStages ((stages std c ks fl f).take n) (d, false)).map (·.1) else none := rfl

/-- The node with the index i listens at port 26657 + 2i for its operator and at 26656 + 2i for other nodes, whatever else is
configured. -/
theorem C100_ports (hi : 0 ≤ 26656 + 2 * fl.index) {c : TmConfig} (h : configOf scaled fl = some c) :
    PortOf c.rpc (26657 + 2 * fl.index).toNat ∧ PortOf c.p2p (26656 + 2 * fl.index).toNat := by
  rw [config_eq scaled fl hi] at h
  cases h
  exact ⟨⟨_, rfl, format_digits _⟩, ⟨_, rfl, format_digits _⟩⟩

/-- Nodes of different indices have no port in common, and the two ports of a node are different. -/
theorem C100_disjoint {fl' : Flags} (hi : 0 ≤ 26656 + 2 * fl.index) (hi' : 0 ≤ 26656 + 2 * fl'.index) {scaled' : List Nat}
    {c c' : TmConfig} (h : configOf scaled fl = some c) (h' : configOf scaled' fl' = some c') :
    (fl.index ≠ fl'.index → ∀ a ∈ [c.rpc, c.p2p], ∀ b ∈ [c'.rpc, c'.p2p], ∀ p, ¬ (PortOf a p ∧ PortOf b p)) ∧
    ∀ p, ¬ (PortOf c.rpc p ∧ PortOf c.p2p p) := by
  obtain ⟨r, q⟩ := C100_ports hi h
  obtain ⟨r', q'⟩ := C100_ports hi' h'
  refine ⟨fun hne a ha b hb p hp => ?_, fun p hp => ?_⟩
  · simp only [List.mem_cons, List.not_mem_nil, or_false] at ha hb
    rcases ha with rfl | rfl <;> rcases hb with rfl | rfl
    · have := port_unique hp.1 r; have := port_unique hp.2 r'; omega
    · have := port_unique hp.1 r; have := port_unique hp.2 q'; omega
    · have := port_unique hp.1 q; have := port_unique hp.2 r'; omega
    · have := port_unique hp.1 q; have := port_unique hp.2 q'; omega
  · have := port_unique hp.1 r
    have := port_unique hp.2 q
    omega

theorem full (ks : List Addr) (c : TmConfig) {n : Nat} (hn : 7 ≤ n) : (stages std c ks fl f).take n = stages std c ks fl f :=
  List.take_of_length_le (by simpa [stages] using hn)

/-- When the command was successful, all files are there; the validator key, the node key and the genesis that were there before are
unchanged, and the config is the one for these options. -/
theorem C100_files (n : Nat) (hn : 7 ≤ n) {d' : Dir} (h : initFiles ganache std scaled valid fl f n d = some d') :
    Complete d' ∧ Kept d d' ∧ d'.config = configOf scaled fl := by
  rw [initFiles_eq] at h
  cases hk : keypersOf ganache fl with
  | none => simp [hk] at h
  | some ks =>
    cases hc : configOf scaled fl with
    | none => simp [hk, hc] at h
    | some c =>
      simp only [hk, hc, Option.bind_some] at h
      split at h
      · rw [full ks c hn] at h
        by_cases hs : d.key.isSome = true → d.signState = true
        · rw [stages_eq std c ks fl f d hs] at h
          cases h
          refine ⟨⟨rfl, by simp, rfl, by simp, by simp, rfl⟩, ⟨fun k e => ?_, fun k e => ?_, fun g e => ?_⟩, rfl⟩
          · show d.key.or _ = _; rw [e]; rfl
          · show d.nodeKey.or _ = _; rw [e]; rfl
          · show d.genesis.or _ = _; rw [e]; rfl
        · simp only [Classical.not_imp, Bool.not_eq_true] at hs
          rw [stages_none std c ks fl f d hs.1 hs.2] at h
          cases h
      · cases h

/-- The command fails only if a genesis keyper is no address, the config for these options is not valid, or there is a validator key
without the file that goes with it. -/
theorem C100_fails : initFiles ganache std scaled valid fl f 7 d = none ↔
    (∃ a ∈ fl.genesisKeypers, Events.isHexAddress a = false) ∨ (∀ c, configOf scaled fl = some c → valid c = false) ∨
      (d.key.isSome = true ∧ d.signState = false) := by
  have hks : keypersOf ganache fl = none ↔ ∃ a ∈ fl.genesisKeypers, Events.isHexAddress a = false := by
    unfold keypersOf
    rw [Option.map_eq_none_iff]
    generalize fl.genesisKeypers = l
    induction l with
    | nil => simp
    | cons a l ih =>
      rw [List.mapM_cons]
      cases ha : Events.isHexAddress a with
      | false => simp [ha]
      | true =>
        simp only [if_true, List.mem_cons, exists_eq_or_imp, ha, Bool.true_eq_false, false_or]
        rw [← ih]
        simp only [Option.pure_def, Option.bind_eq_bind, Option.bind_some]
        cases List.mapM (fun a => if Events.isHexAddress a = true then some (Events.hexToAddress a) else none) l <;> simp
  rw [initFiles_eq, ← hks]
  cases hk : keypersOf ganache fl with
  | none => simp
  | some ks =>
    cases hc : configOf scaled fl with
    | none => simp
    | some c =>
      simp only [Option.bind_some, reduceCtorEq, false_or, Option.some.injEq, forall_eq']
      cases hv : valid c with
      | false => simp
      | true =>
        simp only [if_true, Bool.true_eq_false, false_or, full ks c (Nat.le_refl 7)]
        by_cases hs : d.key.isSome = true → d.signState = true
        · rw [stages_eq std c ks fl f d hs]
          simp only [reduceCtorEq, false_iff]
          rintro ⟨a, b⟩
          rw [hs a] at b
          cases b
        · simp only [Classical.not_imp, Bool.not_eq_true] at hs
          rw [stages_none std c ks fl f d hs.1 hs.2]
          simp [hs]

/-- Run again with the same options, whatever is drawn at random then, the command changes nothing (if nobody has changed the files
meanwhile: see `C100_reset_counterexample`). -/
theorem C100_again {d' : Dir} (h : initFiles ganache std scaled valid fl f 7 d = some d') (f' : Fresh) :
    initFiles ganache std scaled valid fl f' 7 d' = some d' := by
  have hf := C100_files 7 (Nat.le_refl 7) h
  rw [initFiles_eq] at h ⊢
  cases hk : keypersOf ganache fl with
  | none => simp [hk] at h
  | some ks =>
    cases hc : configOf scaled fl with
    | none => simp [hk, hc] at h
    | some c =>
      simp only [hk, hc, Option.bind_some] at h ⊢
      split at h
      · rename_i hv
        rw [if_pos hv]
        rw [full ks c (Nat.le_refl 7)] at h ⊢
        rw [stages_eq std c ks fl f' d' fun _ => hf.1.signState]
        by_cases hs : d.key.isSome = true → d.signState = true
        · rw [stages_eq std c ks fl f d hs] at h
          cases h
          simp
        · simp only [Classical.not_imp, Bool.not_eq_true] at hs
          rw [stages_none std c ks fl f d hs.1 hs.2] at h
          cases h
      · cases h

/-- A chain can be started with the files made in an empty directory: the application written accepts the genesis written, in which the
key written is the only validator, with power 10. -/
theorem C100_starts {d' : Dir} (h : initFiles ganache std scaled valid fl f 7 Spec.empty = some d')
    (hl : fl.genesisKeypers.length < 2 ^ 62 - 1) (hk : f.key.length = 32) :
    ∃ k a g s, d'.key = some k ∧ d'.app = some a ∧ d'.genesis = some g ∧ App.initChain a g = some s ∧ a.devMode = fl.dev ∧
      ∀ x, App.genesisPower g x = if x = k then 10 else 0 := by
  rw [initFiles_eq] at h
  cases hks : keypersOf ganache fl with
  | none => simp [hks] at h
  | some ks =>
    cases hc : configOf scaled fl with
    | none => simp [hks, hc] at h
    | some c =>
      simp only [hks, hc, Option.bind_some] at h
      split at h
      · rw [full ks c (Nat.le_refl 7), stages_eq std c ks fl f _ (by simp [Spec.empty])] at h
        cases h
        have hlen : ks ≠ [] ∧ ks.length < 2 ^ 62 := by
          unfold keypersOf at hks
          rw [Option.map_eq_some_iff] at hks
          obtain ⟨l, hm, e⟩ := hks
          have hll : l.length = fl.genesisKeypers.length := by
            clear e
            generalize fl.genesisKeypers = gs at hm
            clear hl
            induction gs generalizing l with
            | nil => simp at hm; subst hm; rfl
            | cons a gs ih =>
              rw [List.mapM_cons] at hm
              simp only [Option.pure_def, Option.bind_eq_bind] at hm
              rw [Option.bind_eq_some_iff] at hm
              obtain ⟨b, -, hm⟩ := hm
              rw [Option.bind_eq_some_iff] at hm
              obtain ⟨l', hm', e⟩ := hm
              cases e
              simp [ih l' hm']
          split at e
          · subst e
            refine ⟨by simp, ?_⟩
            simp only [List.length_append, List.length_cons, List.length_nil]
            omega
          · subst e
            refine ⟨fun e => ?_, by omega⟩
            rw [e] at hll
            simp at hll
            omega
        obtain ⟨-, s, t, h1, -, -, -, -, -, h2⟩ := Bootstrap.Props.C88_init (dev := fl.dev) (keypers := ks) (key := f.key)
          (chainId := f.chainId) hlen.1 hlen.2 hk
        exact ⟨f.key, _, _, s, rfl, rfl, rfl, h1, rfl, h2⟩
      · cases h

/-- If the command crashes after any of its files, and is run again, it gets all files done and keeps what was made, unless it crashed
between the validator key and the file that goes with it. -/
theorem C100_crash (n : Nat) {d1 : Dir} (hp : Paired d) (h : initFiles ganache std scaled valid fl f n d = some d1)
    (hn : ¬ (n = 3 ∧ d.key = none)) (f' : Fresh) :
    ∃ d2, initFiles ganache std scaled valid fl f' 7 d1 = some d2 ∧ Complete d2 ∧ Kept d d2 ∧ Kept d1 d2 := by
  have hs1 : (d1.key.isSome = true → d1.signState = true) ∧ Kept d d1 := by
    rw [initFiles_eq] at h
    cases hk : keypersOf ganache fl with
    | none => simp [hk] at h
    | some ks =>
      cases hc : configOf scaled fl with
      | none => simp [hk, hc] at h
      | some c =>
        simp only [hk, hc, Option.bind_some] at h
        split at h
        · rename_i hv
          obtain ⟨co, k, ss, nk, g, ap⟩ := d
          have hps : k.isSome = true → ss = true := hp.1
          by_cases h7 : 7 ≤ n
          · rw [full ks c h7, stages_eq std c ks fl f _ hps] at h
            cases h
            refine ⟨fun _ => rfl, fun x e => ?_, fun x e => ?_, fun x e => ?_⟩
            · simp only at e; subst e; rfl
            · simp only at e; subst e; rfl
            · simp only at e; subst e; rfl
          · cases k with
            | none =>
              have h3 : n ≠ 3 := fun e => hn ⟨e, rfl⟩
              have : n = 0 ∨ n = 1 ∨ n = 2 ∨ n = 4 ∨ n = 5 ∨ n = 6 := by omega
              rcases this with rfl | rfl | rfl | rfl | rfl | rfl <;> cases g <;>
                simp [stages, runStages, ensureRoot, writeConfig, writeKey, writeSignState, writeNodeKey, writeGenesis] at h <;>
                subst h <;> refine ⟨by simp, fun x e => ?_, fun x e => ?_, fun x e => ?_⟩ <;> simp_all
            | some k =>
              have := hps rfl
              subst this
              have : n = 0 ∨ n = 1 ∨ n = 2 ∨ n = 3 ∨ n = 4 ∨ n = 5 ∨ n = 6 := by omega
              rcases this with rfl | rfl | rfl | rfl | rfl | rfl | rfl <;> cases g <;>
                simp [stages, runStages, ensureRoot, writeConfig, writeKey, writeSignState, writeNodeKey, writeGenesis] at h <;>
                subst h <;> refine ⟨by simp, fun x e => ?_, fun x e => ?_, fun x e => ?_⟩ <;> simp_all
        · cases h
  cases h2 : initFiles ganache std scaled valid fl f' 7 d1 with
  | none =>
    rw [C100_fails] at h2
    have h' := h
    rw [initFiles_eq] at h
    rcases h2 with ⟨a, ha, hx⟩ | hx | hx
    · have : initFiles ganache std scaled valid fl f 7 d = none := C100_fails.2 (.inl ⟨a, ha, hx⟩)
      cases hk : keypersOf ganache fl with
      | none => simp [hk] at h
      | some ks =>
        exfalso
        have : initFiles ganache [] [] (fun _ => true) fl f 7 Spec.empty = none := C100_fails.2 (.inl ⟨a, ha, hx⟩)
        rw [initFiles_eq, hk] at this
        cases hc : configOf scaled fl with
        | none => simp [hk, hc] at h
        | some c =>
          cases hc' : configOf ([] : List Nat) fl with
          | none =>
            unfold configOf defaultConfig at hc hc'
            simp only [Option.bind_eq_bind] at hc hc'
            rw [Option.bind_eq_some_iff] at hc
            obtain ⟨r, e1, hc⟩ := hc
            rw [Option.bind_eq_some_iff] at hc
            obtain ⟨q, e2, hc⟩ := hc
            rw [e1, e2] at hc'
            cases hc'
          | some c' =>
            simp only [hc', Option.bind_some, if_true, full ks c' (Nat.le_refl 7)] at this
            rw [stages_eq _ _ _ _ _ _ (by simp [Spec.empty])] at this
            cases this
    · exfalso
      cases hk : keypersOf ganache fl with
      | none => simp [hk] at h
      | some ks =>
        cases hc : configOf scaled fl with
        | none => simp [hk, hc] at h
        | some c => simp [hk, hc, hx c hc] at h
    · exfalso
      rw [hs1.1 hx.1] at hx
      cases hx.2
  | some d2 =>
    have := C100_files 7 (Nat.le_refl 7) h2
    exact ⟨d2, rfl, this.1, ⟨fun k e => this.2.1.key k (hs1.2.key k e), fun k e => this.2.1.nodeKey k (hs1.2.nodeKey k e),
      fun k e => this.2.1.genesis k (hs1.2.genesis k e)⟩, this.2.1⟩

/-! ## Findings and examples -/

def exFlags : Flags := ⟨1, true, []⟩
def exFresh (x : UInt8) : Fresh := ⟨List.replicate 32 x, [x], [x]⟩
def always : TmConfig → Bool := fun _ => true

/-- `init --index 1 --dev` in an empty directory -/
theorem C100_example : ∃ d c, initFiles [] [] [] always exFlags (exFresh 1) 7 Spec.empty = some d ∧ d.config = some c ∧
    PortOf c.rpc 26659 ∧ PortOf c.p2p 26658 ∧ Complete d := by
  cases h : initFiles [] [] [] always exFlags (exFresh 1) 7 Spec.empty with
  | none =>
    rw [C100_fails] at h
    rcases h with ⟨a, ha, -⟩ | h | h
    · cases ha
    · have := h _ (config_eq [] exFlags (by decide))
      cases this
    · cases h.1
  | some d =>
    have hf := C100_files 7 (Nat.le_refl 7) h
    have hc := config_eq [] exFlags (by decide)
    have hp := C100_ports (fl := exFlags) (by decide) hc
    exact ⟨d, _, rfl, hf.2.2.trans hc, hp.1, hp.2, hf.1⟩

/-- After a crash between the validator key and the file that goes with it, the command fails whenever it is run in the directory, with
any options. -/
theorem C100_crash_counterexample : ∃ d1, initFiles [] [] [] always exFlags (exFresh 1) 3 Spec.empty = some d1 ∧
    ∀ ganache std scaled valid fl f, initFiles ganache std scaled valid fl f 7 d1 = none := by
  have hc := config_eq [] exFlags (by decide)
  refine ⟨_, by rw [initFiles_eq, hc]; rfl, fun ganache std scaled valid fl f => C100_fails.2 (.inr (.inr ⟨rfl, rfl⟩))⟩

/-- Run again in the directory of a node that has run, the command replaces the operator's settings by its own (also the peers to
connect to) and the application's state by a new one, at height 0. -/
theorem C100_reset_counterexample {o : Events.Text} {a : App.State} {c : TmConfig} {k : Bytes} {g : InitRequest} {nk : Bytes}
    (hd : d = ⟨some { c with others := o }, some k, true, some nk, some g, some a⟩) (ho : o ≠ [])
    {d' : Dir} (hi : 0 ≤ 26656 + 2 * fl.index) (h : initFiles ganache std scaled valid fl f 7 d = some d') :
    d'.config ≠ d.config ∧ d'.app = some (App.newApp fl.dev) := by
  have hf := C100_files 7 (Nat.le_refl 7) h
  refine ⟨?_, ?_⟩
  · rw [hf.2.2, config_eq scaled fl hi, hd]
    intro e
    simp only [Option.some.injEq] at e
    have := congrArg TmConfig.others e
    exact ho this.symm
  · rw [initFiles_eq] at h
    cases hk : keypersOf ganache fl with
    | none => simp [hk] at h
    | some ks =>
      cases hc : configOf scaled fl with
      | none => simp [hk, hc] at h
      | some c' =>
        simp only [hk, hc, Option.bind_some] at h
        split at h
        · rw [full ks c' (Nat.le_refl 7), stages_eq std c' ks fl f _ (by simp [hd])] at h
          cases h
          rfl
        · cases h

/-- Indices are not checked: with the index 20000 the port is 66657, which no machine has. -/
theorem C100_index_counterexample : ∃ c, configOf [] ⟨20000, false, []⟩ = some c ∧ PortOf c.rpc 66657 :=
  ⟨_, config_eq [] ⟨20000, false, []⟩ (by decide), ⟨_, rfl, format_digits _⟩⟩

end Shutter.Init.Props
