import Verif.Spec.Init
import Verif.Proofs.Files
import Verif.Proofs.Events

namespace Shutter.Init

open Shutter.App (Bytes Addr InitRequest)
open Shutter.Events (Text formatUint parseUint)

theorem format_digits (n : Nat) : ':' ∉ formatUint n := by
  intro h
  have := (Files.formatUint_chars n).2 _ h
  revert this; decide

theorem lastColon_eq (host port : Text) (h : ':' ∉ port) : lastColon (host ++ [':'] ++ port) = some (host, port) := by
  have ht : (host ++ [':'] ++ port).reverse.takeWhile (· ≠ ':') = port.reverse := by
    simp only [List.reverse_append, List.append_assoc, List.reverse_cons, List.reverse_nil, List.nil_append, List.singleton_append]
    rw [List.takeWhile_append_of_pos]
    · simp
    · intro c hc
      have : c ≠ ':' := fun e => h (by rw [← e]; exact List.mem_reverse.1 hc)
      simpa using this
  unfold lastColon
  rw [ht]
  simp only [List.length_append, List.length_reverse, List.length_cons, List.length_nil]
  rw [if_neg (by omega)]
  have e : host.length + (0 + 1) + port.length - port.length - 1 = host.length := by omega
  rw [e]
  simp

theorem atoi_format (n : Nat) (h : n < 2 ^ 64) : atoi (formatUint n) = some (n : Int) := by
  have hc := Files.formatUint_chars n
  have hp := Events.parseUint_formatUint n h
  generalize formatUint n = s at hc hp
  match s, hc with
  | [], hc => exact absurd rfl hc.1
  | c :: s, hc =>
    have hd := hc.2 c (by simp)
    unfold atoi
    split
    · rename_i e; cases e; exact absurd hd (by decide)
    · rename_i e; cases e; exact absurd hd (by decide)
    · rw [hp]; rfl

theorem adjust_eq (host : Text) (p : Nat) (h : p < 2 ^ 64) (i : Int) (hi : 0 ≤ (p : Int) + i * 2) :
    adjustPort (host ++ [':'] ++ formatUint p) i = some (host ++ [':'] ++ formatUint ((p : Int) + i * 2).toNat) := by
  unfold adjustPort
  rw [lastColon_eq _ _ (format_digits p)]
  simp only [atoi_format p h, Option.map_some, itoa]
  rw [if_neg (show ¬ ((p : Int) + i * 2 < 0) by omega)]
  have : ((p : Int) + i * 2).natAbs = ((p : Int) + i * 2).toNat := by omega
  rw [this]

theorem format_inj {a b : Nat} (h : formatUint a = formatUint b) : a = b := by
  have val : ∀ n, Nat.ofDigits 10 ((formatUint n).reverse.map fun c => c.toNat - 48) = n := by
    intro n
    unfold formatUint
    split
    · subst_vars; rfl
    · rw [List.reverse_reverse, List.map_map]
      have : (Nat.digits 10 n).map ((fun c : Char => c.toNat - 48) ∘ Nat.digitChar) = (Nat.digits 10 n).map id := by
        refine List.map_congr_left fun d hd => ?_
        have : d < 10 := Nat.digits_lt_base (by decide) hd
        interval_cases d <;> rfl
      rw [this, List.map_id, Nat.ofDigits_digits]
  rw [← val a, ← val b, h]

theorem port_unique {s : Text} {p q : Nat} (hp : Spec.PortOf s p) (hq : Spec.PortOf s q) : p = q := by
  obtain ⟨h1, e1, n1⟩ := hp
  obtain ⟨h2, e2, n2⟩ := hq
  have a := lastColon_eq h1 _ n1
  have b := lastColon_eq h2 _ n2
  rw [← e1] at a
  rw [← e2, a] at b
  simp only [Option.some.injEq, Prod.mk.injEq] at b
  exact format_inj b.2

theorem rpc_text : "tcp://127.0.0.1:26657".toList = "tcp://127.0.0.1".toList ++ [':'] ++ formatUint 26657 := by
  have : formatUint 26657 = "26657".toList := by
    unfold formatUint; simp
  rw [this]; decide

theorem p2p_text : "tcp://0.0.0.0:26656".toList = "tcp://0.0.0.0".toList ++ [':'] ++ formatUint 26656 := by
  have : formatUint 26656 = "26656".toList := by
    unfold formatUint; simp
  rw [this]; decide

theorem config_eq (scaled : List Nat) (fl : Flags) (h : 0 ≤ 26656 + 2 * fl.index) :
    configOf scaled fl = some ⟨"tcp://127.0.0.1".toList ++ [':'] ++ formatUint (26657 + 2 * fl.index).toNat,
      "tcp://0.0.0.0".toList ++ [':'] ++ formatUint (26656 + 2 * fl.index).toNat, scaled, true, []⟩ := by
  unfold configOf defaultConfig
  simp only
  rw [rpc_text, p2p_text, adjust_eq _ _ (by decide) _ (by omega), adjust_eq _ _ (by decide) _ (by omega)]
  have e1 : ((26657 : Nat) : Int) + fl.index * 2 = 26657 + 2 * fl.index := by omega
  have e2 : ((26656 : Nat) : Int) + fl.index * 2 = 26656 + 2 * fl.index := by omega
  rw [e1, e2]
  rfl

/-! ## The files -/

/-- what the stages make of a directory in which the key and its state are both there or both missing -/
theorem stages_eq (std : List Nat) (c : TmConfig) (ks : List Addr) (fl : Flags) (f : Fresh) (d : Dir)
    (h : d.key.isSome = true → d.signState = true) :
    (runStages (stages std c ks fl f) (d, false)).map (·.1) = some ⟨some c, d.key.or (some f.key), true,
      d.nodeKey.or (some f.nodeKey), d.genesis.or (some (Bootstrap.genesisRequest ks ((d.key.or (some f.key)).getD []) f.chainId)),
      some (App.newApp fl.dev)⟩ := by
  obtain ⟨co, k, ss, nk, g, ap⟩ := d
  cases k with
  | none =>
    cases g <;> simp [stages, runStages, ensureRoot, writeConfig, writeKey, writeSignState, writeNodeKey, writeGenesis, writeApp]
  | some k =>
    have : ss = true := h rfl
    subst this
    cases g <;> simp [stages, runStages, ensureRoot, writeConfig, writeKey, writeSignState, writeNodeKey, writeGenesis, writeApp]

theorem stages_none (std : List Nat) (c : TmConfig) (ks : List Addr) (fl : Flags) (f : Fresh) (d : Dir)
    (h : d.key.isSome = true) (hs : d.signState = false) : runStages (stages std c ks fl f) (d, false) = none := by
  obtain ⟨co, k, ss, nk, g, ap⟩ := d
  cases k with
  | none => cases h
  | some k =>
    simp only at hs
    subst hs
    simp [stages, runStages, ensureRoot, writeConfig, writeKey]

end Shutter.Init
