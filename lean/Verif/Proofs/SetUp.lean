import Verif.Props.Deploy
import Verif.Props.Operator
import Verif.Props.Bootstrap
import Verif.Proofs.MainChainAcc

/-! # A chain with one genesis keyper -/

namespace Shutter.SetUp
open Shutter.App Shutter.Bootstrap

variable {ps : Parsers} {dev : Bool} {log : List Rec} {s : App.State}

/-- The config with index zero is the one of the genesis. -/
theorem single_threshold (h : Exec ps dev log s) {g : Addr} {key chainId : Bytes} {r : Rec} {rest : List Rec} (hl : log = r :: rest)
    (hop : r.op = .initChain (genesisRequest [g] key chainId)) : ∀ d ∈ s.configs, d.configIndex < 1 → d.threshold ≤ 1 := by
  obtain ⟨hE, o, _, hs⟩ := h.at (pre := []) hl
  have h0 : r.before = newApp dev := by
    generalize r.before = t at hE
    generalize hl : ([] : List Rec) = l at hE
    cases hE with
    | start => rfl
    | step => simp at hl
  rw [hop, h0] at hs
  simp only [App.step, Option.map_eq_some_iff, Prod.mk.injEq] at hs
  obtain ⟨s1, hi, hs1, -⟩ := hs
  have hc : s1.configs = [⟨0, [g], 1, zeroAddr, 0, false, false⟩] := by
    rcases initChain_cases hi with ⟨ks, t, c', pm, hg, _, _, _, _, rfl⟩ | ⟨rfl, c, hc, hv⟩
    · simp only [genesisRequest, Option.some.injEq, Prod.mk.injEq] at hg
      obtain ⟨rfl, rfl⟩ := hg
      simp [show (2 * 1 + 2) / 3 = 1 from rfl]
    · simp [newApp] at hc; subst hc; simp [BatchConfig.ensureValid, BatchConfig.zero] at hv
  have hp := (h.ids_mono r (by rw [hl]; exact List.mem_cons_self)).2 ⟨_, by rw [← hs1, hc]; exact List.mem_singleton.2 rfl, by simp⟩
  rw [← hs1] at hp
  intro d hd hlt
  have h1 : d.erase ∈ ids s := List.mem_map_of_mem hd
  have h2 : (⟨0, [g], 1, zeroAddr, 0, false, false⟩ : App.BatchConfig) ∈ ids s := hp.subset (by simp [ids, hc, BatchConfig.erase])
  have h3 := index_inj h.inv.cfg.index h1 h2 (by simp only [erase_index]; omega)
  have h4 : d.threshold = 1 := by have := congrArg BatchConfig.threshold h3; exact this
  omega

end Shutter.SetUp
