import Verif.Spec.Query
import Verif.Props.Files
import Verif.Props.Operator
import Verif.Proofs.Vote
import Verif.Proofs.DemoOperator

/-! # Looking at configs -/

namespace Shutter.Query
open Shutter.Files
open Shutter.Events (Codecs Text formatUint parseUint)
open Shutter.Sol (Config)

theorem dedup_shown (bc : Sol.BatchConfig) : { bc with keypers := GoConfig.dedupGo [] bc.keypers } = shown bc := by
  unfold shown
  rw [Main.dedupGo_eq]
  simp

theorem next_shown (c : Config) : Operator.getNextConfig c = shown c.next := dedup_shown _

theorem numConfigs_eq (c : Config) : c.numConfigs = c.scheduled.length := by simp [Config.numConfigs, Config.configs]

theorem get_shown (c : Config) (i : Nat) : GoConfig.getConfigByIndex c i = (c.scheduled[i]?).map shown := by
  rw [Main.getConfig_eq]
  congr 1
  funext bc
  exact dedup_shown bc

theorem shown_mem {bc : Sol.BatchConfig} {k : Sol.Address} : k ∈ (shown bc).keypers ↔ k ∈ bc.keypers := by simp [shown]

theorem shown_held {bc : Sol.BatchConfig} (h : Held bc) : Held (shown bc) := by
  obtain ⟨⟨f1, f2, f3, f4, f5, f6, f7, f8, f9⟩, h2, h3, h4, h5⟩ := h
  refine ⟨⟨f1, f2, f3, f4, f5, f6, f7, f8, ?_⟩, fun k hk => h2 k (shown_mem.1 hk), h3, h4, h5⟩
  have := (List.dedup_sublist bc.keypers.reverse).length_le
  simp only [shown, List.length_reverse] at this ⊢
  omega

theorem addr_back {a : Sol.Address} (h : a < 2 ^ 160) : Crypto.beNat (Tx.addrBytes a) = a := by
  unfold Tx.addrBytes
  rw [Crypto.beNat_beBytes]
  exact Nat.mod_eq_of_lt (by norm_num at h ⊢; exact h)

theorem addrs_back : ∀ l : List Sol.Address, (∀ k ∈ l, k < 2 ^ 160) → (l.map Tx.addrBytes).map Crypto.beNat = l
  | [], _ => rfl
  | a :: l, h => by
    rw [List.map_cons, List.map_cons, addr_back (h a List.mem_cons_self), addrs_back l (fun k hk => h k (List.mem_cons_of_mem _ hk))]

theorem goConfig_toSol {bc : Sol.BatchConfig} (h : Held bc) : (goConfig bc).toSol = bc := by
  obtain ⟨_, h2, h3, h4, _⟩ := h
  have : (bc.keypers.map Tx.addrBytes).map Crypto.beNat = bc.keypers := addrs_back _ h2
  show (⟨_, _, (bc.keypers.map Tx.addrBytes).map Crypto.beNat, _, _, _, _, _, Crypto.beNat (Tx.addrBytes bc.feeReceiver),
    Crypto.beNat (Tx.addrBytes bc.targetAddress), _, _⟩ : Sol.BatchConfig) = bc
  rw [this, addr_back h3, addr_back h4]
  cases bc
  simp only [goConfig]

theorem goConfig_text (cx : Codecs) {bc : Sol.BatchConfig} (h : Held bc) : IsTextOf cx ((goConfig bc).save cx) bc := by
  have hb := goConfig_toSol h
  obtain ⟨⟨f1, f2, f3, f4, f5, f6, f7, f8, f9⟩, h2, h3, h4, h5⟩ := h
  have ht : (goConfig bc).Typed := by
    refine ⟨f1, f2, ?_, f3, f4, f5, f6, f7, ?_, ?_, h5, f8⟩
    · intro k hk
      obtain ⟨a, _, rfl⟩ := List.mem_map.1 hk
      simp [Events.IsAddress, Tx.addrBytes]
    · simp [Events.IsAddress, goConfig, Tx.addrBytes]
    · simp [Events.IsAddress, goConfig, Tx.addrBytes]
  have hs : (goConfig bc).Sensible ↔ Sensible bc := by simp [FileConfig.Sensible, Sensible, goConfig]
  obtain ⟨k1, k2, _⟩ := Files.Props.C90_config cx (goConfig bc) ht
  exact ⟨fun h => ⟨_, k1 (hs.2 h), hb⟩, fun h => k2 (fun h' => h (hs.1 h'))⟩

theorem mapM_all {α β : Type} {f : α → Option β} {h : α → β} : ∀ l : List α, (∀ x ∈ l, f x = some (h x)) → l.mapM f = some (l.map h)
  | [], _ => rfl
  | x :: xs, hx => by
    rw [List.mapM_cons, hx x List.mem_cons_self, mapM_all xs (fun y hy => hx y (List.mem_cons_of_mem _ hy))]
    rfl

theorem fetchAll (c : Config) : (List.range c.numConfigs).mapM (GoConfig.getConfigByIndex c) = some (c.scheduled.map shown) := by
  rw [numConfigs_eq, mapM_all (h := fun i => shown ((c.scheduled[i]?).getD Sol.zeroConfig))]
  · congr 1
    apply List.ext_getElem
    · simp
    · intro i h1 h2
      simp at h1
      simp [h1]
  · intro i hi
    have hi := List.mem_range.1 hi
    rw [get_shown, List.getElem?_eq_getElem hi]
    rfl

theorem parseUint_text {i : Nat} (h : i < 2 ^ 64) : readIndex (formatUint i) = some (.at i) := by
  have hp := Events.parseUint_formatUint i h
  have hne : ∀ t : String, parseUint t.toList = none → formatUint i ≠ t.toList := by
    intro t ht he
    rw [he, ht] at hp; cases hp
  unfold readIndex
  rw [if_neg (hne "next" (by decide)), if_neg (hne "last" (by decide)), if_neg (hne "all" (by decide)), hp]
  rfl

theorem fetch_eq (c : Config) (b : Nat) : ∀ (i : Nat) (acc : List Sol.BatchConfig), i ≤ c.scheduled.length →
    ∃ l, fetch c b i acc = some (l ++ acc) ∧ ∃ k ≤ i, l = ((c.scheduled.take i).drop k).map shown ∧
      (∀ (j : Nat) (bc : Sol.BatchConfig), k < j → j < i → c.scheduled[j]? = some bc → b < bc.startBlockNumber) ∧
      ((∃ bc, k < i ∧ c.scheduled[k]? = some bc ∧ bc.startBlockNumber ≤ b) ∨
        k = 0 ∧ ∀ (j : Nat) (bc : Sol.BatchConfig), j < i → c.scheduled[j]? = some bc → b < bc.startBlockNumber)
  | 0, acc, _ => ⟨[], rfl, 0, Nat.le_refl _, by simp, by omega, .inr ⟨rfl, by omega⟩⟩
  | i + 1, acc, h => by
    have hi : i < c.scheduled.length := h
    have hg : c.scheduled[i]? = some c.scheduled[i] := List.getElem?_eq_getElem hi
    rw [fetch, get_shown, hg]
    simp only [Option.map_some, Option.bind_some]
    by_cases hb : c.scheduled[i].startBlockNumber ≤ b
    · rw [if_pos (show (shown c.scheduled[i]).startBlockNumber ≤ b from hb)]
      refine ⟨[shown c.scheduled[i]], rfl, i, Nat.le_succ i, ?_, by omega, .inl ⟨_, Nat.lt_succ_self i, hg, hb⟩⟩
      rw [List.take_succ_eq_append_getElem hi, List.drop_append_of_le_length (by simp; omega)]
      simp
    · rw [if_neg (show ¬ (shown c.scheduled[i]).startBlockNumber ≤ b from hb)]
      obtain ⟨l, h1, k, h2, h3, h4, h5⟩ := fetch_eq c b i (shown c.scheduled[i] :: acc) (by omega)
      refine ⟨l ++ [shown c.scheduled[i]], by rw [h1]; simp, k, by omega, ?_, ?_, ?_⟩
      · rw [h3, List.take_succ_eq_append_getElem hi, List.drop_append_of_le_length (by simp; omega)]
        simp
      · intro j bc hk hj hbc
        rcases Nat.lt_or_ge j i with hlt | hge
        · exact h4 j bc hk hlt hbc
        · obtain rfl : j = i := by omega
          rw [hg] at hbc; cases hbc; omega
      · rcases h5 with ⟨bc, a, d⟩ | ⟨a, d⟩
        · exact .inl ⟨bc, by omega, d⟩
        · refine .inr ⟨a, fun j bc hj hbc => ?_⟩
          rcases Nat.lt_or_ge j i with hlt | hge
          · exact d j bc hlt hbc
          · obtain rfl : j = i := by omega
            rw [hg] at hbc; cases hbc; omega

end Shutter.Query
