import Verif.Proofs.ChannelsFirst
import Verif.Props.Channels
import Verif.Props.ExecGas

/-! # C80, C94: a transaction that cannot be sent keeps back those behind it -/

namespace Shutter.Fx.Props
open Shutter.Fx
variable {α H σ W : Type} {isTx : α → Bool} {newRest : σ} {S : Surroundings α W}

/-- **C80** What is missing, too: if the first transaction in the queue has to be tried again forever and does not become useless, then no other main
chain transaction is sent, however few there are, whatever happens, and however often the keyper is restarted. -/
theorem C80_first {b : Box α H σ W} (hr : Box.Reach isTx newRest S b) {p : Pending α H} (hf : b.sys.actionsFile = some p) {id : Nat}
    {rest : List Nat} (hu : unsent isTx p = id :: rest) {a : α} (ha : p.actionMap id = some a)
    (htry : ∀ m, b.sys.mem = some m → m.txSent = none ∧ m.txDone = false ∧ S.expired b.view a = false)
    (hretry : ∀ w, Later S b.now w → S.answer w a = .retry ∧ S.expired w a = false)
    {ok : BoxEv α H σ W → Prop} {es : List (BoxEv α H σ W)} {b' : Box α H σ W} (h : Box.Run isTx newRest S ok b es b') :
    NoSend isTx b b' ∧ ∃ p' rest', b'.sys.actionsFile = some p' ∧ unsent isTx p' = id :: rest' ∧ p'.actionMap id = some a := by
  have st : First isTx S id a b := by
    refine ⟨by rw [hf]; exact ha, by rw [hf]; simp [hu], ?_, htry, hretry⟩
    intro x hx
    rw [hf] at hx
    simp only [Option.getD_some] at hx
    have hs : (unsent isTx p).Pairwise (· < ·) := (Pending.sortedIDs_sorted p).filter _
    rw [hu] at hs hx
    rcases List.mem_cons.1 hx with rfl | hx
    · exact le_refl _
    · exact (List.rel_of_pairwise_cons hs hx).le
  obtain ⟨_, st', hn⟩ := st.run hr h
  refine ⟨hn, ?_⟩
  cases hf' : b'.sys.actionsFile with
  | none => have := st'.act; rw [hf'] at this; cases this
  | some p' =>
    have h1 := st'.act
    have h2 := st'.mem
    have h3 := st'.least
    rw [hf'] at h1 h2 h3
    simp only [Option.getD_some] at h1 h2 h3
    have hs : (unsent isTx p').Pairwise (· < ·) := (Pending.sortedIDs_sorted p').filter _
    cases hl : unsent isTx p' with
    | nil => rw [hl] at h2; cases h2
    | cons x rest' =>
      have hx : x = id := by
        have := h3 x (by simp [hl])
        rw [hl] at h2 hs
        rcases List.mem_cons.1 h2 with h2 | h2
        · exact h2.symm
        · have := List.rel_of_pairwise_cons hs h2; omega
      exact ⟨p', rest', rfl, by rw [hl, hx], h1⟩

end Shutter.Fx.Props

namespace Shutter.ExecGas.Props
open Shutter.Crypto Shutter.Fx Shutter.Fx.Props Shutter.Decide
open Shutter.Sol (World)
variable {G1 G2 H σ : Type} {newRest : σ}

/-- **C94** What the batch that is too big does to the keypers: once its execution is the first in the queue of a keyper, this keyper sends no further
main chain transaction (executions, skips, accusations, appeals, eon keys), unless someone else executes the batch. -/
theorem C94_stuck {E : Sol.Env} {own : Sol.Address} {sel : Bytes × Bytes} {S : Surroundings (Action G1 G2) World}
    (hans : S.answer = fun w a => answer sel E own w a) {n : Nat} {txs : List Bytes} {limit : Nat}
    (hbig : 229000 + txs.length * limit < 16 * nonZero txs.flatten)
    {a : Action G1 G2} {half : Nat}
    (hact : (a = .executePlainBatch n txs limit ∧ half = 2 * n + 1) ∨ ∃ hash k, a = .executeCipherBatch n hash txs k limit ∧ half = 2 * n)
    (hexp : ∀ w, S.expired w a = decide (w.executor.halfSteps > half))
    {b : Box (Action G1 G2) H σ World} (hr : Box.Reach Action.isMainChainTX newRest S b) {p : Pending (Action G1 G2) H}
    (hf : b.sys.actionsFile = some p) {id : Nat} {rest : List Nat} (hu : unsent Action.isMainChainTX p = id :: rest)
    (ha : p.actionMap id = some a)
    (htry : ∀ m, b.sys.mem = some m → m.txSent = none ∧ m.txDone = false ∧ b.view.executor.halfSteps ≤ half)
    (hnobody : ∀ w, Later S b.now w → w.executor.halfSteps ≤ half)
    {ok : BoxEv (Action G1 G2) H σ World → Prop} {es : List (BoxEv (Action G1 G2) H σ World)} {b' : Box (Action G1 G2) H σ World}
    (h : Box.Run Action.isMainChainTX newRest S ok b es b') : NoSend Action.isMainChainTX b b' := by
  refine (C80_first hr hf hu ha ?_ ?_ h).1
  · intro m hm
    obtain ⟨h1, h2, h3⟩ := htry m hm
    exact ⟨h1, h2, by rw [hexp]; simpa using h3⟩
  · intro w hw
    refine ⟨?_, by rw [hexp]; simpa using hnobody w hw⟩
    rw [hans]
    have hl : gasLimit txs.length limit ≤ 250000 + txs.length * limit := Nat.mod_le _ _
    rcases hact with ⟨rfl, _⟩ | ⟨hash, k, rfl, _⟩
    · have := plain_gas sel.2 n txs
      simp only [answer]
      rw [if_pos (by omega)]
    · have := cipher_gas sel.1 n hash txs k
      simp only [answer]
      rw [if_pos (by omega)]

/-- A keyper with the execution of a full batch, and an accusation behind it. -/
def stuckQueue : List (Action Zq Zq) := [.executePlainBatch 0 (List.replicate 100 (List.replicate 1000 1)) 10000, .accuse 3 1]

/-- **C94** The hypotheses of `C94_stuck` are met, with the config that is shipped: the accusation is not sent. -/
theorem C94_stuck_example {E : Sol.Env} {own : Sol.Address} {sel : Bytes × Bytes} {S : Surroundings (Action Zq Zq) World} (w : World)
    (hans : S.answer = fun w a => answer sel E own w a)
    (hexp : ∀ w, S.expired w (.executePlainBatch 0 (List.replicate 100 (List.replicate 1000 1)) 10000) = decide (w.executor.halfSteps > 1))
    (hnobody : ∀ w', Later S w w' → w'.executor.halfSteps ≤ 1) :
    ∃ b : Box (Action Zq Zq) Nat Unit World, Box.Reach Action.isMainChainTX () S b ∧ b.now = w ∧
      (b.sys.actionsFile.map (unsent Action.isMainChainTX)) = some [0, 1] ∧
      ∀ ok es b', Box.Run Action.isMainChainTX () S ok b es b' → NoSend Action.isMainChainTX b b' := by
  obtain ⟨s', hs'⟩ : ∃ s', steps Action.isMainChainTX () (firstDecision (H := Nat) stuckQueue) Sys.fresh = some s' := ⟨_, rfl⟩
  have h1 := reach_plain (S := S) w (firstDecision (H := Nat) stuckQueue) (by decide) (.fresh w) hs'
  have h3 : s' = (steps Action.isMainChainTX () (firstDecision (H := Nat) stuckQueue) Sys.fresh).getD .fresh := by
    rw [hs']; rfl
  have hm : s'.mem.map (fun m => (m.txSent, m.txDone)) = some (none, false) := by rw [h3]; decide +kernel
  have hf : s'.actionsFile.map (fun p => (unsent Action.isMainChainTX p)) = some [0, 1] := by rw [h3]; decide +kernel
  have hf0 : ∀ p, s'.actionsFile = some p → p.actionMap 0 = some (.executePlainBatch 0 (List.replicate 100 (List.replicate 1000 1)) 10000) := by
    rw [h3]; intro p hp; cases hp; rfl
  refine ⟨_, h1, rfl, hf, fun ok es b' hrun => ?_⟩
  obtain ⟨p, hp, hu⟩ := Option.map_eq_some_iff.1 hf
  refine C94_stuck hans (n := 0) (half := 1) ?_ (.inl ⟨rfl, rfl⟩) hexp h1 hp hu (hf0 p hp) ?_ hnobody hrun
  · rw [nonZero_replicate, List.length_replicate]; decide
  · intro m hm'
    simp only at hm'
    rw [hm'] at hm
    simp only [Option.map_some, Option.some.injEq, Prod.mk.injEq] at hm
    exact ⟨hm.1, hm.2, hnobody w .refl⟩

end Shutter.ExecGas.Props
