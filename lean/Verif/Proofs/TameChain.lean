import Verif.Proofs.MainChainDemo

/-! # Concrete main chains in which no target calls back -/

namespace Shutter.Main
open Shutter.Sol

theorem runInner_tame (E : Env) : ∀ (ops : List Op) (w : World), (∀ op ∈ ops, op.Tame) →
    Relation.ReflTransGen (TameStep E) w (w.runInner E ops)
  | [], w, _ => by rw [World.runInner]
  | op :: ops, w, ht => by
    rw [World.runInner]
    split
    · exact runInner_tame E ops w (fun o ho => ht o (List.mem_cons_of_mem _ ho))
    · next w' h =>
      exact (Relation.ReflTransGen.single (TameStep.tx (ht op List.mem_cons_self) h)).trans
        (runInner_tame E ops w' (fun o ho => ht o (List.mem_cons_of_mem _ ho)))

theorem chainOf_tame {E : Env} {w0 : World} (ops : List (Nat × Op)) (h : Deployed w0) (hb : w0.block = 0)
    (ht : ∀ x ∈ ops, x.2.Tame) {n : Nat} (hn : n < two64) : TameReach E (chainOf E w0 ops n) := by
  have c := chainOf_chain (E := E) ops h hb
  refine ⟨w0, h, ?_⟩
  induction n with
  | zero => exact .refl
  | succ n ih =>
    refine (ih (by omega)).trans (.head (TameStep.mine (b := n + 1) ?_ hn) (runInner_tame E _ _ ?_))
    · cases n with
      | zero => exact le_trans (le_of_eq hb) (Nat.zero_le _)
      | succ n => rw [c.block n (by omega)]; omega
    · intro op hop
      unfold opsAt at hop
      rw [List.mem_map] at hop
      obtain ⟨x, hx, rfl⟩ := hop
      exact ht x (List.mem_filter.mp hx).1

theorem chainOf_flat {E : Env} {w0 : World} (ops : List (Nat × Op)) (h : Deployed w0) (hb : w0.block = 0)
    (ht : ∀ x ∈ ops, x.2.nested.isEmpty = true) {n : Nat} (hn : n < two64) : TameReach E (chainOf E w0 ops n) :=
  chainOf_tame ops h hb (fun x hx => Sol.Demo.tame_flat (ht x hx)) hn

end Shutter.Main
