import Verif.Proofs.SolPrim

/-! # The log -/

namespace Shutter.Sol
open World

theorem prim_log {tame E} {w w' : World} (p : Prim tame E w w') :
    ∃ l, w'.log = w.log ++ l ∧ ∀ x ∈ l, x.1 = w.block := by
  cases p
  case config => exact ⟨[], by simp, by simp⟩
  case minFee => exact ⟨[], by simp, by simp⟩
  case kept => exact ⟨[], by simp, by simp⟩
  case setSlasher => exact ⟨[], by simp, by simp⟩
  case setReceiver => exact ⟨[], by simp, by simp⟩
  all_goals first
    | exact ⟨[_], rfl, by simp [World.emit]⟩
    | exact ⟨[_] ++ [_], List.append_assoc _ _ _, by simp [World.emit]⟩

theorem pstep_log {tame E} {w w' : World} (p : PStep tame E w w') : ∃ l, w'.log = w.log ++ l ∧ ∀ x ∈ l, x.1 = w.block := by
  cases p with
  | mine _ _ => exact ⟨[], by simp, by simp⟩
  | prim p => exact prim_log p

theorem plater_log {tame E} {w w' : World} (p : PLater tame E w w') : ∃ l, w'.log = w.log ++ l := by
  induction p with
  | refl => exact ⟨[], by simp⟩
  | tail _ p ih =>
    obtain ⟨l, hl⟩ := ih
    obtain ⟨l', hl', _⟩ := pstep_log p
    exact ⟨l ++ l', by rw [hl', hl, List.append_assoc]⟩

/-- Events carry past blocks. -/
theorem preach_log_block {tame E w} (h : PReach tame E w) : ∀ x ∈ w.log, x.1 ≤ w.block := by
  refine PReach.induct (I := fun w => ∀ x ∈ w.log, x.1 ≤ w.block) ?_ ?_ ?_ h
  · rintro w ⟨_, _, _, _, _, _, _, _, _, _, rfl⟩; simp [World.deployed]
  · intro w b ih hb _ x hx; exact le_trans (ih x hx) hb
  · intro w w' _ ih p x hx
    obtain ⟨l, hl, hl'⟩ := prim_log p
    rw [hl, List.mem_append] at hx
    rw [(prim_config p).1]
    rcases hx with hx | hx
    · exact ih x hx
    · exact le_of_eq (hl' x hx)

theorem total_emit (w : World) (e : Event) (f : Event → Nat) : (w.emit e).total f = w.total f + f e := by
  simp [World.total, World.emit]

theorem count_emit (w : World) (e : Event) (p : Event → Bool) : (w.emit e).count p = w.count p + (if p e then 1 else 0) := by
  simp [World.count, World.emit, List.countP_append, List.countP_cons]

theorem accepted_emit (w : World) (e : Event) (b : Nat) (ty : TxType) : (w.emit e).accepted b ty = w.accepted b ty ++
    (match e with
    | .transactionAdded b' ty' tx _ _ => if b' = b ∧ ty' = ty then [tx] else []
    | _ => []) := by
  unfold World.accepted World.emit
  rw [List.filterMap_append]
  congr 1
  cases e <;> simp [List.filterMap_cons]
  split <;> simp_all

end Shutter.Sol
