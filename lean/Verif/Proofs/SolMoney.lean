import Verif.Proofs.SolLog
import Mathlib.Algebra.BigOperators.Finprod

/-! # The deposit contract and the fee bank -/

namespace Shutter.Sol
open World

/-- Totals over the events, unfolded. -/
theorem total_log {w w' : World} (h : w'.log = w.log) (f : Event → Nat) : w'.total f = w.total f := by
  simp [World.total, h]

/-- Finite sums of a function with finite support, with a value changed. -/
structure SumsTo (f : Address → Nat) (n : Nat) : Prop where
  out : ∃ S : Finset Address, (∀ a, a ∉ S → f a = 0) ∧ n = ∑ a ∈ S, f a

theorem SumsTo.finsum {f n} (h : SumsTo f n) : (Function.support f).Finite ∧ n = ∑ᶠ a, f a := by
  obtain ⟨S, h1, h2⟩ := h.out
  have hs : Function.support f ⊆ (S : Set Address) := by
    intro a ha
    by_contra hn
    exact ha (h1 a (by simpa using hn))
  exact ⟨Set.Finite.subset S.finite_toSet hs, by rw [h2, finsum_eq_sum_of_support_subset f hs]⟩

theorem SumsTo.upd {f n} (h : SumsTo f n) (a : Address) (v : Nat) :
    f a ≤ n ∧ SumsTo (upd f a v) (n - f a + v) := by
  obtain ⟨S, h1, h2⟩ := h.out
  have hT : ∑ x ∈ insert a S, f x = n := by
    rw [h2]
    by_cases ha : a ∈ S
    · rw [Finset.insert_eq_of_mem ha]
    · rw [Finset.sum_insert ha, h1 a ha, Nat.zero_add]
  have hmem : a ∈ insert a S := Finset.mem_insert_self _ _
  have hsplit : f a + ∑ x ∈ (insert a S).erase a, f x = n := by rw [Finset.add_sum_erase _ _ hmem, hT]
  refine ⟨by omega, ⟨insert a S, ?_, ?_⟩⟩
  · intro x hx
    simp at hx
    simp [Sol.upd, hx.1, h1 x hx.2]
  · rw [← Finset.add_sum_erase _ _ hmem]
    have : ∑ x ∈ (insert a S).erase a, Sol.upd f a v x = ∑ x ∈ (insert a S).erase a, f x := by
      refine Finset.sum_congr rfl (fun x hx => ?_)
      have := (Finset.mem_erase.1 hx).1
      simp [Sol.upd, this]
    rw [this]
    simp only [Sol.upd, if_true]
    omega

theorem SumsTo.congr {f g n m} (h : SumsTo f n) (hf : ∀ a, g a = f a) (hn : m = n) : SumsTo g m := by
  have : g = f := funext hf
  rw [this, hn]; exact h

/-- What holds of the deposit contract. -/
structure DepositInv (w : World) : Prop where
  slasher : w.deposit.slasher = w.slasherAddr ∧ w.slasherAddr ≠ 0
  sum : SumsTo (fun a => (w.deposit.deposits a).amount) w.deposit.tokens
  account : ∀ a, (w.deposit.deposits a).amount + w.tokensWithdrawn a + w.tokensSlashed a = w.tokensDeposited a
  slashed : ∀ a, (w.deposit.deposits a).slashed = true → w.deposit.deposits a = ⟨0, 0, 0, true⟩
  request : ∀ a, 0 < (w.deposit.deposits a).requested → ∃ pre post, w.log = pre ++
    ((w.deposit.deposits a).requested, .depositChanged a (w.deposit.deposits a).amount (w.deposit.deposits a).delay
      (w.deposit.deposits a).requested false false 0) :: post ∧
    ∀ x ∈ post, x.2.movesDeposit a = false

theorem depositInv {tame E w} (h : PReach tame E w) : DepositInv w := by
  refine PReach.induct (I := DepositInv) ?_ ?_ ?_ h
  · rintro w ⟨_, _, _, _, _, _, _, _, _, h0, rfl⟩
    refine ⟨⟨rfl, h0⟩, ⟨∅, ?_, ?_⟩, ?_, ?_, ?_⟩ <;>
      simp [World.deployed, Deposit.zero, World.tokensWithdrawn, World.tokensSlashed, World.tokensDeposited, World.total]
  · intro w b ih _ _; exact ⟨ih.1, ih.2, ih.3, ih.4, ih.5⟩
  · intro w w' _ ih p
    have other : w'.deposit.deposits = w.deposit.deposits → w'.deposit.slasher = w.deposit.slasher →
        w'.deposit.tokens = w.deposit.tokens → w'.slasherAddr = w.slasherAddr →
        (∃ l, w'.log = w.log ++ l ∧ ∀ x ∈ l, ∀ a, x.2.movesDeposit a = false) → DepositInv w' := by
      rintro h1 h2 h3 h4 ⟨l, h5, h6⟩
      have hz : ∀ f : Event → Nat, (∀ e, (∀ a, e.movesDeposit a = false) → f e = 0) → w'.total f = w.total f := by
        intro f hf
        simp only [World.total, h5, List.map_append, List.sum_append]
        rw [Nat.add_eq_left, List.sum_eq_zero_iff]
        intro n hn
        rw [List.mem_map] at hn
        obtain ⟨x, hx, rfl⟩ := hn
        exact hf _ (h6 x hx)
      refine ⟨by rw [h2, h4]; exact ih.1, by rw [h1, h3]; exact ih.2, ?_, by rw [h1]; exact ih.4, ?_⟩
      · intro a
        rw [h1, show w'.tokensWithdrawn a = w.tokensWithdrawn a from ?_, show w'.tokensSlashed a = w.tokensSlashed a from ?_,
          show w'.tokensDeposited a = w.tokensDeposited a from ?_]
        · exact ih.account a
        all_goals
          refine hz _ (fun e he => ?_)
          cases e
          case depositChanged a' _ _ _ b1 b2 _ =>
            have := he a'
            simp [Event.movesDeposit] at this
            subst this
            rfl
          case tokensPaid a' _ _ => exact absurd (he a') (by simp [Event.movesDeposit])
          all_goals rfl
      · intro a ha
        rw [h1] at ha ⊢
        obtain ⟨pre, post, g1, g2⟩ := ih.request a ha
        refine ⟨pre, post ++ l, by rw [h5, g1]; simp, ?_⟩
        intro x hx
        rw [List.mem_append] at hx
        rcases hx with hx | hx
        · exact g2 x hx
        · exact h6 x hx a
    cases p
    case tokens a n d h1 h2 h3 h4 =>
      refine ⟨ih.1, ?_, ?_, ?_, ?_⟩
      · obtain ⟨g1, g2⟩ := ih.sum.upd a ((w.deposit.deposits a).amount + n)
        refine g2.congr (fun x => ?_) ?_
        · simp only [World.emit, upd]; split <;> rfl
        · simp only [World.emit]; omega
      · intro x
        have := ih.account x
        simp only [World.tokensWithdrawn, World.tokensSlashed, World.tokensDeposited, total_emit] at this ⊢
        simp only [World.emit, upd]
        by_cases hx : x = a
        · subst hx
          simp only [if_true] at this ⊢
          simp only [World.total] at this ⊢
          omega
        · simp only [hx, Ne.symm hx, if_false] at this ⊢
          simp only [World.total] at this ⊢
          omega
      · intro x hx
        by_cases hxa : x = a
        · subst hxa; simp [World.emit, upd] at hx
        · simp only [World.emit, upd, hxa, if_false] at hx ⊢; exact ih.slashed x hx
      · intro x hx
        by_cases hxa : x = a
        · subst hxa; simp [World.emit, upd] at hx
        · simp only [World.emit, upd, hxa, if_false] at hx ⊢
          obtain ⟨pre, post, g1, g2⟩ := ih.request x hx
          exact ⟨pre, post ++ [_], by rw [g1]; simp; rfl, by
            intro y hy
            rw [List.mem_append, List.mem_singleton] at hy
            rcases hy with hy | rfl
            · exact g2 y hy
            · simp [Event.movesDeposit, Ne.symm hxa]⟩
    case requested a h1 h2 h3 =>
      refine ⟨ih.1, ?_, ?_, ?_, ?_⟩
      · refine ih.sum.congr (fun x => ?_) rfl
        simp only [World.emit, upd]
        split
        · next hx => subst hx; rfl
        · rfl
      · intro x
        have := ih.account x
        simp only [World.tokensWithdrawn, World.tokensSlashed, World.tokensDeposited, total_emit] at this ⊢
        simp only [World.emit, upd]
        by_cases hx : x = a
        · subst hx
          simp only [if_true] at this ⊢
          simp only [World.total] at this ⊢
          omega
        · simp only [hx, Ne.symm hx, if_false] at this ⊢
          simp only [World.total] at this ⊢
          omega
      · intro x hx
        by_cases hxa : x = a
        · subst hxa; simp [World.emit, upd, h2] at hx
        · simp only [World.emit, upd, hxa, if_false] at hx ⊢; exact ih.slashed x hx
      · intro x hx
        by_cases hxa : x = a
        · subst hxa
          refine ⟨w.log, [], ?_, by simp⟩
          simp [World.emit, upd]
        · simp only [World.emit, upd, hxa, if_false] at hx ⊢
          obtain ⟨pre, post, g1, g2⟩ := ih.request x hx
          exact ⟨pre, post ++ [_], by rw [g1]; simp; rfl, by
            intro y hy
            rw [List.mem_append, List.mem_singleton] at hy
            rcases hy with hy | rfl
            · exact g2 y hy
            · simp [Event.movesDeposit, Ne.symm hxa]⟩
    case paid a r h1 h2 h3 h4 h5 =>
      refine ⟨ih.1, ?_, ?_, ?_, ?_⟩
      · obtain ⟨g1, g2⟩ := ih.sum.upd a 0
        refine g2.congr (fun x => ?_) ?_
        · simp only [World.emit, upd]; split <;> rfl
        · simp only [World.emit]; omega
      · intro x
        have := ih.account x
        simp only [World.tokensWithdrawn, World.tokensSlashed, World.tokensDeposited, total_emit] at this ⊢
        simp only [World.emit, upd]
        by_cases hx : x = a
        · subst hx
          simp only [if_true, Deposit.zero] at this ⊢
          simp only [World.total] at this ⊢
          omega
        · simp only [hx, Ne.symm hx, if_false] at this ⊢
          simp only [World.total] at this ⊢
          omega
      · intro x hx
        by_cases hxa : x = a
        · subst hxa; simp [World.emit, upd, Deposit.zero] at hx
        · simp only [World.emit, upd, hxa, if_false] at hx ⊢; exact ih.slashed x hx
      · intro x hx
        by_cases hxa : x = a
        · subst hxa; simp [World.emit, upd, Deposit.zero] at hx
        · simp only [World.emit, upd, hxa, if_false] at hx ⊢
          obtain ⟨pre, post, g1, g2⟩ := ih.request x hx
          exact ⟨pre, post ++ [_], by rw [g1]; simp; rfl, by
            intro y hy
            rw [List.mem_append, List.mem_singleton] at hy
            rcases hy with hy | rfl
            · exact g2 y hy
            · simp [Event.movesDeposit, Ne.symm hxa]⟩
    case slashedDeposit a h1 h2 =>
      refine ⟨ih.1, ?_, ?_, ?_, ?_⟩
      · obtain ⟨g1, g2⟩ := ih.sum.upd a 0
        refine g2.congr (fun x => ?_) ?_
        · simp only [World.emit, upd]; split <;> rfl
        · simp only [World.emit]; omega
      · intro x
        have := ih.account x
        simp only [World.tokensWithdrawn, World.tokensSlashed, World.tokensDeposited, total_emit] at this ⊢
        simp only [World.emit, upd]
        by_cases hx : x = a
        · subst hx
          simp only [if_true] at this ⊢
          simp only [World.total] at this ⊢
          omega
        · simp only [hx, Ne.symm hx, if_false] at this ⊢
          simp only [World.total] at this ⊢
          omega
      · intro x hx
        by_cases hxa : x = a
        · subst hxa; simp [World.emit, upd]
        · simp only [World.emit, upd, hxa, if_false] at hx ⊢; exact ih.slashed x hx
      · intro x hx
        by_cases hxa : x = a
        · subst hxa; simp [World.emit, upd] at hx
        · simp only [World.emit, upd, hxa, if_false] at hx ⊢
          obtain ⟨pre, post, g1, g2⟩ := ih.request x hx
          exact ⟨pre, post ++ [_], by rw [g1]; simp; rfl, by
            intro y hy
            rw [List.mem_append, List.mem_singleton] at hy
            rcases hy with hy | rfl
            · exact g2 y hy
            · simp [Event.movesDeposit, Ne.symm hxa]⟩
    case setSlasher a h1 => exact absurd (ih.slasher.1 ▸ h1) ih.slasher.2
    case setReceiver => exact other rfl rfl rfl rfl ⟨[], by simp, by simp⟩
    case noted e he =>
      refine other rfl rfl rfl rfl ⟨[_], rfl, ?_⟩
      cases he <;> simp [Event.movesDeposit]
    case config => exact other rfl rfl rfl rfl ⟨[], by simp, by simp⟩
    case minFee => exact other rfl rfl rfl rfl ⟨[], by simp, by simp⟩
    case kept => exact other rfl rfl rfl rfl ⟨[], by simp, by simp⟩
    all_goals first
      | exact other rfl rfl rfl rfl ⟨[_], rfl, by simp [World.emit, Event.movesDeposit]⟩
      | exact other rfl rfl rfl rfl ⟨[_] ++ [_], List.append_assoc _ _ _, by simp [World.emit, Event.movesDeposit]⟩

/-- Nothing is paid out for a slashed account. -/
theorem withdrawn_prim {tame E} {w w' : World} (p : Prim tame E w w') {a} (h : (w.deposit.deposits a).slashed = true) :
    w'.tokensWithdrawn a = w.tokensWithdrawn a := by
  have key : ∀ l : List (Nat × Event), w'.log = w.log ++ l → (∀ x ∈ l, ∀ r v, x.2 ≠ .tokensPaid a r v) →
      w'.tokensWithdrawn a = w.tokensWithdrawn a := by
    intro l h1 h2
    simp only [World.tokensWithdrawn, World.total, h1, List.map_append, List.sum_append]
    rw [Nat.add_eq_left, List.sum_eq_zero_iff]
    intro n hn
    rw [List.mem_map] at hn
    obtain ⟨⟨m, e⟩, hx, rfl⟩ := hn
    have := h2 _ hx
    cases e
    case tokensPaid a' r v =>
      have hne : a' ≠ a := by rintro rfl; exact this r v rfl
      simp [hne]
    all_goals rfl
  cases p
  case paid a' r h1 h2 h3 h4 h5 =>
    refine key [_] rfl ?_
    intro x hx r' v' he
    simp at hx; subst hx
    injection he with e1
    subst e1
    rw [h] at h2; simp at h2
  case setSlasher a h1 => exact key [] (by simp) (by simp)
  case setReceiver => exact key [] (by simp) (by simp)
  case config => exact key [] (by simp) (by simp)
  case minFee => exact key [] (by simp) (by simp)
  case kept => exact key [] (by simp) (by simp)
  case noted e he =>
    refine key [_] rfl ?_
    cases he <;> simp
  all_goals first
    | exact key [_] rfl (by simp [World.emit])
    | exact key ([_] ++ [_]) (List.append_assoc _ _ _) (by simp [World.emit])

/-! ## The fee bank -/

/-- Events that concern the fee bank's money. -/
def Event.movesFees : Event → Bool
  | .feeDeposited _ _ _ _ => true
  | .etherPaid _ _ _ => true
  | .etherForced _ => true
  | _ => false

structure FeeInv (w : World) : Prop where
  sum : ∃ s, SumsTo w.feeBank.deposits s ∧ w.feeBank.balance = s + w.etherForced
  account : ∀ a, w.feeBank.deposits a + w.feesWithdrawn a = w.feesDeposited a
  small : ∀ a, w.feeBank.deposits a < two64

theorem feeInv {tame E w} (h : PReach tame E w) : FeeInv w := by
  refine PReach.induct (I := FeeInv) ?_ ?_ ?_ h
  · rintro w ⟨_, _, _, _, _, _, _, _, _, h0, rfl⟩
    refine ⟨⟨0, ⟨∅, ?_, ?_⟩, ?_⟩, ?_, ?_⟩ <;>
      simp [World.deployed, World.feesWithdrawn, World.feesDeposited, World.etherForced, World.total, two64]
  · intro w b ih _ _; exact ⟨ih.1, ih.2, ih.3⟩
  · intro w w' _ ih p
    have other : w'.feeBank = w.feeBank →
        (∃ l, w'.log = w.log ++ l ∧ ∀ x ∈ l, x.2.movesFees = false) → FeeInv w' := by
      rintro h1 ⟨l, h5, h6⟩
      have hz : ∀ f : Event → Nat, (∀ e, e.movesFees = false → f e = 0) → w'.total f = w.total f := by
        intro f hf
        simp only [World.total, h5, List.map_append, List.sum_append]
        rw [Nat.add_eq_left, List.sum_eq_zero_iff]
        intro n hn
        rw [List.mem_map] at hn
        obtain ⟨x, hx, rfl⟩ := hn
        exact hf _ (h6 x hx)
      have e1 : ∀ a, w'.feesWithdrawn a = w.feesWithdrawn a :=
        fun a => hz _ (fun e he => by cases e <;> first | rfl | exact Bool.noConfusion he)
      have e2 : ∀ a, w'.feesDeposited a = w.feesDeposited a :=
        fun a => hz _ (fun e he => by cases e <;> first | rfl | exact Bool.noConfusion he)
      have e3 : w'.etherForced = w.etherForced := hz _ (fun e he => by cases e <;> first | rfl | exact Bool.noConfusion he)
      exact ⟨by rw [h1, e3]; exact ih.1, fun a => by rw [h1, e1, e2]; exact ih.2 a, by rw [h1]; exact ih.3⟩
    cases p
    case feeDeposited s r v h1 h2 h3 =>
      obtain ⟨t, g1, g2⟩ := ih.sum
      refine ⟨⟨_, (g1.upd r (w.feeBank.deposits r + v)).2, ?_⟩, ?_, ?_⟩
      · have := (g1.upd r 0).1
        simp only [World.etherForced, total_emit] at g2 ⊢
        simp only [World.emit] at g2 ⊢
        simp only [World.total] at g2 ⊢
        omega
      · intro x
        have := ih.account x
        simp only [World.feesWithdrawn, World.feesDeposited, total_emit] at this ⊢
        simp only [World.emit, upd]
        by_cases hx : x = r
        · subst hx; simp only [if_true] at this ⊢; simp only [World.total] at this ⊢; omega
        · simp only [hx, Ne.symm hx, if_false] at this ⊢; simp only [World.total] at this ⊢; omega
      · intro x
        simp only [World.emit, upd]
        split
        · exact h3
        · exact ih.small x
    case feePaid s r a h1 h2 h3 h4 =>
      obtain ⟨t, g1, g2⟩ := ih.sum
      refine ⟨⟨_, (g1.upd s (w.feeBank.deposits s - a)).2, ?_⟩, ?_, ?_⟩
      · have := (g1.upd s 0).1
        simp only [World.etherForced, total_emit] at g2 ⊢
        simp only [World.emit] at g2 ⊢
        simp only [World.total] at g2 ⊢
        omega
      · intro x
        have := ih.account x
        simp only [World.feesWithdrawn, World.feesDeposited, total_emit] at this ⊢
        simp only [World.emit, upd]
        by_cases hx : x = s
        · subst hx; simp only [if_true] at this ⊢; simp only [World.total] at this ⊢; omega
        · simp only [hx, Ne.symm hx, if_false] at this ⊢; simp only [World.total] at this ⊢; omega
      · intro x
        have := ih.small s
        simp only [World.emit, upd]
        split
        · omega
        · exact ih.small x
    case forced v =>
      obtain ⟨t, g1, g2⟩ := ih.sum
      refine ⟨⟨t, g1, ?_⟩, ?_, ih.small⟩
      · simp only [World.etherForced, total_emit] at g2 ⊢
        simp only [World.emit] at g2 ⊢
        simp only [World.total] at g2 ⊢
        omega
      · intro x
        have := ih.account x
        simp only [World.feesWithdrawn, World.feesDeposited, total_emit] at this ⊢
        simp only [World.emit]
        simp only [World.total] at this ⊢
        omega
    case setSlasher a h1 => exact other rfl ⟨[], by simp, by simp⟩
    case setReceiver => exact other rfl ⟨[], by simp, by simp⟩
    case noted e he =>
      refine other rfl ⟨[_], rfl, ?_⟩
      cases he <;> simp [Event.movesFees]
    case config => exact other rfl ⟨[], by simp, by simp⟩
    case minFee => exact other rfl ⟨[], by simp, by simp⟩
    case kept => exact other rfl ⟨[], by simp, by simp⟩
    all_goals first
      | exact other rfl ⟨[_], rfl, by simp [World.emit, Event.movesFees]⟩
      | exact other rfl ⟨[_] ++ [_], List.append_assoc _ _ _, by simp [World.emit, Event.movesFees]⟩

/-! ## Events have a history -/

/-- Every event stands in the relation `Q` to the events before. -/
def Justified (Q : List (Nat × Event) → Nat × Event → Prop) (log : List (Nat × Event)) : Prop :=
  ∀ pre x post, log = pre ++ x :: post → Q pre x

theorem justified_nil (Q) : Justified Q [] := by
  intro pre x post h
  simp at h

theorem justified_snoc {Q} {l : List (Nat × Event)} {e} (h : Justified Q l) (he : Q l e) : Justified Q (l ++ [e]) := by
  intro pre x post hp
  rcases List.eq_nil_or_concat post with rfl | ⟨post', y, rfl⟩
  · have := List.append_inj' hp rfl
    obtain ⟨rfl, h2⟩ := this
    simp at h2; subst h2; exact he
  · rw [List.concat_eq_append, ← List.cons_append, ← List.append_assoc] at hp
    obtain ⟨rfl, _⟩ := List.append_inj' hp rfl
    exact h pre x post' rfl

theorem justified_append {Q} {l l' : List (Nat × Event)} (h : Justified Q l) (hl : ∀ pre x, x ∈ l' → Q pre x) :
    Justified Q (l ++ l') := by
  induction l' generalizing l with
  | nil => simpa using h
  | cons y l' ih =>
    rw [← List.singleton_append, ← List.append_assoc]
    exact ih (justified_snoc h (hl _ _ (by simp))) (fun pre x hx => hl pre x (by simp [hx]))

/-- What must have happened before tokens are paid out. -/
def PaidJust (pre : List (Nat × Event)) (x : Nat × Event) : Prop :=
  ∀ a r v, x.2 = .tokensPaid a r v → ∃ m delay pre1 pre2, pre = pre1 ++ (m, .depositChanged a v delay m false false 0) :: pre2 ∧
    (∀ y ∈ pre2, y.2.movesDeposit a = false) ∧ 0 < m ∧ 0 < v ∧ m + delay ≤ x.1

theorem paidJust {tame E w} (h : PReach tame E w) : Justified PaidJust w.log := by
  refine PReach.induct (I := fun w => Justified PaidJust w.log) ?_ ?_ ?_ h
  · rintro w ⟨_, _, _, _, _, _, _, _, _, h0, rfl⟩; exact justified_nil _
  · intro w b ih _ _; exact ih
  · intro w w' hr ih p
    have inv := depositInv hr
    cases p
    case paid a r h1 h2 h3 h4 h5 =>
      refine justified_snoc ih ?_
      intro a' r' v' he
      injection he with e1 e2 e3
      subst e1 e2 e3
      obtain ⟨pre, post, g1, g2⟩ := inv.request a h3
      exact ⟨_, _, pre, post, g1, g2, h3, h1, h4⟩
    case setSlasher a h1 => exact ih
    case setReceiver => exact ih
    case config => exact ih
    case minFee => exact ih
    case kept => exact ih
    case noted e he =>
      refine justified_snoc ih ?_
      intro a r v he'
      cases he <;> simp at he'
    all_goals first
      | (refine justified_snoc ih ?_
         intro a r v he'
         cases he')
      | (refine justified_snoc (justified_snoc ih ?_) ?_ <;>
         (intro a r v he'
          cases he'))

end Shutter.Sol
