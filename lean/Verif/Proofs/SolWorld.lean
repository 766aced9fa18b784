import Verif.Spec.SolWorld
import Verif.Proofs.SolConfig

/-! # Induction over calls and call backs -/

namespace Shutter.Sol

/-- What has to be shown about a relation between worlds to know it for all calls. `T` is the relation shown for the
execution of transactions. -/
structure StepCases (E : Env) (p : Op → Prop) (R : World → World → Prop)
    (T : World → Address × Bytes → List Bytes → World → Prop) : Prop where
  refl : ∀ w, R w w
  trans : ∀ {w w' w''}, R w w' → R w' w'' → R w w''
  closed : ∀ {op op'}, op' ∈ Op.nested op → p op → p op'
  atomic : ∀ {w op w'}, p op → World.atomic E w op = some w' → R w w'
  done : ∀ w t, T w t [] w
  called : ∀ {w t tx txs w1 w2}, R (World.callTarget w t tx) w1 → T w1 t txs w2 → T w t (tx :: txs) w2
  fee : ∀ {w : World} {s r a w1 w2}, w.feeWithdrawPre s r a = some w1 → R w1 w2 → R w (w2.feeWithdrawPost s r a)
  cipherSkip : ∀ {w : World} {s b h txs k inner w'}, p (.executeCipherBatch s b h txs k inner) →
    w.cipherPre s b h txs k = some .skip → w.skipCipherPost = some w' → R w w'
  cipher : ∀ {w : World} {s b h txs k inner t sel w'}, p (.executeCipherBatch s b h txs k inner) →
    w.cipherPre s b h txs k = some (.execute t sel) → T w (t, sel) txs (w.runTargets E (t, sel) txs inner) →
    (w.runTargets E (t, sel) txs inner).cipherPost E s b h txs = some w' → R w w'
  plain : ∀ {w : World} {s b txs inner t w'}, p (.executePlainBatch s b txs inner) →
    w.plainPre b = some t → T w t txs (w.runTargets E t txs inner) →
    (w.runTargets E t txs inner).plainPost E s b txs = some w' → R w w'
  withdraw : ∀ {w : World} {s r w1 a w2}, w.withdrawPre s r = some (w1, a) → R w1 w2 → R w (w2.withdrawPost s a)
  slashDeposit : ∀ {w : World} {s a w1 w2}, s = w.deposit.slasher → s ≠ w.slasherAddr → w.slashDeposit a = some w1 →
    R w1 w2 → R w w2
  slash : ∀ {w : World} {h acc w1 w2}, w.slashPre h = some acc → w.deposit.slasher = w.slasherAddr →
    w.slashDeposit acc.executor = some w1 → R w1 w2 → R w (w2.slashPost h acc)

mutual

theorem step_cases {E : Env} {p : Op → Prop} {R : World → World → Prop}
    {T : World → Address × Bytes → List Bytes → World → Prop} (H : StepCases E p R T) :
    ∀ (op : Op) (w w' : World), p op → w.step E op = some w' → R w w'
  | .feeWithdraw s args inner, w, w', hp, h => by
    rw [World.step] at h
    split at h
    · simp at h
    · split at h
      · simp at h
      · next w1 h1 =>
        simp at h; subst h
        exact H.fee h1 (inner_cases H inner w1 (fun op' ho => H.closed (op := .feeWithdraw s args inner) ho hp))
  | .executeCipherBatch s b h txs k inner, w, w', hp, hh => by
    rw [World.step] at hh
    split at hh
    · simp at hh
    · next h1 => exact H.cipherSkip hp h1 hh
    · next t sel h1 =>
      exact H.cipher hp h1 (targets_cases H inner w (t, sel) txs
        (fun op' ho => H.closed (op := .executeCipherBatch s b h txs k inner) ho hp)) hh
  | .executePlainBatch s b txs inner, w, w', hp, hh => by
    rw [World.step] at hh
    split at hh
    · simp at hh
    · next t h1 =>
      exact H.plain hp h1 (targets_cases H inner w t txs
        (fun op' ho => H.closed (op := .executePlainBatch s b txs inner) ho hp)) hh
  | .withdraw s r inner, w, w', hp, hh => by
    rw [World.step] at hh
    split at hh
    · simp at hh
    · next w1 a h1 =>
      simp at hh; subst hh
      exact H.withdraw h1 (inner_cases H inner w1 (fun op' ho => H.closed (op := .withdraw s r inner) ho hp))
  | .slashDeposit s a inner, w, w', hp, hh => by
    rw [World.step] at hh
    split at hh
    · next hs =>
      split at hh
      · simp at hh
      · next w1 h1 =>
        split at hh
        · simp at hh; subst hh
          exact H.slashDeposit hs.1 hs.2 h1 (H.refl _)
        · simp at hh; subst hh
          exact H.slashDeposit hs.1 hs.2 h1
            (inner_cases H inner w1 (fun op' ho => H.closed (op := .slashDeposit s a inner) ho hp))
    · simp at hh
  | .slash s h inner, w, w', hp, hh => by
    rw [World.step] at hh
    split at hh
    · simp at hh
    · next acc h0 =>
      split at hh
      · next hs =>
        split at hh
        · simp at hh
        · next w1 h1 =>
          split at hh
          · simp at hh; subst hh
            exact H.slash h0 hs h1 (H.refl _)
          · simp at hh; subst hh
            exact H.slash h0 hs h1 (inner_cases H inner w1 (fun op' ho => H.closed (op := .slash s h inner) ho hp))
      · simp at hh
  | .config s c, w, w', hp, h => H.atomic hp (by rw [World.step] at h; exact h)
  | .addTransaction s b ty tx v, w, w', hp, h => H.atomic hp (by rw [World.step] at h; exact h)
  | .setMinFee s n, w, w', hp, h => H.atomic hp (by rw [World.step] at h; exact h)
  | .feeDeposit s r v, w, w', hp, h => H.atomic hp (by rw [World.step] at h; exact h)
  | .forceEther v, w, w', hp, h => H.atomic hp (by rw [World.step] at h; exact h)
  | .setHalfSteps s n, w, w', hp, h => H.atomic hp (by rw [World.step] at h; exact h)
  | .skipEmptyOrTimedOutBatches s n, w, w', hp, h => H.atomic hp (by rw [World.step] at h; exact h)
  | .skipCipherExecution s b, w, w', hp, h => H.atomic hp (by rw [World.step] at h; exact h)
  | .sendTokens s a d, w, w', hp, h => H.atomic hp (by rw [World.step] at h; exact h)
  | .requestWithdrawal s, w, w', hp, h => H.atomic hp (by rw [World.step] at h; exact h)
  | .setSlasher s a, w, w', hp, h => H.atomic hp (by rw [World.step] at h; exact h)
  | .setSlashingReceiver s a, w, w', hp, h => H.atomic hp (by rw [World.step] at h; exact h)
  | .accuse s h k, w, w', hp, hh => H.atomic hp (by rw [World.step] at hh; exact hh)
  | .appeal s a, w, w', hp, h => H.atomic hp (by rw [World.step] at h; exact h)
  | .vote s k b key, w, w', hp, h => H.atomic hp (by rw [World.step] at h; exact h)

theorem inner_cases {E : Env} {p : Op → Prop} {R : World → World → Prop}
    {T : World → Address × Bytes → List Bytes → World → Prop} (H : StepCases E p R T) :
    ∀ (ops : List Op) (w : World), (∀ op ∈ ops, p op) → R w (w.runInner E ops)
  | [], w, _ => by rw [World.runInner]; exact H.refl w
  | op :: ops, w, hp => by
    rw [World.runInner]
    have hop := hp op List.mem_cons_self
    have hops : ∀ o ∈ ops, p o := fun o ho => hp o (List.mem_cons_of_mem _ ho)
    split
    · exact inner_cases H ops w hops
    · next w' h => exact H.trans (step_cases H op w w' hop h) (inner_cases H ops w' hops)

theorem targets_cases {E : Env} {p : Op → Prop} {R : World → World → Prop}
    {T : World → Address × Bytes → List Bytes → World → Prop} (H : StepCases E p R T) :
    ∀ (inner : List (List Op)) (w : World) (t : Address × Bytes) (txs : List Bytes), (∀ op ∈ inner.flatten, p op) →
      T w t txs (w.runTargets E t txs inner)
  | [], w, t, txs, _ => by
    rw [World.runTargets]
    induction txs generalizing w with
    | nil => exact H.done w t
    | cons tx txs ih => exact H.called (H.refl _) (ih (w.callTarget t tx))
  | ops :: rest, w, t, [], _ => by rw [World.runTargets]; exact H.done w t
  | ops :: rest, w, t, tx :: txs, hp => by
    rw [World.runTargets]
    refine H.called (inner_cases H ops _ ?_) (targets_cases H rest _ t txs ?_)
    · intro o ho; exact hp o (by simp [ho])
    · intro o ho; exact hp o (by rw [List.flatten_cons]; exact List.mem_append_right _ ho)

end

end Shutter.Sol
