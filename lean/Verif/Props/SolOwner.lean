import Verif.Spec.SolOwner
import Verif.Proofs.SolPrim
import Verif.Proofs.SolDemo

/-! Property theorem C61 (contracts: the rights of owners). -/

namespace Shutter.Sol
open World

theorem SettingsKept.refl (w : World) : SettingsKept w w := ⟨rfl, rfl, rfl, rfl, fun _ => rfl, fun _ _ h => h⟩

theorem SettingsKept.trans {w w' w'' : World} (h : SettingsKept w w') (h' : SettingsKept w' w'') : SettingsKept w w'' :=
  ⟨h'.config.trans h.config, h'.minFee.trans h.minFee, h'.receiver.trans h.receiver, h'.owners.trans h.owners,
    fun hs => (h'.slasher (by rw [h.slasher hs]; exact hs)).trans (h.slasher hs), fun n m hm => h.counter n m (h'.counter n m hm)⟩

/-- A change that concerns nothing of the settings, with one event. -/
theorem SettingsKept.one {w w' : World} {e : Event} (he : ∀ m, e ≠ .halfStepsSet m) (hlog : w'.log = w.log ++ [(w.block, e)])
    (h1 : w'.config = w.config) (h2 : w'.batcher.minFee = w.batcher.minFee) (h3 : w'.deposit.slashingReceiver = w.deposit.slashingReceiver)
    (h4 : w'.owners = w.owners) (h5 : w'.deposit.slasher = w.deposit.slasher) : SettingsKept w w' := by
  refine ⟨h1, h2, h3, h4, fun _ => h5, fun n m hm => ?_⟩
  rw [hlog, List.mem_append, List.mem_singleton] at hm
  rcases hm with hm | hm
  · exact hm
  · cases hm; exact absurd rfl (he m)

theorem kept_emit {w : World} {e : Event} (he : ∀ m, e ≠ .halfStepsSet m) : SettingsKept w (w.emit e) :=
  .one he rfl rfl rfl rfl rfl rfl

theorem kept_skipCipherPost {w w' : World} (h : w.skipCipherPost = some w') : SettingsKept w w' := by
  simp only [skipCipherPost, incHalfSteps, Option.bind_eq_bind, Option.bind_eq_some_iff, Option.some.injEq,
    addU64_eq_some] at h
  obtain ⟨_, ⟨_, ⟨rfl, hlt⟩, rfl⟩, rfl⟩ := h
  exact .one (by simp) rfl rfl rfl rfl rfl rfl

theorem kept_skipPlain {w w' : World} {n b} (h : w.skipPlain n b = some w') : SettingsKept w w' := by
  unfold skipPlain at h
  split at h
  · simp at h; subst h; exact .one (by simp) rfl rfl rfl rfl rfl rfl
  · simp at h

theorem kept_skipLoop {n : Nat} {w w' : World} (h : w.skipLoop n = some w') : SettingsKept w w' := by
  induction n generalizing w with
  | zero => simp [skipLoop] at h; subst h; exact .refl _
  | succ n ih =>
    rw [skipLoop] at h
    split at h
    · split at h
      · simp at h
      · simp at h; subst h; exact .refl _
      · split at h
        · simp at h
        · next w1 h1 =>
          have p1 := kept_skipCipherPost h1
          split at h
          · split at h
            · simp at h; subst h; exact p1
            · next w2 h2 => exact (p1.trans (kept_skipPlain h2)).trans (ih h)
          · split at h
            · simp at h
            · simp at h; subst h; exact p1
    · split at h
      · split at h
        · simp at h; subst h; exact .refl _
        · next w2 h2 => exact (kept_skipPlain h2).trans (ih h)
      · split at h
        · simp at h
        · simp at h; subst h; exact .refl _

theorem config_call_owner {c c' : Config} {block : Nat} {s : Address} {x : Config.Call} (h : c.call block s x = some c') : s = c.owner := by
  cases x <;> simp only [Config.call, Option.bind_eq_bind, Option.bind_eq_some_iff, require_eq_some] at h <;>
    exact h.choose_spec.1

theorem kept_feeDeposit {w w' : World} {s r v} (h : w.feeDeposit s r v = some w') : SettingsKept w w' := by
  simp only [feeDeposit, Option.bind_eq_bind, Option.bind_eq_some_iff, require_eq_some, Option.some.injEq] at h
  obtain ⟨_, h1, _, h2, _, h3, rfl⟩ := h
  exact .one (by simp) rfl rfl rfl rfl rfl rfl

/-- One call, all call backs included. -/
theorem kept_cases (E : Env) (o : Owners) : StepCases E (Op.Throughout (fun op => ¬ op.Administers o))
    (fun w w' => w.owners = o → SettingsKept w w') (fun w _ _ w' => w.owners = o → SettingsKept w w') where
  refl w _ := .refl w
  trans h h' ho := (h ho).trans (h' ((h ho).owners.trans ho))
  closed ho h := throughout_nested ho h
  done w _ _ := .refl w
  called := by
    intro w t tx txs w1 w2 h h' ho
    have h0 : SettingsKept w (w.callTarget t tx) := ⟨rfl, rfl, rfl, rfl, fun _ => rfl, by simp [callTarget, emit]⟩
    have h1 := h0.trans (h (h0.owners.trans ho))
    exact h1.trans (h' (h1.owners.trans ho))
  atomic := by
    intro w op w' hp h ho
    have hp := throughout_p hp
    cases op with
    | config s c =>
      simp only [atomic, Option.map_eq_some_iff] at h
      obtain ⟨c', hc, rfl⟩ := h
      refine absurd ?_ hp
      rw [Op.Administers, ← ho]; exact config_call_owner hc
    | addTransaction s b ty tx v =>
      simp only [atomic, addTransaction, Option.bind_eq_bind, Option.bind_eq_some_iff, require_eq_some,
        Option.some.injEq, u64_eq_some, addU64_eq_some] at h
      obtain ⟨_, ⟨rfl, hb⟩, i, hi, bc, hbc, _, _, _, _, _, _, _, _, _, _, _, _, _, _, _, _, _, _, _, _, w2, hpay, rfl⟩ := h
      refine SettingsKept.trans (w' := w2) ?_ (kept_emit (by simp))
      unfold payFee at hpay
      split at hpay
      · refine SettingsKept.trans ?_ (kept_feeDeposit hpay)
        exact ⟨rfl, rfl, rfl, rfl, fun _ => rfl, fun _ _ h => h⟩
      · cases hpay; exact ⟨rfl, rfl, rfl, rfl, fun _ => rfl, fun _ _ h => h⟩
    | setMinFee s n =>
      simp only [atomic, setMinFee, Option.bind_eq_bind, Option.bind_eq_some_iff, require_eq_some, u64_eq_some,
        Option.some.injEq] at h
      obtain ⟨_, h1, _⟩ := h
      refine absurd ?_ hp
      rw [Op.Administers, ← ho]; exact h1
    | feeDeposit s r v => exact kept_feeDeposit (by simpa only [atomic] using h)
    | forceEther v => simp only [atomic, Option.some.injEq] at h; subst h; exact .one (by simp) rfl rfl rfl rfl rfl rfl
    | setHalfSteps s n =>
      simp only [atomic, setHalfSteps, Option.bind_eq_bind, Option.bind_eq_some_iff, require_eq_some] at h
      obtain ⟨_, h1, _⟩ := h
      refine absurd ?_ hp
      rw [Op.Administers, ← ho]; exact h1
    | skipEmptyOrTimedOutBatches s n =>
      simp only [atomic, skipEmptyOrTimedOutBatches, Option.bind_eq_bind, Option.bind_eq_some_iff] at h
      obtain ⟨_, _, h⟩ := h
      exact kept_skipLoop h
    | skipCipherExecution s b =>
      simp only [atomic, skipCipherExecution, Option.bind_eq_bind, Option.bind_eq_some_iff, require_eq_some,
        u64_eq_some] at h
      obtain ⟨_, ⟨rfl, _⟩, _, hb, _, hev, i, hi, _, _, _, _, ⟨st, e, t⟩, hbd, _, ht, h⟩ := h
      exact kept_skipCipherPost h
    | sendTokens s a d =>
      simp only [atomic, tokensReceived, Option.bind_eq_bind, Option.bind_eq_some_iff, require_eq_some, u64_eq_some,
        Option.some.injEq] at h
      obtain ⟨_, ⟨rfl, h64⟩, _, h1, _, h2, _, h3, rfl⟩ := h; exact .one (by simp) rfl rfl rfl rfl rfl rfl
    | requestWithdrawal s =>
      simp only [atomic, requestWithdrawal, Option.bind_eq_bind, Option.bind_eq_some_iff, require_eq_some,
        Option.some.injEq] at h
      obtain ⟨_, h1, _, h2, _, h3, rfl⟩ := h; exact .one (by simp) rfl rfl rfl rfl rfl rfl
    | setSlasher s a =>
      simp only [atomic, setSlasher, Option.bind_eq_bind, Option.bind_eq_some_iff, require_eq_some, Option.some.injEq] at h
      obtain ⟨_, h1, rfl⟩ := h; exact ⟨rfl, rfl, rfl, rfl, fun hs => absurd h1 hs, fun _ _ h => h⟩
    | setSlashingReceiver s a =>
      simp only [atomic, setSlashingReceiver, Option.bind_eq_bind, Option.bind_eq_some_iff, require_eq_some,
        Option.some.injEq] at h
      obtain ⟨_, h1, rfl⟩ := h
      refine absurd ?_ hp
      rw [Op.Administers, ← ho]; exact h1
    | accuse s hs k =>
      simp only [atomic, accuse, Option.bind_eq_bind, Option.bind_eq_some_iff, require_eq_some, u64_eq_some,
        Option.some.injEq] at h
      obtain ⟨_, ⟨rfl, h64⟩, _, ⟨rfl, _⟩, _, hev, _, hna, i, hi, bc, hbc, s', hs, _, rfl, _, hex, _, hz, rfl⟩ := h
      exact .one (by simp) rfl rfl rfl rfl rfl rfl
    | appeal s a =>
      simp only [atomic, appeal, Option.bind_eq_bind, Option.bind_eq_some_iff, require_eq_some, u64_eq_some,
        Option.some.injEq] at h
      obtain ⟨_, ⟨rfl, h64⟩, _, h1, _, h2, _, h3, rfl⟩ := h; exact .one (by simp) rfl rfl rfl rfl rfl rfl
    | vote s k b key =>
      simp only [atomic, vote, Option.bind_eq_bind, Option.bind_eq_some_iff, require_eq_some, u64_eq_some, Option.some.injEq,
        addU64_eq_some] at h
      obtain ⟨_, ⟨rfl, _⟩, _, ⟨rfl, h64⟩, i, hi, bc, hbc, _, hsp, s', hs, _, rfl, _, hv, _, ⟨rfl, hn⟩, rfl⟩ := h
      exact .one (by simp) rfl rfl rfl rfl rfl rfl
    | _ => simp [atomic] at h
  fee := by
    intro w s r a w1 w2 h h2 ho
    simp only [feeWithdrawPre, Option.bind_eq_bind, Option.bind_eq_some_iff, require_eq_some, Option.some.injEq] at h
    obtain ⟨_, _, _, _, _, _, _, _, rfl⟩ := h
    refine SettingsKept.trans (SettingsKept.trans ?_ (h2 ho)) ?_
    · exact ⟨rfl, rfl, rfl, rfl, fun _ => rfl, by simp [emit]⟩
    exact ⟨rfl, rfl, rfl, rfl, fun _ => rfl, by simp [feeWithdrawPost, emit]⟩
  cipherSkip _ _ h _ := kept_skipCipherPost h
  cipher := by
    intro w s b h txs k inner t sel w' _ _ hT hpost ho
    simp only [cipherPost, incHalfSteps, Option.bind_eq_bind, Option.bind_eq_some_iff, Option.some.injEq,
      addU64_eq_some] at hpost
    obtain ⟨_, ⟨_, ⟨rfl, hlt⟩, rfl⟩, rfl⟩ := hpost
    exact (hT ho).trans ⟨rfl, rfl, rfl, rfl, fun _ => rfl, by simp [emit]⟩
  plain := by
    intro w s b txs inner t w' _ _ hT hpost ho
    simp only [plainPost, incHalfSteps, Option.bind_eq_bind, Option.bind_eq_some_iff, Option.some.injEq,
      addU64_eq_some, require_eq_some] at hpost
    obtain ⟨_, _, _, ⟨_, ⟨rfl, hlt⟩, rfl⟩, rfl⟩ := hpost
    exact (hT ho).trans ⟨rfl, rfl, rfl, rfl, fun _ => rfl, by simp [emit]⟩
  withdraw := by
    intro w s r w1 a w2 h h2 ho
    simp only [withdrawPre, Option.bind_eq_bind, Option.bind_eq_some_iff, require_eq_some, Option.some.injEq, Prod.mk.injEq] at h
    obtain ⟨_, _, _, _, _, _, _, _, _, _, _, _, _, _, _, _, rfl, rfl⟩ := h
    refine SettingsKept.trans (SettingsKept.trans ?_ (h2 ho)) ?_
    · exact ⟨rfl, rfl, rfl, rfl, fun _ => rfl, by simp [emit]⟩
    exact ⟨rfl, rfl, rfl, rfl, fun _ => rfl, by simp [withdrawPost, emit]⟩
  slashDeposit := by
    intro w s a w1 w2 _ _ h h2 ho
    simp only [slashDeposit, Option.bind_eq_bind, Option.bind_eq_some_iff, require_eq_some, Option.some.injEq] at h
    obtain ⟨_, _, _, _, rfl⟩ := h
    refine SettingsKept.trans ?_ (h2 ho)
    exact ⟨rfl, rfl, rfl, rfl, fun _ => rfl, by simp [emit]⟩
  slash := by
    intro w half acc w1 w2 _ _ h h2 ho
    simp only [slashDeposit, Option.bind_eq_bind, Option.bind_eq_some_iff, require_eq_some, Option.some.injEq] at h
    obtain ⟨_, _, _, _, rfl⟩ := h
    refine SettingsKept.trans (SettingsKept.trans ?_ (h2 ho)) ?_
    · exact ⟨rfl, rfl, rfl, rfl, fun _ => rfl, by simp [emit]⟩
    exact ⟨rfl, rfl, rfl, rfl, fun _ => rfl, by simp [slashPost, emit]⟩

end Shutter.Sol


namespace Shutter.Sol.Props
open Shutter.Sol World

variable {E : Env}

/-- **C61** A transaction in which no owner makes an administrative call to its contract, not even from within, changes none of the
settings, whoever sends it. -/
theorem C61_settings_owner_only {w w' : World} {op : Op} (hp : op.Throughout (fun o => ¬ o.Administers w.owners))
    (h : w.step E op = some w') : SettingsKept w w' :=
  step_cases (kept_cases E w.owners) op w w' hp h rfl

/-- Steps in which no owner in `o` makes an administrative call. -/
inductive OrdinaryStep (E : Env) (o : Owners) : World → World → Prop
  | mine {w : World} {b : Nat} : w.block ≤ b → b < two64 → OrdinaryStep E o w { w with block := b }
  | tx {w w' : World} {op : Op} : op.Throughout (fun x => ¬ x.Administers o) → w.step E op = some w' → OrdinaryStep E o w w'

/-- **C61** The same for histories of any length. -/
theorem C61_settings_owner_only_history {w w' : World} (h : Relation.ReflTransGen (OrdinaryStep E w.owners) w w') : SettingsKept w w' := by
  induction h with
  | refl => exact .refl _
  | tail _ hs ih =>
    refine ih.trans ?_
    cases hs with
    | mine _ _ => exact ⟨rfl, rfl, rfl, rfl, fun _ => rfl, fun _ _ h => h⟩
    | tx hp h => exact C61_settings_owner_only (by rw [ih.owners]; exact hp) h

/-- **C61** The owner of the batcher contract can set the minimum fee to any 64 bit number, the owner of the deposit contract the receiver
of slashed tokens to any account. (For the config contract see C43; its ownership can be transferred by the owner. Transfer of the
ownership of the other contracts is not modelled.) -/
theorem C61_owner_sets (w : World) (n : Nat) (hn : n < two64) (a : Address) :
    (∃ w', w.step E (.setMinFee w.batcher.owner n) = some w' ∧ w'.batcher.minFee = n) ∧
    (∃ w', w.step E (.setSlashingReceiver w.deposit.owner a) = some w' ∧ w'.deposit.slashingReceiver = a) := by
  refine ⟨⟨{ w with batcher := { w.batcher with minFee := n } }, ?_, rfl⟩,
    ⟨{ w with deposit := { w.deposit with slashingReceiver := a } }, ?_, rfl⟩⟩
  · simp [World.step, atomic, setMinFee, require, u64, hn]
  · simp [World.step, atomic, setSlashingReceiver, require]

/-- The hypotheses are met: the execution of a batch, in which a target tries to set the fee; the fee (3) is the owner's choice. -/
theorem C61_example : ∃ w', Demo.submitted.step Demo.env (.executeCipherBatch 6 0 (World.chainHashes Demo.env [[1, 2], [4]]) [[7]] 1 [[.setMinFee 60 0]]) = some w' ∧
    Op.Throughout (fun o => ¬ o.Administers Demo.submitted.owners)
      (.executeCipherBatch 6 0 (World.chainHashes Demo.env [[1, 2], [4]]) [[7]] 1 [[.setMinFee 60 0]]) ∧
    w'.batcher.minFee = 3 ∧ w'.executor.halfSteps = 1 := by
  refine ⟨(Demo.submitted.step Demo.env (.executeCipherBatch 6 0 (World.chainHashes Demo.env [[1, 2], [4]]) [[7]] 1 [[.setMinFee 60 0]])).getD Demo.submitted, ?_, ?_, ?_, ?_⟩
  · have : (Demo.submitted.step Demo.env (.executeCipherBatch 6 0 (World.chainHashes Demo.env [[1, 2], [4]]) [[7]] 1 [[.setMinFee 60 0]])).isSome := by
      decide +kernel
    obtain ⟨x, hx⟩ := Option.isSome_iff_exists.mp this
    rw [hx]; rfl
  · refine .mk (by simp [Op.Administers]) ?_
    intro o ho
    simp only [Op.nested, List.flatten_cons, List.flatten_nil, List.append_nil, List.mem_singleton] at ho
    subst ho
    refine .mk ?_ (by simp [Op.nested])
    simp only [Op.Administers, World.owners]
    decide +kernel
  · decide +kernel
  · decide +kernel

end Shutter.Sol.Props
