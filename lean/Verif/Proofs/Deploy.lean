import Verif.Spec.Deploy
import Verif.Proofs.SolPrim
import Verif.Proofs.Token

/-! # Calls of others during the deployment -/

namespace Shutter.Deploy
open Shutter.Sol Shutter.Sol.World Shutter.Files
open Shutter.App (Addr)
open Shutter.Token (Reaches)

/-- The state as if all contracts had been there from the beginning. -/
def virt (owner S B D : Address) (w : World) : World :=
  { World.deployed w.block 20 20 owner S B D with
    feeBank := w.feeBank
    deposit := ⟨w.deposit.deposits, S, 0, owner, w.deposit.tokens⟩
    log := w.log }

/-- What holds before the last contract is there, unless somebody has set the slasher. -/
structure Early (has : Kind → Bool) (owner B D : Address) (w : World) : Prop where
  config : has .config = true → w.config = Config.init 20 owner
  order : ∀ k, has k = true → has .config = true
  batcher : has .batcher = true → w.batcher = ⟨fun _ => 0, fun _ _ => zeroHash, 0, owner, 0⟩ ∧ w.batcherAddr = B
  executor : has .executor = true → w.executor = ⟨0, fun _ => Receipt.zero, owner⟩
  keyBroadcast : w.keyBroadcast = ⟨fun _ _ => false, fun _ _ => 0, fun _ => [], fun _ => zeroHash, fun _ => 0⟩
  deposit : has .deposit = true → w.deposit.owner = owner ∧ w.deposit.slashingReceiver = 0 ∧ w.depositAddr = D
  noDeposit : has .deposit = false → w.deposit.deposits = (fun _ => Deposit.zero) ∧ w.deposit.tokens = 0
  noFee : has .feeBank = false → w.feeBank.deposits = fun _ => 0
  slasher : w.deposit.slasher = 0
  last : has .keyperSlasher = false

/-- Others may call the contracts that are there. -/
def May (has : Kind → Bool) (owner : Address) (op : Op) : Prop :=
  (has (contractOf op) = true ∨ ∃ v, op = .forceEther v) ∧ senderOf op ≠ some owner ∧ senderOf op ≠ some 0

/-- Somebody has set the slasher. -/
def Spoiled (w : World) : Prop := w.config.Inv ∧ w.deposit.slasher ≠ 0

theorem prim_slasher {E} {w w' : World} (p : Prim false E w w') (h : w.deposit.slasher ≠ 0) :
    w'.deposit.slasher = w.deposit.slasher := by
  cases p <;> first | rfl | (next h' => exact absurd h' h)

theorem prims_slasher {E} {w w' : World} (p : Prims false E w w') (h : w.deposit.slasher ≠ 0) :
    w'.deposit.slasher = w.deposit.slasher := by
  induction p with
  | refl => rfl
  | tail _ p ih => rw [prim_slasher p (by rw [ih]; exact h), ih]

theorem spoiled_step {E} {w w' : World} {op : Op} (h : Spoiled w) (hs : w.step E op = some w') : Spoiled w' := by
  have p := step_prims h.1 hs
  exact ⟨plater_inv h.1 (prims_later p), by rw [prims_slasher p h.2]; exact h.2⟩

theorem spoiled_inner {E} : ∀ (ops : List Op) {w : World}, Spoiled w → Spoiled (w.runInner E ops)
  | [], w, h => by rw [runInner]; exact h
  | op :: ops, w, h => by
    rw [runInner]
    split
    · exact spoiled_inner ops h
    · next w' hs => exact spoiled_inner ops (spoiled_step h hs)

/-! ## No config, no batches -/

theorem init_configs (h : Nat) (o : Address) : (Config.init h o).configs = [zeroConfig, zeroConfig] := rfl

theorem init_span {h : Nat} {o : Address} {i : Nat} {bc : Sol.BatchConfig} (hc : (Config.init h o).configs[i]? = some bc) : bc.batchSpan = 0 ∧ bc.keypers = [] := by
  rw [init_configs] at hc
  match i with
  | 0 => simp at hc; subst hc; exact ⟨rfl, rfl⟩
  | 1 => simp at hc; subst hc; exact ⟨rfl, rfl⟩
  | _ + 2 => simp at hc

theorem init_inactive {h : Nat} {o : Address} {i : Nat} : (Config.init h o).batchingActive i ≠ some true := by
  intro hc
  rw [active_iff] at hc
  obtain ⟨bc, h1, h2⟩ := hc
  have := (init_span h1).1
  omega

theorem init_index (h : Nat) (o : Address) (b : Nat) : (Config.init h o).configIndexForBatchIndex b = some 0 := by
  simp [Config.configIndexForBatchIndex, init_configs, Config.indexLoop, zeroConfig]

theorem init_scheduled {h : Nat} {o : Address} {i : Nat} {bc : Sol.BatchConfig} (hc : (Config.init h o).scheduledConfig i = some bc) : bc.batchSpan = 0 ∧ bc.keypers = [] := by
  simp only [Config.scheduledConfig, Option.bind_eq_bind, Option.bind_eq_some_iff, require_eq_some] at hc
  obtain ⟨_, _, hc⟩ := hc
  exact init_span hc

/-! ## The calls -/

section
variable {E : Env} {has : Kind → Bool} {owner S B D : Address}

/-- The outcome of calls. -/
def Out (E : Env) (has : Kind → Bool) (owner S B D : Address) (w w' : World) : Prop :=
  (has .deposit = true ∧ Spoiled w') ∨ (Early has owner B D w' ∧ Reaches E (virt owner S B D w) (virt owner S B D w'))

theorem out_inner {ops : List Op} (h : ∀ o ∈ ops, ∀ w w', Early has owner B D w → w.step E o = some w' → Out E has owner S B D w w') :
    ∀ {w : World}, Early has owner B D w → Out E has owner S B D w (w.runInner E ops) := by
  induction ops with
  | nil => intro w hw; rw [runInner]; exact .inr ⟨hw, .refl _⟩
  | cons op ops ih =>
    intro w hw
    rw [runInner]
    have ih' := @ih (fun o ho => h o (List.mem_cons_of_mem _ ho))
    split
    · exact ih' hw
    · next w' hs =>
      rcases h op List.mem_cons_self w w' hw hs with h1 | ⟨h1, h2⟩
      · exact .inl ⟨h1.1, spoiled_inner ops h1.2⟩
      · rcases ih' h1 with h3 | ⟨h3, h4⟩
        · exact .inl h3
        · exact .inr ⟨h3, h2.trans h4⟩

theorem spoiled_emit {w : World} {e} (h : Spoiled w) : Spoiled (w.emit e) := h

theorem early_step {op : Op} (ht : op.Throughout (May has owner)) : ∀ w w', Early has owner B D w → w.step E op = some w' →
    Out E has owner S B D w w' := by
  induction ht with
  | @mk op hp _ ih =>
  intro w w' hw h
  obtain ⟨hk, hso, hs0⟩ := hp
  have cfg : has (contractOf op) = true → w.config = Config.init 20 owner := fun h => hw.config (hw.order _ h)
  cases op with
  | config s c =>
    have hk' := hk.resolve_right (by rintro ⟨_, h⟩; cases h)
    rw [World.step, World.atomic, cfg hk', Option.map_eq_some_iff] at h
    obtain ⟨c', h, -⟩ := h
    exfalso
    apply hso
    cases c <;>
      (simp only [Config.call, Option.bind_eq_bind, Option.bind_eq_some_iff, require_eq_some] at h
       obtain ⟨_, h, _⟩ := h
       rw [senderOf, h]; rfl)
  | addTransaction s b ty tx v =>
    have hk' := hk.resolve_right (by rintro ⟨_, h⟩; cases h)
    rw [World.step, World.atomic] at h
    simp only [World.addTransaction, Option.bind_eq_bind, Option.bind_eq_some_iff, require_eq_some, cfg hk'] at h
    obtain ⟨_, _, _, _, _, _, a, h1, _, h2, _⟩ := h
    exact absurd (h2 ▸ h1) init_inactive
  | setMinFee s n =>
    have hk' := hk.resolve_right (by rintro ⟨_, h⟩; cases h)
    rw [World.step, World.atomic] at h
    simp only [World.setMinFee, Option.bind_eq_bind, Option.bind_eq_some_iff, require_eq_some, (hw.batcher hk').1] at h
    obtain ⟨_, h, _⟩ := h
    exact absurd (by rw [senderOf, h]) hso
  | feeDeposit s r v =>
    have hk' := hk.resolve_right (by rintro ⟨_, h⟩; cases h)
    rw [World.step, World.atomic] at h
    have hv : (virt owner S B D w).feeDeposit s r v = some (virt owner S B D w') := by
      simp only [World.feeDeposit, Option.bind_eq_bind, Option.bind_eq_some_iff, require_eq_some, Option.some.injEq] at h ⊢
      obtain ⟨_, h1, _, h2, _, h3, rfl⟩ := h
      exact ⟨(), h1, (), h2, (), h3, rfl⟩
    simp only [World.feeDeposit, Option.bind_eq_bind, Option.bind_eq_some_iff, require_eq_some, Option.some.injEq] at h
    obtain ⟨_, h1, _, h2, _, h3, rfl⟩ := h
    refine .inr ⟨{ hw with noFee := fun hn => ?_ }, .one (op := .feeDeposit s r v) (by rw [World.step]; exact hv)⟩
    exact absurd hk' (by simp [contractOf, hn])
  | feeWithdraw s args inner =>
    have hk' := hk.resolve_right (by rintro ⟨_, h⟩; cases h)
    rw [World.step] at h
    split at h
    · cases h
    · next r a ha =>
      split at h
      · cases h
      · next w1 h1 =>
        cases h
        have hw1 : Early has owner B D w1 := by
          simp only [feeWithdrawPre, Option.bind_eq_bind, Option.bind_eq_some_iff, require_eq_some, Option.some.injEq] at h1
          obtain ⟨_, _, _, _, _, _, _, _, rfl⟩ := h1
          exact { hw with noFee := fun hn => absurd hk' (by simp [contractOf, hn]) }
        have hv1 : (virt owner S B D w).feeWithdrawPre s r a = some (virt owner S B D w1) := by
          simp only [feeWithdrawPre, Option.bind_eq_bind, Option.bind_eq_some_iff, require_eq_some, Option.some.injEq] at h1 ⊢
          obtain ⟨_, h1, _, h2, _, h3, _, h4, rfl⟩ := h1
          exact ⟨(), h1, (), h2, (), h3, (), h4, rfl⟩
        have hva : (virt owner S B D w).withdrawArgs s args = some (r, a) := by
          rw [← ha]; cases args <;> rfl
        rcases out_inner (S := S) ih hw1 with h2 | ⟨h2, ops, h3⟩
        · exact .inl h2
        · refine .inr ⟨{ h2 with }, .one (op := .feeWithdraw s args ops) ?_⟩
          rw [World.step, hva]
          simp only [hv1, h3]
          rfl
  | forceEther v =>
    rw [World.step, World.atomic] at h
    cases h
    refine .inr ⟨{ hw with }, .one (op := .forceEther v) ?_⟩
    rw [World.step]; rfl
  | setHalfSteps s n =>
    have hk' := hk.resolve_right (by rintro ⟨_, h⟩; cases h)
    rw [World.step, World.atomic] at h
    simp only [World.setHalfSteps, Option.bind_eq_bind, Option.bind_eq_some_iff, require_eq_some, hw.executor hk'] at h
    obtain ⟨_, h, _⟩ := h
    exact absurd (by rw [senderOf, h]) hso
  | executeCipherBatch s b hh txs k inner =>
    have hk' := hk.resolve_right (by rintro ⟨_, h⟩; cases h)
    have : w.cipherPre s b hh txs k = none := by
      by_contra hn
      obtain ⟨x, hx⟩ := Option.ne_none_iff_exists'.1 hn
      simp only [cipherPre, Option.bind_eq_bind, Option.bind_eq_some_iff, require_eq_some, cfg hk'] at hx
      obtain ⟨_, _, _, _, _, _, _, _, _, _, _, _, a, h1, _, h2, _⟩ := hx
      exact init_inactive (h2 ▸ h1)
    rw [World.step, this] at h
    cases h
  | executePlainBatch s b txs inner =>
    have hk' := hk.resolve_right (by rintro ⟨_, h⟩; cases h)
    have : w.plainPre b = none := by
      by_contra hn
      obtain ⟨x, hx⟩ := Option.ne_none_iff_exists'.1 hn
      simp only [plainPre, Option.bind_eq_bind, Option.bind_eq_some_iff, require_eq_some, cfg hk'] at hx
      obtain ⟨_, _, _, _, _, _, _, _, _, _, a, h1, _, h2, _⟩ := hx
      exact init_inactive (h2 ▸ h1)
    rw [World.step, this] at h
    cases h
  | skipEmptyOrTimedOutBatches s n =>
    have hk' := hk.resolve_right (by rintro ⟨_, h⟩; cases h)
    rw [World.step, World.atomic] at h
    simp only [World.skipEmptyOrTimedOutBatches, Option.bind_eq_bind, Option.bind_eq_some_iff] at h
    obtain ⟨m, _, h⟩ := h
    have hb : w.executor.halfSteps = 0 := by rw [hw.executor hk']
    have hm : ∀ b, w.maySkipCipher b = some false := by
      intro b
      simp [maySkipCipher, cfg hk', init_index, Config.batchingActive, init_configs, zeroConfig]
    have : w.skipLoop m = some w := by
      cases m with
      | zero => rfl
      | succ m => rw [skipLoop]; simp [hb, hm]
    rw [this] at h
    cases h
    exact .inr ⟨hw, .refl _⟩
  | skipCipherExecution s b =>
    have hk' := hk.resolve_right (by rintro ⟨_, h⟩; cases h)
    rw [World.step, World.atomic] at h
    simp only [World.skipCipherExecution, Option.bind_eq_bind, Option.bind_eq_some_iff, require_eq_some, cfg hk'] at h
    obtain ⟨_, _, _, _, _, _, _, _, a, h1, _, h2, _⟩ := h
    exact absurd (h2 ▸ h1) init_inactive
  | sendTokens s a d =>
    have hk' := hk.resolve_right (by rintro ⟨_, h⟩; cases h)
    rw [World.step, World.atomic] at h
    have hv : (virt owner S B D w).tokensReceived s a d = some (virt owner S B D w') := by
      simp only [World.tokensReceived, Option.bind_eq_bind, Option.bind_eq_some_iff, require_eq_some, Option.some.injEq] at h ⊢
      obtain ⟨d', h0, _, h1, _, h2, _, h3, rfl⟩ := h
      exact ⟨d', h0, (), h1, (), h2, (), h3, rfl⟩
    simp only [World.tokensReceived, Option.bind_eq_bind, Option.bind_eq_some_iff, require_eq_some, Option.some.injEq] at h
    obtain ⟨d', h0, _, h1, _, h2, _, h3, rfl⟩ := h
    refine .inr ⟨{ hw with noDeposit := fun hn => ?_ }, .one (op := .sendTokens s a d) (by rw [World.step]; exact hv)⟩
    exact absurd hk' (by simp [contractOf, hn])
  | requestWithdrawal s =>
    have hk' := hk.resolve_right (by rintro ⟨_, h⟩; cases h)
    rw [World.step, World.atomic] at h
    have hv : (virt owner S B D w).requestWithdrawal s = some (virt owner S B D w') := by
      simp only [World.requestWithdrawal, Option.bind_eq_bind, Option.bind_eq_some_iff, require_eq_some, Option.some.injEq] at h ⊢
      obtain ⟨_, h1, _, h2, _, h3, rfl⟩ := h
      exact ⟨(), h1, (), h2, (), h3, rfl⟩
    simp only [World.requestWithdrawal, Option.bind_eq_bind, Option.bind_eq_some_iff, require_eq_some, Option.some.injEq] at h
    obtain ⟨_, h1, _, h2, _, h3, rfl⟩ := h
    refine .inr ⟨{ hw with noDeposit := fun hn => ?_ }, .one (op := .requestWithdrawal s) (by rw [World.step]; exact hv)⟩
    exact absurd hk' (by simp [contractOf, hn])
  | withdraw s r inner =>
    have hk' := hk.resolve_right (by rintro ⟨_, h⟩; cases h)
    rw [World.step] at h
    split at h
    · cases h
    · next w1 a h1 =>
      cases h
      have hw1 : Early has owner B D w1 := by
        simp only [withdrawPre, Option.bind_eq_bind, Option.bind_eq_some_iff, require_eq_some, Option.some.injEq, Prod.mk.injEq] at h1
        obtain ⟨_, _, _, _, _, _, _, _, _, _, _, _, _, _, _, _, rfl, _⟩ := h1
        exact { hw with noDeposit := fun hn => absurd hk' (by simp [contractOf, hn]) }
      have hv1 : (virt owner S B D w).withdrawPre s r = some (virt owner S B D w1, a) := by
        simp only [withdrawPre, Option.bind_eq_bind, Option.bind_eq_some_iff, require_eq_some, Option.some.injEq, Prod.mk.injEq] at h1 ⊢
        obtain ⟨_, h1, _, h2, _, h3, due, h4, _, h5, _, h6, _, h7, _, h8, rfl, rfl⟩ := h1
        exact ⟨(), h1, (), h2, (), h3, due, h4, (), h5, (), h6, (), (hw.deposit hk').2.2 ▸ h7, (), h8, rfl, rfl⟩
      rcases out_inner (S := S) ih hw1 with h2 | ⟨h2, ops, h3⟩
      · exact .inl h2
      · refine .inr ⟨{ h2 with }, .one (op := .withdraw s r ops) ?_⟩
        rw [World.step, hv1]
        simp only [h3]
        rfl
  | setSlasher s a =>
    have hk' := hk.resolve_right (by rintro ⟨_, h⟩; cases h)
    rw [World.step, World.atomic] at h
    simp only [World.setSlasher, Option.bind_eq_bind, Option.bind_eq_some_iff, require_eq_some, Option.some.injEq] at h
    obtain ⟨_, h1, rfl⟩ := h
    by_cases ha : a = 0
    · subst ha
      refine .inr ⟨{ hw with slasher := rfl }, ?_⟩
      exact .refl _
    · left
      refine ⟨hk', ?_, ha⟩
      show w.config.Inv
      rw [cfg hk']
      exact Config.inv_init _ _
  | setSlashingReceiver s a =>
    have hk' := hk.resolve_right (by rintro ⟨_, h⟩; cases h)
    rw [World.step, World.atomic] at h
    simp only [World.setSlashingReceiver, Option.bind_eq_bind, Option.bind_eq_some_iff, require_eq_some, (hw.deposit hk').1] at h
    obtain ⟨_, h, _⟩ := h
    exact absurd (by rw [senderOf, h]) hso
  | slashDeposit s a inner =>
    rw [World.step] at h
    split at h
    · next hs => exact absurd (by rw [senderOf, hs.1, hw.slasher]) hs0
    · cases h
  | accuse s h k => 
    have hk' := hk.resolve_right (by rintro ⟨_, h⟩; cases h)
    rw [contractOf, hw.last] at hk'; cases hk'
  | appeal s a =>
    have hk' := hk.resolve_right (by rintro ⟨_, h⟩; cases h)
    rw [contractOf, hw.last] at hk'; cases hk'
  | slash s h inner =>
    have hk' := hk.resolve_right (by rintro ⟨_, h⟩; cases h)
    rw [contractOf, hw.last] at hk'; cases hk'
  | vote s k b key =>
    have hk' := hk.resolve_right (by rintro ⟨_, h⟩; cases h)
    rw [World.step, World.atomic] at h
    simp only [World.vote, Option.bind_eq_bind, Option.bind_eq_some_iff, require_eq_some, cfg hk'] at h
    obtain ⟨_, _, _, _, _, _, bc, h1, _, h2, _⟩ := h
    have := (init_scheduled h1).1
    omega

end

end Shutter.Deploy
