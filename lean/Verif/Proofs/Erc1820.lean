import Verif.Spec.Erc1820

namespace Shutter.Erc1820

open Spec

theorem gas_amount : deploymentGas * deploymentGasPrice = deployerAmount := by decide

/-- Proof device: the deployment's part of the invariant -/
structure Dep (s : State) : Prop where
  code : s.code = true ↔ s.deploymentReceipt = some true
  used : s.deployerUsed = true ↔ s.deploymentReceipt.isSome
  pooled : s.pooledDeployment = true → s.deployerUsed = false ∧ deployerAmount ≤ s.deployer
  wait : s.pc = .waitDeployment → s.pooledDeployment = true ∨ s.deployerUsed = true
  done : s.pc = .done → s.code = true

theorem Dep.init {s : State} (h : Start s) : Dep s :=
  ⟨h.code, h.used, h.pooled, by simp [h.pc], by simp [h.pc]⟩

theorem accepts_iff {s : State} : s.acceptsDeployment = true ↔
    s.deployerUsed = false ∧ s.pooledDeployment = false ∧ deployerAmount ≤ s.deployer := by
  unfold State.acceptsDeployment
  rw [gas_amount, Bool.and_eq_true, Bool.and_eq_true, decide_eq_true_eq, Bool.not_eq_true', Bool.not_eq_true', and_assoc]

theorem Dep.step {s s' : State} (h : Dep s) (st : Step s s') : Dep s' := by
  obtain ⟨h1, h2, h3, h4, h5⟩ := h
  cases st with
  | check hp =>
    refine ⟨h1, h2, h3, ?_, ?_⟩
    · unfold State.checked; cases s.code <;> simp
    · unfold State.checked; cases hc : s.code <;> simp
  | nonce hp => exact ⟨h1, h2, h3, by simp, by simp⟩
  | price p hp => exact ⟨h1, h2, h3, by simp, by simp⟩
  | sendFunding hp ha => exact ⟨h1, h2, h3, by simp, by simp⟩
  | refuseFunding hp ha => exact ⟨h1, h2, h3, by simp, by simp⟩
  | @funded f b hp hr => exact ⟨h1, h2, h3, by cases b <;> simp, by cases b <;> simp⟩
  | sendDeployment hp ha =>
    rw [accepts_iff] at ha
    exact ⟨h1, h2, fun _ => ⟨ha.1, ha.2.2⟩, fun _ => .inl rfl, by simp⟩
  | refuseDeployment hp ha => exact ⟨h1, h2, h3, by simp, by simp⟩
  | @deployed b hp hr =>
    refine ⟨h1, h2, h3, by cases b <;> simp, ?_⟩
    cases b
    · simp
    · intro _; exact h1.2 hr
  | fails hp => exact ⟨h1, h2, h3, by simp, by simp⟩
  | includeFunding hp =>
    refine ⟨h1, h2, fun hh => ?_, h4, h5⟩
    have := h3 hh
    exact ⟨this.1, by simp only [State.includeFunding]; omega⟩
  | includeDeployment g w hp hg =>
    have hu := (h3 hp).1
    have hn : s.deploymentReceipt = none := by
      cases hd : s.deploymentReceipt with
      | none => rfl
      | some b =>
        have := h2.2 (by rw [hd]; rfl)
        rw [hu] at this
        cases this
    have hc : s.code = false := by
      cases hcc : s.code with
      | false => rfl
      | true =>
        have := h1.1 hcc
        rw [hn] at this
        cases this
    refine ⟨?_, by simp [State.includeDeployment], by simp [State.includeDeployment], fun _ => .inr rfl, fun hh => ?_⟩
    · simp [State.includeDeployment, hc]
    · have := h5 hh
      rw [hc] at this
      cases this
  | give x => exact ⟨h1, h2, h3, h4, h5⟩
  | giveDeployer x =>
    refine ⟨h1, h2, fun hh => ?_, h4, h5⟩
    have := h3 hh
    exact ⟨this.1, by show _ ≤ s.deployer + x; omega⟩
  | sendDeploymentToo ha =>
    rw [accepts_iff] at ha
    exact ⟨h1, h2, fun _ => ⟨ha.1, ha.2.2⟩, fun _ => .inl rfl, h5⟩

theorem Dep.run {s s' : State} (h : Dep s) (r : Run s s') : Dep s' := by
  induction r with
  | refl => exact h
  | tail _ st ih => exact ih.step st

/-- Proof device: what the owner pays -/
def price (f : Funding) : Nat := deployerAmount + fundingGas * f.gasPrice

/-- Proof device: the money not sent yet -/
structure Before (s0 s : State) : Prop where
  pool : s.pooledFunding = none
  nonce : s.ownerNonce = s0.ownerNonce
  money : s.owner + s0.given = s0.owner + s.given
  receipts : ∀ n, s.ownerNonce ≤ n → s.fundingReceipt n = none

/-- Proof device: the funding transaction is in the mempool -/
structure During (s0 s : State) (f : Funding) : Prop where
  pool : s.pooledFunding = some f
  nonce : s.ownerNonce = s0.ownerNonce
  fnonce : f.nonce = s0.ownerNonce
  value : f.value = deployerAmount
  money : s.owner + s0.given = s0.owner + s.given
  enough : price f ≤ s.owner
  receipts : ∀ n, s.ownerNonce ≤ n → s.fundingReceipt n = none

/-- Proof device: it is included -/
structure After (s0 s : State) (f : Funding) : Prop where
  pool : s.pooledFunding = none
  nonce : s.ownerNonce = s0.ownerNonce + 1
  fnonce : f.nonce = s0.ownerNonce
  money : s.owner + price f + s0.given = s0.owner + s.given
  receipt : s.fundingReceipt f.nonce = some true
  deployer : s.deployerUsed = true ∨ deployerAmount ≤ s.deployer

/-- Proof device: the funding's part of the invariant -/
def Fund (s0 s : State) : Prop :=
  match s.pc with
  | .check => Before s0 s
  | .nonce => Before s0 s ∧ s0.code = false
  | .price n => Before s0 s ∧ n = s0.ownerNonce ∧ s0.code = false
  | .sendFunding f => Before s0 s ∧ f.nonce = s0.ownerNonce ∧ f.value = deployerAmount ∧ s0.code = false
  | .waitFunding f => (During s0 s f ∨ After s0 s f) ∧ s0.code = false
  | .sendDeployment => (∃ f, After s0 s f) ∧ s0.code = false
  | .waitDeployment => (∃ f, After s0 s f) ∧ s0.code = false
  | .done => Before s0 s ∨ ((∃ f, After s0 s f) ∧ s0.code = false)
  | .failed => Before s0 s ∨ ((∃ f, During s0 s f ∨ After s0 s f) ∧ s0.code = false)

theorem Fund.init {s : State} (h : Start s) : Fund s s := by
  simp only [Fund, h.pc]
  exact ⟨h.funding, rfl, rfl, h.receipts⟩

/-- a change of the chain that keeps the three phases, except for the funding being included -/
theorem Fund.keep {s0 s s' : State} (h : Fund s0 s) (hpc : s'.pc = s.pc) (hb : Before s0 s → Before s0 s')
    (hd : ∀ f, During s0 s f → During s0 s' f ∨ After s0 s' f) (ha : ∀ f, After s0 s f → After s0 s' f) : Fund s0 s' := by
  unfold Fund at h ⊢
  rw [hpc]
  cases hp : s.pc <;> rw [hp] at h <;> simp only at h ⊢
  · exact hb h
  · exact ⟨hb h.1, h.2⟩
  · exact ⟨hb h.1, h.2⟩
  · exact ⟨hb h.1, h.2⟩
  · rcases h.1 with h' | h'
    · exact ⟨hd _ h', h.2⟩
    · exact ⟨.inr (ha _ h'), h.2⟩
  · obtain ⟨⟨f, hf⟩, hc⟩ := h; exact ⟨⟨f, ha f hf⟩, hc⟩
  · obtain ⟨⟨f, hf⟩, hc⟩ := h; exact ⟨⟨f, ha f hf⟩, hc⟩
  · rcases h with h | ⟨⟨f, hf⟩, hc⟩
    · exact .inl (hb h)
    · exact .inr ⟨⟨f, ha f hf⟩, hc⟩
  · rcases h with h | ⟨⟨f, hf | hf⟩, hc⟩
    · exact .inl (hb h)
    · exact .inr ⟨⟨f, hd f hf⟩, hc⟩
    · exact .inr ⟨⟨f, .inr (ha f hf)⟩, hc⟩

theorem Fund.failed {s0 s : State} (h : Fund s0 s) :
    Before s0 s ∨ ((∃ f, During s0 s f ∨ After s0 s f) ∧ s0.code = false) := by
  unfold Fund at h
  split at h
  · exact .inl h
  · exact .inl h.1
  · exact .inl h.1
  · exact .inl h.1
  · exact .inr ⟨⟨_, h.1⟩, h.2⟩
  · obtain ⟨⟨f, hf⟩, hc⟩ := h; exact .inr ⟨⟨f, .inr hf⟩, hc⟩
  · obtain ⟨⟨f, hf⟩, hc⟩ := h; exact .inr ⟨⟨f, .inr hf⟩, hc⟩
  · rcases h with h | ⟨⟨f, hf⟩, hc⟩
    · exact .inl h
    · exact .inr ⟨⟨f, .inr hf⟩, hc⟩
  · exact h

theorem code_step {s s' : State} (st : Step s s') (h : s.code = true) : s'.code = true := by
  cases st <;> first | exact h | (simp [State.includeDeployment, h])

theorem code_run {s s' : State} (r : Run s s') (h : s.code = true) : s'.code = true := by
  induction r with
  | refl => exact h
  | tail _ st ih => exact code_step st ih

theorem Fund.step {s0 s s' : State} (h : Fund s0 s) (hc : s0.code = true → s.code = true) (st : Step s s') :
    Fund s0 s' := by
  cases st with
  | check hp =>
    simp only [Fund, hp] at h
    unfold Fund State.checked
    cases hcc : s.code with
    | true => exact .inl ⟨h.pool, h.nonce, h.money, h.receipts⟩
    | false =>
      refine ⟨⟨h.pool, h.nonce, h.money, h.receipts⟩, ?_⟩
      cases h0 : s0.code with
      | false => rfl
      | true => rw [hc h0] at hcc; cases hcc
  | nonce hp =>
    simp only [Fund, hp] at h
    exact ⟨⟨h.1.pool, h.1.nonce, h.1.money, h.1.receipts⟩, h.1.nonce, h.2⟩
  | price p hp =>
    simp only [Fund, hp] at h
    exact ⟨⟨h.1.pool, h.1.nonce, h.1.money, h.1.receipts⟩, h.2.1, rfl, h.2.2⟩
  | @sendFunding f hp ha =>
    simp only [Fund, hp] at h
    simp only [State.acceptsFunding, Bool.and_eq_true, decide_eq_true_eq] at ha
    refine ⟨.inl ⟨rfl, h.1.nonce, h.2.1, h.2.2.1, h.1.money, ?_, h.1.receipts⟩, h.2.2.2⟩
    have := ha.1.2
    rw [h.2.2.1] at this
    exact this
  | refuseFunding hp ha =>
    have := h.failed
    unfold Fund
    rcases this with h | ⟨⟨f, h | h⟩, hc⟩
    · exact .inl ⟨h.pool, h.nonce, h.money, h.receipts⟩
    · exact .inr ⟨⟨f, .inl ⟨h.1, h.2, h.3, h.4, h.5, h.6, h.7⟩⟩, hc⟩
    · exact .inr ⟨⟨f, .inr ⟨h.1, h.2, h.3, h.4, h.5, h.6⟩⟩, hc⟩
  | @funded f b hp hr =>
    simp only [Fund, hp] at h
    have ha : After s0 s f := by
      rcases h.1 with h | h
      · have := h.receipts f.nonce (by rw [h.fnonce, h.nonce]; exact Nat.le_refl _)
        rw [hr] at this
        cases this
      · exact h
    have hb : b = true := by
      have := ha.receipt
      rw [hr] at this
      exact Option.some.inj this
    subst hb
    exact ⟨⟨f, ⟨ha.1, ha.2, ha.3, ha.4, ha.5, ha.6⟩⟩, h.2⟩
  | sendDeployment hp ha =>
    simp only [Fund, hp] at h
    obtain ⟨⟨f, h⟩, hc⟩ := h
    exact ⟨⟨f, ⟨h.1, h.2, h.3, h.4, h.5, h.6⟩⟩, hc⟩
  | refuseDeployment hp ha =>
    simp only [Fund, hp] at h
    obtain ⟨⟨f, h⟩, hc⟩ := h
    exact .inr ⟨⟨f, .inr ⟨h.1, h.2, h.3, h.4, h.5, h.6⟩⟩, hc⟩
  | @deployed b hp hr =>
    simp only [Fund, hp] at h
    obtain ⟨⟨f, h⟩, hc⟩ := h
    cases b
    · exact .inr ⟨⟨f, .inr ⟨h.1, h.2, h.3, h.4, h.5, h.6⟩⟩, hc⟩
    · exact .inr ⟨⟨f, ⟨h.1, h.2, h.3, h.4, h.5, h.6⟩⟩, hc⟩
  | fails hp =>
    have := h.failed
    unfold Fund
    rcases this with h | ⟨⟨f, h | h⟩, hc⟩
    · exact .inl ⟨h.pool, h.nonce, h.money, h.receipts⟩
    · exact .inr ⟨⟨f, .inl ⟨h.1, h.2, h.3, h.4, h.5, h.6, h.7⟩⟩, hc⟩
    · exact .inr ⟨⟨f, .inr ⟨h.1, h.2, h.3, h.4, h.5, h.6⟩⟩, hc⟩
  | @includeFunding f hp =>
    refine h.keep rfl ?_ ?_ ?_
    · intro h; rw [h.pool] at hp; cases hp
    · intro g h
      rw [h.pool] at hp
      cases hp
      refine .inr ⟨rfl, ?_, h.fnonce, ?_, ?_, .inr ?_⟩
      · simp only [State.includeFunding, h.nonce]
      · have e := h.enough
        have m := h.money
        simp only [State.includeFunding, h.value]
        simp only [price] at e ⊢
        omega
      · simp [State.includeFunding]
      · simp only [State.includeFunding, h.value]
        omega
    · intro g h; rw [h.pool] at hp; cases hp
  | includeDeployment g w hp hg =>
    refine h.keep rfl ?_ ?_ ?_
    · exact fun h => ⟨h.1, h.2, h.3, h.4⟩
    · exact fun f h => .inl ⟨h.1, h.2, h.3, h.4, h.5, h.6, h.7⟩
    · exact fun f h => ⟨h.1, h.2, h.3, h.4, h.5, .inl rfl⟩
  | give x =>
    refine h.keep rfl ?_ ?_ ?_
    · refine fun h => ⟨h.1, h.2, ?_, h.4⟩
      have := h.money; show s.owner + x + _ = _ + (s.given + x); omega
    · refine fun f h => .inl ⟨h.1, h.2, h.3, h.4, ?_, by have := h.6; show _ ≤ s.owner + x; omega, h.7⟩
      have := h.money; show s.owner + x + _ = _ + (s.given + x); omega
    · refine fun f h => ⟨h.1, h.2, h.3, ?_, h.5, h.6⟩
      have := h.money; show s.owner + x + _ + _ = _ + (s.given + x); omega
  | giveDeployer x =>
    refine h.keep rfl ?_ ?_ ?_
    · exact fun h => ⟨h.1, h.2, h.3, h.4⟩
    · exact fun f h => .inl ⟨h.1, h.2, h.3, h.4, h.5, h.6, h.7⟩
    · exact fun f h => ⟨h.1, h.2, h.3, h.4, h.5, h.6.imp_right fun y => by show _ ≤ s.deployer + x; omega⟩
  | sendDeploymentToo ha =>
    refine h.keep rfl ?_ ?_ ?_
    · exact fun h => ⟨h.1, h.2, h.3, h.4⟩
    · exact fun f h => .inl ⟨h.1, h.2, h.3, h.4, h.5, h.6, h.7⟩
    · exact fun f h => ⟨h.1, h.2, h.3, h.4, h.5, h.6⟩

theorem inv_run {s0 s : State} (h : Start s0) (r : Run s0 s) : Dep s ∧ Fund s0 s ∧ (s0.code = true → s.code = true) := by
  induction r with
  | refl => exact ⟨.init h, .init h, id⟩
  | tail _ st ih => exact ⟨ih.1.step st, ih.2.1.step ih.2.2 st, fun x => code_step st (ih.2.2 x)⟩

end Shutter.Erc1820
