import Verif.Proofs.Erc1820

/-!
# C99: `deploy` sees to it that the registry is there before it deploys

For all schedules of the command, the blocks, and what others do (send money, send the deployment themselves), all prices, and all
moments at which a request fails.
-/

namespace Shutter.Erc1820.Props

open Spec

/-- When the preparation is done, and the contracts are deployed next, the registry is there, and stays. -/
theorem C99_deployed {s0 s s' : State} (h0 : Start s0) (r : Run s0 s) (hd : s.pc = .done) (r' : Run s s') : s'.code = true :=
  code_run r' ((inv_run h0 r).1.done hd)

/-- If the registry was there, the owner sends nothing and pays nothing. -/
theorem C99_nothing {s0 s : State} (h0 : Start s0) (hc : s0.code = true) (r : Run s0 s) :
    s.pooledFunding = none ∧ s.ownerNonce = s0.ownerNonce ∧ s.owner + s0.given = s0.owner + s.given := by
  rcases (inv_run h0 r).2.1.failed with h | ⟨-, h⟩
  · exact ⟨h.pool, h.nonce, h.money⟩
  · rw [hc] at h; cases h

/-- Whatever happens, and whenever the command ends, the owner pays nothing, or once 0.08 ether with the fee for one transfer, which
is by then the one transaction it has sent. -/
theorem C99_cost {s0 s : State} (h0 : Start s0) (r : Run s0 s) :
    (s.ownerNonce = s0.ownerNonce ∧ s.owner + s0.given = s0.owner + s.given) ∨
    (s.ownerNonce = s0.ownerNonce + 1 ∧ ∃ gasPrice, s.owner + cost gasPrice + s0.given = s0.owner + s.given) := by
  rcases (inv_run h0 r).2.1.failed with h | ⟨⟨f, h | h⟩, -⟩
  · exact .inl ⟨h.nonce, h.money⟩
  · exact .inl ⟨h.nonce, h.money⟩
  · exact .inr ⟨h.nonce, f.gasPrice, h.money⟩

/-- At the end the transaction is no longer in the mempool if the command was successful: the money and the nonce are settled for the
deployments that follow. -/
theorem C99_settled {s0 s : State} (h0 : Start s0) (r : Run s0 s) (hd : s.pc = .done) : s.pooledFunding = none := by
  have h := (inv_run h0 r).2.1
  simp only [Fund, hd] at h
  rcases h with h | ⟨⟨f, h⟩, -⟩
  · exact h.pool
  · exact h.pool

/-- The node has only one reason to refuse the deployment once the money was sent: that somebody else has sent it meanwhile. -/
theorem C99_refused {s0 s : State} (h0 : Start s0) (r : Run s0 s) (hp : s.pc = .sendDeployment) (hr : s.acceptsDeployment = false) :
    s.pooledDeployment = true ∨ s.deploymentReceipt.isSome := by
  obtain ⟨d, f, -⟩ := inv_run h0 r
  simp only [Fund, hp] at f
  obtain ⟨⟨f, a⟩, -⟩ := f
  cases hpd : s.pooledDeployment with
  | true => exact .inl rfl
  | false =>
    right
    rcases a.deployer with h | h
    · exact d.used.1 h
    · cases hu : s.deployerUsed with
      | true => exact d.used.1 hu
      | false =>
        have : s.acceptsDeployment = true := accepts_iff.2 ⟨hu, hpd, h⟩
        rw [this] at hr
        cases hr

/-- The command is never stuck: until it ends, it can do the next step, or its transaction waits to be included. -/
theorem C99_goes_on {s0 s : State} (h0 : Start s0) (r : Run s0 s) (hd : s.pc ≠ .done) (hf : s.pc ≠ .failed) :
    (∃ s', Step s s' ∧ s'.pc ≠ s.pc ∧ (s'.pc = .failed → ∃ f, s.pc = .sendFunding f ∨ s.pc = .sendDeployment ∨ s.pc = .waitDeployment)) ∨
    (∃ f, s.pc = .waitFunding f ∧ s.pooledFunding = some f) ∨ (s.pc = .waitDeployment ∧ s.pooledDeployment = true) := by
  obtain ⟨d, f, -⟩ := inv_run h0 r
  have hother : Funding := ⟨0, 0, 0⟩
  cases hp : s.pc with
  | check => refine .inl ⟨_, .check hp, ?_, ?_⟩ <;> unfold State.checked <;> cases s.code <;> simp
  | nonce => exact .inl ⟨_, .nonce hp, by simp, by simp⟩
  | price n => exact .inl ⟨_, .price 1 hp, by simp, by simp⟩
  | sendFunding g =>
    left
    cases ha : s.acceptsFunding g with
    | true => exact ⟨_, .sendFunding hp ha, by simp, by simp⟩
    | false => exact ⟨_, .refuseFunding hp ha, by simp, fun _ => ⟨g, .inl rfl⟩⟩
  | waitFunding g =>
    simp only [Fund, hp] at f
    rcases f.1 with h | h
    · exact .inr (.inl ⟨g, rfl, h.pool⟩)
    · exact .inl ⟨_, .funded hp h.receipt, by simp, by simp⟩
  | sendDeployment =>
    left
    cases ha : s.acceptsDeployment with
    | true => exact ⟨_, .sendDeployment hp ha, by simp, by simp⟩
    | false => exact ⟨_, .refuseDeployment hp ha, by simp, fun _ => ⟨hother, .inr (.inl rfl)⟩⟩
  | waitDeployment =>
    rcases d.wait hp with h | h
    · exact .inr (.inr ⟨rfl, h⟩)
    · have := d.used.1 h
      cases hb : s.deploymentReceipt with
      | none => rw [hb] at this; cases this
      | some b => exact .inl ⟨_, .deployed hp hb, by cases b <;> simp, fun _ => ⟨hother, .inr (.inr rfl)⟩⟩
  | done => exact absurd hp hd
  | failed => exact absurd hp hf

/-- The state that all goes well in: with 0.08 ether and the fee, if nobody else does anything and no request fails, the preparation is
done, the registry is there, and the owner has paid just that. -/
theorem C99_succeeds {s0 : State} (h0 : Start s0) (hu : s0.deploymentReceipt = none) (hp : s0.pooledDeployment = false) (gasPrice : Nat)
    (hm : cost gasPrice ≤ s0.owner) :
    ∃ s, Run s0 s ∧ s.pc = .done ∧ s.code = true ∧ s.ownerNonce = s0.ownerNonce + 1 ∧ s.owner + cost gasPrice = s0.owner := by
  have hc : s0.code = false := by
    cases hcc : s0.code with
    | false => rfl
    | true => have := h0.code.1 hcc; rw [hu] at this; cases this
  have hused : s0.deployerUsed = false := by
    cases hcc : s0.deployerUsed with
    | false => rfl
    | true => have := h0.used.1 hcc; rw [hu] at this; cases this
  let f := newFunding s0.ownerNonce gasPrice
  let s1 : State := { s0 with pc := .nonce }
  have r1 : Run s0 s1 := .tail .refl (by
    have e : s0.checked = s1 := by unfold State.checked; rw [if_neg (by simp [hc])]
    exact e ▸ Step.check h0.pc)
  let s2 : State := { s1 with pc := .price s0.ownerNonce }
  have r2 : Run s0 s2 := .tail r1 (.nonce rfl)
  let s3 : State := { s2 with pc := .sendFunding f }
  have r3 : Run s0 s3 := .tail r2 (.price gasPrice rfl)
  have ha : s3.acceptsFunding f = true := by
    show (decide (s0.ownerNonce = s0.ownerNonce) && decide (deployerAmount + fundingGas * gasPrice ≤ s0.owner) && s0.pooledFunding.isNone) = true
    rw [h0.funding, Bool.and_eq_true, Bool.and_eq_true]
    exact ⟨⟨decide_eq_true rfl, decide_eq_true hm⟩, rfl⟩
  let s4 : State := { s3 with pooledFunding := some f, pc := .waitFunding f }
  have r4 : Run s0 s4 := .tail r3 (.sendFunding rfl ha)
  let s5 : State := s4.includeFunding f
  have r5 : Run s0 s5 := .tail r4 (.includeFunding rfl)
  let s6 : State := { s5 with pc := .sendDeployment }
  have r6 : Run s0 s6 := .tail r5 (by
    have : Step s5 { s5 with pc := if true then .sendDeployment else .failed } :=
      Step.funded (f := f) (b := true) rfl (by simp only [s5, State.includeFunding, if_true])
    exact this)
  have hd : s6.acceptsDeployment = true := by
    refine accepts_iff.2 ⟨hused, hp, ?_⟩
    show deployerAmount ≤ s0.deployer + deployerAmount
    omega
  let s7 : State := { s6 with pooledDeployment := true, pc := .waitDeployment }
  have r7 : Run s0 s7 := .tail r6 (.sendDeployment rfl hd)
  let s8 : State := s7.includeDeployment 0 true
  have r8 : Run s0 s8 := .tail r7 (.includeDeployment 0 true rfl (Nat.zero_le _))
  let s9 : State := { s8 with pc := .done }
  have r9 : Run s0 s9 := .tail r8 (by
    have : Step s8 { s8 with pc := if true then .done else .failed } := Step.deployed (b := true) rfl rfl
    exact this)
  refine ⟨s9, r9, rfl, ?_, rfl, ?_⟩
  · show (s0.code || true) = true
    simp
  · show s0.owner - (deployerAmount + fundingGas * gasPrice) + cost gasPrice = s0.owner
    have hm' : deployerAmount + fundingGas * gasPrice ≤ s0.owner := hm
    show s0.owner - (deployerAmount + fundingGas * gasPrice) + (deployerAmount + fundingGas * gasPrice) = s0.owner
    omega

/-! ## Findings -/

/-- One ether, no registry. -/
def fresh : State :=
  ⟨1000000000000000000, 4, 0, 0, false, false, none, false, fun _ => none, none, .check⟩

theorem fresh_start : Start fresh :=
  ⟨rfl, rfl, fun _ _ => rfl, by simp [fresh], by simp [fresh], by simp [fresh]⟩

example : ∃ s, Run fresh s ∧ s.pc = .done ∧ s.code = true ∧ s.ownerNonce = 5 ∧ s.owner + cost 2 = 1000000000000000000 :=
  C99_succeeds fresh_start rfl rfl 2 (by decide +kernel)

/-- A chain with the registry. -/
example : Start { fresh with code := true, deployerUsed := true, deploymentReceipt := some true } :=
  ⟨rfl, rfl, fun _ _ => rfl, by simp, by simp, fun h => by cases h⟩

/-- Between the money and the command's own deployment anybody can send the deployment, which is public. The command then ends with an
error although the registry is there; the owner has paid. -/
theorem C99_overtaken_counterexample : ∃ s, Run fresh s ∧ s.pc = .failed ∧ s.code = true ∧ s.ownerNonce = 5 ∧
    s.owner + cost 2 = 1000000000000000000 := by
  let f : Funding := ⟨4, deployerAmount, 2⟩
  have r1 := Run.tail (s := fresh) .refl (.check rfl)
  have r2 := r1.tail (.nonce rfl)
  have r3 := r2.tail (.price 2 rfl)
  have r4 := r3.tail (.sendFunding (f := f) rfl (by decide +kernel))
  have r5 := r4.tail (.includeFunding (f := f) rfl)
  have r6 := r5.tail (.funded (f := f) (b := true) rfl rfl)
  have r7 := r6.tail (.sendDeploymentToo (by decide +kernel))
  have r8 := r7.tail (.includeDeployment 700000 true rfl (by decide +kernel))
  have r9 := r8.tail (.refuseDeployment rfl (by decide +kernel))
  exact ⟨_, r9, rfl, by decide +kernel, by decide +kernel, by decide +kernel⟩

/-- If the command fails after the money was sent and is run again, it sends the money again. (`again` is the same chain, at the
command's beginning.) -/
theorem C99_again_counterexample : ∃ s again t, Run fresh s ∧ s.pc = .failed ∧ again = { s with pc := .check } ∧ Start again ∧
    Run again t ∧ t.pc = .done ∧ t.owner + cost 2 + cost 2 = 1000000000000000000 := by
  let f : Funding := ⟨4, deployerAmount, 2⟩
  have r1 := Run.tail (s := fresh) .refl (.check rfl)
  have r2 := r1.tail (.nonce rfl)
  have r3 := r2.tail (.price 2 rfl)
  have r4 := r3.tail (.sendFunding (f := f) rfl (by decide +kernel))
  let s5 : State := State.includeFunding { fresh with pooledFunding := some f, pc := .waitFunding f } f
  have r5 : Run fresh s5 := r4.tail (.includeFunding (f := f) rfl)
  have r6 := r5.tail (.fails (fun h => by cases h))
  have hs : Start { s5 with pc := .check } := ⟨rfl, rfl, fun n hn => by
    have : n ≠ 4 := by
      have : 5 ≤ n := hn
      omega
    show (if n = 4 then some true else none) = none
    rw [if_neg this], by decide +kernel, by decide +kernel, fun h => by cases h⟩
  obtain ⟨t, rt, h1, -, -, h4⟩ := C99_succeeds hs rfl rfl 2 (by decide +kernel)
  refine ⟨_, _, t, r6, rfl, rfl, hs, rt, h1, ?_⟩
  rw [h4]
  decide +kernel

/-- How `deploy` begins: the gas price is the flag's (in Gwei) or, without one, the node's; it panics if that is zero, since it divides the
balance by it for the log, though zero passes the check of the flag. -/
theorem C99_price (flag : Option (Option Int)) (suggested balance : Nat) :
    (deployPrice flag suggested balance = none ↔ flag = some none ∨ ∃ g, flag = some (some g) ∧ g < 0) ∧
    (deployPrice flag suggested balance = some none ↔ flag = some (some 0) ∨ (flag = none ∧ suggested = 0)) ∧
    (∀ p, deployPrice flag suggested balance = some (some p) ↔
      0 < p ∧ ((∃ g, flag = some (some g) ∧ p = g * 1000000000) ∨ (flag = none ∧ p = suggested))) := by
  unfold deployPrice
  match flag with
  | none =>
    simp only [reduceCtorEq, false_or, false_and, exists_false, true_and, or_false]
    by_cases h : (suggested : Int) = 0
    · rw [if_pos h]
      refine ⟨by simp, by simp; omega, fun p => ?_⟩
      simp only [Option.some.injEq, reduceCtorEq, false_iff]
      omega
    · rw [if_neg h]
      refine ⟨by simp, by simp; omega, fun p => ?_⟩
      simp only [Option.some.injEq]
      omega
  | some none => simp
  | some (some g) =>
    simp only [Option.some.injEq, reduceCtorEq, false_or, false_and, or_false, exists_eq_left']
    by_cases hg : g < 0
    · rw [if_pos hg]
      refine ⟨by simp [hg], by simp; omega, fun p => ?_⟩
      simp only [reduceCtorEq, false_iff]
      omega
    · rw [if_neg hg]
      by_cases h : g * 1000000000 = 0
      · rw [if_pos h]
        refine ⟨by simp; omega, by simp; omega, fun p => ?_⟩
        simp only [Option.some.injEq, reduceCtorEq, false_iff]
        omega
      · rw [if_neg h]
        refine ⟨by simp; omega, by simp; omega, fun p => ?_⟩
        simp only [Option.some.injEq]
        omega

end Shutter.Erc1820.Props
