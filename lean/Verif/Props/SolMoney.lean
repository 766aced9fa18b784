import Verif.Proofs.SolMoney
import Verif.Proofs.SolDemo
import Verif.Proofs.SolVote

/-! Property theorems C49 (deposits), C50 (fees) and C51 (votes for keys). All for arbitrary histories, in which the
receivers of tokens and ether may call back. -/

namespace Shutter.Sol.Props
open Shutter.Sol World

/-! ### C49 -/

/-- **C49** The deposit contract owns exactly the sum of all deposits. -/
theorem C49_balance {E : Env} {w : World} (h : WorldReach E w) :
    (Function.support fun a => (w.deposit.deposits a).amount).Finite ∧
      w.deposit.tokens = ∑ᶠ a, (w.deposit.deposits a).amount :=
  (depositInv h.preach).sum.finsum

/-- **C49** An account's deposit is what it paid in, minus what was paid out for it, minus what was slashed. -/
theorem C49_account {E : Env} {w : World} (h : WorldReach E w) (a : Address) :
    (w.deposit.deposits a).amount + w.tokensWithdrawn a + w.tokensSlashed a = w.tokensDeposited a :=
  (depositInv h.preach).account a

/-- **C49** Tokens are paid out only after a request by the account for this amount and after the full delay, and the
deposit was not touched since the request. -/
theorem C49_withdraw_after_request {E : Env} {w : World} (h : WorldReach E w) {pre post : List (Nat × Event)} {n : Nat}
    {account recipient : Address} {amount : Nat} (hl : w.log = pre ++ (n, .tokensPaid account recipient amount) :: post) :
    ∃ m delay pre1 pre2, pre = pre1 ++ (m, .depositChanged account amount delay m false false 0) :: pre2 ∧
      (∀ y ∈ pre2, y.2.movesDeposit account = false) ∧ m + delay ≤ n := by
  obtain ⟨m, d, p1, p2, h1, h2, _, _, h3⟩ := paidJust h.preach _ _ _ hl _ _ _ rfl
  exact ⟨m, d, p1, p2, h1, h2, h3⟩

/-- **C49** A slashed account stays slashed, has no deposit, and nothing is ever paid out for it again. -/
theorem C49_slashed_final {E : Env} {w w' : World} (h : WorldReach E w) (l : WorldLater E w w') {a : Address}
    (hs : (w.deposit.deposits a).slashed = true) :
    w'.deposit.deposits a = ⟨0, 0, 0, true⟩ ∧ w'.tokensWithdrawn a = w.tokensWithdrawn a := by
  have hw' : WorldReach E w' := by
    obtain ⟨w0, h0, h1⟩ := h
    exact ⟨w0, h0, h1.trans l⟩
  have pl := worldLater_plater h.preach.inv l
  have key : (w'.deposit.deposits a).slashed = true ∧ w'.tokensWithdrawn a = w.tokensWithdrawn a := by
    clear l hw'
    induction pl with
    | refl => exact ⟨hs, rfl⟩
    | tail _ st ih =>
      cases st with
      | mine _ _ => exact ih
      | prim p => exact ⟨slashed_prim p ih.1, (withdrawn_prim p ih.1).trans ih.2⟩
  exact ⟨(depositInv hw'.preach).slashed a key.1, key.2⟩

/-- **C49** Once the delay after a request has passed, the account can withdraw its whole deposit (to any address but zero
and the deposit contract); the contract is able to pay. -/
theorem C49_withdraw_possible {E : Env} {w : World} (h : WorldReach E w) {a recipient : Address} (inner : List Op)
    (h1 : 0 < (w.deposit.deposits a).amount) (h3 : 0 < (w.deposit.deposits a).requested)
    (h4 : (w.deposit.deposits a).requested + (w.deposit.deposits a).delay ≤ w.block) (hb : w.block < two64)
    (hr : recipient ≠ 0) (hr' : recipient ≠ w.depositAddr) :
    ∃ w', w.step E (.withdraw a recipient inner) = some w' ∧
      (w.block, Event.tokensPaid a recipient (w.deposit.deposits a).amount) ∈ w'.log := by
  have inv := depositInv h.preach
  have hns : (w.deposit.deposits a).slashed = false := by
    cases hq : (w.deposit.deposits a).slashed
    · rfl
    · rw [inv.slashed a hq] at h1; simp at h1
  have ham := (inv.sum.upd a 0).1
  have hpre : ∃ w1, w.withdrawPre a recipient = some (w1, (w.deposit.deposits a).amount) ∧
      w1.config = w.config ∧ (w.block, Event.tokensPaid a recipient (w.deposit.deposits a).amount) ∈ w1.log := by
    simp only [withdrawPre, Option.bind_eq_bind, Option.bind_eq_some_iff, require_eq_some, Option.some.injEq, addU64_eq_some,
      Prod.mk.injEq]
    exact ⟨_, ⟨(), h1, (), hns, (), h3, _, ⟨rfl, by omega⟩, (), h4, (), hr, (), hr', (), ham, rfl, trivial⟩, rfl,
      by simp [World.emit]⟩
  obtain ⟨w1, hp, hc, hm⟩ := hpre
  rw [World.step, hp]
  refine ⟨_, rfl, ?_⟩
  have ps := inner_cases (prims_cases false E) inner w1 (fun o _ => by simp [Considered]) (by rw [hc]; exact h.preach.inv)
  obtain ⟨l, hl⟩ := plater_log (prims_later ps)
  simp only [withdrawPost, World.emit, List.mem_append, hl]
  exact .inl (.inl hm)

/-! ### C50 -/

/-- **C50** The fee bank owns exactly the sum of the recorded deposits (and ether it was sent without a call). -/
theorem C50_balance {E : Env} {w : World} (h : WorldReach E w) :
    (Function.support w.feeBank.deposits).Finite ∧ w.feeBank.balance = ∑ᶠ a, w.feeBank.deposits a + w.etherForced := by
  obtain ⟨s, h1, h2⟩ := (feeInv h.preach).sum
  obtain ⟨h3, rfl⟩ := h1.finsum
  exact ⟨h3, h2⟩

/-- **C50** What is recorded for an account is what was deposited for it minus what was paid out on its behalf. In
particular no more is paid out for it than was deposited for it. -/
theorem C50_account {E : Env} {w : World} (h : WorldReach E w) (a : Address) :
    w.feeBank.deposits a + w.feesWithdrawn a = w.feesDeposited a :=
  (feeInv h.preach).account a

/-- **C50** Recorded amounts fit into 64 bits. -/
theorem C50_no_overflow {E : Env} {w : World} (h : WorldReach E w) (a : Address) : w.feeBank.deposits a < two64 :=
  (feeInv h.preach).small a

/-- **C50** Whoever has a deposit can withdraw any part of it, and the money is there. -/
theorem C50_withdraw_possible {E : Env} {w : World} (h : WorldReach E w) {sender receiver : Address} {amount : Nat}
    (inner : List Op) (h1 : 0 < w.feeBank.deposits sender) (h2 : amount ≤ w.feeBank.deposits sender) (hr : receiver ≠ 0) :
    ∃ w', w.step E (.feeWithdraw sender (some (receiver, amount)) inner) = some w' ∧
      (w.block, Event.etherPaid sender receiver amount) ∈ w'.log := by
  have inv := feeInv h.preach
  have hb : amount ≤ w.feeBank.balance := by
    obtain ⟨s, g1, g2⟩ := inv.sum
    have := (g1.upd sender 0).1
    omega
  have hpre : ∃ w1, w.feeWithdrawPre sender receiver amount = some w1 ∧
      w1.config = w.config ∧ (w.block, Event.etherPaid sender receiver amount) ∈ w1.log := by
    simp only [feeWithdrawPre, Option.bind_eq_bind, Option.bind_eq_some_iff, require_eq_some, Option.some.injEq]
    exact ⟨_, ⟨(), hr, (), h1, (), h2, (), hb, rfl⟩, rfl, by simp [World.emit]⟩
  obtain ⟨w1, hp, hc, hm⟩ := hpre
  have hargs : w.withdrawArgs sender (some (receiver, amount)) = some (receiver, amount) := by
    have := inv.small sender
    have h64 : amount < two64 := by omega
    simp [withdrawArgs, u64, h64]
  rw [World.step, hargs]
  simp only [hp]
  refine ⟨_, rfl, ?_⟩
  have ps := inner_cases (prims_cases false E) inner w1 (fun o _ => by simp [Considered]) (by rw [hc]; exact h.preach.inv)
  obtain ⟨l, hl⟩ := plater_log (prims_later ps)
  simp only [feeWithdrawPost, World.emit, List.mem_append, hl]
  exact .inl (.inl hm)

/-- Finding: anyone can fill up the account of a fee receiver in the fee bank, up to 2^64 - 1 wei (about 18.4 ether); from
then on no transaction with a fee is accepted for any batch with that fee receiver until it withdraws. -/
theorem C50_full_account_finding {E : Env} {w : World} {b i : Nat} {bc : BatchConfig} {ty : TxType} {tx : Bytes}
    {value : Nat} {sender : Address} (hi : w.config.configIndexForBatchIndex b = some i)
    (hbc : w.config.scheduledConfig i = some bc) (hr : bc.feeReceiver ≠ 0) (hv : 0 < value)
    (hfull : two64 ≤ w.feeBank.deposits bc.feeReceiver + value) :
    w.step E (.addTransaction sender b ty tx value) = none := by
  rw [World.step, World.atomic]
  by_contra hne
  obtain ⟨w', hw'⟩ := Option.ne_none_iff_exists'.1 hne
  simp only [addTransaction, Option.bind_eq_bind, Option.bind_eq_some_iff, require_eq_some, u64_eq_some,
    addU64_eq_some] at hw'
  obtain ⟨_, ⟨rfl, _⟩, i', hi', bc', hbc', _, _, _, _, _, _, _, _, _, _, _, _, _, _, _, _, _, _, _, _, w2, hpay, _⟩ := hw'
  rw [hi] at hi'; simp at hi'; subst hi'
  rw [hbc] at hbc'; simp at hbc'; subst hbc'
  rw [payFee, if_pos ⟨hv, hr⟩] at hpay
  simp only [feeDeposit, Option.bind_eq_bind, Option.bind_eq_some_iff, require_eq_some] at hpay
  obtain ⟨_, _, _, _, _, h3, _⟩ := hpay
  unfold two64 at *
  omega

/-! ### C51 -/

/-- **C51** The number of votes recorded for a key of a batch is the number of keypers that voted for it, and these are
distinct. -/
theorem C51_counts_voters {E : Env} {w : World} (h : WorldReach E w) (b : Nat) (keyHash : Bytes) :
    w.keyBroadcast.numVotes b keyHash = (w.votersFor E b keyHash).length ∧ (w.votersFor E b keyHash).Nodup := by
  have inv := votesInv h.preach
  refine ⟨inv.count b keyHash, List.Nodup.sublist ?_ (inv.once b)⟩
  unfold World.votersFor World.voters
  induction w.log with
  | nil => simp
  | cons x l ih =>
    obtain ⟨n, e⟩ := x
    cases e
    case voted s b' key m =>
      simp only [List.filterMap_cons]
      by_cases h1 : b' = b
      · by_cases h2 : E.keccak key = keyHash
        · simp only [h1, h2, and_self, if_true]; exact ih.cons_cons s
        · simp only [h1, h2, and_false, if_false, if_true]; exact ih.cons s
      · simp only [h1, false_and, if_false]; exact ih
    all_goals simpa [List.filterMap_cons] using ih

/-- **C51** Every keyper votes at most once per batch, and the contract remembers exactly who has voted. -/
theorem C51_votes_once {E : Env} {w : World} (h : WorldReach E w) (b : Nat) :
    (w.voters b).Nodup ∧ ∀ s, w.keyBroadcast.voted b s = true ↔ s ∈ w.voters b :=
  ⟨(votesInv h.preach).once b, (votesInv h.preach).voted b⟩

/-- **C51** `vote` succeeds only for the keyper with the given index in the (active) config of the batch, who has not
voted before. -/
theorem C51_only_keypers {E : Env} {w w' : World} (h : WorldReach E w) {sender : Address} {k b : Nat} {key : Bytes}
    (hs : w.step E (.vote sender k b key) = some w') :
    sender ∉ w.voters b ∧ ∃ i bc, w.config.configIndexForBatchIndex b = some i ∧ w.config.scheduledConfig i = some bc ∧
      0 < bc.batchSpan ∧ bc.keypers[k]? = some sender := by
  rw [World.step, World.atomic] at hs
  simp only [vote, Option.bind_eq_bind, Option.bind_eq_some_iff, require_eq_some, u64_eq_some, Option.some.injEq,
    addU64_eq_some] at hs
  obtain ⟨_, ⟨rfl, _⟩, _, ⟨rfl, h64⟩, i, hi, bc, hbc, _, hsp, s', hs, _, rfl, _, hv, _⟩ := hs
  refine ⟨?_, i, bc, hi, hbc, hsp, hs⟩
  intro hm
  rw [← (votesInv h.preach).voted, hv] at hm
  simp at hm

/-- **C51** The best key of a batch has at least as many votes as any other; its votes are recorded rightly, and if there
are any votes, the key stored is one that hashes to the recorded hash. -/
theorem C51_best {E : Env} {w : World} (h : WorldReach E w) (b : Nat) :
    w.keyBroadcast.bestVotes b = (w.votersFor E b (w.keyBroadcast.bestHash b)).length ∧
    (∀ x, (w.votersFor E b x).length ≤ w.keyBroadcast.bestVotes b) ∧
    (w.voters b ≠ [] → E.keccak (w.keyBroadcast.keys (w.keyBroadcast.bestHash b)) = w.keyBroadcast.bestHash b) := by
  have inv := votesInv h.preach
  refine ⟨by rw [← inv.count, inv.best], fun x => by rw [← inv.count]; exact inv.max b x, ?_⟩
  intro hne
  apply inv.keys b
  rw [inv.best]
  obtain ⟨s, hs⟩ := List.exists_mem_of_ne_nil _ hne
  unfold World.voters at hs
  rw [List.mem_filterMap] at hs
  obtain ⟨⟨n, e⟩, h1, h2⟩ := hs
  cases e <;> simp at h2
  rename_i s' b' key m
  obtain ⟨rfl, rfl⟩ := h2
  refine lt_of_lt_of_le ?_ (inv.max b' (E.keccak key))
  rw [inv.count]
  apply List.length_pos_of_mem (a := s')
  unfold World.votersFor
  rw [List.mem_filterMap]
  exact ⟨_, h1, by simp⟩

/-! ### Instances -/

example : WorldReach Demo.env Demo.money ∧ Demo.money.deposit.deposits 6 = ⟨500, 50, 0, false⟩ ∧
    Demo.money.tokensDeposited 9 = 70 ∧ Demo.money.tokensWithdrawn 9 = 70 ∧ Demo.money.deposit.tokens = 500 ∧
    (∃ pre post, Demo.money.log = pre ++ (124, .tokensPaid 9 99 70) :: post) ∧
    Demo.money.feeBank.deposits 50 = 17 ∧ Demo.money.feesDeposited 50 = 21 ∧ Demo.money.feeBank.balance = 1017 ∧
    Demo.money.votersFor Demo.env 3 (Demo.keccak [2, 2]) = [6, 7] ∧ Demo.money.voters 3 = [5, 6, 7] ∧
    Demo.money.keyBroadcast.bestVotes 3 = 2 ∧
    Demo.money.keyBroadcast.keys (Demo.money.keyBroadcast.bestHash 3) = [2, 2] :=
  ⟨Demo.money_reach, by decide +kernel, by decide +kernel, by decide +kernel, by decide +kernel,
    ⟨Demo.money.log.take 15, Demo.money.log.drop 16, by decide +kernel⟩, by decide +kernel, by decide +kernel,
    by decide +kernel, by decide +kernel, by decide +kernel, by decide +kernel, by decide +kernel⟩

/-- A slashed account, for `C49_slashed_final`. -/
example : WorldReach Demo.env Demo.slashedW ∧ (Demo.slashedW.deposit.deposits 6).slashed = true :=
  ⟨Demo.slashed_tame.reach, by decide +kernel⟩

/-- The hypotheses of `C49_withdraw_possible` just before keyper 9 withdraws. -/
example : ∃ w, WorldReach Demo.env w ∧ 0 < (w.deposit.deposits 9).amount ∧ 0 < (w.deposit.deposits 9).requested ∧
    (w.deposit.deposits 9).requested + (w.deposit.deposits 9).delay ≤ w.block ∧ w.block < two64 := by
  have hrun : (Demo.run Demo.submitted (Demo.moneyOps.take 3)).isSome = true := by decide +kernel
  obtain ⟨w, hw⟩ := Option.isSome_iff_exists.1 hrun
  have hv : (Demo.run Demo.submitted (Demo.moneyOps.take 3)).map (fun w => (w.deposit.deposits 9, w.block)) =
      some (⟨70, 10, 114, false⟩, 114) := by decide +kernel
  rw [hw] at hv
  simp at hv
  obtain ⟨w0, h0, h1⟩ := Demo.submitted_reach
  refine ⟨{ w with block := 124 }, ⟨w0, h0, (h1.trans (Demo.run_later hw)).tail (.mine (by omega) (by decide))⟩, ?_⟩
  simp [hv, two64]

/-- The hypotheses of `C50_withdraw_possible`. -/
example : 0 < Demo.money.feeBank.deposits 50 ∧ 17 ≤ Demo.money.feeBank.deposits 50 := by decide +kernel

end Shutter.Sol.Props
