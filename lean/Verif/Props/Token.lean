import Verif.Proofs.TokenReach
import Verif.Proofs.Bytes
import Verif.Proofs.SolDemo

/-! Property theorems C89: the deposit token (ERC777, with hooks), in all histories in which anybody calls anything, hooks included. -/

namespace Shutter.Token.Props
open Shutter.Sol Shutter.Token

/-- **C89** The token contract adds no behaviour: every history of all contracts with the token is one of the contracts in which transfers to the
deposit contract are single steps, with the deposit contract's real balance. All theorems about the contracts (C43 to C51 and the
properties built on them) hold of it. -/
theorem C89_refines {E : Env} {c : Chain} (h : Reach E c) :
    WorldReach E c.world ∧ c.world.deposit.tokens = c.token.balances c.dep ∧
    ∀ c', Later E (fun _ => True) c c' → Reach E c' ∧ WorldLater E c.world c'.world ∧ c'.dep = c.dep := by
  obtain ⟨i, w⟩ := h.inv
  refine ⟨w, i.mirror, fun c' hl => ?_⟩
  obtain ⟨_, d, s⟩ := later_sim hl i
  obtain ⟨c0, h0, hl0⟩ := h
  exact ⟨⟨c0, h0, hl0.trans hl⟩, s, d⟩

/-- **C89** The token contract's balance of the deposit contract is at all times the sum of all deposits; and all balances add up to the total
supply. -/
theorem C89_backed {E : Env} {c : Chain} (h : Reach E c) :
    (Function.support fun a => (c.world.deposit.deposits a).amount).Finite ∧
    c.token.balances c.dep = ∑ᶠ a, (c.world.deposit.deposits a).amount ∧
    (Function.support c.token.balances).Finite ∧ c.token.totalSupply = ∑ᶠ a, c.token.balances a ∧ c.token.totalSupply < 2 ^ 256 := by
  obtain ⟨i, w⟩ := h.inv
  have h1 := (depositInv w.preach).sum.finsum
  have h2 := i.tok.sum.finsum
  exact ⟨h1.1, i.mirror.symm.trans h1.2, h2.1, h2.2, i.tok.fits⟩

/-- **C89** The tokens of an account (not the deposit contract) that has authorised no operator and no spender, and makes no calls of the token
contract and the registry itself, never become fewer, whatever all others do. -/
theorem C89_holders {E : Env} {c c' : Chain} (h : Reach E c) {a : Address} (hd : a ≠ c.dep) (ho : ∀ b, c.token.operators a b = false)
    (ha : ∀ b, c.token.allowances a b = 0) (hl : Later E (fun x => x ≠ a) c c') : c.token.balances a ≤ c'.token.balances a := by
  obtain ⟨i, _⟩ := h.inv
  have := (later_holds (P := fun x => x ≠ a) (s := 0) (by simp) hl i hd ⟨i.tok.default, ho, fun b _ => ha b⟩).2
  have := ha 0
  omega

/-- **C89** If it has authorised a spender, then its tokens become fewer by no more than what is used up of the allowance. -/
theorem C89_allowance {E : Env} {c c' : Chain} (h : Reach E c) {a s : Address} (hd : a ≠ c.dep) (ho : ∀ b, c.token.operators a b = false)
    (ha : ∀ b, b ≠ s → c.token.allowances a b = 0) (hl : Later E (fun x => x ≠ a) c c') :
    c.token.balances a + c'.token.allowances a s ≤ c'.token.balances a + c.token.allowances a s := by
  obtain ⟨i, _⟩ := h.inv
  exact (later_holds (P := fun x => x ≠ a) (by simp) hl i hd ⟨i.tok.default, ho, ha⟩).2

/-- **C89** Any holder without hook can send tokens, as long as it has them, to any account other than the deposit contract that has no hook: with
`transfer` also if the account is a contract, and the same for a spender, who may send as much as the allowance says. -/
theorem C89_transfer {E : Env} {c : Chain} (h : Reach E c) {m : Sending} (hk : m.kind = .transfer ∧ m.caller = m.src ∨
      m.kind = .transferFrom ∧ m.caller ≠ 0 ∧ m.amount ≤ c.token.allowances m.src m.caller)
    (h0 : m.src ≠ 0) (h1 : m.dst ≠ 0) (hne : m.src ≠ m.dst) (hc : m.caller ≠ c.dep) (hs : c.registry.sender m.src = 0)
    (hd : c.registry.recipient m.dst = 0) (hb : m.amount ≤ c.token.balances m.src) :
    ∃ c', Step E (fun x => x = m.caller) c c' ∧ c'.token.balances m.src + m.amount = c.token.balances m.src ∧
      c'.token.balances m.dst = c.token.balances m.dst + m.amount ∧
      ∀ x, x ≠ m.src → x ≠ m.dst → c'.token.balances x = c.token.balances x := by
  obtain ⟨i, _⟩ := h.inv
  have hf := two_fit i.tok hne
  obtain ⟨t, ht⟩ : ∃ t, c.token.move m.src m.dst m.amount = some t := by
    simp only [Erc777.move, Option.bind_eq_bind, Option.bind_eq_some_iff, require_eq_some, Option.some.injEq]
    refine ⟨_, (), hb, (), ?_, rfl⟩
    simp only [upd, if_neg hne.symm]
    omega
  have hb' := (move_spec ht).2
  obtain ⟨t', ht', hbal⟩ : ∃ t', m.spend t = some t' ∧ t'.balances = t.balances := by
    rcases hk with ⟨hk, _⟩ | ⟨hk, h2, h3⟩
    · exact ⟨t, by simp [Sending.spend, hk], rfl⟩
    · rw [Sending.spend, hk]
      refine ⟨{ t with allowances := upd2 t.allowances m.src m.caller (t.allowances m.src m.caller - m.amount) }, ?_, rfl⟩
      simp only [Option.bind_eq_bind, Option.bind_eq_some_iff, require_eq_some]
      exact ⟨(), by rw [hb']; exact h3, (), h2, trivial⟩
  have hack : m.ack = false := by rcases hk with ⟨hk, _⟩ | ⟨hk, _⟩ <;> simp [Sending.ack, hk]
  have hrec : received (c.withToken t') m = some (c.withToken t') := by
    unfold received
    rw [if_pos (by exact hd), if_neg (by simp [hack])]
  have hrun : Run E (fun x => x = m.caller) (.sending m) c (c.withToken t') :=
    .sending h0 h1 (by rw [hs]; exact fun e => i.addr e.symm) .refl (fun _ => rfl) ht ht' hrec .refl (fun _ => rfl)
  refine ⟨_, .calls (.send .refl rfl hc ?_ hrun), ?_, ?_, ?_⟩
  · rcases hk with ⟨hk, h2⟩ | ⟨hk, _⟩ <;> simp [Sending.authorized, hk]
    exact h2
  · show t'.balances m.src + m.amount = _
    rw [hbal, hb']; simp [upd, hne]; omega
  · show t'.balances m.dst = _
    rw [hbal, hb']; simp [upd, hne.symm]
  · intro x hx hx'
    show t'.balances x = _
    rw [hbal, hb']; simp [upd, hx, hx']

/-- **C89** Any holder without hook can burn tokens of its own, and so can its operators; nothing else changes. -/
theorem C89_burn {E : Env} {c : Chain} (h : Reach E c) {caller a : Address} {amount : Nat} (ho : caller = a ∨ c.token.operators a caller = true)
    (h0 : a ≠ 0) (hc : caller ≠ c.dep) (hs : c.registry.sender a = 0) (hb : amount ≤ c.token.balances a) :
    ∃ c', Step E (fun x => x = caller) c c' ∧ c'.token.balances a + amount = c.token.balances a ∧
      c'.token.totalSupply + amount = c.token.totalSupply ∧ ∀ x, x ≠ a → c'.token.balances x = c.token.balances x := by
  obtain ⟨i, _⟩ := h.inv
  have hle := (i.tok.sum.upd a 0).1
  obtain ⟨t, ht⟩ : ∃ t, c.token.burn a amount = some t := by
    simp only [Erc777.burn, Option.bind_eq_bind, Option.bind_eq_some_iff, require_eq_some, Option.some.injEq]
    exact ⟨_, (), hb, (), by omega, rfl⟩
  have hau : c.token.isOperatorFor caller a = true := by
    rcases ho with rfl | ho
    · simp [Erc777.isOperatorFor]
    · simp [Erc777.isOperatorFor, ho]
  obtain ⟨_, _, _, _, h4, h5⟩ := burnt i.tok ht
  refine ⟨_, .calls (.burn .refl rfl hc hau (.burning h0 (by rw [hs]; exact fun e => i.addr e.symm) .refl (fun _ => rfl) ht)), ?_, ?_, ?_⟩
  · show t.balances a + amount = _
    rw [h4]; simp [upd]; omega
  · show t.totalSupply + amount = _
    rw [h5]; omega
  · intro x hx
    show t.balances x = _
    rw [h4]; simp [upd, hx]

/-- **C89** When the delay after a request is over, the account gets its whole deposit, at any address without code and hook: nobody can prevent it. -/
theorem C89_withdraw {E : Env} {c : Chain} (h : Reach E c) {a recipient : Address} (h1 : 0 < (c.world.deposit.deposits a).amount)
    (h2 : 0 < (c.world.deposit.deposits a).requested)
    (h3 : (c.world.deposit.deposits a).requested + (c.world.deposit.deposits a).delay ≤ c.world.block) (hb : c.world.block < two64)
    (hr : PlainReceiver c recipient) :
    ∃ c', Step E (fun _ => False) c c' ∧
      c'.token.balances recipient = c.token.balances recipient + (c.world.deposit.deposits a).amount ∧
      c'.token.balances c.dep + (c.world.deposit.deposits a).amount = c.token.balances c.dep ∧
      (∀ x, x ≠ recipient → x ≠ c.dep → c'.token.balances x = c.token.balances x) ∧
      c'.world.deposit.deposits a = ⟨0, 0, 0, false⟩ ∧ ∀ x, x ≠ a → c'.world.deposit.deposits x = c.world.deposit.deposits x := by
  obtain ⟨i, w⟩ := h.inv
  obtain ⟨r0, rc, rr⟩ := hr
  have inv := depositInv w.preach
  have hns : (c.world.deposit.deposits a).slashed = false := by
    cases hq : (c.world.deposit.deposits a).slashed
    · rfl
    · rw [inv.slashed a hq] at h1; simp at h1
  have ham := (inv.sum.upd a 0).1
  rw [i.mirror] at ham
  have hrd : recipient ≠ c.dep := by
    intro e
    have := (i.reg.recipient recipient).2 e
    rw [rr] at this
    exact i.addr this.symm
  obtain ⟨w', hw⟩ : ∃ w', withdrawCheck c.world a recipient = some (w', (c.world.deposit.deposits a).amount) := by
    simp only [withdrawCheck, Option.bind_eq_bind, Option.bind_eq_some_iff, require_eq_some, Option.some.injEq, addU64_eq_some, Prod.mk.injEq]
    exact ⟨_, (), h1, (), hns, (), h2, _, ⟨rfl, by omega⟩, (), h3, rfl, trivial⟩
  have k := withdrawCheck_kept hw
  have hdep : w'.deposit.deposits = upd c.world.deposit.deposits a Deposit.zero := by
    simp only [withdrawCheck, Option.bind_eq_bind, Option.bind_eq_some_iff, require_eq_some, Option.some.injEq, Prod.mk.injEq] at hw
    obtain ⟨_, _, _, _, _, _, _, _, _, _, rfl, _⟩ := hw
    rfl
  generalize (c.world.deposit.deposits a).amount = n at *
  have hf := two_fit i.tok hrd
  obtain ⟨t, ht⟩ : ∃ t, c.token.move c.dep recipient n = some t := by
    simp only [Erc777.move, Option.bind_eq_bind, Option.bind_eq_some_iff, require_eq_some, Option.some.injEq]
    refine ⟨_, (), ham, (), ?_, rfl⟩
    simp only [upd, if_neg hrd]
    omega
  let m : Sending := ⟨.send, c.dep, c.dep, recipient, n, []⟩
  let c1 : Chain := { c with world := w' }
  have hd1 : c1.dep = c.dep := k.addr
  have hrec : received (c1.withToken t) m = some (c1.withToken t) := by
    unfold received
    rw [if_pos (by exact rr), if_neg (by simp [m, rc, c1, Chain.withToken])]
  have hrun : Run E (fun _ => False) (.sending m) c1 (c1.withToken t) :=
    .sending i.addr r0 (by show c.registry.sender c.dep ≠ _; rw [i.reg.noHook, hd1]; exact fun e => i.addr e.symm) .refl (fun _ => rfl)
      ht rfl hrec .refl (fun _ => rfl)
  have hb' : t.balances = upd (upd c.token.balances c.dep (c.token.balances c.dep - n)) recipient
      (upd c.token.balances c.dep (c.token.balances c.dep - n) recipient + n) := by
    rw [(move_spec ht).2]
  refine ⟨_, .calls (.withdraw .refl hw hrun), ?_, ?_, ?_, ?_, ?_⟩
  · show t.balances recipient = _
    rw [hb']; simp [upd, hrd]
  · show t.balances c.dep + n = _
    rw [hb']; simp [upd, hrd.symm]; omega
  · intro x hx hx'
    show t.balances x = _
    rw [hb']; simp [upd, hx, hx']
  · show w'.deposit.deposits a = _
    rw [hdep]; simp [upd, Deposit.zero]
  · intro x hx
    show w'.deposit.deposits x = _
    rw [hdep]; simp [upd, hx]

/-- **C89** Any holder without hook can deposit any part of its tokens, unless it was slashed, has requested its deposit back or names a shorter
delay than before; the amounts never overflow. -/
theorem C89_deposit {E : Env} {c : Chain} (h : Reach E c) {a : Address} {amount delay : Nat} (ha0 : a ≠ 0) (had : a ≠ c.dep)
    (hh : c.registry.sender a = 0) (hb : amount ≤ c.token.balances a) (hdel : delay < two64)
    (h1 : (c.world.deposit.deposits a).delay ≤ delay) (h2 : (c.world.deposit.deposits a).requested = 0)
    (h3 : (c.world.deposit.deposits a).slashed = false) :
    ∃ c', Run E (fun x => x = a) (.sending ⟨.send, a, a, c.dep, amount, delayData delay⟩) c c' ∧ Step E (fun x => x = a) c c' ∧
      c'.token.balances a + amount = c.token.balances a ∧ c'.token.balances c.dep = c.token.balances c.dep + amount ∧
      c'.world.deposit.deposits a = ⟨(c.world.deposit.deposits a).amount + amount, delay, 0, false⟩ ∧
      ∀ x, x ≠ a → c'.world.deposit.deposits x = c.world.deposit.deposits x := by
  obtain ⟨i, w⟩ := h.inv
  obtain ⟨w', hw⟩ : ∃ w', c.world.tokensReceived a amount delay = some w' := by
    simp only [World.tokensReceived, Option.bind_eq_bind, Option.bind_eq_some_iff, require_eq_some, Option.some.injEq, u64_eq_some]
    exact ⟨_, delay, ⟨rfl, hdel⟩, (), h1, (), h2, (), h3, rfl⟩
  obtain ⟨c', hrun, e1, _, _, e2, e3, _⟩ := deposit_run (E := E) i (depositInv w.preach) ha0 had hh hb hw
  have hdep : c'.world.deposit.deposits = upd c.world.deposit.deposits a ⟨(c.world.deposit.deposits a).amount + amount, delay, 0, false⟩ := by
    simp only [World.tokensReceived, Option.bind_eq_bind, Option.bind_eq_some_iff, Option.some.injEq, u64_eq_some] at hw
    obtain ⟨_, ⟨rfl, _⟩, _, _, _, _, _, _, rfl⟩ := hw
    rw [e1, ← h2, ← h3]
    rfl
  refine ⟨c', hrun, .calls (.send .refl rfl had (by simp [Sending.authorized]) hrun), e2, e3, ?_, fun x hx => ?_⟩
  · rw [hdep]; simp [upd]
  · rw [hdep]; simp [upd, hx]

/-- **C89** Tokens get to the deposit contract only as deposits: with `send` or `operatorSend`, with a delay of at most 64 bits as data, credited to
their holder. An ERC20 transfer to it (`transfer`, `transferFrom`) is refused, so that no tokens are lost there. -/
theorem C89_only_deposits {E : Env} {P : Address → Prop} {c c' : Chain} (h : Reach E c) {m : Sending} (hm : m.dst = c.dep)
    (hs : m.src ≠ c.dep) (hr : Run E P (.sending m) c c') :
    (m.kind = .send ∨ m.kind = .operatorSend) ∧ ∃ c1 delay, Run E P .calls c c1 ∧ 32 ≤ m.data.length ∧
      delay = Crypto.beNat (m.data.take 32) ∧ delay < two64 ∧ (c1.world.deposit.deposits m.src).delay ≤ delay ∧
      (c1.world.deposit.deposits m.src).requested = 0 ∧ (c1.world.deposit.deposits m.src).slashed = false ∧
      c'.world.deposit.deposits m.src = ⟨(c1.world.deposit.deposits m.src).amount + m.amount, delay, 0, false⟩ ∧
      (∀ x, x ≠ m.src → c'.world.deposit.deposits x = c1.world.deposit.deposits x) ∧
      c'.token.balances c.dep = c1.token.balances c.dep + m.amount ∧
      c'.token.balances m.src + m.amount = c1.token.balances m.src := by
  obtain ⟨i, _⟩ := h.inv
  cases hr with
  | @sending _ c1 c3 _ _ t t' h0 h0' hs' r1 hns hmv hsp hrec r2 hnr =>
  obtain ⟨i1, d1, _⟩ := run_sim r1 i trivial
  obtain ⟨ti, hle, htf, hop, hal, hb⟩ := moved i1.tok hmv hsp
  have hreg : (c1.withToken t').registry.recipient m.dst = c1.dep := (i1.reg.recipient _).2 (hm.trans d1.symm)
  have hfin := received_fields hrec
  have htok := received_token hrec
  unfold received at hrec
  rw [hreg, if_neg i1.addr, if_pos (by rfl)] at hrec
  simp only [Option.bind_eq_bind, Option.bind_eq_some_iff, Option.some.injEq, credit] at hrec
  obtain ⟨delay, hdel, w, ⟨_, g1, _, g2, _, g3, _, g4, rfl⟩, rfl⟩ := hrec
  rw [require_eq_some] at g1 g2 g3
  have hc4 := hnr (Or.inr ((congrFun (congrArg Registry.recipient hfin.1) m.dst).trans (hreg.trans hfin.2.2.1.symm)))
  subst hc4
  have hkind : m.kind = .send ∨ m.kind = .operatorSend := by
    rcases hk : m.kind with _ | _ | _ | _
    · exact .inl rfl
    · simp [Sending.userData, hk, decodeU64_nil] at hdel
    · exact .inr rfl
    · simp [Sending.userData, hk, decodeU64_nil] at hdel
  have hdata : m.userData = m.data := by
    rcases hkind with hk | hk <;> simp [Sending.userData, hk]
  rw [hdata] at hdel
  refine ⟨hkind, c1, delay, r1, ?_, ?_, decodeU64_lt hdel, g1, g2, g3, ?_, ?_, ?_, ?_⟩
  · by_contra hl
    simp [decodeU64, show m.data.length < 32 by omega] at hdel
  · unfold decodeU64 at hdel
    split at hdel
    · simp at hdel
    · split at hdel
      · simpa using hdel.symm
      · simp at hdel
  · rw [← g2, ← g3]
    simp [World.emit, upd]
    rfl
  · intro x hx
    simp [World.emit, upd, hx]
    rfl
  · show t'.balances c.dep = _
    rw [hb, hm]; simp [upd, hs.symm]
  · show t'.balances m.src + _ = _
    rw [hb, hm]; simp [upd, hs]; omega

/-- **C89** The deposit of an accused executor can be slashed when the time for appeals is over, by anybody, if slashed tokens are burnt or sent to
an address without code and hook: nobody can prevent it. The executor's deposit is gone; the total supply shrinks by it, or the receiver has it. -/
theorem C89_slash {E : Env} {c : Chain} (h : Reach E c) {halfStep : Nat} (hh : halfStep < two64) (h1 : (c.world.slasher.accusations halfStep).accused = true)
    (h2 : (c.world.slasher.accusations halfStep).appealed = false) (h3 : (c.world.slasher.accusations halfStep).slashed = false)
    (h4 : (c.world.slasher.accusations halfStep).blockNumber + c.world.slasher.appealBlocks ≤ c.world.block)
    (hr : c.world.deposit.slashingReceiver = 0 ∨ PlainReceiver c c.world.deposit.slashingReceiver) :
    ∃ c', Step E (fun _ => False) c c' ∧
      c'.world.deposit.deposits (c.world.slasher.accusations halfStep).executor = ⟨0, 0, 0, true⟩ ∧
      (∀ x, x ≠ (c.world.slasher.accusations halfStep).executor → c'.world.deposit.deposits x = c.world.deposit.deposits x) ∧
      (c'.world.slasher.accusations halfStep).slashed = true ∧
      c'.token.balances c.dep + (c.world.deposit.deposits (c.world.slasher.accusations halfStep).executor).amount = c.token.balances c.dep ∧
      (c.world.deposit.slashingReceiver = 0 →
        c'.token.totalSupply + (c.world.deposit.deposits (c.world.slasher.accusations halfStep).executor).amount = c.token.totalSupply) ∧
      (c.world.deposit.slashingReceiver ≠ 0 → c'.token.balances c.world.deposit.slashingReceiver =
        c.token.balances c.world.deposit.slashingReceiver +
          (c.world.deposit.deposits (c.world.slasher.accusations halfStep).executor).amount) := by
  obtain ⟨i, w⟩ := h.inv
  have inv := depositInv w.preach
  have hpre : c.world.slashPre halfStep = some (c.world.slasher.accusations halfStep) := by
    simp only [World.slashPre, Option.bind_eq_bind, Option.bind_eq_some_iff, require_eq_some, Option.some.injEq, u64_eq_some]
    exact ⟨halfStep, ⟨rfl, hh⟩, (), h1, (), h2, (), h3, (), h4, rfl⟩
  generalize c.world.slasher.accusations halfStep = acc at *
  have ham := (inv.sum.upd acc.executor 0).1
  rw [i.mirror] at ham
  generalize hn : (c.world.deposit.deposits acc.executor).amount = n at *
  let c1 : Chain := { c with world := (slashRecord c.world acc.executor).1 }
  have hn1 : (slashRecord c.world acc.executor).2 = n := hn
  have hhook : c1.registry.sender c1.dep ≠ c1.dep := by
    show c.registry.sender c.dep ≠ c.dep
    rw [i.reg.noHook]; exact fun e => i.addr e.symm
  by_cases hz : c.world.deposit.slashingReceiver = 0
  · have hts : n ≤ c.token.totalSupply := by
      have := (i.tok.sum.upd c.dep 0).1
      omega
    obtain ⟨t, ht⟩ : ∃ t, c.token.burn c.dep n = some t := by
      simp only [Erc777.burn, Option.bind_eq_bind, Option.bind_eq_some_iff, require_eq_some, Option.some.injEq]
      exact ⟨_, (), ham, (), hts, rfl⟩
    obtain ⟨_, _, _, _, hb, hsup⟩ := burnt i.tok ht
    have hrun : Run E (fun _ => False) (.burning c.dep (slashRecord c.world acc.executor).2) c1 (c1.withToken t) :=
      .burning i.addr hhook .refl (fun _ => rfl) (by rw [hn1]; exact ht)
    refine ⟨_, .calls (.slashedBurn .refl hpre inv.slasher.1 hz hrun), ?_, ?_, ?_, ?_, fun _ => ?_, fun e => absurd hz e⟩
    · show (slashRecord c.world acc.executor).1.deposit.deposits acc.executor = _
      simp [slashRecord, World.emit, upd]
    · intro x hx
      show (slashRecord c.world acc.executor).1.deposit.deposits x = _
      simp [slashRecord, World.emit, upd, hx]
    · simp [World.slashPost, World.emit, upd]
    · show t.balances c.dep + n = _
      rw [hb]; simp [upd]; omega
    · show t.totalSupply + n = _
      rw [hsup]; omega
  · obtain ⟨r0, rc, rr⟩ := hr.resolve_left hz
    have hrd : c.world.deposit.slashingReceiver ≠ c.dep := by
      intro e
      have := (i.reg.recipient _).2 e
      rw [rr] at this
      exact i.addr this.symm
    have hf := two_fit i.tok hrd
    obtain ⟨t, ht⟩ : ∃ t, c.token.move c.dep c.world.deposit.slashingReceiver n = some t := by
      simp only [Erc777.move, Option.bind_eq_bind, Option.bind_eq_some_iff, require_eq_some, Option.some.injEq]
      refine ⟨_, (), ham, (), ?_, rfl⟩
      simp only [upd, if_neg hrd]
      omega
    have hb' := congrArg Erc777.balances (move_spec ht).2
    simp only at hb'
    let m : Sending := ⟨.send, c.dep, c.dep, c.world.deposit.slashingReceiver, (slashRecord c.world acc.executor).2, []⟩
    have hrec : received (c1.withToken t) m = some (c1.withToken t) := by
      unfold received
      rw [if_pos (by exact rr), if_neg (by simp [m, rc, c1, Chain.withToken])]
    have hrun : Run E (fun _ => False) (.sending m) c1 (c1.withToken t) :=
      .sending i.addr r0 hhook .refl (fun _ => rfl) (by show c.token.move c.dep _ (slashRecord c.world acc.executor).2 = _; rw [hn1]; exact ht)
        rfl hrec .refl (fun _ => rfl)
    refine ⟨_, .calls (.slashedSend .refl hpre inv.slasher.1 hz hrun), ?_, ?_, ?_, ?_, fun e => absurd e hz, fun _ => ?_⟩
    · show (slashRecord c.world acc.executor).1.deposit.deposits acc.executor = _
      simp [slashRecord, World.emit, upd]
    · intro x hx
      show (slashRecord c.world acc.executor).1.deposit.deposits x = _
      simp [slashRecord, World.emit, upd, hx]
    · simp [World.slashPost, World.emit, upd]
    · show t.balances c.dep + n = _
      rw [hb']; simp [upd, hrd.symm]; omega
    · show t.balances c.world.deposit.slashingReceiver = _
      rw [hb']; simp [upd, hrd]

/-- **C89** (finding) If the owner has set the receiver of slashed tokens to a contract that is not registered as a recipient, then tokens cannot be
sent to it, and nobody can be slashed: neither by the slashing contract nor directly. The same holds of withdrawals to such a contract. -/
theorem C89_refused {E : Env} {P : Address → Prop} {c : Chain} (h : Reach E c) {r : Address} (hc : c.isContract r = true)
    (hr : c.registry.recipient r = 0) (n : Nat) (w : World) :
    ¬ ∃ c', Run E P (.sending ⟨.send, c.dep, c.dep, r, n, []⟩) { c with world := w } c' := by
  rintro ⟨c', hrun⟩
  obtain ⟨i, _⟩ := h.inv
  cases hrun with
  | @sending _ c1 c3 _ _ t t' h0 h0' hs' r1 hns hmv hsp hrec r2 hnr =>
  have hcc := hns (by exact i.reg.noHook)
  subst hcc
  unfold received at hrec
  rw [if_pos (by exact hr), if_pos (by simp [Sending.ack, Chain.withToken, hc])] at hrec
  simp at hrec

/-! ### Examples -/

/-- The contracts after deployment; account 6 has all tokens; 66 is a contract. -/
def demo : Chain :=
  ⟨Demo.start, ⟨fun a => if a = 6 then 1000000 else 0, 1000000, fun _ => false, fun _ _ => false, fun _ _ => false, fun _ _ => 0⟩,
    ⟨fun a => a, fun _ => 0, fun a => if a = 102 then 102 else 0⟩, fun a => decide (a = 66 ∨ 100 ≤ a)⟩

theorem demo_ready : Ready demo where
  world := Demo.start_deployed
  address := by decide
  recipient := by
    intro a
    show (if a = 102 then 102 else 0) = 102 ↔ a = 102
    split <;> simp_all
  sender := by intro a; show (0 : Nat) ≠ 102; decide
  noHook := rfl
  manager := rfl
  balance := rfl
  noDefaultOperators := fun _ => rfl
  noOperators := fun _ => rfl
  noAllowances := fun _ => rfl
  holders := by
    refine Set.Finite.subset (Set.finite_singleton 6) (fun a ha => ?_)
    by_contra hn
    simp [demo] at ha hn
    exact hn ha
  supply := by
    rw [finsum_eq_single _ 6]
    · rfl
    · intro a ha
      simp [demo, ha]
  fits := by decide

theorem demo_reach : Reach Demo.env demo := ⟨demo, demo_ready, .refl⟩

/-- The hypotheses of `C89_allowance` and `C89_transfer` are met: account 6 lets account 7 spend 100 tokens, which sends 60 of them to account 66, a
contract. Of the allowance 40 are left. -/
theorem C89_allowance_example : ∃ c1 c2, Reach Demo.env c1 ∧ Later Demo.env (fun x => x ≠ 6) c1 c2 ∧ c1.isContract 66 = true ∧
    c1.token.balances 6 = 1000000 ∧ c1.token.allowances 6 7 = 100 ∧ c2.token.balances 6 = 999940 ∧ c2.token.balances 66 = 60 ∧
    c2.token.allowances 6 7 = 40 :=
  ⟨{ demo with token := { demo.token with allowances := upd2 demo.token.allowances 6 7 100 } }, _,
    demo_reach.step (P := fun _ => True) (.calls (.token (call := .approve 7 100) (caller := 6) .refl trivial (by decide) rfl)),
    .single (.calls (.send (m := ⟨.transferFrom, 7, 6, 66, 60, []⟩) .refl (by decide) (by decide) rfl
      (.sending (by decide) (by decide) (by decide) .refl (fun _ => rfl) rfl rfl rfl .refl (fun _ => rfl)))),
    rfl, rfl, rfl, rfl, rfl, rfl⟩

/-- The hypotheses are met: account 6 deposits 300 tokens for 10 blocks, requests them back at block 50 and withdraws them to account 7 at block 60. -/
theorem C89_history : ∃ c1 c2 c3, Reach Demo.env c1 ∧ Reach Demo.env c2 ∧ Reach Demo.env c3 ∧
    c1.world.deposit.deposits 6 = ⟨300, 10, 0, false⟩ ∧ c1.token.balances 102 = 300 ∧ c1.token.balances 6 = 999700 ∧
    c2.world.deposit.deposits 6 = ⟨300, 10, 50, false⟩ ∧ c2.world.block = 60 ∧
    c3.world.deposit.deposits 6 = ⟨0, 0, 0, false⟩ ∧ c3.token.balances 102 = 0 ∧ c3.token.balances 7 = 300 := by
  obtain ⟨c1, r1, s1, b1, b2, d1, _⟩ := C89_deposit demo_reach (a := 6) (amount := 300) (delay := 10) (by decide) (by decide) rfl (by decide)
    (by decide) (by decide) rfl rfl
  have reach1 := demo_reach.step s1
  have hdep : c1.dep = 102 := (run_sim r1 demo_reach.inv.1 (by intro e; exact absurd e (by decide))).2.1
  have hreg : c1.registry = demo.registry ∧ c1.isContract = demo.isContract ∧ c1.world.block = 3 ∧ c1.token.balances 7 = 0 := by
    cases r1 with
    | @sending _ x c3 _ _ t t' h0 h0' hs' r1 hns hmv hsp hrec r2 hnr =>
    have e := hns rfl
    subst e
    have hf := received_fields hrec
    have hreg : c3.registry.recipient 102 = c3.dep := by
      rw [hf.1, hf.2.2.1]; rfl
    have e := hnr (.inr hreg)
    subst e
    refine ⟨hf.1, hf.2.1, ?_, ?_⟩
    · unfold received at hrec
      rw [if_neg (by show ¬ (102 : Nat) = 0; decide), if_pos (by rfl)] at hrec
      simp only [Option.bind_eq_bind, Option.bind_eq_some_iff, Option.some.injEq, credit] at hrec
      obtain ⟨_, _, _, ⟨_, _, _, _, _, _, _, _, rfl⟩, rfl⟩ := hrec
      rfl
    · rw [received_token hrec]
      have := (moved demo_ready.inv.tok hmv hsp).2.2.2.2.2
      show t'.balances 7 = 0
      rw [this]; rfl
  have d1' : c1.world.deposit.deposits 6 = ⟨300, 10, 0, false⟩ := d1
  let w1 : World := { c1.world with block := 50 }
  have s2 : Step Demo.env (fun _ => True) c1 { c1 with world := w1 } := .mine (by rw [hreg.2.2.1]; decide) (by decide)
  have reach2 := reach1.step s2
  obtain ⟨w2, hw2, hd2, hb2, ha2⟩ : ∃ w2, w1.atomic Demo.env (.requestWithdrawal 6) = some w2 ∧ w2.deposit.deposits 6 = ⟨300, 10, 50, false⟩ ∧
      w2.block = 50 ∧ w2.depositAddr = c1.dep := by
    obtain ⟨w2, hw2⟩ : ∃ w2, w1.atomic Demo.env (.requestWithdrawal 6) = some w2 := by
      simp only [World.atomic, World.requestWithdrawal, Option.bind_eq_bind, Option.bind_eq_some_iff, require_eq_some, Option.some.injEq]
      refine ⟨_, (), ?_, (), ?_, (), ?_, rfl⟩ <;> rw [show w1.deposit.deposits 6 = _ from d1'] <;> decide
    have hw2' := hw2
    simp only [World.atomic, World.requestWithdrawal, Option.bind_eq_bind, Option.bind_eq_some_iff, Option.some.injEq] at hw2'
    obtain ⟨_, _, _, _, _, _, rfl⟩ := hw2'
    refine ⟨_, hw2, ?_, rfl, rfl⟩
    rw [show w1.deposit.deposits 6 = _ from d1']
    simp [World.emit, upd, w1]
  have s3 : Step Demo.env (fun _ => True) { c1 with world := w1 } { c1 with world := w2 } :=
    .calls (.world (c1 := { c1 with world := w1 }) .refl (by simp) hw2)
  have reach3 := reach2.step s3
  have s4 : Step Demo.env (fun _ => True) { c1 with world := w2 } { c1 with world := { w2 with block := 60 } } :=
    .mine (by rw [show ({ c1 with world := w2 } : Chain).world.block = 50 from hb2]; decide) (by decide)
  have reach4 := reach3.step s4
  have hplain : PlainReceiver { c1 with world := { w2 with block := 60 } } 7 := by
    refine ⟨by decide, ?_, ?_⟩
    · show c1.isContract 7 = false
      rw [hreg.2.1]; decide
    · show c1.registry.recipient 7 = 0
      rw [hreg.1]; rfl
  obtain ⟨c3, s5, e1, e2, _, e3, _⟩ := C89_withdraw reach4 (a := 6) (recipient := 7)
    (by show 0 < (w2.deposit.deposits 6).amount; rw [hd2]; decide) (by show 0 < (w2.deposit.deposits 6).requested; rw [hd2]; decide)
    (by show (w2.deposit.deposits 6).requested + (w2.deposit.deposits 6).delay ≤ 60; rw [hd2]; decide) (by show 60 < two64; decide) hplain
  have hd2' : (w2.deposit.deposits 6).amount = 300 := by rw [hd2]
  have hb102 : c1.token.balances 102 = 300 := by rw [show c1.token.balances 102 = _ from b2]; rfl
  refine ⟨c1, _, c3, reach1, reach4, reach4.step s5, d1', hb102, ?_, hd2, rfl, e3, ?_, ?_⟩
  · have : demo.token.balances 6 = 1000000 := rfl
    omega
  · have e2' : c3.token.balances c1.dep + (w2.deposit.deposits 6).amount = c1.token.balances c1.dep := by rw [← ha2]; exact e2
    rw [hdep, hd2', hb102] at e2'
    omega
  · have e1' : c3.token.balances 7 = c1.token.balances 7 + (w2.deposit.deposits 6).amount := e1
    rw [e1', hd2', hreg.2.2.2]

set_option maxRecDepth 8000 in
/-- **C89** (finding) The deposit contract never revokes default operators. If the token had one, it could take all deposits: here a token that
differs from the one above only in the default operator 67, which takes the 300 tokens deposited by account 6. -/
theorem C89_default_operator_counterexample : ∃ c,
    Later Demo.env (fun _ => True) { demo with token := { demo.token with defaultOperators := fun a => decide (a = 67) } } c ∧
    (c.world.deposit.deposits 6).amount = 300 ∧ c.token.balances c.dep = 0 ∧ c.token.balances 67 = 300 := by
  refine ⟨_, .single (.calls (.send (m := ⟨.operatorSend, 67, 102, 67, 300, []⟩)
    (.send (m := ⟨.send, 6, 6, 102, 300, delayData 10⟩) .refl trivial (by decide) (by decide)
      (.sending (by decide) (by decide) (by decide) .refl (fun _ => rfl) rfl rfl rfl .refl (fun _ => rfl)))
    trivial (by decide) (by decide)
    (.sending (by decide) (by decide) (by decide) .refl (fun _ => rfl) rfl rfl rfl .refl (fun _ => rfl)))), rfl, rfl, rfl⟩

theorem slash_history_aux {l1 l2 : List (Nat × Op)} {sub acc : World} (hl1 : Demo.run demo.world l1 = some sub) (hf1 : ∀ x ∈ l1, flat x.2 = true)
    (hdep : sub.depositAddr = 102) (hl2 : Demo.run sub ((112, .sendTokens 6 500 50) :: l2) = some acc) (hf2 : ∀ x ∈ l2, flat x.2 = true)
    (hdep' : acc.depositAddr = 102) (hrec : acc.deposit.slashingReceiver = 77) (hexe : (acc.slasher.accusations 0).executor = 6)
    (ham : (acc.deposit.deposits 6).amount = 500) (hblk : acc.block ≤ 137) (ha1 : (acc.slasher.accusations 0).accused = true)
    (ha2 : (acc.slasher.accusations 0).appealed = false) (ha3 : (acc.slasher.accusations 0).slashed = false)
    (ha4 : (acc.slasher.accusations 0).blockNumber + acc.slasher.appealBlocks ≤ 137) :
    ∃ c, Reach Demo.env c ∧ c.world = { acc with block := 137 } ∧ c.token.balances 102 = 500 ∧
    (c.world.slasher.accusations 0).accused = true ∧ (c.world.slasher.accusations 0).executor = 6 ∧
    ∃ c', Step Demo.env (fun _ => False) c c' ∧ c'.world.deposit.deposits 6 = ⟨0, 0, 0, true⟩ ∧ c'.token.balances 102 = 0 ∧
      c'.token.balances 77 = 500 := by
  have l1 := flat_later (P := fun _ => True) (c := demo) hl1 hf1
  have r1 : Reach Demo.env { demo with world := sub } := ⟨demo, demo_ready, l1⟩
  obtain ⟨hb, w2, q2, q3⟩ : (sub.block ≤ 112 ∧ 112 < two64) ∧ ∃ w2,
      World.step Demo.env { sub with block := 112 } (.sendTokens 6 500 50) = some w2 ∧
      Demo.run w2 l2 = some acc := by
    have h := hl2
    rw [Demo.run] at h
    split at h
    · next hb =>
      split at h
      · simp at h
      · next w2 h2 => exact ⟨hb, w2, h2, h⟩
    · simp at h
  rw [World.step, World.atomic] at q2
  have r2 : Reach Demo.env { demo with world := { sub with block := 112 } } := r1.step (P := fun _ => True) (.mine hb.1 hb.2)
  obtain ⟨c3, run3, e1, e2, e3, e4, e5, e6⟩ := deposit_run (E := Demo.env) r2.inv.1 (depositInv r2.inv.2.preach) (a := 6) (by decide)
    (by show 6 ≠ sub.depositAddr; rw [hdep]; decide) rfl (by show 500 ≤ 1000000; decide) q2
  have r3 := r2.step (.calls (.send .refl trivial (by show 6 ≠ sub.depositAddr; rw [hdep]; decide) (by simp [Sending.authorized])
    (run3.mono (Q := fun _ => True) (fun _ _ => trivial))))
  rw [← e1] at q3
  have l4 := flat_later (P := fun _ => True) (c := c3) q3 hf2
  have r4 := ((C89_refines r3).2.2 _ l4).1
  have r5 : Reach Demo.env { c3 with world := { acc with block := 137 } } :=
    r4.step (P := fun _ => True) (.mine (hblk) (by decide))
  have hb102 : c3.token.balances 102 = 500 := by
    have e5' : c3.token.balances sub.depositAddr = demo.token.balances sub.depositAddr + 500 := e5
    rw [hdep] at e5'; rw [e5']; rfl
  have hb77 : c3.token.balances 77 = 0 := by
    rw [e6 77 (by decide) (by show 77 ≠ sub.depositAddr; rw [hdep]; decide)]; rfl
  obtain ⟨c', s', f1, _, _, f2, _, f3⟩ := C89_slash r5 (halfStep := 0) (by decide) (ha1)
    (ha2) (ha3)
    (ha4)
    (.inr ⟨by show acc.deposit.slashingReceiver ≠ 0; rw [hrec]; decide,
      by show c3.isContract acc.deposit.slashingReceiver = false; rw [hrec, e3]; rfl,
      by show c3.registry.recipient acc.deposit.slashingReceiver = 0; rw [hrec, e2]; rfl⟩)
  have f1' : c'.world.deposit.deposits (acc.slasher.accusations 0).executor = ⟨0, 0, 0, true⟩ := f1
  have f2' : c'.token.balances acc.depositAddr + (acc.deposit.deposits (acc.slasher.accusations 0).executor).amount =
    c3.token.balances acc.depositAddr := f2
  have f3' : c'.token.balances acc.deposit.slashingReceiver = c3.token.balances acc.deposit.slashingReceiver +
      (acc.deposit.deposits (acc.slasher.accusations 0).executor).amount :=
    f3 (by show acc.deposit.slashingReceiver ≠ 0; rw [hrec]; decide)
  rw [hexe] at f1'
  rw [hexe, hdep', ham, hb102] at f2'
  rw [hexe, hrec, ham, hb77] at f3'
  exact ⟨_, r5, rfl, hb102, ha1, hexe, c', s', f1', by omega, by omega⟩

/-- The hypotheses of the theorem on slashing are met: keyper 6 deposits 500 tokens, executes a batch and is accused (Proofs/SolDemo.lean); slashed tokens
go to account 77. -/
theorem C89_slash_history : ∃ c, Reach Demo.env c ∧ c.world = { Demo.accusedW with block := 137 } ∧ c.token.balances 102 = 500 ∧
    (c.world.slasher.accusations 0).accused = true ∧ (c.world.slasher.accusations 0).executor = 6 ∧
    ∃ c', Step Demo.env (fun _ => False) c c' ∧ c'.world.deposit.deposits 6 = ⟨0, 0, 0, true⟩ ∧ c'.token.balances 102 = 0 ∧
      c'.token.balances 77 = 500 := by
  exact slash_history_aux (l1 := Demo.setup ++ Demo.submissions) (l2 := Demo.accusedOps.drop 1) Demo.submitted_run (by decide +kernel)
    (by decide +kernel) Demo.accused_run (by decide +kernel) (by decide +kernel) (by decide +kernel) (by decide +kernel) (by decide +kernel)
    (by decide +kernel) (by decide +kernel) (by decide +kernel) (by decide +kernel) (by decide +kernel)

end Shutter.Token.Props
