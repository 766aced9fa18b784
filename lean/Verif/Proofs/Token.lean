import Verif.Spec.Token
import Verif.Proofs.SolMoney

/-! # The deposit token -/

namespace Shutter.Token
open Shutter.Sol World

/-! ## What leaves the tokens of the deposit contract alone -/

/-- The tokens and the address of the deposit contract are unchanged. -/
structure Kept (w w' : World) : Prop where
  tokens : w'.deposit.tokens = w.deposit.tokens
  addr : w'.depositAddr = w.depositAddr

theorem Kept.refl (w : World) : Kept w w := ⟨rfl, rfl⟩

theorem Kept.trans {w w' w'' : World} (h : Kept w w') (h' : Kept w' w'') : Kept w w'' :=
  ⟨h'.tokens.trans h.tokens, h'.addr.trans h.addr⟩

theorem feeDeposit_kept {w w' : World} {s r v} (h : w.feeDeposit s r v = some w') : Kept w w' := by
  simp only [feeDeposit, Option.bind_eq_bind, Option.bind_eq_some_iff, require_eq_some, Option.some.injEq] at h
  obtain ⟨_, _, _, _, _, _, rfl⟩ := h
  exact ⟨rfl, rfl⟩

theorem incHalfSteps_kept {w w' : World} (h : w.incHalfSteps = some w') : Kept w w' := by
  simp only [incHalfSteps, Option.bind_eq_bind, Option.bind_eq_some_iff, Option.some.injEq] at h
  obtain ⟨_, _, rfl⟩ := h
  exact ⟨rfl, rfl⟩

theorem skipCipherPost_kept {w w' : World} (h : w.skipCipherPost = some w') : Kept w w' := by
  simp only [skipCipherPost, Option.bind_eq_bind, Option.bind_eq_some_iff, Option.some.injEq] at h
  obtain ⟨w1, h1, rfl⟩ := h
  exact ⟨(incHalfSteps_kept h1).tokens, (incHalfSteps_kept h1).addr⟩

theorem cipherPost_kept {E} {w w' : World} {s b h txs} (hh : w.cipherPost E s b h txs = some w') : Kept w w' := by
  simp only [cipherPost, Option.bind_eq_bind, Option.bind_eq_some_iff, Option.some.injEq] at hh
  obtain ⟨w1, h1, rfl⟩ := hh
  exact ⟨(incHalfSteps_kept h1).tokens, (incHalfSteps_kept h1).addr⟩

theorem plainPost_kept {E} {w w' : World} {s b txs} (hh : w.plainPost E s b txs = some w') : Kept w w' := by
  simp only [plainPost, Option.bind_eq_bind, Option.bind_eq_some_iff, Option.some.injEq] at hh
  obtain ⟨_, _, w1, h1, rfl⟩ := hh
  exact ⟨(incHalfSteps_kept h1).tokens, (incHalfSteps_kept h1).addr⟩

theorem feeWithdrawPre_kept {w w' : World} {s r a} (h : w.feeWithdrawPre s r a = some w') : Kept w w' := by
  simp only [feeWithdrawPre, Option.bind_eq_bind, Option.bind_eq_some_iff, require_eq_some, Option.some.injEq] at h
  obtain ⟨_, _, _, _, _, _, _, _, rfl⟩ := h
  exact ⟨rfl, rfl⟩

theorem skipPlain_kept {w w' : World} {n b} (h : w.skipPlain n b = some w') : Kept w w' := by
  unfold skipPlain at h
  split at h
  · simp at h; subst h; exact ⟨rfl, rfl⟩
  · simp at h

theorem skipLoop_kept : ∀ {n : Nat} {w w' : World}, w.skipLoop n = some w' → Kept w w'
  | 0, w, w', h => by simp [skipLoop] at h; subst h; exact .refl _
  | n + 1, w, w', h => by
    rw [skipLoop] at h
    split at h
    · split at h
      · simp at h
      · simp at h; subst h; exact .refl _
      · split at h
        · simp at h
        · next w1 h1 =>
          have k1 := skipCipherPost_kept h1
          split at h
          · split at h
            · simp at h; subst h; exact k1
            · next w2 h2 => exact k1.trans ((skipPlain_kept h2).trans (skipLoop_kept h))
          · split at h
            · simp at h
            · simp at h; subst h; exact k1
    · split at h
      · split at h
        · simp at h; subst h; exact .refl _
        · next w2 h2 => exact (skipPlain_kept h2).trans (skipLoop_kept h)
      · split at h
        · simp at h
        · simp at h; subst h; exact .refl _

theorem addTransaction_kept {E} {w w' : World} {b ty tx v} (h : w.addTransaction E b ty tx v = some w') : Kept w w' := by
  simp only [addTransaction, Option.bind_eq_bind, Option.bind_eq_some_iff, require_eq_some, Option.some.injEq] at h
  obtain ⟨_, _, _, _, bc, _, _, _, _, _, _, _, _, _, _, _, _, _, _, _, _, _, _, _, _, _, w2, h2, rfl⟩ := h
  unfold payFee at h2
  split at h2
  · exact ⟨(feeDeposit_kept h2).tokens, (feeDeposit_kept h2).addr⟩
  · simp at h2; subst h2; exact ⟨rfl, rfl⟩

/-- The calls without call backs, but for transfers, leave the tokens alone. -/
theorem atomic_kept {E} {w w' : World} {op : Op} (hop : ∀ s a d, op ≠ .sendTokens s a d) (h : w.atomic E op = some w') : Kept w w' := by
  cases op with
  | config s c =>
    simp only [World.atomic, Option.map_eq_some_iff] at h
    obtain ⟨_, _, rfl⟩ := h
    exact ⟨rfl, rfl⟩
  | addTransaction s b ty tx v => exact addTransaction_kept h
  | setMinFee s n =>
    simp only [World.atomic, setMinFee, Option.bind_eq_bind, Option.bind_eq_some_iff, Option.some.injEq] at h
    obtain ⟨_, _, _, _, rfl⟩ := h
    exact ⟨rfl, rfl⟩
  | feeDeposit s r v => exact feeDeposit_kept h
  | feeWithdraw s args inner => simp [World.atomic] at h
  | forceEther v => simp only [World.atomic, Option.some.injEq] at h; subst h; exact ⟨rfl, rfl⟩
  | setHalfSteps s n =>
    simp only [World.atomic, setHalfSteps, Option.bind_eq_bind, Option.bind_eq_some_iff, Option.some.injEq] at h
    obtain ⟨_, _, _, _, _, _, _, _, _, _, _, _, _, _, _, _, _, _, rfl⟩ := h
    exact ⟨rfl, rfl⟩
  | executeCipherBatch => simp [World.atomic] at h
  | executePlainBatch => simp [World.atomic] at h
  | skipEmptyOrTimedOutBatches s n =>
    simp only [World.atomic, skipEmptyOrTimedOutBatches, Option.bind_eq_bind, Option.bind_eq_some_iff] at h
    obtain ⟨_, _, h⟩ := h
    exact skipLoop_kept h
  | skipCipherExecution s b =>
    simp only [World.atomic, skipCipherExecution, Option.bind_eq_bind, Option.bind_eq_some_iff] at h
    obtain ⟨_, _, _, _, _, _, _, _, _, _, _, _, _, _, _, _, h⟩ := h
    exact skipCipherPost_kept h
  | sendTokens s a d => exact absurd rfl (hop s a d)
  | requestWithdrawal s =>
    simp only [World.atomic, requestWithdrawal, Option.bind_eq_bind, Option.bind_eq_some_iff, Option.some.injEq] at h
    obtain ⟨_, _, _, _, _, _, rfl⟩ := h
    exact ⟨rfl, rfl⟩
  | withdraw => simp [World.atomic] at h
  | setSlasher s a =>
    simp only [World.atomic, setSlasher, Option.bind_eq_bind, Option.bind_eq_some_iff, Option.some.injEq] at h
    obtain ⟨_, _, rfl⟩ := h
    exact ⟨rfl, rfl⟩
  | setSlashingReceiver s a =>
    simp only [World.atomic, setSlashingReceiver, Option.bind_eq_bind, Option.bind_eq_some_iff, Option.some.injEq] at h
    obtain ⟨_, _, rfl⟩ := h
    exact ⟨rfl, rfl⟩
  | slashDeposit => simp [World.atomic] at h
  | accuse s hs k =>
    simp only [World.atomic, accuse, Option.bind_eq_bind, Option.bind_eq_some_iff, Option.some.injEq] at h
    obtain ⟨_, _, _, _, _, _, _, _, _, _, _, _, _, _, _, _, _, _, _, _, rfl⟩ := h
    exact ⟨rfl, rfl⟩
  | appeal s a =>
    simp only [World.atomic, appeal, Option.bind_eq_bind, Option.bind_eq_some_iff, Option.some.injEq] at h
    obtain ⟨_, _, _, _, _, _, _, _, rfl⟩ := h
    exact ⟨rfl, rfl⟩
  | slash => simp [World.atomic] at h
  | vote s k b key =>
    simp only [World.atomic, vote, Option.bind_eq_bind, Option.bind_eq_some_iff, Option.some.injEq] at h
    obtain ⟨_, _, _, _, _, _, _, _, _, _, _, _, _, _, _, _, _, _, rfl⟩ := h
    exact ⟨rfl, rfl⟩

/-! ## The invariant -/

/-- Of the registry: hooks concerning the deposit contract. -/
structure RegInv (r : Registry) (d : Address) : Prop where
  recipient : ∀ a, r.recipient a = d ↔ a = d
  sender : ∀ a, r.sender a ≠ d
  noHook : r.sender d = 0
  manager : r.manager d = d

/-- Of the token: nobody is authorised by `d`; the balances add up. -/
structure TokInv (t : Erc777) (d : Address) : Prop where
  default : ∀ a, t.defaultOperators a = false
  operators : ∀ a, t.operators d a = false
  allowances : ∀ a, t.allowances d a = 0
  sum : SumsTo t.balances t.totalSupply
  fits : t.totalSupply < two256

structure Inv (c : Chain) : Prop where
  mirror : c.world.deposit.tokens = c.token.balances c.dep
  addr : c.dep ≠ 0
  reg : RegInv c.registry c.dep
  tok : TokInv c.token c.dep

theorem reg_call {r r' : Registry} {d caller call} (h : RegInv r d) (hd : d ≠ 0) (hc : caller ≠ d) (hr : r.call d caller call = some r') :
    RegInv r' d := by
  cases call with
  | setManager account new =>
    simp only [Registry.call, Option.bind_eq_bind, Option.bind_eq_some_iff, require_eq_some, Option.some.injEq] at hr
    obtain ⟨_, h1, rfl⟩ := hr
    refine ⟨h.recipient, h.sender, h.noHook, ?_⟩
    have : d ≠ account := by rintro rfl; exact hc (h1.symm.trans h.manager)
    simp [upd, this, h.manager]
  | setSender account imp =>
    simp only [Registry.call, Option.bind_eq_bind, Option.bind_eq_some_iff, require_eq_some, Option.some.injEq, Registry.maySet,
      Bool.and_eq_true, decide_eq_true_eq] at hr
    obtain ⟨_, ⟨h1, h2⟩, rfl⟩ := hr
    have hne : d ≠ (if account = 0 then caller else account) := by
      intro e; rw [← e] at h1; exact hc (h1.symm.trans h.manager)
    generalize (if account = 0 then caller else account) = acc at *
    have hi : imp ≠ d := by
      rintro rfl
      rcases h2 with h2 | h2 | h2
      · exact hd h2
      · exact hc h2.symm
      · exact h2 rfl
    refine ⟨h.recipient, fun a => ?_, ?_, h.manager⟩
    · simp only [upd]; split
      · exact hi
      · exact h.sender a
    · simp only [upd, if_neg hne]; exact h.noHook
  | setRecipient account imp =>
    simp only [Registry.call, Option.bind_eq_bind, Option.bind_eq_some_iff, require_eq_some, Option.some.injEq, Registry.maySet,
      Bool.and_eq_true, decide_eq_true_eq] at hr
    obtain ⟨_, ⟨h1, h2⟩, rfl⟩ := hr
    have hne : d ≠ (if account = 0 then caller else account) := by
      intro e; rw [← e] at h1; exact hc (h1.symm.trans h.manager)
    generalize (if account = 0 then caller else account) = acc at *
    have hi : imp ≠ d := by
      rintro rfl
      rcases h2 with h2 | h2 | h2
      · exact hd h2
      · exact hc h2.symm
      · exact h2 rfl
    refine ⟨fun a => ?_, h.sender, h.noHook, h.manager⟩
    simp only [upd]
    split
    · next e => subst e; exact ⟨fun e => absurd e hi, fun e => absurd e.symm hne⟩
    · exact h.recipient a

theorem upd2_other {β : Type} {f : Address → Address → β} {a b : Address} {v : β} {x : Address} (h : x ≠ a) (y : Address) :
    upd2 f a b v x y = f x y := by simp [upd2, upd, h]

theorem tok_call {t t' : Erc777} {d caller call} (h : TokInv t d) (hc : caller ≠ d) (ht : t.call caller call = some t') :
    TokInv t' d ∧ t'.balances = t.balances := by
  cases call with
  | authorizeOperator o =>
    simp only [Erc777.call, Option.bind_eq_bind, Option.bind_eq_some_iff, require_eq_some, h.default] at ht
    obtain ⟨_, _, ht⟩ := ht
    simp at ht; subst ht
    exact ⟨⟨h.default, fun a => (upd2_other hc.symm a).trans (h.operators a), h.allowances, h.sum, h.fits⟩, rfl⟩
  | revokeOperator o =>
    simp only [Erc777.call, Option.bind_eq_bind, Option.bind_eq_some_iff, require_eq_some, h.default] at ht
    obtain ⟨_, _, ht⟩ := ht
    simp at ht; subst ht
    exact ⟨⟨h.default, fun a => (upd2_other hc.symm a).trans (h.operators a), h.allowances, h.sum, h.fits⟩, rfl⟩
  | approve s v =>
    simp only [Erc777.call, Option.bind_eq_bind, Option.bind_eq_some_iff, require_eq_some, Option.some.injEq] at ht
    obtain ⟨_, _, _, _, _, _, rfl⟩ := ht
    exact ⟨⟨h.default, h.operators, fun a => (upd2_other hc.symm a).trans (h.allowances a), h.sum, h.fits⟩, rfl⟩

theorem move_spec {t t' : Erc777} {s d n} (h : t.move s d n = some t') :
    n ≤ t.balances s ∧ t' = { t with balances := upd (upd t.balances s (t.balances s - n)) d (upd t.balances s (t.balances s - n) d + n) } := by
  simp only [Erc777.move, Option.bind_eq_bind, Option.bind_eq_some_iff, require_eq_some, Option.some.injEq] at h
  obtain ⟨_, h1, _, _, rfl⟩ := h
  exact ⟨h1, rfl⟩

theorem spend_spec {m : Sending} {t t' : Erc777} (h : m.spend t = some t') :
    (∃ f, (∀ a b, f a b ≤ t.allowances a b) ∧ t' = { t with allowances := f }) ∧
    (m.kind = .transferFrom → m.amount ≤ t.allowances m.src m.caller) := by
  unfold Sending.spend at h
  split at h
  · simp only [Option.bind_eq_bind, Option.bind_eq_some_iff, require_eq_some, Option.some.injEq] at h
    obtain ⟨_, h1, _, _, rfl⟩ := h
    refine ⟨⟨_, fun a b => ?_, rfl⟩, fun _ => h1⟩
    simp only [upd2, upd]
    split
    · next e =>
      subst e
      simp only [upd]
      split
      · next e => subst e; omega
      · exact Nat.le_refl _
    · exact Nat.le_refl _
  · next hk =>
    simp at h; subst h
    exact ⟨⟨_, fun _ _ => Nat.le_refl _, rfl⟩, fun e => absurd e (by simpa using hk)⟩

/-- A transfer changes the balances of the two accounts. -/
theorem moved {t t1 t' : Erc777} {m : Sending} {d : Address} (h : TokInv t d) (hm : t.move m.src m.dst m.amount = some t1)
    (hs : m.spend t1 = some t') :
    TokInv t' d ∧ m.amount ≤ t.balances m.src ∧ (m.kind = .transferFrom → m.amount ≤ t.allowances m.src m.caller) ∧
    t'.operators = t.operators ∧ (∀ a b, t'.allowances a b ≤ t.allowances a b) ∧
    t'.balances = upd (upd t.balances m.src (t.balances m.src - m.amount)) m.dst
      (upd t.balances m.src (t.balances m.src - m.amount) m.dst + m.amount) := by
  obtain ⟨h1, rfl⟩ := move_spec hm
  obtain ⟨⟨f, hf, rfl⟩, h2⟩ := spend_spec hs
  refine ⟨⟨h.default, h.operators, fun a => ?_, ?_, h.fits⟩, h1, h2, rfl, hf, rfl⟩
  · have := hf d a
    have := h.allowances a
    simp only at *
    omega
  · have s1 := (h.sum.upd m.src (t.balances m.src - m.amount))
    have s2 := s1.2.upd m.dst (upd t.balances m.src (t.balances m.src - m.amount) m.dst + m.amount)
    refine s2.2.congr (fun _ => rfl) ?_
    have := s1.1
    have := s2.1
    simp only
    omega

theorem burnt {t t' : Erc777} {a : Address} {n} {d} (h : TokInv t d) (hb : t.burn a n = some t') :
    TokInv t' d ∧ n ≤ t.balances a ∧ t'.operators = t.operators ∧ t'.allowances = t.allowances ∧
    t'.balances = upd t.balances a (t.balances a - n) ∧ t'.totalSupply = t.totalSupply - n := by
  simp only [Erc777.burn, Option.bind_eq_bind, Option.bind_eq_some_iff, require_eq_some, Option.some.injEq] at hb
  obtain ⟨_, h1, _, h2, rfl⟩ := hb
  have s1 := h.sum.upd a (t.balances a - n)
  refine ⟨⟨h.default, h.operators, h.allowances, s1.2.congr (fun _ => rfl) ?_, ?_⟩, h1, rfl, rfl, rfl, rfl⟩
  · simp only; have := s1.1; omega
  · have := h.fits; simp only; omega

/-! ## The simulation -/

theorem runInner_append (E : Env) : ∀ (l l' : List Op) (w : World), w.runInner E (l ++ l') = (w.runInner E l).runInner E l'
  | [], l', w => by rw [runInner]; rfl
  | op :: l, l', w => by
    rw [List.cons_append, runInner, runInner]
    split
    · exact runInner_append E l l' w
    · exact runInner_append E l l' _

theorem runInner_one {E : Env} {w w' : World} {op : Op} (h : w.step E op = some w') : w.runInner E [op] = w' := by
  rw [runInner, h]
  simp only [runInner]

/-- Calls of the contracts lead from one world to the other. -/
def Reaches (E : Env) (w w' : World) : Prop := ∃ ops, w.runInner E ops = w'

theorem Reaches.refl {E} (w : World) : Reaches E w w := ⟨[], by rw [runInner]⟩

theorem Reaches.trans {E} {w w' w'' : World} : Reaches E w w' → Reaches E w' w'' → Reaches E w w'' := by
  rintro ⟨l, rfl⟩ ⟨l', rfl⟩
  exact ⟨l ++ l', runInner_append E l l' w⟩

theorem Reaches.one {E} {w w' : World} {op : Op} (h : w.step E op = some w') : Reaches E w w' := ⟨[op], runInner_one h⟩

theorem step_atomic {E} {w w' : World} {op : Op} (h : w.atomic E op = some w') : w.step E op = some w' := by
  cases op <;> first | (rw [World.step]; exact h) | (simp [World.atomic] at h)

theorem setTokens_self (w : World) : setTokens w w.deposit.tokens = w := rfl

/-- Tokens arriving at the deposit contract, as in Model/SolContracts. -/
theorem credit_spec {w w' : World} {src amount delay n} (hd : delay < two64)
    (h : credit (setTokens w (n + amount)) src amount delay = some w') (hn : w.deposit.tokens = n) :
    w.tokensReceived src amount delay = some w' := by
  subst hn
  simp only [credit, Option.bind_eq_bind, Option.bind_eq_some_iff, Option.some.injEq] at h
  obtain ⟨_, h1, _, h2, _, h3, _, _, rfl⟩ := h
  rw [require_eq_some] at h1 h2 h3
  simp only [tokensReceived, Option.bind_eq_bind, Option.bind_eq_some_iff, require_eq_some, Option.some.injEq, u64_eq_some]
  exact ⟨delay, ⟨rfl, hd⟩, (), h1, (), h2, (), h3, rfl⟩

theorem decodeU64_lt {data : Sol.Bytes} {n} (h : decodeU64 data = some n) : n < two64 := by
  unfold decodeU64 at h
  split at h
  · simp at h
  · split at h
    · next h1 => simp at h; subst h; exact h1
    · simp at h

theorem decodeU64_nil : decodeU64 [] = none := by simp [decodeU64]

/-- What is shown of an execution. -/
def Sim (E : Env) : Job → Chain → Chain → Prop
  | .calls, c, c' => Reaches E c.world c'.world
  | .targets t txs, c, c' => ∃ inner, c.world.runTargets E t txs inner = c'.world
  | .sending m, c, c' =>
    (m.src ≠ c.dep → Reaches E c.world c'.world) ∧
    (m.src = c.dep → m.userData = [] → m.dst ≠ 0 ∧ m.dst ≠ c.dep ∧ m.amount ≤ c.world.deposit.tokens ∧
      (m.kind = .transferFrom → m.amount = 0) ∧ Reaches E (setTokens c.world (c.world.deposit.tokens - m.amount)) c'.world)
  | .burning a n, c, c' =>
    (a ≠ c.dep → Reaches E c.world c'.world) ∧
    (a = c.dep → n ≤ c.world.deposit.tokens ∧ c'.world = setTokens c.world (c.world.deposit.tokens - n))

/-- When the invariant is needed for a transfer. -/
def Fine : Job → Chain → Prop
  | .sending m, c => m.src = c.dep → m.userData = []
  | _, _ => True

theorem Inv.of_kept {c : Chain} {w : World} (h : Inv c) (k : Kept c.world w) : Inv { c with world := w } := by
  have hd : ({ c with world := w } : Chain).dep = c.dep := k.addr
  refine ⟨?_, ?_, ?_, ?_⟩
  · rw [hd]; exact k.tokens.trans h.mirror
  · rw [hd]; exact h.addr
  · rw [hd]; exact h.reg
  · rw [hd]; exact h.tok

theorem withdrawCheck_kept {w w' : World} {s r n} (h : withdrawCheck w s r = some (w', n)) : Kept w w' := by
  simp only [withdrawCheck, Option.bind_eq_bind, Option.bind_eq_some_iff, Option.some.injEq, Prod.mk.injEq] at h
  obtain ⟨_, _, _, _, _, _, _, _, _, _, rfl, _⟩ := h
  exact ⟨rfl, rfl⟩

theorem slashRecord_kept (w : World) (a : Address) : Kept w (slashRecord w a).1 := ⟨rfl, rfl⟩

theorem withdrawPre_of {w w' : World} {s r n} (h : withdrawCheck w s r = some (w', n)) (hr : r ≠ 0) (hd : r ≠ w.depositAddr)
    (hn : n ≤ w.deposit.tokens) : w.withdrawPre s r = some (setTokens w' (w'.deposit.tokens - n), n) := by
  simp only [withdrawCheck, Option.bind_eq_bind, Option.bind_eq_some_iff, Option.some.injEq, Prod.mk.injEq, require_eq_some] at h
  obtain ⟨_, h1, _, h2, _, h3, due, h4, _, h5, rfl, rfl⟩ := h
  simp only [withdrawPre, Option.bind_eq_bind, Option.bind_eq_some_iff, Option.some.injEq, require_eq_some]
  exact ⟨(), h1, (), h2, (), h3, due, h4, (), h5, (), hr, (), hd, (), hn, rfl⟩

theorem slashDeposit_of {w : World} {a} (hd : w.deposit.slashingReceiver ≠ w.depositAddr)
    (hn : (slashRecord w a).2 ≤ w.deposit.tokens) :
    w.slashDeposit a = some (setTokens (slashRecord w a).1 (w.deposit.tokens - (slashRecord w a).2)) := by
  simp only [World.slashDeposit, Option.bind_eq_bind, Option.bind_eq_some_iff, Option.some.injEq, require_eq_some]
  exact ⟨(), hn, (), hd, rfl⟩

theorem withToken_dep (c : Chain) (t : Erc777) : (c.withToken t).dep = c.dep := rfl

theorem Inv.withToken {c : Chain} {t : Erc777} (h : Inv c) (ht : TokInv t c.dep) : Inv (c.withToken t) :=
  ⟨rfl, h.addr, h.reg, ht⟩

theorem run_sim {E : Env} {P : Address → Prop} {J : Job} {c c' : Chain} (h : Run E P J c c') :
    Inv c → Fine J c → Inv c' ∧ c'.dep = c.dep ∧ Sim E J c c' := by
  induction h with
  | refl => intro hi _; exact ⟨hi, rfl, .refl _⟩
  | world _ hop hw ih =>
    intro hi _
    obtain ⟨i1, d1, s1⟩ := ih hi trivial
    have k := atomic_kept hop hw
    exact ⟨i1.of_kept k, k.addr.trans d1, Reaches.trans s1 (.one (step_atomic hw))⟩
  | code _ ih =>
    intro hi _
    obtain ⟨i1, d1, s1⟩ := ih hi trivial
    exact ⟨⟨i1.mirror, i1.addr, i1.reg, i1.tok⟩, d1, s1⟩
  | registry _ _ hc hr ih =>
    intro hi _
    obtain ⟨i1, d1, s1⟩ := ih hi trivial
    exact ⟨⟨i1.mirror, i1.addr, reg_call i1.reg i1.addr hc hr, i1.tok⟩, d1, s1⟩
  | token _ _ hc ht ih =>
    intro hi _
    obtain ⟨i1, d1, s1⟩ := ih hi trivial
    have := tok_call i1.tok hc ht
    exact ⟨⟨by rw [i1.mirror]; exact (congrFun this.2 _).symm, i1.addr, i1.reg, this.1⟩, d1, s1⟩
  | @send c c1 c2 m _ _ hc ha _ ih ih2 =>
    intro hi _
    obtain ⟨i1, d1, s1⟩ := ih hi trivial
    have hk : m.src = c1.dep → m.kind = .transferFrom := by
      intro e
      unfold Sending.authorized at ha
      split at ha
      · exact absurd ((of_decide_eq_true ha).trans e) hc
      · exact absurd ((of_decide_eq_true ha).trans e) hc
      · rw [e] at ha
        simp [Erc777.isOperatorFor, i1.tok.default, i1.tok.operators, hc] at ha
      · assumption
    have hf : Fine (.sending m) c1 := by
      intro e
      simp [Sending.userData, hk e]
    obtain ⟨i2, d2, s2, s3⟩ := ih2 i1 hf
    refine ⟨i2, d2.trans d1, Reaches.trans s1 ?_⟩
    by_cases e : m.src = c1.dep
    · obtain ⟨_, _, _, h0, hr⟩ := s3 e (hf e)
      rw [h0 (hk e), Nat.sub_zero, setTokens_self] at hr
      exact hr
    · exact s2 e
  | @burn c c1 c2 caller holder amount _ _ hc ha _ ih ih2 =>
    intro hi _
    obtain ⟨i1, d1, s1⟩ := ih hi trivial
    obtain ⟨i2, d2, s2, s3⟩ := ih2 i1 trivial
    refine ⟨i2, d2.trans d1, Reaches.trans s1 (s2 ?_)⟩
    rintro rfl
    simp [Erc777.isOperatorFor, i1.tok.default, i1.tok.operators, hc] at ha
  | @sending c c1 c3 c4 m t t' h0 h0' hs _ hns hm hsp hrec _ hnr ih1 ih2 =>
    intro hi hf
    obtain ⟨i1, d1, s1⟩ := ih1 hi trivial
    obtain ⟨ti, hle, htf, _, _, hb⟩ := moved i1.tok hm hsp
    have iw := i1.withToken ti
    by_cases hsrc : m.src = c.dep
    · -- from the deposit contract
      have hcc : c1 = c := hns (by rw [hsrc]; exact hi.reg.noHook)
      subst hcc
      have hud := hf hsrc
      have hdst : m.dst ≠ c1.dep := by
        intro e
        unfold received at hrec
        have hr : (c1.withToken t').registry.recipient m.dst = c1.dep := (i1.reg.recipient _).2 e
        rw [hr, if_neg i1.addr, if_pos (by rfl), hud, decodeU64_nil] at hrec
        simp at hrec
      have hc3 : c3 = c1.withToken t' := by
        unfold received at hrec
        have hr : (c1.withToken t').registry.recipient m.dst ≠ c1.dep := fun e => hdst ((i1.reg.recipient _).1 e)
        split at hrec
        · split at hrec
          · simp at hrec
          · simpa using hrec.symm
        · rw [if_neg (by exact hr)] at hrec
          simpa using hrec.symm
      subst hc3
      obtain ⟨i4, d4, s4⟩ := ih2 iw trivial
      refine ⟨i4, d4, fun e => absurd hsrc e, fun _ _ => ⟨h0', hdst, ?_, ?_, ?_⟩⟩
      · rw [i1.mirror, ← hsrc]; exact hle
      · intro hk
        have := htf hk
        rw [hsrc, i1.tok.allowances] at this
        omega
      · have : t'.balances c1.dep = c1.world.deposit.tokens - m.amount := by
          rw [hb, hsrc, i1.mirror]
          simp [upd, hdst.symm]
        rw [← this]
        exact s4
    · by_cases hdst : m.dst = c.dep
      · -- to the deposit contract
        have hr : (c1.withToken t').registry.recipient m.dst = c1.dep := (i1.reg.recipient _).2 (hdst.trans d1.symm)
        have hbal : t'.balances c1.dep = c1.world.deposit.tokens + m.amount := by
          rw [hb, hdst, d1, i1.mirror, d1]
          simp [upd, Ne.symm hsrc]
        unfold received at hrec
        rw [hr, if_neg i1.addr, if_pos (by rfl)] at hrec
        simp only [Option.bind_eq_bind, Option.bind_eq_some_iff, Option.some.injEq] at hrec
        obtain ⟨delay, hdel, w, hw, rfl⟩ := hrec
        have hw' : credit (setTokens c1.world (c1.world.deposit.tokens + m.amount)) m.src m.amount delay = some w := by
          rw [← hbal]; exact hw
        have htr := credit_spec (decodeU64_lt hdel) hw' rfl
        have kw : Kept (c1.withToken t').world w := by
          simp only [credit, Option.bind_eq_bind, Option.bind_eq_some_iff, Option.some.injEq] at hw
          obtain ⟨_, _, _, _, _, _, _, _, rfl⟩ := hw
          exact ⟨rfl, rfl⟩
        have i3 : Inv { c1.withToken t' with world := w } := iw.of_kept kw
        have hd3 : ({ c1.withToken t' with world := w } : Chain).dep = c1.dep := kw.addr
        have hc4 := hnr (Or.inr (hr.trans hd3.symm))
        subst hc4
        refine ⟨i3, hd3.trans d1, fun _ => Reaches.trans s1 (.one (op := .sendTokens m.src m.amount delay) ?_), fun e => absurd e hsrc⟩
        rw [World.step, World.atomic]; exact htr
      · -- elsewhere
        have hbal : t'.balances c1.dep = c1.world.deposit.tokens := by
          rw [hb, i1.mirror, d1]
          simp [upd, Ne.symm hsrc, Ne.symm hdst]
        have hc3 : c3 = c1.withToken t' := by
          unfold received at hrec
          have hr : (c1.withToken t').registry.recipient m.dst ≠ c1.dep := fun e => hdst (((i1.reg.recipient _).1 e).trans d1)
          split at hrec
          · split at hrec
            · simp at hrec
            · simpa using hrec.symm
          · rw [if_neg (by exact hr)] at hrec
            simpa using hrec.symm
        subst hc3
        have hw3 : (c1.withToken t').world = c1.world := by
          unfold Chain.withToken
          rw [hbal]; rfl
        obtain ⟨i4, d4, s4⟩ := ih2 iw trivial
        refine ⟨i4, d4.trans d1, fun _ => Reaches.trans s1 ?_, fun e => absurd e hsrc⟩
        have s4' : Reaches E (c1.withToken t').world _ := s4
        rw [hw3] at s4'; exact s4'
  | @burning c c1 holder amount t h0 hs _ hns hb ih =>
    intro hi _
    obtain ⟨i1, d1, s1⟩ := ih hi trivial
    obtain ⟨ti, hle, _, _, hbal, _⟩ := burnt i1.tok hb
    refine ⟨i1.withToken ti, d1, fun e => Reaches.trans s1 ?_, fun e => ?_⟩
    · have : (c1.withToken t).world = c1.world := by
        unfold Chain.withToken
        rw [show t.balances c1.dep = c1.world.deposit.tokens by
          rw [hbal, i1.mirror, d1]; simp [upd, Ne.symm e]]
        rfl
      rw [this]; exact .refl _
    · have hcc : c1 = c := hns (by rw [e]; exact hi.reg.noHook)
      subst hcc
      refine ⟨by rw [i1.mirror, ← e]; exact hle, ?_⟩
      unfold Chain.withToken
      rw [show t.balances c1.dep = c1.world.deposit.tokens - amount by
        rw [hbal, i1.mirror, e]; simp [upd]]
  | @withdraw c c1 c2 sender recipient w amount _ hw _ ih ih2 =>
    intro hi _
    obtain ⟨i1, d1, s1⟩ := ih hi trivial
    have k := withdrawCheck_kept hw
    obtain ⟨i2, d2, _, s3⟩ := ih2 (i1.of_kept k) (fun _ => rfl)
    obtain ⟨hr0, hrd, hle, _, ⟨ops, hops⟩⟩ := s3 k.addr.symm rfl
    have hrd' : recipient ≠ c1.dep := fun e => hrd (e.trans k.addr.symm)
    have hpre := withdrawPre_of hw hr0 hrd' (by rw [← k.tokens]; exact hle)
    refine ⟨i2.of_kept ⟨rfl, rfl⟩, (d2.trans k.addr).trans d1, Reaches.trans s1 (.one (op := .withdraw sender recipient ops) ?_)⟩
    rw [World.step, hpre]
    simp only
    rw [hops]
  | @slashBurn c c1 c2 sender account _ hs hs' h0 _ ih ih2 =>
    intro hi _
    obtain ⟨i1, d1, s1⟩ := ih hi trivial
    have k := slashRecord_kept c1.world account
    obtain ⟨i2, d2, _, s3⟩ := ih2 (i1.of_kept k) trivial
    obtain ⟨hle, hw⟩ := s3 rfl
    have hpre := slashDeposit_of (w := c1.world) (a := account) (by rw [h0]; exact fun e => i1.addr e.symm) hle
    refine ⟨i2, d2.trans d1, Reaches.trans s1 (.one (op := .slashDeposit sender account []) ?_)⟩
    rw [World.step, if_pos ⟨hs, hs'⟩, hpre]
    simp only
    rw [if_pos (by exact h0), hw]
    rfl
  | @slashSend c c1 c2 sender account _ hs hs' h0 _ ih ih2 =>
    intro hi _
    obtain ⟨i1, d1, s1⟩ := ih hi trivial
    have k := slashRecord_kept c1.world account
    obtain ⟨i2, d2, _, s3⟩ := ih2 (i1.of_kept k) (fun _ => rfl)
    obtain ⟨_, hrd, hle, _, ⟨ops, hops⟩⟩ := s3 rfl rfl
    have hpre := slashDeposit_of (w := c1.world) (a := account) hrd hle
    refine ⟨i2, d2.trans d1, Reaches.trans s1 (.one (op := .slashDeposit sender account ops) ?_)⟩
    rw [World.step, if_pos ⟨hs, hs'⟩, hpre]
    simp only
    rw [if_neg (by exact h0), ← hops]
    rfl
  | @slashedBurn c c1 c2 halfStep acc _ hp hs h0 _ ih ih2 =>
    intro hi _
    obtain ⟨i1, d1, s1⟩ := ih hi trivial
    have k := slashRecord_kept c1.world acc.executor
    obtain ⟨i2, d2, _, s3⟩ := ih2 (i1.of_kept k) trivial
    obtain ⟨hle, hw⟩ := s3 rfl
    have hpre := slashDeposit_of (w := c1.world) (a := acc.executor) (by rw [h0]; exact fun e => i1.addr e.symm) hle
    refine ⟨i2.of_kept ⟨rfl, rfl⟩, d2.trans d1, Reaches.trans s1 (.one (op := .slash 0 halfStep []) ?_)⟩
    rw [World.step, hp]
    simp only
    rw [if_pos hs, hpre]
    simp only
    rw [if_pos (by exact h0), hw]
    rfl
  | @slashedSend c c1 c2 halfStep acc _ hp hs h0 _ ih ih2 =>
    intro hi _
    obtain ⟨i1, d1, s1⟩ := ih hi trivial
    have k := slashRecord_kept c1.world acc.executor
    obtain ⟨i2, d2, _, s3⟩ := ih2 (i1.of_kept k) (fun _ => rfl)
    obtain ⟨_, hrd, hle, _, ⟨ops, hops⟩⟩ := s3 rfl rfl
    have hpre := slashDeposit_of (w := c1.world) (a := acc.executor) hrd hle
    refine ⟨i2.of_kept ⟨rfl, rfl⟩, d2.trans d1, Reaches.trans s1 (.one (op := .slash 0 halfStep ops) ?_)⟩
    rw [World.step, hp]
    simp only
    rw [if_pos hs, hpre]
    simp only
    rw [if_neg (by exact h0), ← hops]
    rfl
  | @feeWithdraw c c1 c2 sender args receiver amount w _ ha hw _ ih ih2 =>
    intro hi _
    obtain ⟨i1, d1, s1⟩ := ih hi trivial
    have k := feeWithdrawPre_kept hw
    obtain ⟨i2, d2, ⟨ops, hops⟩⟩ := ih2 (i1.of_kept k) trivial
    refine ⟨i2.of_kept ⟨rfl, rfl⟩, (d2.trans k.addr).trans d1, Reaches.trans s1 (.one (op := .feeWithdraw sender args ops) ?_)⟩
    rw [World.step, ha]
    simp only
    rw [hw]
    simp only
    rw [hops]
  | @cipherSkip c c1 sender batch hash txs keyper w _ hp hw ih =>
    intro hi _
    obtain ⟨i1, d1, s1⟩ := ih hi trivial
    have k := skipCipherPost_kept hw
    refine ⟨i1.of_kept k, k.addr.trans d1, Reaches.trans s1 (.one (op := .executeCipherBatch sender batch hash txs keyper []) ?_)⟩
    rw [World.step, hp]
    exact hw
  | @cipher c c1 c2 sender batch hash txs keyper target selector w _ hp _ hw ih ih2 =>
    intro hi _
    obtain ⟨i1, d1, s1⟩ := ih hi trivial
    obtain ⟨i2, d2, ⟨inner, hin⟩⟩ := ih2 i1 trivial
    have k := cipherPost_kept hw
    refine ⟨i2.of_kept k, (k.addr.trans d2).trans d1, Reaches.trans s1 (.one (op := .executeCipherBatch sender batch hash txs keyper inner) ?_)⟩
    rw [World.step, hp]
    simp only
    rw [hin]; exact hw
  | @plain c c1 c2 sender batch txs t w _ hp _ hw ih ih2 =>
    intro hi _
    obtain ⟨i1, d1, s1⟩ := ih hi trivial
    obtain ⟨i2, d2, ⟨inner, hin⟩⟩ := ih2 i1 trivial
    have k := plainPost_kept hw
    refine ⟨i2.of_kept k, (k.addr.trans d2).trans d1, Reaches.trans s1 (.one (op := .executePlainBatch sender batch txs inner) ?_)⟩
    rw [World.step, hp]
    simp only
    rw [hin]; exact hw
  | targetsNil => intro hi _; exact ⟨hi, rfl, [], by rw [runTargets]; rfl⟩
  | @targetsCons c c1 c2 t tx txs _ _ ih ih2 =>
    intro hi _
    obtain ⟨i1, d1, ⟨ops, hops⟩⟩ := ih (hi.of_kept ⟨rfl, rfl⟩) trivial
    obtain ⟨i2, d2, ⟨inner, hin⟩⟩ := ih2 i1 trivial
    refine ⟨i2, d2.trans d1, ops :: inner, ?_⟩
    rw [runTargets, ← hin, ← hops]

end Shutter.Token
