import Verif.Proofs.Token
import Verif.Proofs.Bytes
import Verif.Proofs.SolDemo

/-! # Histories of the deposit token -/

namespace Shutter.Token
open Shutter.Sol World

theorem sumsTo_of_finsum {f : Address → Nat} {n} (h : (Function.support f).Finite) (hn : n = ∑ᶠ a, f a) : SumsTo f n := by
  refine ⟨h.toFinset, fun a ha => ?_, ?_⟩
  · simpa using ha
  · rw [hn]; exact finsum_eq_sum_of_support_subset f (by simp)

theorem Ready.inv {c : Chain} (h : Ready c) : Inv c := by
  refine ⟨?_, h.address, ⟨h.recipient, h.sender, h.noHook, h.manager⟩,
    ⟨h.noDefaultOperators, h.noOperators, h.noAllowances, sumsTo_of_finsum h.holders h.supply, h.fits⟩⟩
  obtain ⟨_, _, _, _, _, _, _, _, _, _, hw⟩ := h.world
  rw [h.balance, hw]; rfl

theorem worldLater_runInner (E : Env) : ∀ (ops : List Op) (w : World), WorldLater E w (w.runInner E ops)
  | [], w => by rw [runInner]
  | op :: ops, w => by
    rw [runInner]
    split
    · exact worldLater_runInner E ops w
    · next w' h => exact (Relation.ReflTransGen.single (WorldStep.tx h)).trans (worldLater_runInner E ops w')

theorem step_sim {E : Env} {P : Address → Prop} {c c' : Chain} (h : Step E P c c') (hi : Inv c) :
    Inv c' ∧ c'.dep = c.dep ∧ WorldLater E c.world c'.world := by
  cases h with
  | mine h1 h2 => exact ⟨hi.of_kept ⟨rfl, rfl⟩, rfl, .single (.mine h1 h2)⟩
  | calls r =>
    obtain ⟨i, d, ⟨ops, s⟩⟩ := run_sim r hi trivial
    exact ⟨i, d, s ▸ worldLater_runInner E ops _⟩

theorem later_sim {E : Env} {P : Address → Prop} {c c' : Chain} (h : Later E P c c') (hi : Inv c) :
    Inv c' ∧ c'.dep = c.dep ∧ WorldLater E c.world c'.world := by
  induction h with
  | refl => exact ⟨hi, rfl, .refl⟩
  | tail _ st ih =>
    obtain ⟨i, d, s⟩ := ih
    obtain ⟨i', d', s'⟩ := step_sim st i
    exact ⟨i', d'.trans d, s.trans s'⟩

theorem Reach.inv {E : Env} {c : Chain} (h : Reach E c) : Inv c ∧ WorldReach E c.world := by
  obtain ⟨c0, h0, hl⟩ := h
  obtain ⟨i, _, s⟩ := later_sim hl h0.inv
  exact ⟨i, _, h0.world, s⟩

theorem Run.mono {E : Env} {P Q : Address → Prop} (hPQ : ∀ a, P a → Q a) {J : Job} {c c' : Chain} (h : Run E P J c c') : Run E Q J c c' := by
  induction h with
  | refl => exact .refl
  | world _ h1 h2 ih => exact .world ih h1 h2
  | code _ ih => exact .code ih
  | registry _ h1 h2 h3 ih => exact .registry ih (hPQ _ h1) h2 h3
  | token _ h1 h2 h3 ih => exact .token ih (hPQ _ h1) h2 h3
  | send _ h1 h2 h3 _ ih ih2 => exact .send ih (hPQ _ h1) h2 h3 ih2
  | burn _ h1 h2 h3 _ ih ih2 => exact .burn ih (hPQ _ h1) h2 h3 ih2
  | sending h1 h2 h3 _ h4 h5 h6 h7 _ h8 ih ih2 => exact .sending h1 h2 h3 ih h4 h5 h6 h7 ih2 h8
  | burning h1 h2 _ h3 h4 ih => exact .burning h1 h2 ih h3 h4
  | withdraw _ h1 _ ih ih2 => exact .withdraw ih h1 ih2
  | slashBurn _ h1 h2 h3 _ ih ih2 => exact .slashBurn ih h1 h2 h3 ih2
  | slashSend _ h1 h2 h3 _ ih ih2 => exact .slashSend ih h1 h2 h3 ih2
  | slashedBurn _ h1 h2 h3 _ ih ih2 => exact .slashedBurn ih h1 h2 h3 ih2
  | slashedSend _ h1 h2 h3 _ ih ih2 => exact .slashedSend ih h1 h2 h3 ih2
  | feeWithdraw _ h1 h2 _ ih ih2 => exact .feeWithdraw ih h1 h2 ih2
  | cipherSkip _ h1 h2 ih => exact .cipherSkip ih h1 h2
  | cipher _ h1 _ h2 ih ih2 => exact .cipher ih h1 ih2 h2
  | plain _ h1 _ h2 ih ih2 => exact .plain ih h1 ih2 h2
  | targetsNil => exact .targetsNil
  | targetsCons _ _ ih ih2 => exact .targetsCons ih ih2

theorem Step.mono {E : Env} {P Q : Address → Prop} (hPQ : ∀ a, P a → Q a) {c c' : Chain} (h : Step E P c c') : Step E Q c c' := by
  cases h with
  | mine h1 h2 => exact .mine h1 h2
  | calls r => exact .calls (r.mono hPQ)

theorem Reach.step {E : Env} {P : Address → Prop} {c c' : Chain} (h : Reach E c) (s : Step E P c c') : Reach E c' := by
  obtain ⟨c0, h0, hl⟩ := h
  exact ⟨c0, h0, hl.tail (s.mono (fun _ _ => trivial))⟩

/-! ## Possible deposits -/

/-- The sum of two accounts' balances fits. -/
theorem two_fit {t : Erc777} {d x y : Address} (h : TokInv t d) (hne : x ≠ y) : t.balances x + t.balances y < two256 := by
  have h1 := h.sum.upd x 0
  have h2 := (h1.2.upd y 0).1
  simp only [upd, if_neg hne.symm] at h2
  have := h1.1
  have := h.fits
  omega

theorem decode_delay {delay : Nat} (hdel : delay < two64) : decodeU64 (delayData delay) = some delay := by
  have hl : (delayData delay).length = 32 := by simp [delayData]
  unfold decodeU64
  rw [if_neg (by omega), List.take_of_length_le (by omega)]
  have : Crypto.beNat (delayData delay) = delay := by
    rw [delayData, Crypto.beNat_beBytes, Nat.mod_eq_of_lt]
    have : two64 < 256 ^ 32 := by decide
    omega
  rw [this, if_pos hdel]

/-- A deposit as in Model/SolContracts is possible for a holder without hook. -/
theorem deposit_run {E : Env} {c : Chain} {a : Address} {amount delay : Nat} {w' : World} (i : Inv c) (inv : DepositInv c.world) (ha0 : a ≠ 0)
    (had : a ≠ c.dep) (hh : c.registry.sender a = 0) (hb : amount ≤ c.token.balances a) (hw : c.world.tokensReceived a amount delay = some w') :
    ∃ c', Run E (fun x => x = a) (.sending ⟨.send, a, a, c.dep, amount, delayData delay⟩) c c' ∧ c'.world = w' ∧ c'.registry = c.registry ∧
      c'.isContract = c.isContract ∧ c'.token.balances a + amount = c.token.balances a ∧
      c'.token.balances c.dep = c.token.balances c.dep + amount ∧ ∀ x, x ≠ a → x ≠ c.dep → c'.token.balances x = c.token.balances x := by
  have ham := (inv.sum.upd a 0).1
  rw [i.mirror] at ham
  have hf := two_fit i.tok had
  let m : Sending := ⟨.send, a, a, c.dep, amount, delayData delay⟩
  obtain ⟨t, ht⟩ : ∃ t, c.token.move a c.dep amount = some t := by
    simp only [Erc777.move, Option.bind_eq_bind, Option.bind_eq_some_iff, require_eq_some, Option.some.injEq]
    refine ⟨_, (), hb, (), ?_, rfl⟩
    simp only [upd, if_neg had.symm]
    omega
  have hb' : t.balances = upd (upd c.token.balances a (c.token.balances a - amount)) c.dep
      (upd c.token.balances a (c.token.balances a - amount) c.dep + amount) := by
    rw [(move_spec ht).2]
  have htd : t.balances c.dep = c.world.deposit.tokens + amount := by
    rw [hb', i.mirror]; simp [upd, had.symm]
  obtain ⟨hdel, hcr⟩ : delay < two64 ∧ credit (c.withToken t).world a amount delay = some w' := by
    simp only [tokensReceived, Option.bind_eq_bind, Option.bind_eq_some_iff, Option.some.injEq, u64_eq_some, require_eq_some] at hw
    obtain ⟨_, ⟨rfl, hd⟩, _, h1, _, h2, _, h3, rfl⟩ := hw
    refine ⟨hd, ?_⟩
    simp only [credit, Option.bind_eq_bind, Option.bind_eq_some_iff, require_eq_some, Option.some.injEq]
    refine ⟨(), h1, (), h2, (), h3, (), (by show (c.world.deposit.deposits a).amount + amount < _; omega), ?_⟩
    unfold Chain.withToken
    rw [htd]; rfl
  have hreg : c.registry.recipient c.dep = c.dep := (i.reg.recipient _).2 rfl
  have hrec : received (c.withToken t) m = some { c.withToken t with world := w' } := by
    unfold received
    rw [if_neg (by show c.registry.recipient c.dep ≠ 0; rw [hreg]; exact i.addr), if_pos (by exact hreg)]
    rw [show m.userData = delayData delay from rfl, decode_delay hdel]
    simp only [Option.bind_eq_bind, Option.bind_some]
    rw [show credit (c.withToken t).world m.src m.amount delay = some w' from hcr]
    rfl
  refine ⟨{ c.withToken t with world := w' }, .sending ha0 i.addr (by show c.registry.sender a ≠ _; rw [hh]; exact fun e => i.addr e.symm) .refl
    (fun _ => rfl) ht rfl hrec .refl (fun _ => rfl), rfl, rfl, rfl, ?_, ?_, ?_⟩
  · show t.balances a + amount = _
    rw [hb']; simp [upd, had]; omega
  · show t.balances c.dep = _
    rw [hb']; simp [upd, had.symm]
  · intro x hx hx'
    show t.balances x = _
    rw [hb']; simp [upd, hx, hx']

/-! ## Histories without tokens -/

/-- Calls in which nobody calls back and no tokens move. -/
def flat : Op → Bool
  | .sendTokens .. | .feeWithdraw .. | .withdraw .. | .slashDeposit .. | .slash .. => false
  | .executeCipherBatch _ _ _ _ _ inner | .executePlainBatch _ _ _ inner => inner.isEmpty
  | _ => true

theorem run_targets (E : Env) (P : Address → Prop) (t : Address × Sol.Bytes) : ∀ (txs : List Sol.Bytes) (c : Chain),
    Run E P (.targets t txs) c { c with world := c.world.runTargets E t txs [] }
  | [], c => by rw [runTargets]; exact .targetsNil
  | tx :: txs, c => by
    have h := run_targets E P t txs { c with world := c.world.callTarget t tx }
    rw [runTargets] at h ⊢
    exact .targetsCons .refl h

theorem flat_run {E : Env} {P : Address → Prop} {c : Chain} {op : Op} {w' : World} (hf : flat op = true) (h : c.world.step E op = some w') :
    Run E P .calls c { c with world := w' } := by
  have atomicCase : ∀ op, (∀ s a d, op ≠ .sendTokens s a d) → c.world.atomic E op = some w' → Run E P .calls c { c with world := w' } :=
    fun _ h1 h2 => .world .refl h1 h2
  cases op with
  | sendTokens => simp [flat] at hf
  | feeWithdraw => simp [flat] at hf
  | withdraw => simp [flat] at hf
  | slashDeposit => simp [flat] at hf
  | slash => simp [flat] at hf
  | executeCipherBatch s b hh txs k inner =>
    simp [flat] at hf; subst hf
    rw [World.step] at h
    split at h
    · simp at h
    · next h1 => exact .cipherSkip .refl h1 h
    · next t sel h1 => exact .cipher (c2 := { c with world := c.world.runTargets E (t, sel) txs [] }) .refl h1 (run_targets E P (t, sel) txs c) h
  | executePlainBatch s b txs inner =>
    simp [flat] at hf; subst hf
    rw [World.step] at h
    split at h
    · simp at h
    · next t h1 => exact .plain (c2 := { c with world := c.world.runTargets E t txs [] }) .refl h1 (run_targets E P t txs c) h
  | config => rw [World.step] at h; exact atomicCase _ (by simp) h
  | addTransaction => rw [World.step] at h; exact atomicCase _ (by simp) h
  | setMinFee => rw [World.step] at h; exact atomicCase _ (by simp) h
  | feeDeposit => rw [World.step] at h; exact atomicCase _ (by simp) h
  | forceEther => rw [World.step] at h; exact atomicCase _ (by simp) h
  | setHalfSteps => rw [World.step] at h; exact atomicCase _ (by simp) h
  | skipEmptyOrTimedOutBatches => rw [World.step] at h; exact atomicCase _ (by simp) h
  | skipCipherExecution => rw [World.step] at h; exact atomicCase _ (by simp) h
  | requestWithdrawal => rw [World.step] at h; exact atomicCase _ (by simp) h
  | setSlasher => rw [World.step] at h; exact atomicCase _ (by simp) h
  | setSlashingReceiver => rw [World.step] at h; exact atomicCase _ (by simp) h
  | accuse => rw [World.step] at h; exact atomicCase _ (by simp) h
  | appeal => rw [World.step] at h; exact atomicCase _ (by simp) h
  | vote => rw [World.step] at h; exact atomicCase _ (by simp) h

theorem flat_later {P : Address → Prop} {l : List (Nat × Op)} {c : Chain} {w' : World} (h : Demo.run c.world l = some w')
    (hf : ∀ x ∈ l, flat x.2 = true) : Later Demo.env P c { c with world := w' } := by
  induction l generalizing c with
  | nil => simp [Demo.run] at h; subst h; exact .refl
  | cons x rest ih =>
    obtain ⟨b, op⟩ := x
    rw [Demo.run] at h
    split at h
    · next hb =>
      split at h
      · simp at h
      · next w1 h1 =>
        exact .head (.mine hb.1 hb.2) (.head (.calls (flat_run (hf (b, op) (by simp)) h1))
          (ih (c := { c with world := w1 }) h (fun x hx => hf x (by simp [hx]))))
    · simp at h

/-! ## Holders -/

/-- `a` has authorised nobody but `s`, as spender. -/
structure Closed (t : Erc777) (a s : Address) : Prop where
  default : ∀ b, t.defaultOperators b = false
  operators : ∀ b, t.operators a b = false
  allowances : ∀ b, b ≠ s → t.allowances a b = 0

/-- The job takes nothing from `a`, unless as spender. -/
def NotFrom (a : Address) : Job → Prop
  | .sending m => m.src = a → m.kind = .transferFrom
  | .burning h _ => h ≠ a
  | _ => True

theorem closed_call {t t' : Erc777} {a s caller call} (h : Closed t a s) (hc : caller ≠ a) (ht : t.call caller call = some t') :
    Closed t' a s ∧ t'.balances = t.balances ∧ t'.allowances a s = t.allowances a s := by
  cases call with
  | authorizeOperator o =>
    simp only [Erc777.call, Option.bind_eq_bind, Option.bind_eq_some_iff, require_eq_some, h.default] at ht
    obtain ⟨_, _, ht⟩ := ht
    simp at ht; subst ht
    exact ⟨⟨h.default, fun b => (upd2_other hc.symm b).trans (h.operators b), h.allowances⟩, rfl, rfl⟩
  | revokeOperator o =>
    simp only [Erc777.call, Option.bind_eq_bind, Option.bind_eq_some_iff, require_eq_some, h.default] at ht
    obtain ⟨_, _, ht⟩ := ht
    simp at ht; subst ht
    exact ⟨⟨h.default, fun b => (upd2_other hc.symm b).trans (h.operators b), h.allowances⟩, rfl, rfl⟩
  | approve s' v =>
    simp only [Erc777.call, Option.bind_eq_bind, Option.bind_eq_some_iff, require_eq_some, Option.some.injEq] at ht
    obtain ⟨_, _, _, _, _, _, rfl⟩ := ht
    exact ⟨⟨h.default, h.operators, fun b hb => (upd2_other hc.symm b).trans (h.allowances b hb)⟩, rfl, upd2_other hc.symm s⟩

theorem received_token {c c' : Chain} {m : Sending} (h : received c m = some c') : c'.token = c.token := by
  unfold received at h
  split at h
  · split at h
    · simp at h
    · simp at h; subst h; rfl
  · split at h
    · simp only [Option.bind_eq_bind, Option.bind_eq_some_iff, Option.some.injEq] at h
      obtain ⟨_, _, _, _, rfl⟩ := h; rfl
    · simp at h; subst h; rfl

theorem received_fields {c c' : Chain} {m : Sending} (h : received c m = some c') :
    c'.registry = c.registry ∧ c'.isContract = c.isContract ∧ c'.dep = c.dep ∧ c'.world.deposit.tokens = c.world.deposit.tokens := by
  unfold received at h
  split at h
  · split at h
    · simp at h
    · simp at h; subst h; exact ⟨rfl, rfl, rfl, rfl⟩
  · split at h
    · simp only [Option.bind_eq_bind, Option.bind_eq_some_iff, Option.some.injEq, credit] at h
      obtain ⟨_, _, _, ⟨_, _, _, _, _, _, _, _, rfl⟩, rfl⟩ := h; exact ⟨rfl, rfl, rfl, rfl⟩
    · simp at h; subst h; exact ⟨rfl, rfl, rfl, rfl⟩

/-- `transferFrom` uses up the allowance. -/
theorem spent {t t1 t' : Erc777} {m : Sending} (hm : t.move m.src m.dst m.amount = some t1) (hs : m.spend t1 = some t')
    (hk : m.kind = .transferFrom) : t'.allowances m.src m.caller + m.amount = t.allowances m.src m.caller := by
  obtain ⟨_, rfl⟩ := move_spec hm
  unfold Sending.spend at hs
  rw [hk] at hs
  simp only [Option.bind_eq_bind, Option.bind_eq_some_iff, require_eq_some, Option.some.injEq] at hs
  obtain ⟨_, h1, _, _, rfl⟩ := hs
  simp only [upd2, upd, if_true]
  omega

/-- What is known of an account that makes no calls. -/
def Holds (a s : Address) (c c' : Chain) : Prop :=
  Closed c'.token a s ∧ c.token.balances a + c'.token.allowances a s ≤ c'.token.balances a + c.token.allowances a s

theorem Holds.trans {a s} {c c' c'' : Chain} (h : Holds a s c c') (h' : Holds a s c' c'') : Holds a s c c'' :=
  ⟨h'.1, by have := h.2; have := h'.2; omega⟩

theorem run_holds {E : Env} {P : Address → Prop} {J : Job} {c c' : Chain} {a s : Address} (hP : ¬ P a) (h : Run E P J c c') :
    Inv c → Fine J c → NotFrom a J → a ≠ c.dep → Closed c.token a s → Holds a s c c' := by
  induction h with
  | refl => intro _ _ _ _ hc; exact ⟨hc, Nat.le_refl _⟩
  | world _ hop hw ih => intro hi hf hn hd hc; exact ih hi hf hn hd hc
  | code _ ih => intro hi hf hn hd hc; exact ih hi hf hn hd hc
  | registry _ _ _ _ ih => intro hi hf hn hd hc; exact ih hi hf hn hd hc
  | @token c c1 caller call t _ hp _ ht ih =>
    intro hi hf hn hd hc
    have h1 := ih hi hf hn hd hc
    have := closed_call h1.1 (fun e => hP (e ▸ hp)) ht
    exact ⟨this.1, by
      rw [show ({ c1 with token := t } : Chain).token.balances = c1.token.balances from this.2.1,
        show ({ c1 with token := t } : Chain).token.allowances a s = c1.token.allowances a s from this.2.2]
      exact h1.2⟩
  | @send c c1 c2 m r1 hp hcd ha _ ih ih2 =>
    intro hi hf hn hd hc
    have h1 := ih hi trivial trivial hd hc
    obtain ⟨i1, d1, _⟩ := run_sim r1 hi trivial
    have hk : ∀ x, (∀ b, c1.token.operators x b = false) → m.caller ≠ x → m.src = x → m.kind = .transferFrom := by
      intro x hx hcx e
      unfold Sending.authorized at ha
      split at ha
      · exact absurd ((of_decide_eq_true ha).trans e) hcx
      · exact absurd ((of_decide_eq_true ha).trans e) hcx
      · rw [e] at ha
        simp [Erc777.isOperatorFor, i1.tok.default, hx, hcx] at ha
      · assumption
    refine h1.trans (ih2 i1 ?_ ?_ ?_ h1.1)
    · intro e; simp [Sending.userData, hk _ i1.tok.operators hcd e]
    · exact hk a h1.1.operators (fun e => hP (e ▸ hp))
    · rw [d1]; exact hd
  | @burn c c1 c2 caller holder amount r1 hp hcd ha _ ih ih2 =>
    intro hi hf hn hd hc
    have h1 := ih hi trivial trivial hd hc
    obtain ⟨i1, d1, _⟩ := run_sim r1 hi trivial
    refine h1.trans (ih2 i1 trivial ?_ (by rw [d1]; exact hd) h1.1)
    rintro rfl
    have : caller ≠ holder := fun e => hP (e ▸ hp)
    simp [Erc777.isOperatorFor, i1.tok.default, h1.1.operators, this] at ha
  | @sending c c1 c3 c4 m t t' h0 h0' hs r1 hns hm hsp hrec r2 hnr ih1 ih2 =>
    intro hi hf hn hd hc
    have h1 := ih1 hi trivial trivial hd hc
    obtain ⟨i1, d1, _⟩ := run_sim r1 hi trivial
    obtain ⟨ti, hle, htf, hop, hal, hb⟩ := moved i1.tok hm hsp
    have iw := i1.withToken ti
    have htk := received_token hrec
    have hrf := received_fields hrec
    have i3 : Inv c3 := by
      refine ⟨?_, ?_, ?_, ?_⟩
      · rw [hrf.2.2.2, hrf.2.2.1, htk]; exact iw.mirror
      · rw [hrf.2.2.1]; exact iw.addr
      · rw [hrf.1, hrf.2.2.1]; exact iw.reg
      · rw [htk, hrf.2.2.1]; exact iw.tok
    have hc3 : Closed c3.token a s := by
      rw [htk]
      refine ⟨ti.default, fun b => ?_, fun b hbs => ?_⟩
      · show t'.operators a b = false
        rw [hop]; exact h1.1.operators b
      · have h2 := hal a b
        rw [h1.1.allowances b hbs] at h2
        exact Nat.le_zero.1 h2
    have hb3 : c1.token.balances a + c3.token.allowances a s ≤ c3.token.balances a + c1.token.allowances a s := by
      rw [htk]
      show _ + t'.allowances a s ≤ t'.balances a + _
      rw [hb]
      have hal' := hal a s
      by_cases e : m.src = a
      · by_cases hcs : m.caller = s
        · have h2 := spent hm hsp (hn e)
          rw [e, hcs] at h2
          rw [e] at hle
          simp only [e, upd]
          split
          · next e' => subst e'; simp; omega
          · simp; omega
        · have h2 := htf (hn e)
          rw [e, h1.1.allowances _ hcs] at h2
          have h3 : m.amount = 0 := Nat.le_zero.1 h2
          simp only [h3, Nat.sub_zero, Nat.add_zero, e, upd]
          split
          · next e' => subst e'; simpa using hal'
          · simpa using hal'
      · simp only [upd, if_neg (Ne.symm e)]
        split
        · next e' => subst e'; rw [if_neg (Ne.symm e)]; omega
        · omega
    exact (h1.trans ⟨hc3, hb3⟩).trans (ih2 i3 trivial trivial (by rw [hrf.2.2.1]; exact fun e => hd (e.trans d1)) hc3)
  | @burning c c1 holder amount t h0 hs r1 hns hb ih =>
    intro hi hf hn hd hc
    have h1 := ih hi trivial trivial hd hc
    obtain ⟨i1, d1, _⟩ := run_sim r1 hi trivial
    obtain ⟨ti, hle, hop, hal, hbal, _⟩ := burnt i1.tok hb
    refine h1.trans ⟨⟨ti.default, fun b => ?_, fun b hbs => ?_⟩, ?_⟩
    · show t.operators a b = false
      rw [hop]; exact h1.1.operators b
    · show t.allowances a b = 0
      rw [hal]; exact h1.1.allowances b hbs
    · show _ + t.allowances a s ≤ t.balances a + _
      have : a ≠ holder := Ne.symm hn
      rw [hbal, hal]; simp [upd, this]
  | @withdraw c c1 c2 sender recipient w amount r1 hw _ ih ih2 =>
    intro hi hf hn hd hc
    have h1 := ih hi trivial trivial hd hc
    obtain ⟨i1, d1, _⟩ := run_sim r1 hi trivial
    have k := withdrawCheck_kept hw
    exact h1.trans (ih2 (i1.of_kept k) (fun _ => rfl) (fun e => absurd (e.symm.trans d1) hd)
      (fun e => hd ((e.trans k.addr).trans d1)) h1.1)
  | @slashBurn c c1 c2 sender account r1 _ _ _ _ ih ih2 =>
    intro hi hf hn hd hc
    have h1 := ih hi trivial trivial hd hc
    obtain ⟨i1, d1, _⟩ := run_sim r1 hi trivial
    exact h1.trans (ih2 (i1.of_kept (slashRecord_kept _ _)) trivial (fun e => hd (e.symm.trans d1)) (fun e => hd (e.trans d1)) h1.1)
  | @slashSend c c1 c2 sender account r1 _ _ _ _ ih ih2 =>
    intro hi hf hn hd hc
    have h1 := ih hi trivial trivial hd hc
    obtain ⟨i1, d1, _⟩ := run_sim r1 hi trivial
    exact h1.trans (ih2 (i1.of_kept (slashRecord_kept _ _)) (fun _ => rfl) (fun e => absurd (e.symm.trans d1) hd)
      (fun e => hd (e.trans d1)) h1.1)
  | @slashedBurn c c1 c2 halfStep acc r1 _ _ _ _ ih ih2 =>
    intro hi hf hn hd hc
    have h1 := ih hi trivial trivial hd hc
    obtain ⟨i1, d1, _⟩ := run_sim r1 hi trivial
    exact h1.trans (ih2 (i1.of_kept (slashRecord_kept _ _)) trivial (fun e => hd (e.symm.trans d1)) (fun e => hd (e.trans d1)) h1.1)
  | @slashedSend c c1 c2 halfStep acc r1 _ _ _ _ ih ih2 =>
    intro hi hf hn hd hc
    have h1 := ih hi trivial trivial hd hc
    obtain ⟨i1, d1, _⟩ := run_sim r1 hi trivial
    exact h1.trans (ih2 (i1.of_kept (slashRecord_kept _ _)) (fun _ => rfl) (fun e => absurd (e.symm.trans d1) hd)
      (fun e => hd (e.trans d1)) h1.1)
  | @feeWithdraw c c1 c2 sender args receiver amount w r1 ha hw _ ih ih2 =>
    intro hi hf hn hd hc
    have h1 := ih hi trivial trivial hd hc
    obtain ⟨i1, d1, _⟩ := run_sim r1 hi trivial
    have k := feeWithdrawPre_kept hw
    exact h1.trans (ih2 (i1.of_kept k) trivial trivial (fun e => hd ((e.trans k.addr).trans d1)) h1.1)
  | cipherSkip _ _ _ ih => intro hi hf hn hd hc; exact ih hi hf hn hd hc
  | @cipher c c1 c2 sender batch hash txs keyper target selector w r1 hp _ hw ih ih2 =>
    intro hi hf hn hd hc
    have h1 := ih hi trivial trivial hd hc
    obtain ⟨i1, d1, _⟩ := run_sim r1 hi trivial
    exact h1.trans (ih2 i1 trivial trivial (fun e => hd (e.trans d1)) h1.1)
  | @plain c c1 c2 sender batch txs t w r1 hp _ hw ih ih2 =>
    intro hi hf hn hd hc
    have h1 := ih hi trivial trivial hd hc
    obtain ⟨i1, d1, _⟩ := run_sim r1 hi trivial
    exact h1.trans (ih2 i1 trivial trivial (fun e => hd (e.trans d1)) h1.1)
  | targetsNil => intro _ _ _ _ hc; exact ⟨hc, Nat.le_refl _⟩
  | @targetsCons c c1 c2 t tx txs r1 _ ih ih2 =>
    intro hi hf hn hd hc
    have hi' : Inv { c with world := c.world.callTarget t tx } := hi.of_kept ⟨rfl, rfl⟩
    have h1 := ih hi' trivial trivial hd hc
    obtain ⟨i1, d1, _⟩ := run_sim r1 hi' trivial
    exact Holds.trans (c' := c1) h1 (ih2 i1 trivial trivial (fun e => hd (e.trans d1)) h1.1)

theorem later_holds {E : Env} {P : Address → Prop} {c c' : Chain} {a s : Address} (hP : ¬ P a) (h : Later E P c c') (hi : Inv c)
    (hd : a ≠ c.dep) (hc : Closed c.token a s) : Holds a s c c' := by
  induction h with
  | refl => exact ⟨hc, Nat.le_refl _⟩
  | tail l st ih =>
    obtain ⟨i, d, _⟩ := later_sim l hi
    refine ih.trans ?_
    cases st with
    | mine _ _ => exact ⟨ih.1, Nat.le_refl _⟩
    | calls r => exact run_holds hP r i trivial trivial (fun e => hd (e.trans d)) ih.1

end Shutter.Token
