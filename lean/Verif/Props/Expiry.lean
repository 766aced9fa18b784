import Verif.Props.Appeals
import Verif.Spec.Expiry
import Verif.Proofs.DemoExpiry

/-! Property theorems C63 and C64 (shuttermint/keyper/fx/actions.go, runenv.go: actions that are dropped). -/

namespace Shutter.Decide.Props
open Shutter.Crypto Shutter.Dkg Shutter.Observe Shutter.Decide Shutter.Main Shutter.GoConfig
open Shutter.Events (Codecs)
open Shutter.Sol (World TxType BatchConfig Responsible NoneTakenBack two64 zeroHash)

variable {G1 G2 GT R : Type}
variable {cx : Cfg G1 G2 GT R} {codecs : Codecs} {chain : Observe.Chain} {E : Sol.Env} {fd : Nat}
variable {s : Observe.Shutter} {st : State G1 G2} {mc : MainChain} {hist : Nat → World} {log : List (MainChain × List (Action G1 G2))}
variable {mc' : MainChain} {acts : List (Action G1 G2)}

theorem halfSteps_fit {tame : Bool} {w : World} (h : Sol.PReach tame E w) : w.executor.halfSteps < two64 := by
  refine Sol.PReach.induct (I := fun w => w.executor.halfSteps < two64) ?_ ?_ ?_ h
  · rintro w ⟨_, _, _, _, _, _, _, _, _, _, rfl⟩; simp [World.deployed, two64]
  · intro w b ih _ _; exact ih
  · intro w w' _ ih p
    cases p <;> first | exact ih | assumption

/-- **C63** A keyper drops an action as expired exactly if what it is to achieve has been achieved, as far as the keyper has
synced. (`hb` excludes half steps that do not fit into 64 bits.) -/
theorem C63_expired_iff (o : Observed E fd false mc hist) (a : Action G1 G2) (hb : ∀ h, a.halfStep? = some h → h < two64) :
    a.isExpired mc = true ↔ a.Achieved (hist mc.currentBlock) := by
  have hnum := Main.Props.C56_half_steps o
  cases a <;> simp only [Action.isExpired, Action.Achieved, Action.halfStep?, Option.some.injEq, forall_eq', decide_eq_true_eq,
    Bool.false_eq_true] at hb ⊢
  case executeCipherBatch b _ _ _ _ => unfold wmul; rw [Nat.mod_eq_of_lt hb, hnum]
  case executePlainBatch b _ _ => unfold wadd wmul; rw [Nat.mod_eq_of_lt (by omega : 2 * b < two64), Nat.mod_eq_of_lt hb, hnum]
  case skipCipherBatch b => unfold wmul; rw [Nat.mod_eq_of_lt hb, hnum]
  case accuse h _ =>
    have := (Main.Props.C57_accusations o h).1
    rw [Option.isSome_iff_ne_none, ne_eq, this, Bool.not_eq_false]
  case appeal a =>
    have := Main.Props.C57_accusations o a.halfStep
    cases hx : mc.accusations a.halfStep with
    | none => simp [this.1.mp hx]
    | some acc =>
      have h2 := (this.2 acc hx).2.2.1
      have h1 : ((hist mc.currentBlock).slasher.accusations a.halfStep).accused = true := by
        rw [← Bool.not_eq_false, ← this.1, hx]; simp
      simp [h1, h2]

/-- **C63** Nothing is lost: when an action is dropped as expired, the contracts refuse its call from then on, in every later state,
whoever makes it, and whatever calls the targets make. (Appeals: if there is an accusation; `C63_appeals_kept` shows that
there is.) -/
theorem C63_refused (o : Observed E fd false mc hist) {a : Action G1 G2} (hx : a.isExpired mc = true)
    (hk : ∀ x, a = .appeal x → ((hist mc.currentBlock).slasher.accusations x.halfStep).accused = true)
    {w : World} (later : Sol.WorldLater E (hist mc.currentBlock) w) {own : Sol.Address} {marshal : G2 → Bytes}
    {inner : List (List Sol.Op)} {op : Sol.Op} (hop : a.call own marshal inner = some op) : w.step E op = none := by
  have hnum := Main.Props.C56_half_steps o
  have hreach := o.chain.reach o.current
  have pl := Sol.worldLater_plater hreach.preach.inv later
  have hle := Sol.halfSteps_later pl
  have hfit : w.executor.halfSteps < two64 := by
    obtain ⟨w0, h1, h2⟩ := hreach
    exact halfSteps_fit (Sol.WorldReach.preach ⟨w0, h1, h2.trans later⟩)
  have hmod : ∀ b, wmul 2 b < (hist mc.currentBlock).executor.halfSteps → w.executor.halfSteps / 2 = b → w.executor.halfSteps % 2 = 0 → False := by
    intro b h1 h2 h3
    unfold wmul at h1
    rw [Nat.mod_eq_of_lt (by omega)] at h1
    omega
  cases a <;> simp only [Action.call, Option.some.injEq, reduceCtorEq] at hop <;> subst hop
  case executeCipherBatch b hash txs k gas =>
    simp only [Action.isExpired, decide_eq_true_eq, hnum] at hx
    rw [World.step]
    cases hp : w.cipherPre own b hash txs k with
    | none => rfl
    | some t =>
      simp only [World.cipherPre, Option.bind_eq_bind, Option.bind_eq_some_iff, Sol.require_eq_some, Sol.u64_eq_some] at hp
      obtain ⟨_, ⟨rfl, _⟩, _, _, _, h1, _, h2, _⟩ := hp
      exact absurd h2 (fun h2 => hmod _ hx h1 h2)
  case executePlainBatch b txs gas =>
    simp only [Action.isExpired, decide_eq_true_eq, hnum] at hx
    rw [World.step]
    cases hp : w.plainPre b with
    | none => rfl
    | some t =>
      simp only [World.plainPre, Option.bind_eq_bind, Option.bind_eq_some_iff, Sol.require_eq_some, Sol.u64_eq_some] at hp
      obtain ⟨_, ⟨rfl, _⟩, _, h1, _, h2, _⟩ := hp
      unfold wadd wmul at hx
      rw [Nat.mod_eq_of_lt (by omega : 2 * b < two64), Nat.mod_eq_of_lt (by omega)] at hx
      omega
  case skipCipherBatch b =>
    simp only [Action.isExpired, decide_eq_true_eq, hnum] at hx
    rw [World.step, World.atomic]
    cases hp : w.skipCipherExecution b with
    | none => rfl
    | some t =>
      simp only [World.skipCipherExecution, Option.bind_eq_bind, Option.bind_eq_some_iff, Sol.require_eq_some, Sol.u64_eq_some] at hp
      obtain ⟨_, ⟨rfl, _⟩, _, h1, _, h2, _⟩ := hp
      exact absurd h2 (fun h2 => hmod _ hx h1 h2)
  case accuse h k =>
    have ha : ((hist mc.currentBlock).slasher.accusations h).accused = true :=
      (C63_expired_iff o (.accuse h k : Action G1 G2) (by simp [Action.halfStep?])).mp hx
    have ha := accused_later pl ha
    rw [World.step, World.atomic]
    cases hp : w.accuse own h k with
    | none => rfl
    | some t =>
      simp only [World.accuse, Option.bind_eq_bind, Option.bind_eq_some_iff, Sol.require_eq_some, Sol.u64_eq_some] at hp
      obtain ⟨_, ⟨rfl, _⟩, _, _, _, _, _, h2, _⟩ := hp
      rw [ha] at h2; cases h2
  case appeal a =>
    have hacc := hk a rfl
    have ha := (C63_expired_iff o (.appeal a : Action G1 G2) (by simp [Action.halfStep?])).mp hx hacc
    have ha := appealed_later' pl ⟨hacc, ha⟩
    rw [World.step, World.atomic]
    cases hp : w.appeal E a with
    | none => rfl
    | some t =>
      simp only [World.appeal, Option.bind_eq_bind, Option.bind_eq_some_iff, Sol.require_eq_some, Sol.u64_eq_some] at hp
      obtain ⟨_, ⟨rfl, _⟩, _, _, _, h2, _⟩ := hp
      rw [ha.2] at h2; cases h2
  case eonKeyBroadcast => simp [Action.isExpired] at hx

section life
variable [AddCommGroup G1] [AddCommGroup G2] [DecidableEq G2] [DecidableEq GT]

/-- **C63** In the whole life of a keyper, an appeal it has decided on is dropped only after an appeal succeeded. -/
theorem C63_appeals_kept (l : Life cx codecs chain E fd s st mc hist log) (hm : (mc', acts) ∈ log) {a : Sol.Authorization}
    (ha : .appeal a ∈ acts) (hx : (Action.appeal a : Action G1 G2).isExpired mc = true) :
    ((hist mc.currentBlock).slasher.accusations a.halfStep).accused = true ∧
      ((hist mc.currentBlock).slasher.accusations a.halfStep).appealed = true := by
  obtain ⟨o, os⟩ := life_observed l
  obtain ⟨o', hle⟩ := os _ hm
  obtain ⟨batches, hok, happ, _⟩ := life_disputes l _ hm
  obtain ⟨akey, acc, receipt, b, config, l', cs, k1, k2, k3, k4, k5, k6, k7, k8, k9, k10⟩ := happ _ ha rfl
  have hacc := Main.Props.C57_accusations o' akey
  obtain ⟨q1, _, q3, _⟩ := hacc.2 acc k1
  simp only [Action.appeal.injEq] at k10
  subst k10
  simp only at *
  have haccd : ((hist mc'.currentBlock).slasher.accusations acc.halfStep).accused = true := by
    rw [← Bool.not_eq_false, q1, ← hacc.1, k1]; simp
  have hnow := accused_later (o.chain.plater hle o.current) haccd
  exact ⟨hnow, (C63_expired_iff o (.appeal _ : Action G1 G2) (by simp [Action.halfStep?])).mp hx hnow⟩

/-- **C63** A keyper decides on no action that is expired already. -/
theorem C63_fresh (l : Life cx codecs chain E fd s st mc hist log) (hm : (mc', acts) ∈ log) {a : Action G1 G2} (ha : a ∈ acts)
    (hb : ∀ h, a.halfStep? = some h → h < two64) : a.isExpired mc' = false := by
  have o := ((life_observed l).2 _ hm).1
  rw [← Bool.not_eq_true, C63_expired_iff o a hb]
  have hex : ∀ h, a.halfStep? = some h → ¬ h < (hist mc'.currentBlock).executor.halfSteps := by
    intro h hh
    obtain ⟨n, _, h2⟩ := C40_order l hm
    have : h ∈ halfStepsOf acts := List.mem_filterMap.mpr ⟨a, ha, hh⟩
    rw [h2, List.mem_range'_1] at this
    omega
  obtain ⟨batches, hok, happ, haccs⟩ := life_disputes l _ hm
  cases a <;> simp only [Action.Achieved, not_false_eq_true]
  case executeCipherBatch => exact hex _ rfl
  case executePlainBatch => exact hex _ rfl
  case skipCipherBatch => exact hex _ rfl
  case accuse h k =>
    obtain ⟨h', _, _, _, _, _, _, _, _, k6, _, k8⟩ := haccs _ ha rfl
    simp only [Action.accuse.injEq] at k8
    rw [k8.1, (Main.Props.C57_accusations o h').1.mp k6]
    simp
  case appeal a =>
    obtain ⟨akey, acc, _, _, _, _, _, k1, k2, _, _, _, _, _, _, _, k10⟩ := happ _ ha rfl
    have hacc := Main.Props.C57_accusations o akey
    obtain ⟨q1, _, q3, _⟩ := hacc.2 acc k1
    simp only [Action.appeal.injEq] at k10
    subst k10
    simp only [q1]
    intro hc
    rw [← q3, k2] at hc
    have := hc (by rw [← Bool.not_eq_false, ← hacc.1, k1]; simp)
    cases this

end life

open Shutter.Events Shutter.Events.Props in
/-- In the demo, keyper A appeals at block 117; the appeal is not expired at block 119; at block 122, after it was mined, it is. -/
theorem C63_example : ∃ r : Run Zq Zq, Life Demo.cxA demoCodecs Demo.shares Demo.env 3 r.s r.st r.mc appealedHist r.log ∧
    (∃ mc' acts, (mc', acts) ∈ r.log ∧ mc'.currentBlock = 117 ∧ .appeal goodAppeal ∈ acts) ∧
    (∃ mc' acts, (mc', acts) ∈ r.log ∧ mc'.currentBlock = 119 ∧ (Action.appeal goodAppeal : Action Zq Zq).isExpired mc' = false) ∧
    r.mc.currentBlock = 122 ∧ (Action.appeal goodAppeal : Action Zq Zq).isExpired r.mc = true := by
  have h := appealedRun_facts
  rw [Option.any_eq_true] at h
  obtain ⟨r, hr, hf⟩ := h
  simp only [appealedFacts, Bool.and_eq_true, decide_eq_true_eq, Option.map_eq_some_iff, Prod.mk.injEq] at hf
  obtain ⟨⟨⟨⟨e, h1, h2, h3⟩, ⟨e', h4, h5, h6⟩⟩, h7⟩, h8⟩ := hf
  unfold appealedRun at hr
  have hl := lifeRun_life appealedChain hr
  exact ⟨r, hl, ⟨e.1, e.2, List.mem_of_getElem? h1, h2, by rw [h3]; exact List.mem_singleton.mpr rfl⟩,
    ⟨e'.1, e'.2, List.mem_of_getElem? h4, h5, h6⟩, h7, h8⟩

/-! ### Errors -/

theorem require'_ok {r : Reason} {c : Prop} [Decidable c] {u : Unit} : require' r c = .ok u ↔ c := by
  unfold require'; split <;> simp_all

theorem get'_ok {α : Type} {r : Reason} {o : Option α} {a : α} : get' r o = .ok a ↔ o = some a := by
  cases o <;> simp [get']

theorem require'_error {r r' : Reason} {c : Prop} [Decidable c] : require' r c = .error r' ↔ ¬ c ∧ r = r' := by
  unfold require'; split <;> simp_all

theorem get'_error {α : Type} {r r' : Reason} {o : Option α} : get' r o = .error r' ↔ o = none ∧ r = r' := by
  cases o <;> simp [get']

theorem except_bind_ok {α β : Type} {x : Except Reason α} {f : α → Except Reason β} {b : β} :
    x >>= f = .ok b ↔ ∃ a, x = .ok a ∧ f a = .ok b := by
  cases x <;> simp [bind, Except.bind]

theorem except_bind_error {α β : Type} {x : Except Reason α} {f : α → Except Reason β} {r : Reason} :
    x >>= f = .error r ↔ x = .error r ∨ ∃ a, x = .ok a ∧ f a = .error r := by
  cases x <;> simp [bind, Except.bind]

/-- The reasons are those of the contract: an accusation is accepted if there is no reason to refuse it. -/
theorem accuseReason_ok {w : World} {sender : Sol.Address} {h k : Nat} :
    accuseReason w sender h k = .ok () ↔ ∃ w', w.step E (.accuse sender h k) = some w' := by
  rw [World.step, World.atomic]
  simp only [accuseReason, World.accuse, except_bind_ok, require'_ok, get'_ok, Option.bind_eq_bind, Option.bind_eq_some_iff,
    Sol.require_eq_some, Option.some.injEq]
  constructor
  · rintro ⟨h', h1, k', h2, _, h3, _, h4, i, h5, bc, h6, kp, h7, _, h8, _, h9, h10⟩
    exact ⟨_, h', h1, k', h2, (), h3, (), h4, i, h5, bc, h6, kp, h7, (), h8, (), h9, (), h10, rfl⟩
  · rintro ⟨_, h', h1, k', h2, _, h3, _, h4, i, h5, bc, h6, kp, h7, _, h8, _, h9, _, h10, _⟩
    exact ⟨h', h1, k', h2, (), h3, (), h4, i, h5, bc, h6, kp, h7, (), h8, (), h9, h10⟩

theorem signersReason_ok {bc : BatchConfig} {hash : Bytes} {l : List (Nat × Bytes)} : ∀ {prev : Option Nat},
    signersReason E bc hash prev l = .ok () ↔ World.verifySigners E bc hash prev l = some () := by
  induction l with
  | nil => intro prev; simp [signersReason, World.verifySigners]
  | cons x l ih =>
    intro prev
    simp only [signersReason, World.verifySigners, except_bind_ok, require'_ok, get'_ok, Option.bind_eq_bind, Option.bind_eq_some_iff,
      Sol.require_eq_some, ih]

/-- An appeal is accepted if there is no reason to refuse it. -/
theorem appealReason_ok {w : World} {sender : Sol.Address} {a : Sol.Authorization} :
    appealReason E w a = .ok () ↔ ∃ w', w.step E (.appeal sender a) = some w' := by
  rw [World.step, World.atomic]
  simp only [appealReason, World.appeal, World.verifyAuthorization, except_bind_ok, require'_ok, get'_ok, Option.bind_eq_bind,
    Option.bind_eq_some_iff, Sol.require_eq_some, Option.some.injEq, signersReason_ok]
  constructor
  · rintro ⟨h, h1, _, h2, _, h3, i, h4, bc, h5, _, h6, _, h7, h8⟩
    exact ⟨_, h, h1, (), h2, (), h3, (), ⟨i, h4, bc, h5, (), h6, (), h7, h8⟩, rfl⟩
  · rintro ⟨_, h, h1, _, h2, _, h3, _, ⟨i, h4, bc, h5, _, h6, _, h7, h8⟩, _⟩
    exact ⟨h, h1, (), h2, (), h3, i, h4, bc, h5, (), h6, (), h7, h8⟩

theorem batcherAddr_later {tame : Bool} {w w' : World} (l : Sol.PLater tame E w w') : w'.batcherAddr = w.batcherAddr := by
  induction l with
  | refl => rfl
  | @tail x y l p ih =>
    rw [← ih]
    cases p with
    | mine => rfl
    | prim p => cases p <;> rfl

/-- The answer to an appeal is the same in all later states, as long as nobody has appealed. -/
theorem appealReason_later {w w' : World} (hr : Sol.WorldReach E w) (later : Sol.WorldLater E w w') {a : Sol.Authorization}
    (hacc : (w.slasher.accusations a.halfStep).accused = true) (hna : (w.slasher.accusations a.halfStep).appealed = false)
    (hna' : (w'.slasher.accusations a.halfStep).appealed = false) (hov : w.BatchOver (a.halfStep / 2)) :
    appealReason E w' a = appealReason E w a := by
  have pl := Sol.worldLater_plater hr.preach.inv later
  have hacc' := accused_later pl hacc
  obtain ⟨_, _, hex, _⟩ := (Sol.accInv hr.preach).acc _ hacc
  obtain ⟨hlt, hhalf, _⟩ := (Sol.receiptInv hr.preach).spec _ hex
  have hrw := receipts_later pl hlt
  obtain ⟨bc, st, e, t, hB, he⟩ := hov
  have hB' := Sol.hasBatch_mono hr.preach.inv (Sol.plater_config pl) hB (le_trans (Sol.HasBatch.order hB).1 he)
  obtain ⟨i, h1, h2, _⟩ := hB
  obtain ⟨i', h1', h2', _⟩ := hB'
  unfold appealReason
  cases hu : Sol.u64 a.halfStep with
  | none => rfl
  | some h =>
    obtain ⟨rfl, _⟩ := Sol.u64_eq_some.mp hu
    simp only [hacc, hacc', hna, hna', hrw, hhalf, h1, h1', h2, h2', batcherAddr_later pl, get', bind, Except.bind]

/-- **C64** What a keyper gives up because of an error can never succeed: the contract refuses the call in every later state. (Appeals:
if the batch is over; `C64_over` shows that it is, unless targets have called the executor contract.) -/
theorem C64_given_up {w w' : World} (hr : Sol.WorldReach E w) (later : Sol.WorldLater E w w') {a : Action G1 G2} {own : Sol.Address}
    (hg : a.givenUp E w own = true) (hov : ∀ x, a = .appeal x → w.BatchOver (x.halfStep / 2))
    {marshal : G2 → Bytes} {inner : List (List Sol.Op)} {op : Sol.Op} (hop : a.call own marshal inner = some op) : w'.step E op = none := by
  have pl := Sol.worldLater_plater hr.preach.inv later
  cases a <;> simp only [Action.givenUp, Bool.false_eq_true] at hg <;> simp only [Action.call, Option.some.injEq] at hop <;> subst hop
  case accuse h k =>
    rw [Option.eq_none_iff_forall_ne_some]
    intro w2 hw2
    have hok := (accuseReason_ok (E := E)).mpr ⟨w2, hw2⟩
    simp only [accuseReason, except_bind_ok, require'_ok, get'_ok] at hok
    obtain ⟨h', h1, k', h2, _, h3, _, h4, i, h5, bc, h6, kp, h7, _, h8, _, h9, h10⟩ := hok
    obtain ⟨rfl, _⟩ := Sol.u64_eq_some.mp h1
    split at hg
    · next r he =>
      simp only [decide_eq_true_eq] at hg
      rcases hg with rfl | rfl <;>
        simp only [accuseReason, except_bind_error, require'_error, get'_error, reduceCtorEq, and_false, false_or, require'_ok, get'_ok,
          and_true, exists_false, or_false] at he
      · obtain ⟨_, g1, _, _, _, _, _, _, _, _, _, _, _, _, _, _, _, g2, g3⟩ := he
        obtain ⟨rfl, _⟩ := Sol.u64_eq_some.mp g1
        rw [receipts_later pl ((Sol.receiptInv hr.preach).spec _ g2).1] at h10
        exact g3 h10
      · obtain ⟨_, g1, _, _, _, _, g2⟩ := he
        obtain ⟨rfl, _⟩ := Sol.u64_eq_some.mp g1
        rw [accused_later pl (by simpa using g2)] at h4
        cases h4
    · cases hg
  case appeal x =>
    split at hg
    · next r he =>
      simp only [decide_eq_true_eq] at hg
      subst hg
      have he' := he
      simp only [appealReason, except_bind_error, require'_error, get'_error, reduceCtorEq, and_false, false_or, require'_ok, get'_ok] at he'
      obtain ⟨_, g1, _, g2, _, g3, _⟩ := he'
      obtain ⟨rfl, _⟩ := Sol.u64_eq_some.mp g1
      rw [Option.eq_none_iff_forall_ne_some]
      intro w2 hw2
      have hok := (appealReason_ok (E := E) (sender := own)).mpr ⟨w2, hw2⟩
      have hok' := hok
      simp only [appealReason, except_bind_ok, require'_ok, get'_ok] at hok'
      obtain ⟨_, k1, _, _, _, k3, _⟩ := hok'
      obtain ⟨rfl, _⟩ := Sol.u64_eq_some.mp k1
      rw [appealReason_later hr later g2 g3 k3 (hov x rfl), he] at hok
      cases hok
    · cases hg

/-- The batch of an accused half step is over, if no target has called the executor contract. -/
theorem C64_over {w : World} (tame : Sol.TameReach E w) {h : Nat} (ha : (w.slasher.accusations h).accused = true) : w.BatchOver (h / 2) := by
  obtain ⟨_, heven, hex, _⟩ := (Sol.accInv tame.reach.preach).acc h ha
  have binv := Sol.execInv tame.preach
  obtain ⟨n, ex, b', hash, txs', hdone, hb'⟩ := binv.receipts h hex
  have hb2 : h / 2 = b' := by omega
  obtain ⟨_, _, bc, bst, be, bt, hB, hle, _⟩ := binv.cipher n ex b' hash txs' hdone
  rw [← hb2] at hB
  exact ⟨bc, bst, be, bt, hB, le_trans hle (Sol.preach_log_block tame.reach.preach _ hdone)⟩

/-- Wrong signatures, repeated accusations: what keypers give up. -/
theorem C64_example : (Action.appeal ⟨0, World.chainHashes Demo.env [Demo.message], [0], [(Demo.signAs 2 Demo.sigHash).set 64 27]⟩ :
      Action Zq Zq).givenUp Demo.env (Demo.hist 118) 1 = true ∧
    (Action.accuse 0 1 : Action Zq Zq).givenUp Demo.env (Demo.hist 118) 2 = true ∧
    (Action.accuse 2 1 : Action Zq Zq).givenUp Demo.env (Demo.hist 118) 2 = false ∧
    Sol.TameReach Demo.env (Demo.hist 118) :=
  ⟨by decide +kernel, by decide +kernel, by decide +kernel, Demo.tame (by decide)⟩

/-- Not everything that can never succeed is given up: the appeal with the mirrored signature (see `C42_mirrored_counterexample`) is
refused in every later state, but it is neither given up, nor does it expire, unless somebody else appeals: the keyper
tries it again and again, and none of its later transactions is sent, as they are sent one after the other. -/
theorem C64_stuck_counterexample {w : World} (later : Sol.WorldLater Demo.env (Demo.hist 118) w)
    (hna : (w.slasher.accusations 0).appealed = false) {own : Sol.Address} :
    w.step Demo.env (.appeal own mirroredAppeal) = none ∧
    (Action.appeal mirroredAppeal : Action Zq Zq).givenUp Demo.env w own = false ∧
    ¬ (Action.appeal mirroredAppeal : Action Zq Zq).Achieved w := by
  have hr : Sol.WorldReach Demo.env (Demo.hist 118) := Demo.chain.reach (by decide)
  have hacc : ((Demo.hist 118).slasher.accusations 0).accused = true := by decide +kernel
  have h0 : mirroredAppeal.halfStep = 0 := rfl
  have hreason := appealReason_later hr later (a := mirroredAppeal) (by rw [h0]; exact hacc) (by rw [h0]; decide +kernel)
    (by rw [h0]; exact hna) (by rw [h0]; exact C64_over (Demo.tame (by decide)) hacc)
  rw [mirrored_reason118] at hreason
  refine ⟨?_, ?_, ?_⟩
  · rw [Option.eq_none_iff_forall_ne_some]
    intro w2 hw2
    have hok := (appealReason_ok (E := Demo.env) (sender := own)).mpr ⟨w2, hw2⟩
    rw [hreason] at hok
    cases hok
  · simp [Action.givenUp, hreason]
  · simp only [Action.Achieved, h0, hna]
    have := accused_later (Sol.worldLater_plater hr.preach.inv later) hacc
    simp [this]

end Shutter.Decide.Props
