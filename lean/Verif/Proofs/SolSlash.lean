import Verif.Proofs.SolMoney
import Verif.Proofs.SolExec

/-! # The slasher -/

namespace Shutter.Sol
open World

/-- Events of the slasher contract. -/
def Event.ofSlasher : Event → Bool
  | .accused _ _ _ => true
  | .appealed _ _ => true
  | .slashed _ _ => true
  | _ => false

/-- What a primitive change does to the slasher. -/
inductive SlashChange (E : Env) (w w' : World) : Prop
  | other (l : List (Nat × Event)) : w'.slasher = w.slasher → w'.log = w.log ++ l → (∀ x ∈ l, x.2.ofSlasher = false) →
      SlashChange E w w'
  | accused (s : Address) (h i : Nat) (bc : BatchConfig) (k : Nat) : h % 2 = 0 → (w.slasher.accusations h).accused = false →
      w.config.configIndexForBatchIndex (h / 2) = some i → w.config.scheduledConfig i = some bc → bc.keypers[k]? = some s →
      (w.executor.receipts h).executed = true → (w.executor.receipts h).cipherBatchHash ≠ zeroHash →
      w'.executor = w.executor → w'.config = w.config → w'.block = w.block →
      w'.slasher = { w.slasher with
        accusations := upd w.slasher.accusations h ⟨true, false, false, (w.executor.receipts h).executor, h, w.block⟩ } →
      w'.log = w.log ++ [(w.block, .accused h (w.executor.receipts h).executor s)] → SlashChange E w w'
  | appealed (a : Authorization) : (w.slasher.accusations a.halfStep).accused = true →
      (w.slasher.accusations a.halfStep).appealed = false →
      verifyAuthorization E w a (w.executor.receipts a.halfStep) = some () → w'.executor = w.executor →
      w'.slasher = { w.slasher with
        accusations := upd w.slasher.accusations a.halfStep { w.slasher.accusations a.halfStep with appealed := true } } →
      w'.log = w.log ++ [(w.block, .appealed a.halfStep (w.executor.receipts a.halfStep).executor)] → SlashChange E w w'
  | marked (h : Nat) : (w.slasher.accusations h).accused = true →
      (w.deposit.deposits (w.slasher.accusations h).executor).slashed = true → w'.executor = w.executor →
      w'.slasher = { w.slasher with
        accusations := upd w.slasher.accusations h { w.slasher.accusations h with slashed := true } } →
      w'.log = w.log ++ [(w.block, .slashed (w.slasher.accusations h).halfStep (w.slasher.accusations h).executor)] →
      SlashChange E w w'

theorem prim_slash {tame E} {w w' : World} (p : Prim tame E w w') : SlashChange E w w' := by
  cases p
  case noted e he =>
    refine .other [_] rfl rfl ?_
    cases he <;> simp [Event.ofSlasher]
  case config => exact .other [] rfl (by simp) (by simp)
  case minFee => exact .other [] rfl (by simp) (by simp)
  case kept => exact .other [] rfl (by simp) (by simp)
  case setSlasher => exact .other [] rfl (by simp) (by simp)
  case setReceiver => exact .other [] rfl (by simp) (by simp)
  case accused s h i bc k h1 h2 h3 h4 h5 h6 h7 h8 =>
    exact .accused s h i bc k h1 h3 h4 h5 h6 h7 h8 rfl rfl rfl rfl rfl
  case appealed a h1 h2 h3 => exact .appealed a h1 h2 h3 rfl rfl rfl
  case slashedMark h h1 h2 => exact .marked h h1 h2 rfl rfl rfl
  all_goals first
    | exact .other [_] rfl rfl (by simp [World.emit, Event.ofSlasher])
    | exact .other ([_] ++ [_]) rfl (List.append_assoc _ _ _) (by simp [World.emit, Event.ofSlasher])

theorem receipts_prim {tame E} {w w' : World} (p : Prim tame E w w') {k : Nat} (hk : k < w.executor.halfSteps) :
    w'.executor.receipts k = w.executor.receipts k := by
  cases prim_exec p with
  | other l h _ _ => rw [h]
  | set n _ _ _ h _ => rw [h]
  | skipped _ _ _ _ h _ => rw [h]
  | plainSkipped _ _ _ h _ => rw [h]
  | cipherDone _ _ _ _ _ _ _ _ _ _ _ _ _ _ _ _ _ h _ => rw [h]; simp [upd, Nat.ne_of_lt hk]
  | plainDone _ _ _ _ _ _ _ h _ => rw [h]

/-- Receipts, in any history. -/
structure ReceiptInv (E : Env) (w : World) : Prop where
  spec : ∀ k, (w.executor.receipts k).executed = true → k < w.executor.halfSteps ∧ (w.executor.receipts k).halfStep = k ∧
    ∃ n b txs, (n, Event.cipherDone (w.executor.receipts k).executor b (w.executor.receipts k).cipherBatchHash txs) ∈ w.log ∧
      (w.executor.receipts k).batchHash = chainHashes E txs

theorem receiptInv {tame E w} (h : PReach tame E w) : ReceiptInv E w := by
  refine PReach.induct (I := ReceiptInv E) ?_ ?_ ?_ h
  · rintro w ⟨_, _, _, _, _, _, _, _, _, _, rfl⟩
    exact ⟨by simp [World.deployed, Receipt.zero]⟩
  · intro w b ih _ _; exact ⟨ih.1⟩
  · intro w w' _ ih p
    obtain ⟨l0, hl0, _⟩ := prim_log p
    have old : ∀ k, (w.executor.receipts k).executed = true → w'.executor.receipts k = w.executor.receipts k →
        k < w'.executor.halfSteps ∧ (w'.executor.receipts k).halfStep = k ∧
        ∃ n b txs, (n, Event.cipherDone (w'.executor.receipts k).executor b (w'.executor.receipts k).cipherBatchHash txs)
          ∈ w'.log ∧ (w'.executor.receipts k).batchHash = chainHashes E txs := by
      intro k hk he
      obtain ⟨h1, h2, n, b, txs, h3, h4⟩ := ih.spec k hk
      rw [he]
      exact ⟨lt_of_lt_of_le h1 (halfSteps_prim p), h2, n, b, txs, by rw [hl0]; exact List.mem_append_left _ h3, h4⟩
    refine ⟨fun k hk => ?_⟩
    cases prim_exec p with
    | other l h _ _ => rw [h] at hk; exact old k hk (by rw [h])
    | set n _ _ _ h _ => rw [h] at hk; exact old k hk (by rw [h])
    | skipped _ _ _ _ h _ => rw [h] at hk; exact old k hk (by rw [h])
    | plainSkipped _ _ _ h _ => rw [h] at hk; exact old k hk (by rw [h])
    | plainDone _ _ _ _ _ _ _ h _ => rw [h] at hk; exact old k hk (by rw [h])
    | cipherDone s b hh txs bc st e t j g1 g2 g3 g4 g5 g6 g7 g8 h hl =>
      by_cases hkk : k = w.executor.halfSteps
      · subst hkk
        rw [h, hl, g8]
        simp only [upd, if_true]
        exact ⟨by omega, trivial, w.block, b, txs, by simp, rfl⟩
      · have he : w'.executor.receipts k = w.executor.receipts k := by rw [h]; simp [upd, hkk]
        rw [he] at hk
        exact old k hk he

/-- Accusations, in any history. -/
structure AccInv (w : World) : Prop where
  acc : ∀ h, (w.slasher.accusations h).accused = true → (w.slasher.accusations h).halfStep = h ∧ h % 2 = 0 ∧
    (w.executor.receipts h).executed = true ∧ (w.slasher.accusations h).executor = (w.executor.receipts h).executor ∧
    (w.executor.receipts h).cipherBatchHash ≠ zeroHash ∧
    ∃ s, ((w.slasher.accusations h).blockNumber, Event.accused h (w.slasher.accusations h).executor s) ∈ w.log
  fresh : ∀ h, (w.slasher.accusations h).accused = false → (w.slasher.accusations h).appealed = false
  appealed : ∀ h, (w.slasher.accusations h).appealed = true ↔ ∃ n x, (n, Event.appealed h x) ∈ w.log
  logged : ∀ n h a s, (n, Event.accused h a s) ∈ w.log → (w.slasher.accusations h).accused = true ∧
    (w.slasher.accusations h).executor = a ∧ (w.slasher.accusations h).blockNumber = n

theorem accInv {tame E w} (h : PReach tame E w) : AccInv w := by
  refine PReach.induct (I := AccInv) ?_ ?_ ?_ h
  · rintro w ⟨_, _, _, _, _, _, _, _, _, _, rfl⟩
    exact ⟨by simp [World.deployed, Accusation.zero], by simp [World.deployed, Accusation.zero],
      by simp [World.deployed, Accusation.zero], by simp [World.deployed]⟩
  · intro w b ih _ _; exact ⟨ih.1, ih.2, ih.3, ih.4⟩
  · intro w w' hr ih p
    have hrec := receiptInv hr
    obtain ⟨l0, hl0, _⟩ := prim_log p
    have keep : ∀ h, (w.slasher.accusations h).accused = true → w'.executor.receipts h = w.executor.receipts h :=
      fun h ha => receipts_prim p (hrec.spec h (ih.acc h ha).2.2.1).1
    have old : ∀ h, (w.slasher.accusations h).accused = true → h % 2 = 0 ∧
        (w'.executor.receipts h).executed = true ∧ (w.slasher.accusations h).executor = (w'.executor.receipts h).executor ∧
        (w'.executor.receipts h).cipherBatchHash ≠ zeroHash ∧
        ∃ s, ((w.slasher.accusations h).blockNumber, Event.accused h (w.slasher.accusations h).executor s) ∈ w'.log := by
      intro h ha
      obtain ⟨h1, h2, h3, h4, h5, s, h6⟩ := ih.acc h ha
      rw [keep h ha]
      exact ⟨h2, h3, h4, h5, s, by rw [hl0]; exact List.mem_append_left _ h6⟩
    cases prim_slash p with
    | other l e1 e2 e3 =>
      refine ⟨?_, ?_, ?_, ?_⟩
      · rw [e1]; intro h ha; exact ⟨(ih.acc h ha).1, old h ha⟩
      · rw [e1]; exact ih.fresh
      · intro h
        rw [e1, ih.appealed h]
        constructor
        · rintro ⟨n, x, hx⟩; exact ⟨n, x, by rw [e2]; exact List.mem_append_left _ hx⟩
        · rintro ⟨n, x, hx⟩
          rw [e2, List.mem_append] at hx
          rcases hx with hx | hx
          · exact ⟨n, x, hx⟩
          · have := e3 _ hx; simp [Event.ofSlasher] at this
      · intro n h a s hm
        rw [e2, List.mem_append] at hm
        rcases hm with hm | hm
        · rw [e1]; exact ih.logged n h a s hm
        · have := e3 _ hm; simp [Event.ofSlasher] at this
    | accused s h i bc k g1 g2 g3 g4 g5 g6 g7 g8 g9 g10 g11 g12 =>
      refine ⟨?_, ?_, ?_, ?_⟩
      · intro x hx
        by_cases hxh : x = h
        · subst hxh
          rw [g11, g12, g8]
          simp only [upd, if_true]
          exact ⟨trivial, g1, g6, trivial, g7, s, by simp⟩
        · have he : w'.slasher.accusations x = w.slasher.accusations x := by rw [g11]; simp [upd, hxh]
          rw [he] at hx ⊢
          exact ⟨(ih.acc x hx).1, old x hx⟩
      · intro x hx
        by_cases hxh : x = h
        · subst hxh; rw [g11] at hx; simp [upd] at hx
        · have he : w'.slasher.accusations x = w.slasher.accusations x := by rw [g11]; simp [upd, hxh]
          rw [he] at hx ⊢
          exact ih.fresh x hx
      · intro x
        by_cases hxh : x = h
        · subst hxh
          have := ih.fresh x g2
          have h2 := ih.appealed x
          rw [this] at h2
          rw [g11, g12]
          simp only [upd, if_true]
          simp at h2
          simpa using h2
        · have he : w'.slasher.accusations x = w.slasher.accusations x := by rw [g11]; simp [upd, hxh]
          rw [he, ih.appealed x, g12]
          simp
      · intro n x a s' hm
        rw [g12] at hm
        simp only [List.mem_append, List.mem_singleton, Prod.mk.injEq, Event.accused.injEq] at hm
        rcases hm with hm | ⟨rfl, rfl, rfl, rfl⟩
        · have hx := ih.logged n x a s' hm
          have hxh : x ≠ h := by rintro rfl; rw [g2] at hx; simp at hx
          rw [g11]; simp only [upd, hxh, if_false]; exact hx
        · rw [g11]; simp [upd]
    | appealed a g1 g2 g3 g4 g5 g6 =>
      refine ⟨?_, ?_, ?_, ?_⟩
      · intro x hx
        by_cases hxh : x = a.halfStep
        · subst hxh
          have h1 := ih.acc _ g1
          have h2 := old _ g1
          rw [g5]
          simp only [upd, if_true]
          exact ⟨h1.1, h2⟩
        · have he : w'.slasher.accusations x = w.slasher.accusations x := by rw [g5]; simp [upd, hxh]
          rw [he] at hx ⊢
          exact ⟨(ih.acc x hx).1, old x hx⟩
      · intro x hx
        by_cases hxh : x = a.halfStep
        · subst hxh; rw [g5] at hx; simp [upd, g1] at hx
        · have he : w'.slasher.accusations x = w.slasher.accusations x := by rw [g5]; simp [upd, hxh]
          rw [he] at hx ⊢
          exact ih.fresh x hx
      · intro x
        by_cases hxh : x = a.halfStep
        · subst hxh
          rw [g5, g6]
          simp only [upd, if_true, true_iff]
          exact ⟨w.block, _, List.mem_append_right _ (List.mem_singleton.2 rfl)⟩
        · have he : w'.slasher.accusations x = w.slasher.accusations x := by rw [g5]; simp [upd, hxh]
          rw [he, ih.appealed x, g6]
          simp [hxh]
      · intro n x b s' hm
        rw [g6] at hm
        simp at hm
        have hx := ih.logged n x b s' hm
        by_cases hxh : x = a.halfStep
        · subst hxh
          rw [g5]; simp only [upd, if_true]; exact hx
        · rw [g5]; simp only [upd, hxh, if_false]; exact hx
    | marked h g1 g2 g3 g4 g5 =>
      refine ⟨?_, ?_, ?_, ?_⟩
      · intro x hx
        by_cases hxh : x = h
        · subst hxh
          have h1 := ih.acc _ g1
          have h2 := old _ g1
          rw [g4]
          simp only [upd, if_true]
          exact ⟨h1.1, h2⟩
        · have he : w'.slasher.accusations x = w.slasher.accusations x := by rw [g4]; simp [upd, hxh]
          rw [he] at hx ⊢
          exact ⟨(ih.acc x hx).1, old x hx⟩
      · intro x hx
        by_cases hxh : x = h
        · subst hxh; rw [g4] at hx; simp [upd, g1] at hx
        · have he : w'.slasher.accusations x = w.slasher.accusations x := by rw [g4]; simp [upd, hxh]
          rw [he] at hx ⊢
          exact ih.fresh x hx
      · intro x
        have he : (w'.slasher.accusations x).appealed = (w.slasher.accusations x).appealed := by
          rw [g4]
          simp only [upd]
          split
          · next hx => subst hx; rfl
          · rfl
        rw [he, ih.appealed x, g5]
        simp
      · intro n x b s' hm
        rw [g5] at hm
        simp at hm
        have hx := ih.logged n x b s' hm
        by_cases hxh : x = h
        · subst hxh
          rw [g4]; simp only [upd, if_true]; exact hx
        · rw [g4]; simp only [upd, hxh, if_false]; exact hx

/-! ## What precedes an event -/

theorem appealBlocks_prim {tame E} {w w' : World} (p : Prim tame E w w') :
    w'.slasher.appealBlocks = w.slasher.appealBlocks := by
  cases p <;> rfl

/-- What must have happened before a slashing. -/
def SlashJust (k : Nat) (pre : List (Nat × Event)) (x : Nat × Event) : Prop :=
  ∀ a am d r wd v, x.2 = .depositChanged a am d r wd true v →
    (∃ h m s, (m, Event.accused h a s) ∈ pre ∧ m + k ≤ x.1 ∧ ∀ n y, (n, Event.appealed h y) ∉ pre) ∧
    (0 < v → ∀ y ∈ pre, ∀ am d r wd v', y.2 ≠ .depositChanged a am d r wd true v')

/-- A slashing in the log shows in the state. -/
theorem slashedLogged {tame E w} (h : PReach tame E w) : ∀ n a am d r wd v,
    (n, Event.depositChanged a am d r wd true v) ∈ w.log → (w.deposit.deposits a).slashed = true := by
  refine PReach.induct (I := fun w => ∀ n a am d r wd v,
    (n, Event.depositChanged a am d r wd true v) ∈ w.log → (w.deposit.deposits a).slashed = true) ?_ ?_ ?_ h
  · rintro w ⟨_, _, _, _, _, _, _, _, _, _, rfl⟩; simp [World.deployed]
  · intro w b ih _ _; exact ih
  · intro w w' hr ih p n a am d r wd v hm
    have old : (n, Event.depositChanged a am d r wd true v) ∈ w.log → (w'.deposit.deposits a).slashed = true :=
      fun hm => slashed_prim p (ih _ _ _ _ _ _ _ hm)
    cases p
    case slashedDeposit a' h1 h2 =>
      simp only [World.emit, List.mem_append, List.mem_singleton, Prod.mk.injEq, Event.depositChanged.injEq] at hm
      rcases hm with hm | ⟨_, rfl, _⟩
      · exact old hm
      · simp [World.emit, upd]
    case noted e he =>
      cases he <;> (simp [World.emit] at hm; exact old hm)
    case config => exact old hm
    case minFee => exact old hm
    case kept => exact old hm
    case setSlasher => exact old hm
    case setReceiver => exact old hm
    all_goals
      simp [World.emit] at hm
      exact old hm

theorem slashJust {tame E w} (h : PReach tame E w) : Justified (SlashJust w.slasher.appealBlocks) w.log := by
  refine PReach.induct (I := fun w => Justified (SlashJust w.slasher.appealBlocks) w.log) ?_ ?_ ?_ h
  · rintro w ⟨_, _, _, _, _, _, _, _, _, h0, rfl⟩; exact justified_nil _
  · intro w b ih _ _; exact ih
  · intro w w' hr ih p
    rw [appealBlocks_prim p]
    have inv := depositInv hr
    have acc := accInv hr
    cases p
    case slashedDeposit a h1 h2 =>
      refine justified_snoc ih ?_
      intro a' am d r wd v he
      injection he with e1 e2 e3 e4 e5 e6 e7
      subst e1
      refine ⟨?_, ?_⟩
      · rcases h2 with ⟨hs, ac, g1, g2⟩ | g
        · obtain ⟨k1, k2, k3, k4, k5⟩ := slashPre_spec g1
          subst k1
          obtain ⟨_, _, _, _, _, s, k6⟩ := acc.acc hs k2
          rw [g2] at k6
          refine ⟨hs, _, s, k6, k5, ?_⟩
          intro n y hy
          have := (acc.appealed hs).2 ⟨n, y, hy⟩
          rw [k3] at this; simp at this
        · exact absurd inv.slasher.1 g
      · rintro hv ⟨n, y⟩ hy am' d' r' wd' v' rfl
        have := inv.slashed _ (slashedLogged hr _ _ _ _ _ _ _ hy)
        rw [this] at e7
        simp at e7
        omega
    case setSlasher a h1 => exact ih
    case setReceiver => exact ih
    case config => exact ih
    case minFee => exact ih
    case kept => exact ih
    case noted e he =>
      refine justified_snoc ih ?_
      intro a am d r wd v he'
      cases he <;> simp at he'
    all_goals first
      | (refine justified_snoc ih ?_
         intro a am d r wd v he'
         cases he')
      | (refine justified_snoc (justified_snoc ih ?_) ?_ <;>
         (intro a am d r wd v he'
          cases he'))

/-- At most one accusation per half step, at most one appeal and only after the accusation. -/
def AccuseJust (pre : List (Nat × Event)) (x : Nat × Event) : Prop :=
  (∀ h a s, x.2 = .accused h a s → ∀ n a' s', (n, Event.accused h a' s') ∉ pre) ∧
  (∀ h a, x.2 = .appealed h a → (∃ m s, (m, Event.accused h a s) ∈ pre) ∧ ∀ n a', (n, Event.appealed h a') ∉ pre) ∧
  (∀ h a, x.2 = .slashed h a → (∃ m s, (m, Event.accused h a s) ∈ pre) ∧
    ∃ m am d r wd v, (m, Event.depositChanged a am d r wd true v) ∈ pre)

theorem slashedState {tame E w} (h : PReach tame E w) : ∀ a, (w.deposit.deposits a).slashed = true →
    ∃ m am d r wd v, (m, Event.depositChanged a am d r wd true v) ∈ w.log := by
  refine PReach.induct (I := fun w => ∀ a, (w.deposit.deposits a).slashed = true →
    ∃ m am d r wd v, (m, Event.depositChanged a am d r wd true v) ∈ w.log) ?_ ?_ ?_ h
  · rintro w ⟨_, _, _, _, _, _, _, _, _, _, rfl⟩; simp [World.deployed, Deposit.zero]
  · intro w b ih _ _; exact ih
  · intro w w' hr ih p a ha
    obtain ⟨l, hl, _⟩ := prim_log p
    have old : (w.deposit.deposits a).slashed = true →
        ∃ m am d r wd v, (m, Event.depositChanged a am d r wd true v) ∈ w'.log := by
      intro h
      obtain ⟨m, am, d, r, wd, v, hm⟩ := ih a h
      exact ⟨m, am, d, r, wd, v, by rw [hl]; exact List.mem_append_left _ hm⟩
    by_cases hb : (w.deposit.deposits a).slashed = true
    · exact old hb
    · cases p
      case slashedDeposit a' h1 h2 =>
        by_cases hx : a = a'
        · subst hx
          exact ⟨w.block, _, _, _, _, _, List.mem_append_right _ (List.mem_singleton.2 rfl)⟩
        · simp [World.emit, upd, hx] at ha; exact absurd ha hb
      case tokens a' n d h1 h2 h3 h4 =>
        by_cases hx : a = a'
        · subst hx; simp [World.emit, upd] at ha
        · simp [World.emit, upd, hx] at ha; exact absurd ha hb
      case requested a' h1 h2 h3 =>
        by_cases hx : a = a'
        · subst hx; simp [World.emit, upd] at ha; exact absurd ha hb
        · simp [World.emit, upd, hx] at ha; exact absurd ha hb
      case paid a' r h1 h2 h3 h4 h5 =>
        by_cases hx : a = a'
        · subst hx; simp [World.emit, upd, Deposit.zero] at ha
        · simp [World.emit, upd, hx] at ha; exact absurd ha hb
      all_goals exact absurd ha hb

theorem accuseJust {tame E w} (h : PReach tame E w) : Justified AccuseJust w.log := by
  refine PReach.induct (I := fun w => Justified AccuseJust w.log) ?_ ?_ ?_ h
  · rintro w ⟨_, _, _, _, _, _, _, _, _, h0, rfl⟩; exact justified_nil _
  · intro w b ih _ _; exact ih
  · intro w w' hr ih p
    have acc := accInv hr
    cases prim_slash p with
    | other l _ e2 e3 =>
      rw [e2]
      refine justified_append ih (fun pre x hx => ?_)
      have := e3 x hx
      refine ⟨fun h a s he => ?_, fun h a he => ?_, fun h a he => ?_⟩ <;> (rw [he] at this; simp [Event.ofSlasher] at this)
    | accused s h i bc k g1 g2 g3 g4 g5 g6 g7 g8 g9 g10 g11 g12 =>
      rw [g12]
      refine justified_snoc ih ⟨?_, by simp, by simp⟩
      intro h' a' s' he n a'' s'' hm
      injection he with e1 e2 e3
      subst e1
      have := (acc.logged _ _ _ _ hm).1
      rw [g2] at this; simp at this
    | appealed a g1 g2 g3 g4 g5 g6 =>
      rw [g6]
      refine justified_snoc ih ⟨by simp, ?_, by simp⟩
      intro h x he
      injection he with e1 e2
      subst e1 e2
      obtain ⟨_, _, _, q1, _, s, q2⟩ := acc.acc _ g1
      rw [q1] at q2
      refine ⟨⟨_, s, q2⟩, ?_⟩
      intro n a' hm
      have := (acc.appealed _).2 ⟨n, a', hm⟩
      rw [g2] at this; simp at this
    | marked h g1 g2 g3 g4 g5 =>
      rw [g5]
      refine justified_snoc ih ⟨by simp, by simp, ?_⟩
      intro h' x he
      injection he with e1 e2
      subst e1 e2
      obtain ⟨q0, _, _, q1, _, s, q2⟩ := acc.acc _ g1
      rw [q0]
      exact ⟨⟨_, s, q2⟩, slashedState hr _ g2⟩

/-! ## Who accuses whom (tame targets) -/

theorem accuserInv {E w} (h : PReach true E w) : ∀ n x a s, (n, Event.accused x a s) ∈ w.log →
    w.BatchOver (x / 2) ∧ ∃ k, w.KeyperOf (x / 2) s k := by
  refine PReach.induct (I := fun w => ∀ n x a s, (n, Event.accused x a s) ∈ w.log →
    w.BatchOver (x / 2) ∧ ∃ k, w.KeyperOf (x / 2) s k) ?_ ?_ ?_ h
  · rintro w ⟨_, _, _, _, _, _, _, _, _, _, rfl⟩; simp [World.deployed]
  · intro w blk ih hb _ n x a s hm
    obtain ⟨⟨bc, st, e, t, h1, h2⟩, h3⟩ := ih n x a s hm
    exact ⟨⟨bc, st, e, t, h1, le_trans h2 hb⟩, h3⟩
  · intro w w' hr ih p n x a s hm
    have hi := hr.inv
    obtain ⟨hblk, hlat⟩ := prim_config p
    have old : (n, Event.accused x a s) ∈ w.log → w'.BatchOver (x / 2) ∧ ∃ k, w'.KeyperOf (x / 2) s k := by
      intro hm
      obtain ⟨h1, k, h2⟩ := ih n x a s hm
      exact ⟨batchOver_mono hi (le_of_eq hblk.symm) hlat h1, k, keyperOf_mono hi hlat h1 h2⟩
    cases prim_slash p with
    | other l _ e2 e3 =>
      rw [e2, List.mem_append] at hm
      rcases hm with hm | hm
      · exact old hm
      · have := e3 _ hm; simp [Event.ofSlasher] at this
    | accused s' h i bc k g1 g2 g3 g4 g5 g6 g7 g8 g9 g10 g11 g12 =>
      rw [g12] at hm
      simp only [List.mem_append, List.mem_singleton, Prod.mk.injEq, Event.accused.injEq] at hm
      rcases hm with hm | ⟨rfl, rfl, rfl, rfl⟩
      · exact old hm
      · have inv := execInv hr
        obtain ⟨n, s1, b, hh, txs, k1, rfl⟩ := inv.receipts _ g6
        obtain ⟨_, _, bc', st, e, t, k2, k3, _⟩ := inv.cipher _ _ _ _ _ k1
        have hn := preach_log_block hr _ k1
        rw [show 2 * b / 2 = b by omega] at g3 ⊢
        have ho : w.BatchOver b := ⟨bc', st, e, t, k2, le_trans k3 hn⟩
        have hk : w.KeyperOf b s k := by
          refine ⟨bc', st, e, t, k2, ?_⟩
          obtain ⟨i', q1, q2, _⟩ := k2
          rw [g3] at q1; simp at q1; subst q1
          rw [g4] at q2; simp at q2; subst q2
          exact g5
        exact ⟨batchOver_mono hi (le_of_eq hblk.symm) hlat ho, k, keyperOf_mono hi hlat ho hk⟩
    | appealed a' g1 g2 g3 g4 g5 g6 =>
      rw [g6] at hm; simp at hm; exact old hm
    | marked h g1 g2 g3 g4 g5 =>
      rw [g5] at hm; simp at hm; exact old hm

/-! ## Appeals -/

theorem verifySigners_iff (E : Env) (bc : BatchConfig) (hash : Bytes) (l : List (Nat × Bytes)) (prev : Option Nat) :
    verifySigners E bc hash prev l = some () ↔ (∀ p, prev = some p → ∀ x ∈ l, p < x.1) ∧ (l.map Prod.fst).Pairwise (· < ·) ∧
      ∀ x ∈ l, ∃ keyper, bc.keypers[x.1]? = some keyper ∧ E.recover hash x.2 = some keyper := by
  induction l generalizing prev with
  | nil => simp [verifySigners]
  | cons y l ih =>
    obtain ⟨i, s⟩ := y
    simp only [verifySigners, Option.bind_eq_bind, Option.bind_eq_some_iff, require_eq_some, ih]
    simp only [List.map_cons, List.pairwise_cons, List.mem_cons, forall_eq_or_imp]
    constructor
    · rintro ⟨k, h1, _, h2, s', h3, _, rfl, h4, h5, h6⟩
      have h4 := h4 i rfl
      refine ⟨fun p hp => ⟨h2 p hp, fun x hx => lt_trans (h2 p hp) (h4 x hx)⟩, ⟨?_, h5⟩, ⟨_, h1, h3⟩, h6⟩
      intro a ha
      rw [List.mem_map] at ha
      obtain ⟨x, hx, rfl⟩ := ha
      exact h4 x hx
    · rintro ⟨h1, ⟨h2, h3⟩, ⟨k, h4, h5⟩, h6⟩
      refine ⟨k, h4, (), fun p hp => (h1 p hp).1, k, h5, (), rfl, ?_, h3, h6⟩
      intro p hp x hx
      simp at hp; subst hp
      exact h2 x.1 (List.mem_map_of_mem hx)

theorem verifyAuthorization_iff (E : Env) (w : World) (a : Authorization) (r : Receipt) :
    verifyAuthorization E w a r = some () ↔ ∃ i bc, w.config.configIndexForBatchIndex (r.halfStep / 2) = some i ∧
      w.config.scheduledConfig i = some bc ∧ w.Authorized E bc r a := by
  simp only [verifyAuthorization, Option.bind_eq_bind, Option.bind_eq_some_iff, require_eq_some, verifySigners_iff]
  constructor
  · rintro ⟨i, h1, bc, h2, _, h3, _, h4, _, h5, h6⟩
    refine ⟨i, bc, h1, h2, h3, h4, ?_, ?_⟩
    · rwa [List.map_fst_zip (by omega)] at h5
    · intro j x s hx hs
      refine h6 (x, s) ?_
      rw [List.mem_iff_getElem?]
      exact ⟨j, by rw [List.getElem?_zip_eq_some]; exact ⟨hx, hs⟩⟩
  · rintro ⟨i, bc, h1, h2, h3, h4, h5, h6⟩
    refine ⟨i, h1, bc, h2, (), h3, (), h4, by simp, ?_, ?_⟩
    · rwa [List.map_fst_zip (by omega)]
    · rintro ⟨x, s⟩ hx
      rw [List.mem_iff_getElem?] at hx
      obtain ⟨j, hj⟩ := hx
      rw [List.getElem?_zip_eq_some] at hj
      exact h6 j x s hj.1 hj.2

end Shutter.Sol
