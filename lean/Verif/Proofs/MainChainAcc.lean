import Verif.Proofs.MainChainView

/-! # Observed accusations and configs; syncs do not fail -/

namespace Shutter.Main
open Shutter.Sol Shutter.GoConfig

/-! ## Accusations -/

theorem accused_fold_none (l : List (Nat × Event)) (m : Nat → Option Accusation) (h : Nat) :
    (l.foldl syncAccused m) h = none ↔ m h = none ∧ ∀ n e s, (n, Event.accused h e s) ∉ l := by
  induction l generalizing m with
  | nil => simp
  | cons x l ih =>
    rw [List.foldl_cons, ih]
    obtain ⟨n, e⟩ := x
    cases e
    case accused h' e s =>
      by_cases hh : h = h'
      · subst hh
        constructor
        · rintro ⟨h1, _⟩; simp [syncAccused, upd] at h1
        · rintro ⟨_, h2⟩; exact absurd List.mem_cons_self (h2 n e s)
      · simp [syncAccused, upd, hh]
    all_goals simp [syncAccused]

theorem accused_fold_some (l : List (Nat × Event)) (m : Nat → Option Accusation) (h : Nat) (a : Accusation)
    (ha : (l.foldl syncAccused m) h = some a) :
    (∃ n e s, (n, Event.accused h e s) ∈ l ∧ a = ⟨e, s, false, h, n⟩) ∨
      (m h = some a ∧ ∀ n e s, (n, Event.accused h e s) ∉ l) := by
  induction l generalizing m with
  | nil => exact .inr ⟨ha, by simp⟩
  | cons x l ih =>
    rw [List.foldl_cons] at ha
    rcases ih _ ha with ⟨n, e, s, h1, h2⟩ | ⟨h1, h2⟩
    · exact .inl ⟨n, e, s, List.mem_cons_of_mem _ h1, h2⟩
    · obtain ⟨n, e⟩ := x
      cases e
      case accused h' e s =>
        by_cases hh : h = h'
        · subst hh
          simp [syncAccused, upd] at h1
          exact .inl ⟨n, e, s, by simp, h1.symm⟩
        · simp [syncAccused, upd, hh] at h1
          exact .inr ⟨h1, by simp [hh, h2]⟩
      all_goals exact .inr ⟨h1, by simpa using h2⟩

/-- An appeal in the accusation of half step `h` -/
def appealOf (h : Nat) (x : Nat × Event) : Bool :=
  match x.2 with
  | .appealed h' _ => h' == h
  | _ => false

theorem appealOf_any (l : List (Nat × Event)) (h : Nat) : l.any (appealOf h) = true ↔ ∃ n x, (n, Event.appealed h x) ∈ l := by
  rw [List.any_eq_true]
  constructor
  · rintro ⟨⟨n, e⟩, h1, h2⟩
    cases e <;> simp [appealOf] at h2
    subst h2
    exact ⟨_, _, h1⟩
  · rintro ⟨n, x, h1⟩
    exact ⟨_, h1, by simp [appealOf]⟩

theorem appealed_foldM (l : List (Nat × Event)) (m m' : Nat → Option Accusation) (hm : l.foldlM syncAppealed m = some m')
    (h : Nat) : m' h = (m h).map (fun a => { a with appealed := a.appealed || l.any (appealOf h) }) := by
  induction l generalizing m with
  | nil => simp at hm; subst hm; simp
  | cons x l ih =>
    rw [List.foldlM_cons] at hm
    obtain ⟨m1, h1, h2⟩ := Option.bind_eq_some_iff.mp hm
    rw [ih m1 h2]
    obtain ⟨n, e⟩ := x
    cases e
    case appealed h' e =>
      simp only [syncAppealed] at h1
      split at h1
      · simp at h1
      · next a ha =>
        simp at h1
        subst h1
        by_cases hh : h = h'
        · subst hh; simp [upd, ha, appealOf]
        · have : (h' == h) = false := by simp; exact fun e => hh e.symm
          simp [upd, hh, appealOf, this]
    all_goals (simp [syncAppealed] at h1; subst h1; simp [appealOf])

theorem appealed_foldM_ok (l : List (Nat × Event)) (m : Nat → Option Accusation)
    (hm : ∀ n h x, (n, Event.appealed h x) ∈ l → m h ≠ none) : ∃ m', l.foldlM syncAppealed m = some m' := by
  induction l generalizing m with
  | nil => exact ⟨m, rfl⟩
  | cons y l ih =>
    have key : ∃ m1, syncAppealed m y = some m1 ∧ ∀ h, m h ≠ none → m1 h ≠ none := by
      obtain ⟨n, e⟩ := y
      cases e
      case appealed h' e =>
        simp only [syncAppealed]
        cases ha : m h' with
        | none => exact absurd ha (hm n h' e (by simp))
        | some a =>
          refine ⟨_, rfl, fun h hh => ?_⟩
          simp only [upd]
          split
          · simp
          · exact hh
      all_goals exact ⟨m, rfl, fun _ h => h⟩
    obtain ⟨m1, h1, h2⟩ := key
    obtain ⟨m', h3⟩ := ih m1 (fun n h x hx => h2 h (hm n h x (List.mem_cons_of_mem _ hx)))
    exact ⟨m', by rw [List.foldlM_cons, h1]; exact h3⟩

structure AccView (mc : MainChain) (w : World) : Prop where
  none : ∀ h, mc.accusations h = none ↔ ∀ n e s, (n, Event.accused h e s) ∉ w.log
  some : ∀ h a, mc.accusations h = some a → a.halfStep = h ∧ (a.blockNumber, Event.accused h a.executor a.accuser) ∈ w.log ∧
    (a.appealed = true ↔ ∃ n x, (n, Event.appealed h x) ∈ w.log)

theorem accView {E fd mc hist} (o : Observed E fd false mc hist) : AccView mc (hist mc.currentBlock) := by
  refine o.induct (I := AccView) ?_ ?_
  · rintro w ⟨_, _, _, _, _, _, _, _, _, _, rfl⟩
    exact ⟨by simp [MainChain.new, World.deployed], by simp [MainChain.new]⟩
  · intro mc mc' w w' l ih hr hr' _ hl _ _ _ _ _ hs
    have hmap := appealed_foldM l _ _ hs
    have hacc := accInv hr.preach
    have hjust := accuseJust hr'.preach
    refine ⟨fun h => ?_, fun h a ha => ?_⟩
    · rw [hmap, Option.map_eq_none_iff, accused_fold_none, ih.none, hl]
      constructor
      · rintro ⟨h1, h2⟩ n e s hx
        rcases List.mem_append.mp hx with hx | hx
        · exact h1 _ _ _ hx
        · exact h2 _ _ _ hx
      · intro h1
        exact ⟨fun n e s hx => h1 n e s (List.mem_append_left _ hx), fun n e s hx => h1 n e s (List.mem_append_right _ hx)⟩
    · rw [hmap, Option.map_eq_some_iff] at ha
      obtain ⟨a0, ha0, rfl⟩ := ha
      have happ : (∃ n x, (n, Event.appealed h x) ∈ w'.log) ↔
          (∃ n x, (n, Event.appealed h x) ∈ w.log) ∨ l.any (appealOf h) = true := by
        rw [appealOf_any, hl]
        simp only [List.mem_append]
        constructor
        · rintro ⟨n, x, hx | hx⟩
          · exact .inl ⟨n, x, hx⟩
          · exact .inr ⟨n, x, hx⟩
        · rintro (⟨n, x, hx⟩ | ⟨n, x, hx⟩)
          · exact ⟨n, x, .inl hx⟩
          · exact ⟨n, x, .inr hx⟩
      rcases accused_fold_some l _ h a0 ha0 with ⟨n, e, s, hx, rfl⟩ | ⟨h1, h2⟩
      · refine ⟨rfl, by rw [hl]; exact List.mem_append_right _ hx, ?_⟩
        rw [happ]
        have hno : ¬ ∃ n x, (n, Event.appealed h x) ∈ w.log := by
          rintro hap
          have hap := (hacc.appealed h).mpr hap
          have hac : (w.slasher.accusations h).accused = true := by
            cases hc : (w.slasher.accusations h).accused with
            | true => rfl
            | false => rw [hacc.fresh h hc] at hap; simp at hap
          obtain ⟨s', hs'⟩ := (hacc.acc h hac).2.2.2.2.2
          obtain ⟨l1, l2, rfl⟩ := List.append_of_mem hx
          refine (hjust (w.log ++ l1) (n, .accused h e s) l2 (by rw [hl]; simp)).1 h e s rfl _ _ _
            (List.mem_append_left _ hs')
        simp [hno]
      · obtain ⟨h3, h4, h5⟩ := ih.some h a0 h1
        refine ⟨h3, by rw [hl]; exact List.mem_append_left _ h4, ?_⟩
        rw [happ, ← h5]
        simp

theorem acc_known {E fd back mc hist} (o : Observed E fd back mc hist) :
    ∀ n h e s, (n, Event.accused h e s) ∈ (hist mc.currentBlock).log → mc.accusations h ≠ none := by
  induction o with
  | @start hist c =>
    obtain ⟨_, _, _, _, _, _, _, _, _, _, h⟩ := c.start
    simp [MainChain.new, h, World.deployed]
  | @sync mc mc' hist head synced o h64 hb hs ih =>
    rcases syncToHead_spec hs with rfl | ⟨h1, _, _, _, _, _, _, _, h2⟩
    · exact ih
    · have hle := syncUntil_le mc head
      intro n h e s hx
      rw [appealed_foldM _ _ _ h2, Ne, Option.map_eq_none_iff, accused_fold_none]
      rintro ⟨h3, h4⟩
      rw [h1] at hx
      rcases Nat.le_total mc.currentBlock (syncUntil mc head) with hc | hc
      · rw [o.chain.logsIn hc hle h64] at hx
        rcases List.mem_append.mp hx with hx | hx
        · exact ih _ _ _ _ hx h3
        · exact h4 _ _ _ hx
      · obtain ⟨l, hl, _⟩ := o.chain.log hc o.current
        exact ih n h e s (by rw [hl]; exact List.mem_append_left _ hx) h3
  | @reorg mc hist hist' o c he ih => rw [he _ le_rfl]; exact ih

/-! ## Configs -/

theorem numConfigs_eq (c : Config) : c.numConfigs = c.scheduled.length := by simp [Config.numConfigs, Config.configs]

/-- A config as the keyper stores it. -/
def known (bc : BatchConfig) : BatchConfig := { bc with keypers := dedupGo [] bc.keypers }

theorem getConfig_eq (c : Config) (i : Nat) : getConfigByIndex c i = (c.scheduled[i]?).map known := by
  unfold getConfigByIndex Config.scheduledConfig
  rw [numConfigs_eq]
  by_cases h : i < c.scheduled.length
  · simp [require, h, Config.configs, List.getElem?_append_left h, known]
  · simp [require, h]

theorem mapM_range (l : List BatchConfig) : ∀ (k s : Nat), s + k = l.length →
    (List.range' s k).mapM (fun i => (l[i]?).map known) = some ((l.drop s).map known)
  | 0, s, h => by
    have : l.drop s = [] := by simp; omega
    simp [this]
  | k + 1, s, h => by
    have hs : s < l.length := by omega
    rw [List.range'_succ, List.mapM_cons, mapM_range l k (s + 1) (by omega), List.drop_eq_getElem_cons hs]
    simp only [List.getElem?_eq_getElem hs, Option.map_some, List.map_cons]
    rfl

theorem newConfigs (c : Config) (s : Nat) :
    (List.range' s (c.numConfigs - s)).mapM (getConfigByIndex c) = some ((c.scheduled.drop s).map known) := by
  rw [numConfigs_eq, show getConfigByIndex c = fun i => (c.scheduled[i]?).map known from funext (getConfig_eq c)]
  by_cases h : s ≤ c.scheduled.length
  · exact mapM_range _ _ _ (by omega)
  · have h1 : c.scheduled.length - s = 0 := by omega
    have h2 : c.scheduled.drop s = [] := by simp; omega
    simp [h1, h2]

theorem sync_configs {mc mc' : MainChain} {w : World}
    (h : ∃ new, (List.range' mc.configs.length (w.config.numConfigs - mc.configs.length)).mapM
        (getConfigByIndex w.config) = some new ∧ mc'.configs = mc.configs ++ new) :
    mc'.configs = mc.configs ++ (w.config.scheduled.drop mc.configs.length).map known := by
  obtain ⟨new, h1, h2⟩ := h
  rw [newConfigs] at h1
  rw [h2, ← Option.some.inj h1]

/-- Without unscheduling -/
theorem configView {E fd mc hist} (o : Observed E fd false mc hist)
    (ho : ∀ n m, n ≤ m → m ≤ mc.currentBlock → (hist n).config.scheduled <+: (hist m).config.scheduled) :
    mc.configs = [] ∨ mc.configs = (hist mc.currentBlock).config.scheduled.map known := by
  induction o with
  | start c => exact .inl rfl
  | @sync mc mc' hist head synced o h64 hb hs ih =>
    rcases syncToHead_spec hs with rfl | ⟨h1, _, _, h2, _⟩
    · exact ih ho
    · have hb := hb rfl
      have h2 := sync_configs h2
      right
      rw [h1] at ho ⊢
      have hmono := ho mc.currentBlock _ hb le_rfl
      have hold := ih (fun n m hn hm => ho n m hn (by omega))
      rw [h2]
      rcases hold with h | h
      · simp [h]
      · rw [h]
        obtain ⟨l2, e2⟩ := hmono
        rw [← e2, List.length_map, List.drop_left]
        simp
  | @reorg mc hist hist' o c he ih =>
    rw [he _ le_rfl]
    exact ih (fun n m hn hm => by rw [← he n (by omega), ← he m hm]; exact ho n m hn hm)

/-! ## Syncs do not fail -/

theorem sync_ok {E fd back mc hist} (o : Observed E fd back mc hist) {head : Nat} (h64 : head < two64) (synced : Bool) :
    ∃ mc', syncToHead mc hist head synced = some mc' := by
  unfold syncToHead
  split
  · exact ⟨_, rfl⟩
  · simp only [syncConfigs, newConfigs, Option.map_some, Option.bind_some, syncSlashings, syncDeposits, syncExecutionState,
      syncBatches]
    have hle := syncUntil_le mc head
    obtain ⟨m', hm⟩ := appealed_foldM_ok (logsIn (hist head) (mc.currentBlock + 1) (syncUntil mc head))
      ((logsIn (hist head) (mc.currentBlock + 1) (syncUntil mc head)).foldl syncAccused mc.accusations) (by
        intro n h x hx
        rcases Nat.le_total mc.currentBlock (syncUntil mc head) with hc | hc
        · rw [Ne, accused_fold_none]
          rintro ⟨h1, h2⟩
          have hlog := o.chain.logsIn hc hle h64
          have hacc := accInv (o.chain.reach (by omega : syncUntil mc head < two64)).preach
          have hap := (hacc.appealed h).mpr ⟨n, x, by rw [hlog]; exact List.mem_append_right _ hx⟩
          have hac : ((hist (syncUntil mc head)).slasher.accusations h).accused = true := by
            cases hc : ((hist (syncUntil mc head)).slasher.accusations h).accused with
            | true => rfl
            | false => rw [hacc.fresh h hc] at hap; simp at hap
          obtain ⟨s', hs'⟩ := (hacc.acc h hac).2.2.2.2.2
          rw [hlog] at hs'
          rcases List.mem_append.mp hs' with hs' | hs'
          · exact acc_known o _ _ _ _ hs' h1
          · exact h2 _ _ _ hs'
        · rw [o.chain.logsIn_back hc] at hx
          simp at hx)
    rw [hm]
    exact ⟨_, rfl⟩

end Shutter.Main

namespace Shutter.Main
open Shutter.Sol

/-! ## Agreement -/

theorem batch_ext {x y : Option Batch} (ht : ∀ ty, txsOf x ty = txsOf y ty) (hh : ∀ ty, hashOf x ty = hashOf y ty)
    (hx : ∀ z, x = some z → z.encryptedTransactions ≠ [] ∨ z.plainTransactions ≠ [])
    (hy : ∀ z, y = some z → z.encryptedTransactions ≠ [] ∨ z.plainTransactions ≠ []) : x = y := by
  have h1 := ht .cipher
  have h2 := ht .plain
  have h3 := hh .cipher
  have h4 := hh .plain
  cases x with
  | none =>
    cases y with
    | none => rfl
    | some y =>
      have := hy y rfl
      simp [txsOf] at h1 h2
      simp_all
  | some x =>
    cases y with
    | none =>
      have := hx x rfl
      simp [txsOf] at h1 h2
      simp_all
    | some y =>
      obtain ⟨_, _, _, _⟩ := x
      obtain ⟨_, _, _, _⟩ := y
      simp [txsOf, hashOf] at h1 h2 h3 h4
      simp_all

theorem batches_agree {E fd fd' mc mc' hist} (o : Observed E fd false mc hist) (o' : Observed E fd' false mc' hist)
    (hle : mc.currentBlock ≤ mc'.currentBlock) {b : Nat} (hb : (hist mc.currentBlock).BatchOver b) :
    mc.batches b = mc'.batches b := by
  have v := batchView o
  have v' := batchView o'
  have hacc : ∀ ty, (hist mc'.currentBlock).accepted b ty = (hist mc.currentBlock).accepted b ty := fun ty =>
    (accepted_later (o.chain.reach o.current).preach.inv (o.chain.plater hle o'.current) hb ty).1
  refine batch_ext (fun ty => ?_) (fun ty => ?_) (fun z hz => v.some b z hz) (fun z hz => v'.some b z hz)
  · rw [v.txs, v'.txs, hacc]
  · rw [v.hash, v'.hash, (batcherInv (o.chain.reach o.current).preach).hash,
      (batcherInv (o'.chain.reach o'.current).preach).hash, hacc]

/-! ## Deposits -/

/-- A `DepositChanged` event of the account -/
def depositOf (a : Address) (e : Event) : Option Deposit :=
  match e with
  | .depositChanged a' amount delay requested _ isSlashed _ =>
    if a' = a then some ⟨isSlashed, amount, delay, requested⟩ else none
  | _ => none

theorem deposit_one (m : Address → Option Deposit) (e : Event) (a : Address) :
    syncDeposit m e a = (depositOf a e).or (m a) := by
  cases e
  case depositChanged a' am d r wd sl mv =>
    by_cases ha : a = a'
    · subst ha; simp [syncDeposit, upd, depositOf]
    · have : ¬ a' = a := fun e => ha e.symm
      simp [syncDeposit, upd, depositOf, ha, this]
  all_goals rfl

theorem deposit_fold (l : List (Nat × Event)) (m : Address → Option Deposit) (a : Address) :
    (l.foldl (fun m e => syncDeposit m e.2) m) a = (l.filterMap (fun e => depositOf a e.2)).getLast?.or (m a) := by
  induction l using List.reverseRecOn with
  | nil => simp
  | append_singleton l x ih =>
    rw [List.foldl_append, List.foldl_cons, List.foldl_nil, deposit_one, ih, List.filterMap_append, List.getLast?_append,
      Option.or_assoc]
    cases h : depositOf a x.2 <;> simp [h]

theorem depositView {E fd mc hist} (o : Observed E fd false mc hist) (a : Address) :
    mc.deposits a = (((hist mc.currentBlock).log.filterMap (fun e => depositOf a e.2)).getLast?) := by
  refine o.induct (I := fun mc w => ∀ a, mc.deposits a = ((w.log.filterMap (fun e => depositOf a e.2)).getLast?)) ?_ ?_ a
  · rintro w ⟨_, _, _, _, _, _, _, _, _, _, rfl⟩
    simp [MainChain.new, World.deployed]
  · intro mc mc' w w' l ih hr hr' _ hl _ _ _ _ hd _ a
    rw [hd, deposit_fold, ih, hl, List.filterMap_append]
    rw [List.getLast?_append]

end Shutter.Main

namespace Shutter.Main
open Shutter.Sol

/-! ## The first receipt -/

theorem receipt_fold_zero {E} {w : World} (h : PReach false E w) (l : List Nat) (m : Nat → Option Receipt)
    (hl : ∀ k ∈ l, k % 2 = 0 → (w.executor.receipts k).executed = true) :
    (l.foldl (syncReceipt w) m) 0 = if 0 ∈ l then some (w.executor.receipts 0) else m 0 := by
  induction l using List.reverseRecOn with
  | nil => simp
  | append_singleton l x ih =>
    rw [List.foldl_append, List.foldl_cons, List.foldl_nil, syncReceipt]
    have ih := ih (fun k hk => hl k (by simp [hk]))
    split
    · next hx =>
      rw [ih]
      have : ¬ 0 = x := by omega
      simp [this]
    · next hx =>
      simp only [upd]
      rw [((receiptInv h).spec x (hl x (by simp) (by omega))).2.1]
      by_cases h1 : 0 = x
      · subst h1; simp
      · simp [h1, ih]

theorem receiptView_zero {E fd mc hist} (o : Observed E fd false mc hist) :
    (∀ k, k < mc.numHalfSteps → k % 2 = 0 → ((hist mc.currentBlock).executor.receipts k).executed = true) →
    mc.receipts 0 = if 0 < mc.numHalfSteps then some ((hist mc.currentBlock).executor.receipts 0) else none := by
  refine (o.induct (I := fun mc w => mc.numHalfSteps = w.executor.halfSteps ∧ 
    ((∀ k, k < mc.numHalfSteps → k % 2 = 0 → (w.executor.receipts k).executed = true) →
    mc.receipts 0 = if 0 < mc.numHalfSteps then some (w.executor.receipts 0) else none)) ?_ ?_).2
  · rintro w ⟨_, _, _, _, _, _, _, _, _, _, rfl⟩
    exact ⟨by simp [MainChain.new, World.deployed], by simp [MainChain.new]⟩
  · intro mc mc' w w' l ih hr hr' p hl _ _ hn hrec _ _
    refine ⟨hn, fun hall => ?_⟩
    have hm := halfSteps_later p
    rw [hn] at hall
    rw [hrec, receipt_fold_zero hr'.preach, hn, ih.1, ih.2]
    · simp only [List.mem_range'_1, ih.1]
      rcases Nat.eq_zero_or_pos w.executor.halfSteps with h0 | h0
      · simp [h0]
      · rw [receipts_plater p h0]
        have : 0 < w'.executor.halfSteps := by omega
        have h1 : ¬ w.executor.halfSteps = 0 := by omega
        simp [h0, this, h1]
    · intro k hk h2
      rw [ih.1] at hk
      rw [← receipts_plater p hk]
      exact hall k (by omega) h2
    · intro k hk h2
      rw [List.mem_range'_1] at hk
      exact hall k (by omega) h2

/-! ## The last deposit -/

theorem depositOf_some {a : Address} {e : Event} {d : Deposit} (h : depositOf a e = some d) :
    ∃ wd mv, e = .depositChanged a d.amount d.delay d.requested wd d.slashed mv := by
  cases e <;> simp [depositOf] at h
  obtain ⟨rfl, rfl⟩ := h
  exact ⟨_, _, rfl⟩

theorem last_deposit (a : Address) (l : List (Nat × Event)) (d : Deposit)
    (h : (l.filterMap (fun e => depositOf a e.2)).getLast? = some d) :
    ∃ pre n wd mv post, l = pre ++ (n, .depositChanged a d.amount d.delay d.requested wd d.slashed mv) :: post ∧
      ∀ n am d r wd sl mv, (n, Event.depositChanged a am d r wd sl mv) ∉ post := by
  induction l using List.reverseRecOn with
  | nil => simp at h
  | append_singleton l x ih =>
    obtain ⟨n, e⟩ := x
    rw [List.filterMap_append, List.getLast?_append] at h
    cases hd : depositOf a e with
    | some d' =>
      simp [hd] at h
      subst h
      obtain ⟨wd, mv, rfl⟩ := depositOf_some hd
      exact ⟨l, n, wd, mv, [], rfl, by simp⟩
    | none =>
      simp [hd] at h
      obtain ⟨pre, n', wd, mv, post, h1, h2⟩ := ih (by simpa using h)
      refine ⟨pre, n', wd, mv, post ++ [(n, e)], by rw [h1]; simp, ?_⟩
      intro m am dd r wd' sl mv' hx
      rcases List.mem_append.mp hx with hx | hx
      · exact h2 _ _ _ _ _ _ _ hx
      · simp at hx
        obtain ⟨_, rfl⟩ := hx
        simp [depositOf] at hd

end Shutter.Main
