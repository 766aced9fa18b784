import Verif.Proofs.AppQuorum

/-! # Validator updates -/

namespace Shutter.App

theorem bytesLe_total (a b : Bytes) : bytesLe a b = true ∨ bytesLe b a = true := by
  induction a generalizing b with
  | nil => left; rfl
  | cons x xs ih =>
    cases b with
    | nil => right; rfl
    | cons y ys =>
      unfold bytesLe
      rcases lt_trichotomy x.toNat y.toNat with h | h | h
      · left; rw [if_pos (UInt8.lt_iff_toNat_lt.2 h)]
      · have : x = y := UInt8.toNat_inj.1 h
        subst this
        have hn : ¬ x < x := by rw [UInt8.lt_iff_toNat_lt]; omega
        simp only [hn, if_false, if_true]
        exact ih ys
      · right; rw [if_pos (UInt8.lt_iff_toNat_lt.2 h)]

theorem bytesLe_cons {x xs y ys} : bytesLe (x :: xs) (y :: ys) = true ↔
    x.toNat < y.toNat ∨ (x = y ∧ bytesLe xs ys = true) := by
  rw [bytesLe]
  by_cases h : x < y
  · simp [h, UInt8.lt_iff_toNat_lt.1 h]
  · have h' : ¬ x.toNat < y.toNat := fun hc => h (UInt8.lt_iff_toNat_lt.2 hc)
    by_cases he : x = y <;> simp [h, h', he]

theorem bytesLe_trans {a b c : Bytes} (h1 : bytesLe a b = true) (h2 : bytesLe b c = true) : bytesLe a c = true := by
  induction a generalizing b c with
  | nil => rfl
  | cons x xs ih =>
    cases b with
    | nil => simp [bytesLe] at h1
    | cons y ys =>
      cases c with
      | nil => simp [bytesLe] at h2
      | cons z zs =>
        rw [bytesLe_cons] at *
        rcases h1 with h1 | ⟨rfl, h1⟩
        · rcases h2 with h2 | ⟨rfl, h2⟩
          · left; omega
          · left; exact h1
        · rcases h2 with h2 | ⟨rfl, h2⟩
          · left; exact h2
          · right; exact ⟨rfl, ih h1 h2⟩

theorem bytesLe_antisymm {a b : Bytes} (h1 : bytesLe a b = true) (h2 : bytesLe b a = true) : a = b := by
  induction a generalizing b with
  | nil => cases b with
    | nil => rfl
    | cons y ys => simp [bytesLe] at h2
  | cons x xs ih =>
    cases b with
    | nil => simp [bytesLe] at h1
    | cons y ys =>
      rw [bytesLe_cons] at *
      rcases h1 with h1 | ⟨rfl, h1⟩
      · rcases h2 with h2 | ⟨rfl, h2⟩
        · omega
        · omega
      · rcases h2 with h2 | ⟨_, h2⟩
        · omega
        · rw [ih h1 h2]

def keysNodup (pm : Powermap) : Prop := (pm.map (·.1)).Nodup

theorem lookup_cons_if (pm : Powermap) (k j : ValidatorPubkey) (q : Int) :
    List.lookup k ((j, q) :: pm) = if k = j then some q else List.lookup k pm := by
  rw [List.lookup_cons]
  by_cases h : k = j
  · simp [h]
  · have : (k == j) = false := by simpa using h
    simp [h, this]

theorem lookup_set (pm : Powermap) (k p j) : (pm.set k p).lookup j = if j = k then some p else pm.lookup j := by
  induction pm with
  | nil =>
    unfold Powermap.set
    rw [lookup_cons_if]
  | cons e pm ih =>
    obtain ⟨i, q⟩ := e
    unfold Powermap.set
    split
    · next h =>
      subst h
      rw [lookup_cons_if, lookup_cons_if]
      by_cases h : j = i <;> simp [h]
    · next h =>
      rw [lookup_cons_if, lookup_cons_if, ih]
      by_cases h1 : j = i
      · subst h1; simp [h]
      · simp [h1]

theorem mem_keys_set {pm : Powermap} {k p j} : j ∈ (pm.set k p).map (·.1) ↔ j = k ∨ j ∈ pm.map (·.1) := by
  induction pm with
  | nil => simp [Powermap.set]
  | cons e pm ih =>
    obtain ⟨i, q⟩ := e
    unfold Powermap.set
    split
    · next h => subst h; simp
    · simp only [List.map_cons, List.mem_cons, ih]; tauto

theorem keysNodup_set {pm : Powermap} (h : keysNodup pm) (k p) : keysNodup (pm.set k p) := by
  induction pm with
  | nil => simp [Powermap.set, keysNodup]
  | cons e pm ih =>
    obtain ⟨i, q⟩ := e
    unfold keysNodup at h
    simp only [List.map_cons, List.nodup_cons] at h
    unfold Powermap.set
    split
    · next hk => subst hk; simpa [keysNodup] using h
    · next hk =>
      unfold keysNodup
      simp only [List.map_cons, List.nodup_cons]
      refine ⟨?_, ih h.2⟩
      rw [mem_keys_set]
      rintro (h' | h')
      · exact hk h'
      · exact h.1 h'

theorem lookup_iff_mem {pm : Powermap} (h : keysNodup pm) {k p} : pm.lookup k = some p ↔ (k, p) ∈ pm := by
  induction pm with
  | nil => simp
  | cons e pm ih =>
    obtain ⟨i, q⟩ := e
    unfold keysNodup at h
    simp only [List.map_cons, List.nodup_cons] at h
    simp only [lookup_cons_if, List.mem_cons, Prod.mk.injEq]
    by_cases hk : k = i
    · subst hk
      simp only [if_true, true_and, Option.some.injEq]
      constructor
      · intro he; left; exact he.symm
      · rintro (he | he)
        · exact he.symm
        · exact absurd (List.mem_map_of_mem (f := (·.1)) he) h.1
    · simp [hk, ih h.2]

theorem lookup_none_iff {pm : Powermap} {k} : pm.lookup k = none ↔ k ∉ pm.map (·.1) := by
  induction pm with
  | nil => simp
  | cons e pm ih =>
    obtain ⟨i, q⟩ := e
    simp only [lookup_cons_if, List.map_cons, List.mem_cons, not_or]
    by_cases hk : k = i <;> simp [hk, ih]

theorem keysNodup_perm {pm pm' : Powermap} (h : keysNodup pm) (hp : pm'.Perm pm) : keysNodup pm' :=
  (hp.map _).nodup_iff.2 h

theorem lookup_perm {pm pm' : Powermap} (h : keysNodup pm) (hp : pm'.Perm pm) (k) : pm'.lookup k = pm.lookup k := by
  have h' := keysNodup_perm h hp
  cases hc : pm.lookup k with
  | none =>
    rw [lookup_none_iff] at hc ⊢
    intro hm; exact hc ((hp.map _).mem_iff.1 hm)
  | some p =>
    rw [lookup_iff_mem h] at hc
    rw [lookup_iff_mem h']
    exact hp.mem_iff.2 hc

theorem perm_of_lookup {pm pm' : Powermap} (h : keysNodup pm) (h' : keysNodup pm')
    (he : ∀ k, pm.lookup k = pm'.lookup k) : pm.Perm pm' := by
  have n1 : pm.Nodup := List.Nodup.of_map _ h
  have n2 : pm'.Nodup := List.Nodup.of_map _ h'
  rw [List.perm_ext_iff_of_nodup n1 n2]
  rintro ⟨k, p⟩
  rw [← lookup_iff_mem h, ← lookup_iff_mem h', he]

/-! ## Sorting -/

theorem validatorUpdates_perm (ord pm) (ho : (ord pm).Perm pm) : (validatorUpdates ord pm).Perm pm :=
  (List.perm_insertionSort _ _).trans ho

theorem validatorUpdates_sorted (ord pm) :
    (validatorUpdates ord pm).Pairwise (fun a b => bytesLe a.1 b.1 = true) := by
  unfold validatorUpdates
  have : Std.Total (fun a b : ValidatorPubkey × Int => bytesLe a.1 b.1 = true) := ⟨fun a b => bytesLe_total _ _⟩
  have : IsTrans (ValidatorPubkey × Int) (fun a b => bytesLe a.1 b.1 = true) := ⟨fun a b c h1 h2 => bytesLe_trans h1 h2⟩
  exact List.pairwise_insertionSort _ _

theorem validatorUpdates_eq {ord ord' pm pm'} (ho : (ord pm).Perm pm) (ho' : (ord' pm').Perm pm')
    (h : keysNodup pm) (hp : pm.Perm pm') : validatorUpdates ord pm = validatorUpdates ord' pm' := by
  have p1 := validatorUpdates_perm ord pm ho
  have p2 := validatorUpdates_perm ord' pm' ho'
  refine List.Perm.eq_of_pairwise (le := fun a b => bytesLe a.1 b.1 = true) ?_ (validatorUpdates_sorted _ _)
    (validatorUpdates_sorted _ _) (p1.trans (hp.trans p2.symm))
  rintro ⟨k, p⟩ ⟨j, q⟩ ha hb h1 h2
  have hkj : k = j := bytesLe_antisymm h1 h2
  subst hkj
  have m1 : (k, p) ∈ pm := p1.mem_iff.1 ha
  have m2 : (k, q) ∈ pm := hp.mem_iff.2 (p2.mem_iff.1 hb)
  rw [← lookup_iff_mem h] at m1 m2
  rw [m1] at m2
  simp at m2; rw [m2]

/-! ## The difference of two validator sets -/

theorem diff_removed (newpm : Powermap) (l : Powermap) (acc : Powermap) (k) :
    (l.foldl (fun res e => if (newpm.lookup e.1).isSome then res else Powermap.set res e.1 0) acc).lookup k =
      if k ∈ l.map (·.1) ∧ newpm.lookup k = none then some 0 else acc.lookup k := by
  induction l generalizing acc with
  | nil => simp
  | cons e l ih =>
    rw [List.foldl_cons, ih]
    have hacc : (if (newpm.lookup e.1).isSome then acc else acc.set e.1 0).lookup k =
        if k = e.1 ∧ newpm.lookup k = none then some 0 else acc.lookup k := by
      by_cases h2 : (newpm.lookup e.1).isSome
      · rw [if_pos h2, if_neg]
        rintro ⟨rfl, h⟩
        rw [h] at h2; simp at h2
      · rw [if_neg h2, lookup_set]
        by_cases h3 : k = e.1
        · subst h3
          have : newpm.lookup e.1 = none := Option.not_isSome_iff_eq_none.1 h2
          simp [this]
        · simp [h3]
    rw [hacc]
    simp only [List.map_cons, List.mem_cons]
    generalize newpm.lookup k = x
    generalize acc.lookup k = y
    by_cases h1 : x = none <;> by_cases h2 : k ∈ l.map (·.1) <;> by_cases h3 : k = e.1 <;>
      simp only [h1, h2, h3, and_true, and_false, if_true, if_false, or_true, true_or, or_false, ite_self] <;> rfl

theorem diff_changed (oldpm : Powermap) (l : Powermap) (hn : keysNodup l) (acc : Powermap) (k) :
    (l.foldl (fun res e => if oldpm.get e.1 ≠ e.2 then Powermap.set res e.1 e.2 else res) acc).lookup k =
      match l.lookup k with
      | some p => if oldpm.get k ≠ p then some p else acc.lookup k
      | none => acc.lookup k := by
  induction l generalizing acc with
  | nil => simp
  | cons e l ih =>
    obtain ⟨j, q⟩ := e
    unfold keysNodup at hn
    simp only [List.map_cons, List.nodup_cons] at hn
    rw [List.foldl_cons, ih hn.2, lookup_cons_if]
    by_cases hk : k = j
    · subst hk
      have : l.lookup k = none := lookup_none_iff.2 hn.1
      simp only [this, if_true]
      split
      · rw [lookup_set, if_pos rfl]
      · rfl
    · simp only [hk, if_false]
      have hacc : ∀ acc : Powermap, (if oldpm.get j ≠ q then Powermap.set acc j q else acc).lookup k = acc.lookup k := by
        intro acc
        split
        · rw [lookup_set, if_neg hk]
        · rfl
      cases l.lookup k with
      | none => exact hacc acc
      | some p => simp only; rw [hacc]

theorem foldl_keysNodup {α} (l : List α) (f : Powermap → α → Powermap) (hf : ∀ pm a, keysNodup pm → keysNodup (f pm a))
    (acc : Powermap) (h : keysNodup acc) : keysNodup (l.foldl f acc) := by
  induction l generalizing acc with
  | nil => exact h
  | cons a l ih => exact ih _ (hf _ _ h)

theorem keysNodup_nil : keysNodup [] := by simp [keysNodup]

theorem diff_keysNodup (oldpm newpm) : keysNodup (diffPowermaps oldpm newpm) := by
  unfold diffPowermaps
  apply foldl_keysNodup
  · intro pm e h
    split
    · exact keysNodup_set h _ _
    · exact h
  · apply foldl_keysNodup
    · intro pm e h
      split
      · exact h
      · exact keysNodup_set h _ _
    · exact keysNodup_nil

/-- The updates, as a function. -/
theorem diff_lookup (oldpm newpm : Powermap) (hn : keysNodup newpm) (k) :
    (diffPowermaps oldpm newpm).lookup k =
      match newpm.lookup k with
      | some p => if oldpm.get k ≠ p then some p else none
      | none => if (oldpm.lookup k).isSome then some 0 else none := by
  unfold diffPowermaps
  rw [diff_changed _ _ hn, diff_removed]
  cases h : newpm.lookup k with
  | some p => simp
  | none =>
    by_cases hk : k ∈ oldpm.map (·.1)
    · have : (oldpm.lookup k).isSome := by
        rw [Option.isSome_iff_ne_none]; intro hc; exact (lookup_none_iff.1 hc) hk
      simp [hk, this]
    · have : oldpm.lookup k = none := lookup_none_iff.2 hk
      simp [hk, this]

theorem diff_perm {oldpm oldpm' newpm newpm' : Powermap} (h1 : keysNodup oldpm) (h2 : keysNodup newpm)
    (p1 : oldpm'.Perm oldpm) (p2 : newpm'.Perm newpm) : (diffPowermaps oldpm' newpm').Perm (diffPowermaps oldpm newpm) := by
  refine perm_of_lookup (diff_keysNodup _ _) (diff_keysNodup _ _) ?_
  intro k
  rw [diff_lookup _ _ (keysNodup_perm h2 p2), diff_lookup _ _ h2, lookup_perm h2 p2, lookup_perm h1 p1]
  simp only [Powermap.get, lookup_perm h1 p1]
  rfl

theorem applyUpdates_lookup (ups : Powermap) (h : keysNodup ups) (p : ValidatorPubkey → Int) (k) :
    applyUpdates p ups k = (ups.lookup k).getD (p k) := by
  unfold applyUpdates
  induction ups generalizing p with
  | nil => rfl
  | cons e ups ih =>
    obtain ⟨j, q⟩ := e
    unfold keysNodup at h
    simp only [List.map_cons, List.nodup_cons] at h
    rw [List.foldl_cons, ih h.2, lookup_cons_if]
    by_cases hk : k = j
    · subst hk
      have : ups.lookup k = none := lookup_none_iff.2 h.1
      simp [this]
    · simp [hk]

/-- Applying the updates turns the old validator set into the new one. -/
theorem applyUpdates_diff {o : Orders} (ho : o.Lawful) {oldpm newpm : Powermap} (h1 : keysNodup oldpm)
    (h2 : keysNodup newpm) :
    applyUpdates oldpm.get (validatorUpdates o.updates (diffPowermaps (o.old oldpm) (o.new newpm))) = newpm.get := by
  funext k
  have hp := (validatorUpdates_perm o.updates _ (ho.updates (diffPowermaps (o.old oldpm) (o.new newpm)))).trans
    (diff_perm h1 h2 (ho.old _) (ho.new _))
  rw [applyUpdates_lookup _ (keysNodup_perm (diff_keysNodup _ _) hp), lookup_perm (diff_keysNodup _ _) hp,
    diff_lookup _ _ h2]
  unfold Powermap.get
  cases h : newpm.lookup k with
  | some p =>
    simp only [Option.getD_some]
    split
    · rfl
    · next hc => simpa using hc
  | none =>
    cases h' : oldpm.lookup k with
    | none => simp
    | some q => simp

/-! ## makePowermap -/

theorem get_set (pm : Powermap) (k p j) : (pm.set k p).get j = if j = k then p else pm.get j := by
  unfold Powermap.get
  rw [lookup_set]
  split <;> rfl

theorem makePowermap_get (ids : Addr → Option ValidatorPubkey) (keypers : List Addr) (k) :
    (makePowermap ids keypers).get k =
      10 * (keypers.countP (fun a => decide ((ids a).getD nonExistentValidator = k)) : Int) := by
  unfold makePowermap
  have : ∀ acc : Powermap, (keypers.foldl (fun pm a =>
      pm.set ((ids a).getD nonExistentValidator) (pm.get ((ids a).getD nonExistentValidator) + 10)) acc).get k =
      acc.get k + 10 * (keypers.countP (fun a => decide ((ids a).getD nonExistentValidator = k)) : Int) := by
    induction keypers with
    | nil => intro acc; simp
    | cons a as ih =>
      intro acc
      rw [List.foldl_cons, ih, get_set, List.countP_cons]
      by_cases h : k = (ids a).getD nonExistentValidator
      · subst h; simp; ring
      · have h' : ¬ (ids a).getD nonExistentValidator = k := fun hc => h hc.symm
        simp [h, h']
  have h := this []
  simp only [Powermap.get, List.lookup_nil, Option.getD_none, zero_add] at h ⊢
  exact h

theorem makePowermap_keysNodup (ids keypers) : keysNodup (makePowermap ids keypers) := by
  unfold makePowermap
  exact foldl_keysNodup _ _ (fun pm a h => keysNodup_set h _ _) _ keysNodup_nil

theorem genesisPowermap_keysNodup {vs pm pm'} (h : genesisPowermap vs pm = some pm') (hn : keysNodup pm) :
    keysNodup pm' := by
  induction vs generalizing pm with
  | nil => simp [genesisPowermap] at h; subst h; exact hn
  | cons v vs ih =>
    obtain ⟨k, p⟩ := v
    cases k with
    | none => simp [genesisPowermap] at h
    | some k =>
      simp only [genesisPowermap] at h
      split at h
      · simp at h
      · exact ih h (keysNodup_set hn _ _)

theorem genesisPowermap_get {vs pm pm'} (h : genesisPowermap vs pm = some pm') (k) :
    pm'.get k = pm.get k + ((vs.filter (fun v => decide (v.1 = some k))).map (·.2)).sum := by
  induction vs generalizing pm with
  | nil => simp [genesisPowermap] at h; subst h; simp
  | cons v vs ih =>
    obtain ⟨j, p⟩ := v
    cases j with
    | none => simp [genesisPowermap] at h
    | some j =>
      simp only [genesisPowermap] at h
      split at h
      · simp at h
      · rw [ih h, get_set, List.filter_cons]
        by_cases hk : k = j
        · subst hk; simp; ring
        · have : ¬ j = k := fun hc => hk hc.symm
          simp [hk, this]

/-! ## EndBlock -/

theorem currentValidators_keysNodup {s : State} (h : keysNodup s.validators) : keysNodup (currentValidators s) := by
  unfold currentValidators
  split
  · exact makePowermap_keysNodup _ _
  · exact h

theorem endBlock_validators {o s h s' ups} (ho : o.Lawful) (hv : keysNodup s.validators)
    (he : endBlock o s h = some (s', ups)) :
    keysNodup s'.validators ∧ keysNodup ups ∧
    ups.Pairwise (fun a b => bytesLe a.1 b.1 = true) ∧
    (s.devMode = false → applyUpdates s.validators.get ups = s'.validators.get) ∧
    (s.devMode = true → ups = []) ∧
    s'.validators = (match s'.configs.reverse.find? (fun c => c.started && c.validatorsUpdated) with
      | some c => makePowermap s.identities c.keypers
      | none => s.validators) := by
  unfold endBlock at he
  split at he
  · simp at he
  next last hl =>
  split at he
  · simp at he
  next s₁ last₁ h₁ =>
  have hs₁ : s₁.validators = s.validators ∧ s₁.devMode = s.devMode ∧ s₁.identities = s.identities := by
    unfold maybeStartConfig at h₁
    split at h₁
    · split at h₁
      · simp at h₁
      · split at h₁ <;> simp at h₁ <;> rw [← h₁.1] <;> exact ⟨rfl, rfl, rfl⟩
    · simp at h₁; rw [← h₁.1]; exact ⟨rfl, rfl, rfl⟩
  have hs₂ : (maybeUpdateValidators s₁ last₁).validators = s.validators ∧
      (maybeUpdateValidators s₁ last₁).devMode = s.devMode ∧
      (maybeUpdateValidators s₁ last₁).identities = s.identities := by
    unfold maybeUpdateValidators
    split <;> exact hs₁
  generalize maybeUpdateValidators s₁ last₁ = s₂ at he hs₂
  have hn := currentValidators_keysNodup (s := s₂) (by rw [hs₂.1]; exact hv)
  simp only [hs₂.1, hs₂.2.1] at he
  have hperm := validatorUpdates_perm o.updates _
      (ho.updates (diffPowermaps (o.old s.validators) (o.new (currentValidators s₂))))
  have hval : currentValidators s₂ = (match s₂.configs.reverse.find? (fun c => c.started && c.validatorsUpdated) with
      | some c => makePowermap s.identities c.keypers
      | none => s.validators) := by
    unfold currentValidators
    rw [hs₂.1, hs₂.2.2]
    rfl
  split at he
  · next hd =>
    simp at he
    rw [← he.1, he.2]
    refine ⟨hn, keysNodup_nil, by simp, by simp [hd], by simp, hval⟩
  · next hd =>
    simp at he
    rw [← he.1, ← he.2]
    refine ⟨hn, keysNodup_perm (diff_keysNodup _ _) hperm, validatorUpdates_sorted _ _, ?_, ?_, hval⟩
    · intro _
      exact applyUpdates_diff ho hv hn
    · intro h; exact absurd h hd

theorem Exec.validators {ps dev log s} (h : Exec ps dev log s) : keysNodup s.validators := by
  induction h with
  | start => exact keysNodup_nil
  | @step log s o op s' r hE ho hs ih =>
    cases op with
    | initChain req =>
      simp only [App.step, Option.map_eq_some_iff] at hs
      obtain ⟨s₁, h₁, h₂⟩ := hs
      simp at h₂; obtain ⟨rfl, rfl⟩ := h₂
      rcases initChain_cases h₁ with ⟨keypers, threshold, c, pm, hg, hv, hc, hk, hpm, rfl⟩ | ⟨rfl, _⟩
      · exact genesisPowermap_keysNodup hpm keysNodup_nil
      · exact ih
    | checkTx tx =>
      simp [App.step] at hs
      obtain ⟨rfl, rfl⟩ := hs
      obtain ⟨c, hc⟩ := checkTx_eq (s := s) (tx := tx)
      rw [hc]; exact ih
    | deliverTx tx =>
      simp only [App.step, Option.map_eq_some_iff] at hs
      obtain ⟨⟨s₁, d⟩, h₁, h₂⟩ := hs
      simp at h₂; obtain ⟨rfl, rfl⟩ := h₂
      rcases deliverTx_cases h₁ with ⟨rfl, _⟩ | ⟨a, m, _, _, _, he⟩
      · exact ih
      · generalize m.msg = msg at he
        cases he <;> exact ih
    | endBlock ht =>
      simp only [App.step, Option.map_eq_some_iff] at hs
      obtain ⟨⟨s₁, d⟩, h₁, h₂⟩ := hs
      simp at h₂; obtain ⟨rfl, rfl⟩ := h₂
      exact (endBlock_validators ho ih h₁).1
    | commit =>
      simp [App.step] at hs
      obtain ⟨rfl, rfl⟩ := hs
      exact ih

/-! ## Iteration order does not matter -/

theorem ConfigVoting.outcome_ord {o o' : Orders} (ho : o.Lawful) (ho' : o'.Lawful) {v : ConfigVoting} {votes n c a i}
    (h : VoteInv votes n c) (hv : v.votes = setVote votes a i) :
    v.outcome o.idx (toInt64 c.threshold) = v.outcome o'.idx (toInt64 c.threshold) := by
  unfold ConfigVoting.outcome
  rw [hv, outcomeIndex_setVote ho.idx h, outcomeIndex_setVote ho'.idx h]

theorem EonStartVoting.outcome_ord {o o' : Orders} (ho : o.Lawful) (ho' : o'.Lawful) {v : EonStartVoting}
    {votes n c a i} (h : VoteInv votes n c) (hv : v.votes = setVote votes a i) :
    v.outcome o.idx (toInt64 c.threshold) = v.outcome o'.idx (toInt64 c.threshold) := by
  unfold EonStartVoting.outcome
  rw [hv, outcomeIndex_setVote ho.idx h, outcomeIndex_setVote ho'.idx h]

theorem deliverMessage_ord {ps} {o o' : Orders} (ho : o.Lawful) (ho' : o'.Lawful) {s} (h : Inv s) (m a) :
    deliverMessage ps o.idx s m a = deliverMessage ps o'.idx s m a := by
  cases m with
  | batchConfig m =>
    simp only [deliverMessage, deliverBatchConfig]
    split
    · rfl
    next bc hbc =>
    split
    · rfl
    next last hl =>
    split_ifs <;> try rfl
    split
    · rfl
    next cv hcv =>
    obtain ⟨_, i, hv, _⟩ := ConfigVoting.addVote_cases hcv
    have := ConfigVoting.outcome_ord ho ho' (h.cv _ (ids_getLast? hl)) hv
    rw [erase_threshold] at this
    rw [this]
  | eonStartVote b =>
    simp only [deliverMessage, deliverEonStartVote]
    split
    · rfl
    next c hc =>
    split_ifs <;> try rfl
    obtain ⟨i, hv, _⟩ :=
      EonStartVoting.addVote_cases (v := (s.eonStartVotings c.configIndex).getD ⟨[], []⟩) (a := a) (b := b)
    have := EonStartVoting.outcome_ord (v := countEonStartVote s a c b) ho ho' (h.ev_getD (getConfig_mem hc)) hv
    rw [this]
  | _ => rfl

theorem step_ord {ps} {o o' : Orders} (ho : o.Lawful) (ho' : o'.Lawful) {s} (h : Inv s)
    (hv : keysNodup s.validators) (op) : step ps o s op = step ps o' s op := by
  cases op with
  | deliverTx tx =>
    simp only [step]
    congr 1
    unfold deliverTx
    split
    · rfl
    · split_ifs <;> try rfl
      refine deliverMessage_ord ho ho' ?_ _ _
      exact ⟨h.cfg, h.cv, h.ev⟩
  | endBlock ht =>
    simp only [step]
    congr 1
    unfold endBlock
    split
    · rfl
    next last hl =>
    split
    · rfl
    next s₁ last₁ h₁ =>
    have hs₂ : keysNodup (maybeUpdateValidators s₁ last₁).validators := by
      have : (maybeUpdateValidators s₁ last₁).validators = s.validators := by
        have h1 : (maybeUpdateValidators s₁ last₁).validators = s₁.validators := by
          unfold maybeUpdateValidators; split <;> rfl
        rw [h1]
        unfold maybeStartConfig at h₁
        split at h₁
        · split at h₁
          · simp at h₁
          · split at h₁ <;> simp at h₁ <;> rw [← h₁.1]
        · simp at h₁; rw [← h₁.1]
      rw [this]; exact hv
    generalize maybeUpdateValidators s₁ last₁ = s₂ at hs₂
    have hn := currentValidators_keysNodup hs₂
    have : validatorUpdates o.updates (diffPowermaps (o.old s₂.validators) (o.new (currentValidators s₂))) =
        validatorUpdates o'.updates (diffPowermaps (o'.old s₂.validators) (o'.new (currentValidators s₂))) := by
      apply validatorUpdates_eq (ho.updates _) (ho'.updates _) (diff_keysNodup _ _)
      exact (diff_perm hs₂ hn (ho.old _) (ho.new _)).trans (diff_perm hs₂ hn (ho'.old _) (ho'.new _)).symm
    simp only [this]
  | _ => rfl

end Shutter.App
