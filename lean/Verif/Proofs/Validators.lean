import Verif.Spec.Validators
import Verif.Proofs.AppCrash
import Verif.Proofs.AppValidators
import Verif.Props.App

namespace Shutter.App

/-- The total power is at most `B`. -/
def Tot (f : ValidatorPubkey → Int) (B : Int) : Prop := ∀ ks : Finset ValidatorPubkey, ∑ k ∈ ks, f k ≤ B

theorem sum_if_le (ks : Finset ValidatorPubkey) (x : ValidatorPubkey) (v : Int) (hv : 0 ≤ v) :
    (∑ k ∈ ks, if x = k then v else 0) ≤ v := by
  rw [Finset.sum_ite_eq]
  split <;> omega

theorem tot_genesis {req : InitRequest} (g : GoodGenesis req) : Tot (genesisPower req) ((req.validators.map (·.2)).sum) := by
  intro ks
  unfold genesisPower
  have : ∀ vs : List (Option Bytes × Int), (∀ v ∈ vs, 0 < v.2) →
      (∑ k ∈ ks, ((vs.filter (fun v => decide (v.1 = some k))).map (·.2)).sum) ≤ (vs.map (·.2)).sum := by
    intro vs hv
    induction vs with
    | nil => simp
    | cons v vs ih =>
      have h1 := ih (fun x hx => hv x (List.mem_cons_of_mem _ hx))
      have h2 := hv v List.mem_cons_self
      have h3 : ∀ k : ValidatorPubkey, (((v :: vs).filter (fun v => decide (v.1 = some k))).map (·.2)).sum =
          (if v.1 = some k then v.2 else 0) + ((vs.filter (fun v => decide (v.1 = some k))).map (·.2)).sum := by
        intro k
        by_cases h : v.1 = some k <;> simp [List.filter_cons, h]
      simp only [h3, Finset.sum_add_distrib, List.map_cons, List.sum_cons]
      have h4 : (∑ k ∈ ks, if v.1 = some k then v.2 else 0) ≤ v.2 := by
        cases hk : v.1 with
        | none => simp; omega
        | some x => simpa using sum_if_le ks x v.2 (le_of_lt h2)
      omega
  exact this _ g.positive

theorem tot_makePowermap (ids : Addr → Option ValidatorPubkey) (keypers : List Addr) :
    Tot (makePowermap ids keypers).get (10 * keypers.length) := by
  intro ks
  simp only [makePowermap_get]
  rw [← Finset.mul_sum]
  suffices h : (∑ k ∈ ks, (keypers.countP (fun a => decide ((ids a).getD nonExistentValidator = k)) : Int)) ≤ keypers.length by
    omega
  induction keypers with
  | nil => simp
  | cons a l ih =>
    simp only [List.countP_cons, Nat.cast_add, Finset.sum_add_distrib, List.length_cons]
    have : (∑ k ∈ ks, ((if decide ((ids a).getD nonExistentValidator = k) = true then 1 else 0 : Nat) : Int)) ≤ 1 := by
      have h := sum_if_le ks ((ids a).getD nonExistentValidator) 1 (by omega)
      refine le_trans (le_of_eq ?_) h
      apply Finset.sum_congr rfl
      intro k _
      by_cases hk : (ids a).getD nonExistentValidator = k <;> simp [hk]
    push_cast at this ⊢
    omega

/-- The entries of the map are keys of 32 bytes with positive power. -/
def Fine (pm : Powermap) : Prop := ∀ e ∈ pm, 0 < e.2 ∧ e.1.length = 32

theorem mem_set {pm : Powermap} {k p e} (h : e ∈ pm.set k p) : e = (k, p) ∨ e ∈ pm := by
  induction pm with
  | nil => simpa [Powermap.set] using h
  | cons x pm ih =>
    obtain ⟨j, q⟩ := x
    unfold Powermap.set at h
    split at h
    · rcases List.mem_cons.1 h with h | h
      · exact Or.inl h
      · exact Or.inr (List.mem_cons_of_mem _ h)
    · rcases List.mem_cons.1 h with h | h
      · exact Or.inr (h ▸ List.mem_cons_self)
      · rcases ih h with h | h
        · exact Or.inl h
        · exact Or.inr (List.mem_cons_of_mem _ h)

theorem set_ne_nil (pm : Powermap) (k p) : pm.set k p ≠ [] := by
  cases pm with
  | nil => simp [Powermap.set]
  | cons x pm => obtain ⟨j, q⟩ := x; unfold Powermap.set; split <;> simp

theorem Fine.get_nonneg {pm : Powermap} (h : Fine pm) (k) : 0 ≤ pm.get k := by
  unfold Powermap.get
  cases hk : pm.lookup k with
  | none => simp
  | some p =>
    have : (k, p) ∈ pm := by
      induction pm with
      | nil => simp at hk
      | cons x pm ih =>
        obtain ⟨j, q⟩ := x
        rw [lookup_cons_if] at hk
        split at hk
        · next e => cases hk; subst e; exact List.mem_cons_self
        · exact List.mem_cons_of_mem _ (ih (fun e he => h e (List.mem_cons_of_mem _ he)) hk)
    exact le_of_lt (h _ this).1

theorem Fine.set {pm : Powermap} (h : Fine pm) {k p} (hp : 0 < p) (hk : k.length = 32) : Fine (pm.set k p) := by
  intro e he
  rcases mem_set he with rfl | he
  · exact ⟨hp, hk⟩
  · exact h e he

theorem nonExistent_length : nonExistentValidator.length = 32 := by decide +kernel

theorem fine_make (ids : Addr → Option ValidatorPubkey) (hid : ∀ a k, ids a = some k → k.length = 32) (keypers : List Addr) :
    Fine (makePowermap ids keypers) ∧ (keypers ≠ [] → makePowermap ids keypers ≠ []) := by
  unfold makePowermap
  have hk : ∀ a, ((ids a).getD nonExistentValidator).length = 32 := by
    intro a
    cases h : ids a with
    | none => simpa using nonExistent_length
    | some k => simpa using hid a k h
  have : ∀ acc : Powermap, Fine acc → Fine (keypers.foldl (fun pm a =>
      pm.set ((ids a).getD nonExistentValidator) (pm.get ((ids a).getD nonExistentValidator) + 10)) acc) ∧
      ((keypers ≠ [] ∨ acc ≠ []) → (keypers.foldl (fun pm a =>
      pm.set ((ids a).getD nonExistentValidator) (pm.get ((ids a).getD nonExistentValidator) + 10)) acc) ≠ []) := by
    induction keypers with
    | nil => intro acc h; exact ⟨h, by simp⟩
    | cons a l ih =>
      intro acc h
      have := ih _ (h.set (k := (ids a).getD nonExistentValidator)
        (p := acc.get ((ids a).getD nonExistentValidator) + 10) (by have := h.get_nonneg ((ids a).getD nonExistentValidator); omega) (hk a))
      exact ⟨this.1, fun _ => this.2 (Or.inr (set_ne_nil _ _ _))⟩
  have h := this [] (fun e he => by simp at he)
  exact ⟨h.1, fun hne => h.2 (Or.inl hne)⟩

theorem fine_genesis {vs : List (Option Bytes × Int)} (hv : ∀ v ∈ vs, 0 < v.2) : ∀ {pm pm' : Powermap},
    genesisPowermap vs pm = some pm' → Fine pm → Fine pm' ∧ ((vs ≠ [] ∨ pm ≠ []) → pm' ≠ []) := by
  induction vs with
  | nil => intro pm pm' h hf; simp [genesisPowermap] at h; subst h; exact ⟨hf, by simp⟩
  | cons v vs ih =>
    obtain ⟨k, p⟩ := v
    intro pm pm' h hf
    cases k with
    | none => simp [genesisPowermap] at h
    | some k =>
      rw [genesisPowermap] at h
      split at h
      · cases h
      · next hk =>
        have hp := hv _ List.mem_cons_self
        have := ih (fun x hx => hv x (List.mem_cons_of_mem _ hx)) h
          (hf.set (k := k) (p := pm.get k + p) (by have := hf.get_nonneg k; simp only at hp; omega) (by omega))
        exact ⟨this.1, fun _ => this.2 (Or.inr (set_ne_nil _ _ _))⟩

/-- What holds once the chain has begun. -/
structure GoodState (B : Int) (s : State) : Prop where
  fine : Fine s.validators
  present : s.validators ≠ []
  total : Tot s.validators.get B
  ids : ∀ a k, s.identities a = some k → k.length = 32
  configs : ∀ c ∈ s.configs, c.ensureValid = true

theorem ensureValid_iff {c : BatchConfig} : c.ensureValid = true ↔ c.keypers ≠ [] ∧ c.threshold ≠ 0 ∧ toInt64 c.threshold ≤ c.keypers.length := by
  unfold BatchConfig.ensureValid
  by_cases h1 : c.keypers.length = 0
  · simp [h1, List.length_eq_zero_iff.1 h1]
  · have : c.keypers ≠ [] := fun h => h1 (by simp [h])
    by_cases h2 : c.threshold = 0
    · simp [h1, h2]
    · by_cases h3 : toInt64 c.threshold > c.keypers.length
      · simp [h1, h2, h3]
      · simp [h1, h2, h3, this]; omega

theorem ensureValid_erase {c d : BatchConfig} (h : c.erase = d.erase) : c.ensureValid = d.ensureValid := by
  simp only [BatchConfig.erase, BatchConfig.mk.injEq] at h
  unfold BatchConfig.ensureValid
  rw [h.2.1, h.2.2.1]

theorem find_mem {l : List BatchConfig} {p : BatchConfig → Bool} {c} (h : l.reverse.find? p = some c) : c ∈ l := by
  have := List.mem_of_find?_eq_some h
  simpa using this

/-- The configs after delivering a message. -/
theorem eff_configs {ps ord s a m s' d} (h : Eff ps ord s a m s' d) :
    s'.configs = s.configs ∨ ∃ bc last, lastConfig s = some last ∧ checkConfig last bc = true ∧ s'.configs = s.configs ++ [bc] := by
  cases h with
  | configAdded m bc last cv i h1 h2 h3 => exact Or.inr ⟨bc, last, h2, h3, by simp [added, updateCheckTxMembers]⟩
  | configAddedDKG m bc last cv i h1 h2 h3 =>
    refine Or.inr ⟨bc, last, h2, h3, ?_⟩
    simp [startDKG, added, updateCheckTxMembers]
  | eonStarted b c i start => exact Or.inl (by simp [startDKG])
  | _ => exact Or.inl rfl

theorem eff_rest {ps ord s a m s' d} (h : Eff ps ord s a m s' d) :
    s'.validators = s.validators ∧ s'.devMode = s.devMode ∧
      ∀ b k, s'.identities b = some k → s.identities b = some k ∨ k.length = 32 := by
  cases h with
  | checkIn vk ek pk h1 h2 h3 h4 =>
    refine ⟨rfl, rfl, ?_⟩
    intro b k hb
    by_cases hba : b = a
    · subst hba; simp at hb; subst hb; exact Or.inr h3
    · simp only [Function.update_of_ne hba] at hb; exact Or.inl hb
  | configAdded => exact ⟨rfl, rfl, fun _ _ h => Or.inl h⟩
  | configAddedDKG => exact ⟨rfl, rfl, fun _ _ h => Or.inl h⟩
  | eonStarted => exact ⟨rfl, rfl, fun _ _ h => Or.inl h⟩
  | _ => exact ⟨rfl, rfl, fun _ _ h => Or.inl h⟩

theorem deliver_eff {ps o s tx s' r} (h : step ps o s (.deliverTx tx) = some (s', r)) :
    s' = s ∨ ∃ a m d, Eff ps o.idx (withNonce s a m.randomNonce) a m.msg s' d ∧ tx = some (a, m) ∧ r = .deliverTx d := by
  simp only [step, Option.map_eq_some_iff] at h
  obtain ⟨⟨s₁, d⟩, h1, h2⟩ := h
  simp only [Prod.mk.injEq] at h2
  obtain ⟨rfl, rfl⟩ := h2
  rcases deliverTx_cases h1 with ⟨h3, _⟩ | ⟨a, m, h3, _, _, hE⟩
  · exact Or.inl h3
  · exact Or.inr ⟨a, m, d, hE, h3, rfl⟩

theorem good_step {B : Int} {ps o s op s' r} (g : GoodState B s) (ho : o.Lawful) (hn : keysNodup s.validators)
    (hs : step ps o s op = some (s', r)) (hb : ∀ c ∈ s'.configs, 10 * (c.keypers.length : Int) ≤ B) : GoodState B s' := by
  cases op with
  | initChain req =>
    simp only [App.step, Option.map_eq_some_iff] at hs
    obtain ⟨s₁, hi, he⟩ := hs
    simp only [Prod.mk.injEq] at he
    obtain ⟨rfl, rfl⟩ := he
    rcases initChain_cases hi with ⟨ks, t, c, pm, _, _, hc, hk, hg, rfl⟩ | ⟨rfl, _⟩
    · have := g.configs c (by simp [hc])
      exact absurd hk (ensureValid_iff.1 this).1
    · exact ⟨g.fine, g.present, g.total, g.ids, g.configs⟩
  | commit =>
    simp only [App.step, Option.some.injEq, Prod.mk.injEq] at hs
    obtain ⟨rfl, rfl⟩ := hs
    exact ⟨g.fine, g.present, g.total, g.ids, g.configs⟩
  | checkTx tx =>
    simp only [App.step, Option.some.injEq, Prod.mk.injEq] at hs
    obtain ⟨rfl, rfl⟩ := hs
    obtain ⟨c, hc⟩ := checkTx_eq (s := s) (tx := tx)
    rw [hc]; exact ⟨g.fine, g.present, g.total, g.ids, g.configs⟩
  | deliverTx tx =>
    rcases deliver_eff hs with rfl | ⟨a, m, d, hE, _, _⟩
    · exact g
    · obtain ⟨h1, _, h3⟩ := eff_rest hE
      refine ⟨by rw [h1]; exact g.fine, by rw [h1]; exact g.present, by rw [h1]; exact g.total, ?_, ?_⟩
      · intro b k hk
        rcases h3 b k hk with h | h
        · exact g.ids b k h
        · exact h
      · intro c hc
        rcases eff_configs hE with h | ⟨bc, last, _, hcc, h⟩
        · rw [h] at hc; exact g.configs c hc
        · rw [h] at hc
          rcases List.mem_append.1 hc with hc | hc
          · exact g.configs c hc
          · simp at hc; subst hc
            unfold checkConfig at hcc
            by_contra hv
            simp [hv] at hcc
  | endBlock ht =>
    simp only [App.step, Option.map_eq_some_iff] at hs
    obtain ⟨⟨s₁, ups⟩, hi, he⟩ := hs
    simp only [Prod.mk.injEq] at he
    obtain ⟨rfl, rfl⟩ := he
    obtain ⟨last, last', hl, her, _, hc', hs', _⟩ := endBlock_cases hi
    obtain ⟨_, _, _, _, _, hv⟩ := endBlock_validators ho hn hi
    have hcs : ∀ c ∈ s₁.configs, c.ensureValid = true := by
      intro c hc
      rw [hc'] at hc
      rcases List.mem_append.1 hc with hc | hc
      · exact g.configs c (List.mem_of_mem_dropLast hc)
      · simp at hc; subst hc
        rw [ensureValid_erase her]
        exact g.configs _ (List.mem_of_mem_getLast? hl)
    have hid : s₁.identities = s.identities := by rw [hs']
    cases hf : s₁.configs.reverse.find? (fun c => c.started && c.validatorsUpdated) with
    | none =>
      rw [hf] at hv
      simp only at hv
      exact ⟨by rw [hv]; exact g.fine, by rw [hv]; exact g.present, by rw [hv]; exact g.total, by rw [hid]; exact g.ids, hcs⟩
    | some c =>
      rw [hf] at hv
      simp only at hv
      have hm := find_mem hf
      obtain ⟨f1, f2⟩ := fine_make s.identities g.ids c.keypers
      refine ⟨by rw [hv]; exact f1, by rw [hv]; exact f2 (ensureValid_iff.1 (hcs c hm)).1, ?_, by rw [hid]; exact g.ids, hcs⟩
      rw [hv]
      intro ks
      exact le_trans (tot_makePowermap _ _ ks) (hb c hm)

/-- The state after a good genesis. -/
theorem good_genesis {B : Int} {dev req s} (g : GoodGenesis req) (hB : (req.validators.map (·.2)).sum ≤ B)
    (h : initChain (newApp dev) req = some s) : GoodState B s := by
  rcases initChain_cases h with ⟨ks, t, c, pm, _, hv, hc, hk, hg, rfl⟩ | ⟨rfl, c, hc, hv⟩
  · obtain ⟨f1, f2⟩ := fine_genesis g.positive hg (fun e he => by simp at he)
    refine ⟨f1, f2 (Or.inl g.present), ?_, ?_, ?_⟩
    · intro ks'
      refine le_trans (le_of_eq ?_) (le_trans (tot_genesis g ks') hB)
      apply Finset.sum_congr rfl
      intro k _
      show pm.get k = _
      rw [genesisPowermap_get hg k]
      simp [Powermap.get, genesisPower]
    · intro a k hak; simp [newApp] at hak
    · intro c hc; simp at hc; subst hc; exact hv
  · simp [newApp] at hc; subst hc; simp [BatchConfig.ensureValid, BatchConfig.zero] at hv

theorem Exec.good {B : Int} {ps dev log s req} (h : Exec ps dev log s) (hb : Begins log req) (g : GoodGenesis req)
    (hB : (req.validators.map (·.2)).sum ≤ B) (hc : ∀ r ∈ log, ∀ c ∈ r.after.configs, 10 * (c.keypers.length : Int) ≤ B) :
    GoodState B s := by
  induction h with
  | start => obtain ⟨r, rest, h, _⟩ := hb; cases h
  | @step log s o op s' r hE ho hs ih =>
    have hlast := hc ⟨s, op, r, s'⟩ (by simp)
    cases log with
    | nil =>
      have hs0 : s = newApp dev := by
        generalize hl : ([] : List Rec) = l at hE
        cases hE with
        | start => rfl
        | step => simp at hl
      subst hs0
      obtain ⟨r0, rest, h1, h2, _⟩ := hb
      simp only [List.nil_append, List.cons.injEq] at h1
      obtain ⟨rfl, _⟩ := h1
      simp only at h2
      subst h2
      simp only [App.step, Option.map_eq_some_iff] at hs
      obtain ⟨s₁, hi, he⟩ := hs
      simp only [Prod.mk.injEq] at he
      obtain ⟨rfl, rfl⟩ := he
      exact good_genesis g hB hi
    | cons r0 rest =>
      have hb' : Begins (r0 :: rest) req := by
        obtain ⟨r1, rest', h1, h2, h3⟩ := hb
        simp only [List.cons_append, List.cons.injEq] at h1
        obtain ⟨rfl, rfl⟩ := h1
        exact ⟨r0, rest, rfl, h2, fun r' hr' => h3 r' (List.mem_append_left _ hr')⟩
      exact good_step (ih hb' (fun r hr => hc r (List.mem_append_left _ hr))) ho hE.validators hs hlast

/-- The updates of a block can be applied. -/
theorem applicable_of {B : Int} {o s h s' ups} (hB : 2 * B ≤ maxTotalVotingPower) (g : GoodState B s) (g' : GoodState B s')
    (ho : o.Lawful) (hn : keysNodup s.validators) (hn' : keysNodup s'.validators) (hd : s.devMode = false)
    (he : endBlock o s h = some (s', ups)) : Applicable s.validators.get ups := by
  have hu : ups = validatorUpdates o.updates (diffPowermaps (o.old s.validators) (o.new s'.validators)) := by
    obtain ⟨last, last', hl, her, _, hc', hs', _⟩ := endBlock_cases he
    unfold endBlock at he
    split at he
    · cases he
    · split at he
      · cases he
      · next s₁ last₁ h₁ =>
        have hs₁ : s₁.validators = s.validators ∧ s₁.devMode = s.devMode := by
          unfold maybeStartConfig at h₁
          split at h₁
          · split at h₁
            · simp at h₁
            · split at h₁ <;> simp at h₁ <;> rw [← h₁.1] <;> exact ⟨rfl, rfl⟩
          · simp at h₁; rw [← h₁.1]; exact ⟨rfl, rfl⟩
        have hs₂ : (maybeUpdateValidators s₁ last₁).validators = s.validators ∧
            (maybeUpdateValidators s₁ last₁).devMode = s.devMode := by
          unfold maybeUpdateValidators
          split <;> exact hs₁
        simp only [hs₂.1, hs₂.2, hd] at he
        simp only [Bool.false_eq_true, if_false, Option.some.injEq, Prod.mk.injEq] at he
        obtain ⟨rfl, rfl⟩ := he
        rfl
  obtain ⟨_, h2, _, h4, _, _⟩ := endBlock_validators ho hn he
  have hp := (validatorUpdates_perm o.updates _ (ho.updates (diffPowermaps (o.old s.validators) (o.new s'.validators)))).trans
    (diff_perm hn hn' (ho.old _) (ho.new _))
  rw [← hu] at hp
  have key : ∀ u ∈ ups, (s'.validators.lookup u.1 = some u.2) ∨
      (u.2 = 0 ∧ s'.validators.lookup u.1 = none ∧ (s.validators.lookup u.1).isSome) := by
    rintro ⟨k, p⟩ hm
    have hm' := hp.mem_iff.1 hm
    rw [← lookup_iff_mem (diff_keysNodup _ _), diff_lookup _ _ hn'] at hm'
    split at hm'
    · next q hq =>
      split at hm'
      · simp only [Option.some.injEq] at hm'; subst hm'; exact Or.inl hq
      · cases hm'
    · next hq =>
      split at hm'
      · next hs => simp only [Option.some.injEq] at hm'; exact Or.inr ⟨hm'.symm, hq, hs⟩
      · cases hm'
  have ent : ∀ k p, s'.validators.lookup k = some p → 0 < p ∧ k.length = 32 := by
    intro k p hk
    exact g'.fine _ ((lookup_iff_mem hn').1 hk)
  have ent0 : ∀ k p, s.validators.lookup k = some p → 0 < p ∧ k.length = 32 := by
    intro k p hk
    exact g.fine _ ((lookup_iff_mem hn).1 hk)
  have happ := h4 hd
  refine ⟨h2, ?_, ?_, ?_, ?_, ?_⟩
  · intro u hu
    rcases key u hu with h | ⟨_, _, h⟩
    · exact (ent _ _ h).2
    · obtain ⟨p, hp⟩ := Option.isSome_iff_exists.1 h
      exact (ent0 _ _ hp).2
  · intro u hu
    rcases key u hu with h | ⟨h, _, _⟩
    · exact le_of_lt (ent _ _ h).1
    · omega
  · intro u hu h0
    rcases key u hu with h | ⟨_, _, h⟩
    · have := (ent _ _ h).1; omega
    · obtain ⟨p, hp⟩ := Option.isSome_iff_exists.1 h
      have := (ent0 _ _ hp).1
      simp [Powermap.get, hp, this]
  · rw [happ]
    obtain ⟨e, l, hl⟩ := List.exists_cons_of_ne_nil g'.present
    refine ⟨e.1, ?_⟩
    have : s'.validators.lookup e.1 = some e.2 := (lookup_iff_mem hn').2 (by rw [hl]; exact List.mem_cons_self)
    simp only [Powermap.get, this, Option.getD_some]
    exact (ent _ _ this).1
  · intro ks
    refine le_trans (b := ∑ k ∈ ks, (s.validators.get k + s'.validators.get k)) ?_ ?_
    · apply Finset.sum_le_sum
      intro k _
      have a1 := g.fine.get_nonneg k
      have a2 := g'.fine.get_nonneg k
      unfold beforeRemovals
      rw [happ]
      split <;> omega
    · rw [Finset.sum_add_distrib]
      have := g.total ks
      have := g'.total ks
      omega

/-- The configs with updated validators have enough keypers that have checked in. -/
def Updated (s : State) : Prop :=
  ∀ c ∈ s.configs, c.validatorsUpdated = true → c.threshold ≤ countCheckedInKeypers s c.keypers

theorem endBlock_updated {o s h s' ups} (he : endBlock o s h = some (s', ups)) (hu : Updated s) : Updated s' := by
  obtain ⟨_, _, _, _, _, _, hs', _⟩ := endBlock_cases he
  have hid : s'.identities = s.identities := by rw [hs']
  have hcnt : ∀ ks, countCheckedInKeypers s' ks = countCheckedInKeypers s ks := by
    intro ks; unfold countCheckedInKeypers; rw [hid]
  unfold endBlock at he
  split at he
  · cases he
  next last hl =>
  split at he
  · cases he
  next s₁ last₁ h₁ =>
  have hl' : last ∈ s.configs := List.mem_of_mem_getLast? hl
  have hs₁ : s₁.identities = s.identities ∧ last₁.keypers = last.keypers ∧ last₁.threshold = last.threshold ∧
      last₁.validatorsUpdated = last.validatorsUpdated ∧
      ∀ c ∈ s₁.configs, c ∈ s.configs ∨ c = last₁ := by
    unfold maybeStartConfig at h₁
    split at h₁
    · split at h₁
      · cases h₁
      · split at h₁
        · simp only [Option.some.injEq, Prod.mk.injEq] at h₁
          obtain ⟨rfl, rfl⟩ := h₁
          refine ⟨rfl, rfl, rfl, rfl, ?_⟩
          intro c hc
          rcases List.mem_append.1 hc with hc | hc
          · exact Or.inl (List.mem_of_mem_dropLast hc)
          · simp at hc; exact Or.inr hc
        · simp only [Option.some.injEq, Prod.mk.injEq] at h₁
          obtain ⟨rfl, rfl⟩ := h₁
          exact ⟨rfl, rfl, rfl, rfl, fun c hc => Or.inl hc⟩
    · simp only [Option.some.injEq, Prod.mk.injEq] at h₁
      obtain ⟨rfl, rfl⟩ := h₁
      exact ⟨rfl, rfl, rfl, rfl, fun c hc => Or.inl hc⟩
  obtain ⟨i1, i2, i3, i4, i5⟩ := hs₁
  have hcs : s'.configs = (maybeUpdateValidators s₁ last₁).configs := by
    simp only at he
    split at he <;> (simp only [Option.some.injEq, Prod.mk.injEq] at he; obtain ⟨rfl, rfl⟩ := he; rfl)
  have old : ∀ c ∈ s₁.configs, c.validatorsUpdated = true → c.threshold ≤ countCheckedInKeypers s c.keypers := by
    intro c hc hv
    rcases i5 c hc with h | rfl
    · exact hu c h hv
    · rw [i2, i3]; exact hu last hl' (by rw [← i4]; exact hv)
  intro c hc hv
  rw [hcnt]
  rw [hcs] at hc
  unfold maybeUpdateValidators at hc
  split at hc
  · next hcond =>
    rcases List.mem_append.1 hc with hc | hc
    · exact old c (List.mem_of_mem_dropLast hc) hv
    · simp at hc; subst hc
      simp only [Bool.and_eq_true, decide_eq_true_eq] at hcond
      have := hcond.2
      unfold countCheckedInKeypers at this ⊢
      rw [i1] at this
      exact this
  · exact old c hc hv

theorem count_mono {s s' : State} (h : ∀ a k, s.identities a = some k → s'.identities a = some k) (ks : List Addr) :
    countCheckedInKeypers s ks ≤ countCheckedInKeypers s' ks := by
  unfold countCheckedInKeypers
  apply List.countP_mono_left
  intro a _ ha
  obtain ⟨k, hk⟩ := Option.isSome_iff_exists.1 ha
  rw [h a k hk]; rfl

theorem eff_ids {ps ord s a m s' d} (h : Eff ps ord s a m s' d) : ∀ b k, s.identities b = some k → s'.identities b = some k := by
  cases h with
  | checkIn vk ek pk h1 h2 h3 h4 =>
    intro b k hb
    by_cases hba : b = a
    · subst hba; rw [h1] at hb; cases hb
    · simp only [Function.update_of_ne hba]; exact hb
  | configAdded => exact fun _ _ h => h
  | configAddedDKG => exact fun _ _ h => h
  | eonStarted => exact fun _ _ h => h
  | _ => exact fun _ _ h => h

theorem Exec.updated {ps dev log s} (h : Exec ps dev log s) (hn : NotUpdated log) : Updated s := by
  induction h with
  | start => intro c hc hv; simp [newApp, BatchConfig.zero] at hc; subst hc; cases hv
  | @step log s o op s' r hE ho hs ih =>
    have ih := ih (fun r hr => hn r (List.mem_append_left _ hr))
    have hlast := hn ⟨s, op, r, s'⟩ (by simp)
    cases op with
    | initChain req =>
      simp only [App.step, Option.map_eq_some_iff] at hs
      obtain ⟨s₁, hi, he⟩ := hs
      simp only [Prod.mk.injEq] at he
      obtain ⟨rfl, rfl⟩ := he
      rcases initChain_cases hi with ⟨ks, t, c, pm, _, _, hc, hk, hg, rfl⟩ | ⟨rfl, _⟩
      · intro c hc hv; simp at hc; subst hc; cases hv
      · exact ih
    | commit =>
      simp only [App.step, Option.some.injEq, Prod.mk.injEq] at hs
      obtain ⟨rfl, rfl⟩ := hs
      exact ih
    | checkTx tx =>
      simp only [App.step, Option.some.injEq, Prod.mk.injEq] at hs
      obtain ⟨rfl, rfl⟩ := hs
      obtain ⟨c, hc⟩ := checkTx_eq (s := s) (tx := tx)
      rw [hc]; exact ih
    | deliverTx tx =>
      rcases deliver_eff hs with rfl | ⟨a, m, d, hE', _, _⟩
      · exact ih
      · intro c hc hv
        have hids := eff_ids hE'
        refine le_trans ?_ (count_mono hids c.keypers)
        rcases eff_configs hE' with h | ⟨bc, last, _, _, h⟩
        · rw [h] at hc
          exact ih c hc hv
        · rw [h] at hc
          rcases List.mem_append.1 hc with hc | hc
          · exact ih c hc hv
          · simp at hc; subst hc
            have := hlast c h
            rw [this] at hv; cases hv
    | endBlock ht =>
      simp only [App.step, Option.map_eq_some_iff] at hs
      obtain ⟨⟨s₁, ups⟩, hi, he⟩ := hs
      simp only [Prod.mk.injEq] at he
      obtain ⟨rfl, rfl⟩ := he
      exact endBlock_updated hi ih

/-- Has a config with started keypers whose validators are in force. -/
def HasFlags (s : State) : Prop := ∃ c ∈ s.configs, c.started = true ∧ c.validatorsUpdated = true

theorem endBlock_flags {o s h s' ups} (he : endBlock o s h = some (s', ups)) (hf : HasFlags s) : HasFlags s' := by
  unfold endBlock at he
  split at he
  · cases he
  next last hl =>
  split at he
  · cases he
  next s₁ last₁ h₁ =>
  have hl' : s.configs.getLast? = some last := hl
  have h1 : HasFlags s₁ ∧ s₁.configs.getLast? = some last₁ := by
    unfold maybeStartConfig at h₁
    split at h₁
    · split at h₁
      · cases h₁
      · split at h₁
        · simp only [Option.some.injEq, Prod.mk.injEq] at h₁
          obtain ⟨rfl, rfl⟩ := h₁
          refine ⟨?_, by simp⟩
          obtain ⟨c, hc, f1, f2⟩ := hf
          rw [getLast?_eq_some_concat hl'] at hc
          rcases List.mem_append.1 hc with hc | hc
          · exact ⟨c, List.mem_append_left _ hc, f1, f2⟩
          · simp at hc; subst hc
            exact ⟨{ c with started := true }, List.mem_append_right _ (by simp), rfl, f2⟩
        · simp only [Option.some.injEq, Prod.mk.injEq] at h₁
          obtain ⟨rfl, rfl⟩ := h₁
          exact ⟨hf, hl'⟩
    · simp only [Option.some.injEq, Prod.mk.injEq] at h₁
      obtain ⟨rfl, rfl⟩ := h₁
      exact ⟨hf, hl'⟩
  obtain ⟨⟨c, hc, f1, f2⟩, h2⟩ := h1
  have h3 : HasFlags (maybeUpdateValidators s₁ last₁) := by
    unfold maybeUpdateValidators
    split
    · rw [getLast?_eq_some_concat h2] at hc
      rcases List.mem_append.1 hc with hc | hc
      · exact ⟨c, List.mem_append_left _ hc, f1, f2⟩
      · simp at hc; subst hc
        exact ⟨{ c with validatorsUpdated := true }, List.mem_append_right _ (by simp), f1, rfl⟩
    · exact ⟨c, hc, f1, f2⟩
  simp only at he
  split at he <;> (simp only [Option.some.injEq, Prod.mk.injEq] at he; obtain ⟨rfl, rfl⟩ := he; exact h3)

/-- Until a started config has enough keypers the validators are those of the genesis. -/
theorem Exec.genesisOr {ps dev log s req} (h : Exec ps dev log s) (hb : Begins log req) :
    s.validators.get = genesisPower req ∨ HasFlags s := by
  induction h with
  | start => obtain ⟨r, rest, h, _⟩ := hb; cases h
  | @step log s o op s' r hE ho hs ih =>
    cases log with
    | nil =>
      have hs0 : s = newApp dev := by
        generalize hl : ([] : List Rec) = l at hE
        cases hE with
        | start => rfl
        | step => simp at hl
      subst hs0
      obtain ⟨r0, rest, h1, h2, _⟩ := hb
      simp only [List.nil_append, List.cons.injEq] at h1
      obtain ⟨rfl, _⟩ := h1
      simp only at h2
      subst h2
      simp only [App.step, Option.map_eq_some_iff] at hs
      obtain ⟨s₁, hi, he⟩ := hs
      simp only [Prod.mk.injEq] at he
      obtain ⟨rfl, rfl⟩ := he
      left
      rcases initChain_cases hi with ⟨ks, t, c, pm, _, hv, hc, hk, hg, rfl⟩ | ⟨rfl, c, hc, hv⟩
      · ext k
        show pm.get k = _
        rw [genesisPowermap_get hg k]
        simp [Powermap.get, genesisPower]
      · simp [newApp] at hc; subst hc; simp [BatchConfig.ensureValid, BatchConfig.zero] at hv
    | cons r0 rest =>
      obtain ⟨r1, rest', h1, h2, h3⟩ := hb
      simp only [List.cons_append, List.cons.injEq] at h1
      obtain ⟨rfl, rfl⟩ := h1
      have ih := ih ⟨r0, rest, rfl, h2, fun r' hr' => h3 r' (List.mem_append_left _ hr')⟩
      cases op with
      | initChain req' => exact absurd rfl (h3 ⟨s, .initChain req', r, s'⟩ (by simp) req')
      | commit =>
        simp only [App.step, Option.some.injEq, Prod.mk.injEq] at hs
        obtain ⟨rfl, rfl⟩ := hs
        exact ih
      | checkTx tx =>
        simp only [App.step, Option.some.injEq, Prod.mk.injEq] at hs
        obtain ⟨rfl, rfl⟩ := hs
        obtain ⟨c, hc⟩ := checkTx_eq (s := s) (tx := tx)
        rw [hc]; exact ih
      | deliverTx tx =>
        rcases deliver_eff hs with rfl | ⟨a, m, d, hE', _, _⟩
        · exact ih
        · rcases ih with ih | ⟨c, hc, f⟩
          · left; rw [(eff_rest hE').1]; exact ih
          · right
            rcases eff_configs hE' with h | ⟨bc, last, _, _, h⟩
            · exact ⟨c, by rw [h]; exact hc, f⟩
            · exact ⟨c, by rw [h]; exact List.mem_append_left _ hc, f⟩
      | endBlock ht =>
        simp only [App.step, Option.map_eq_some_iff] at hs
        obtain ⟨⟨s₁, ups⟩, hi, he⟩ := hs
        simp only [Prod.mk.injEq] at he
        obtain ⟨rfl, rfl⟩ := he
        rcases ih with ih | ih
        · obtain ⟨_, _, _, _, _, hv⟩ := endBlock_validators ho hE.validators hi
          cases hf : s₁.configs.reverse.find? (fun c => c.started && c.validatorsUpdated) with
          | none => rw [hf] at hv; simp only at hv; left; rw [hv]; exact ih
          | some c =>
            right
            have := List.find?_some hf
            simp only [Bool.and_eq_true] at this
            exact ⟨c, find_mem hf, this⟩
        · exact Or.inr (endBlock_flags hi ih)

theorem HasFlags.find {s : State} (h : HasFlags s) :
    ∃ c ∈ s.configs, c.validatorsUpdated = true ∧ s.configs.reverse.find? (fun c => c.started && c.validatorsUpdated) = some c := by
  cases hf : s.configs.reverse.find? (fun c => c.started && c.validatorsUpdated) with
  | none =>
    obtain ⟨c, hc, f1, f2⟩ := h
    have := List.find?_eq_none.1 hf c (by simpa using hc)
    simp [f1, f2] at this
  | some c =>
    have := List.find?_some hf
    simp only [Bool.and_eq_true] at this
    exact ⟨c, find_mem hf, this.2, rfl⟩

end Shutter.App
