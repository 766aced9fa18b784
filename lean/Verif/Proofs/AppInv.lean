import Verif.Proofs.AppVotes

/-! # The state invariant of the app -/

namespace Shutter.App

/-- A config without its two progress flags (the only fields `EndBlock` changes). -/
def BatchConfig.erase (c : BatchConfig) : BatchConfig := { c with started := false, validatorsUpdated := false }

@[simp] theorem erase_isKeyper (c : BatchConfig) (a) : c.erase.isKeyper a = c.isKeyper a := rfl
@[simp] theorem erase_index (c : BatchConfig) : c.erase.configIndex = c.configIndex := rfl
@[simp] theorem erase_start (c : BatchConfig) : c.erase.startBatchIndex = c.startBatchIndex := rfl
@[simp] theorem erase_keypers (c : BatchConfig) : c.erase.keypers = c.keypers := rfl
@[simp] theorem erase_threshold (c : BatchConfig) : c.erase.threshold = c.threshold := rfl
@[simp] theorem erase_valid (c : BatchConfig) : c.erase.ensureValid = c.ensureValid := rfl

/-- The configs without flags. -/
def ids (s : State) : List BatchConfig := s.configs.map BatchConfig.erase

structure CfgInv (l : List BatchConfig) : Prop where
  first : ∃ c rest, l = c :: rest ∧ c.startBatchIndex = 0 ∧ c.configIndex = 0
  index : l.Pairwise (fun c d => c.configIndex < d.configIndex)
  start : l.Pairwise (fun c d => c.startBatchIndex ≤ d.startBatchIndex)
  valid : ∀ c ∈ l, c.ensureValid = true ∨ (l = [c] ∧ c.keypers = [])
  unique : ∀ c ∈ l.tail, c.keypers.Nodup

structure Inv (s : State) : Prop where
  cfg : CfgInv (ids s)
  cv : ∀ last, (ids s).getLast? = some last →
    VoteInv s.configVoting.votes s.configVoting.candidates.length last
  ev : ∀ ci v, s.eonStartVotings ci = some v → ∃ c ∈ ids s, c.configIndex = ci ∧
    VoteInv v.votes v.candidates.length c

/-! ## Effects of the other calls -/

theorem initChain_cases {s req s'} (h : initChain s req = some s') :
    (∃ keypers threshold c pm, req.genesis = some (keypers, threshold) ∧
      BatchConfig.ensureValid ⟨0, keypers, threshold, zeroAddr, 0, false, false⟩ = true ∧
      s.configs = [c] ∧ c.keypers = [] ∧ genesisPowermap req.validators [] = some pm ∧
      s' = { s with
        validators := pm
        configs := [⟨0, keypers, threshold, zeroAddr, 0, false, false⟩]
        checkTxState := newCheckTxState.setMembers keypers
        chainID := req.chainId }) ∨
    (s' = { s with chainID := req.chainId } ∧ ∃ c, c ∈ s.configs ∧ c.ensureValid = true) := by
  unfold initChain at h
  split at h
  · simp at h
  next keypers threshold hg =>
  simp only at h
  split at h
  · simp at h
  next hv =>
  split at h
  · simp at h
  next c rest hc =>
  split at h
  · next hcond =>
    left
    split at h
    · simp at h
    next pm hpm =>
    have hrest : rest = [] := List.length_eq_zero_iff.1 hcond.1
    subst hrest
    refine ⟨keypers, threshold, c, pm, hg, by simpa using hv, hc, List.length_eq_zero_iff.1 hcond.2, hpm, ?_⟩
    simp at h
    rw [← h]
    simp [updateCheckTxMembers]
  · split at h
    · simp at h
    next heq =>
    right
    simp at h heq
    refine ⟨h.symm, c, by rw [hc]; simp, ?_⟩
    rw [← heq]; simpa using hv

theorem length_sub_two {α} {l : List α} (h : 2 ≤ l.length) : ∃ x, l[l.length - 2]? = some x :=
  ⟨l[l.length - 2], List.getElem?_eq_getElem (by omega)⟩

theorem getLast?_eq_some_concat {α} {l : List α} {x} (h : l.getLast? = some x) : l = l.dropLast ++ [x] :=
  (List.dropLast_append_getLast? x (by simp [h])).symm

/-- `EndBlock`, summarised. -/
theorem endBlock_cases {o s h s' ups} (he : endBlock o s h = some (s', ups)) :
    ∃ last last', lastConfig s = some last ∧ last'.erase = last.erase ∧
      (last.started = true → last'.started = true) ∧
      s'.configs = s.configs.dropLast ++ [last'] ∧
      s' = { s with configs := s'.configs, startedVotes := s'.startedVotes, validators := s'.validators,
                    lastBlockHeight := h } ∧
      ((s'.startedVotes = s.startedVotes ∧ last'.started = last.started) ∨
        (s'.startedVotes = [] ∧ last'.started = true ∧ 2 ≤ s.configs.length ∧
          ∃ prev, s.configs[s.configs.length - 2]? = some prev ∧ prev.threshold ≤ s.startedVotes.length)) := by
  unfold endBlock at he
  split at he
  · simp at he
  next last hl =>
  split at he
  · simp at he
  next s₁ last₁ h₁ =>
  have hl' : s.configs.getLast? = some last := hl
  -- the two intermediate states
  have key₁ : (s₁ = s ∧ last₁ = last) ∨
      (last₁ = { last with started := true } ∧
        s₁ = { s with configs := s.configs.dropLast ++ [{ last with started := true }], startedVotes := [] } ∧
        2 ≤ s.configs.length ∧
          ∃ prev, s.configs[s.configs.length - 2]? = some prev ∧ prev.threshold ≤ s.startedVotes.length) := by
    unfold maybeStartConfig at h₁
    split at h₁
    · next hlen =>
      split at h₁
      · simp at h₁
      next prev hp =>
      split at h₁
      · next hth =>
        right
        simp at h₁
        exact ⟨h₁.2.symm, h₁.1.symm, hlen, prev, hp, hth⟩
      · left; simp at h₁; exact ⟨h₁.1.symm, h₁.2.symm⟩
    · left; simp at h₁; exact ⟨h₁.1.symm, h₁.2.symm⟩
  have key₂ : ∃ last₂, last₂.erase = last.erase ∧ last₂.started = last₁.started ∧
      (maybeUpdateValidators s₁ last₁).configs = s.configs.dropLast ++ [last₂] ∧
      (maybeUpdateValidators s₁ last₁) = { s₁ with configs := s.configs.dropLast ++ [last₂] } := by
    have hc : s₁.configs = s.configs.dropLast ++ [last₁] := by
      rcases key₁ with ⟨rfl, rfl⟩ | ⟨rfl, rfl, _⟩
      · exact getLast?_eq_some_concat hl'
      · rfl
    have hee : last₁.erase = last.erase := by
      rcases key₁ with ⟨_, rfl⟩ | ⟨rfl, _⟩ <;> rfl
    unfold maybeUpdateValidators
    split
    · exact ⟨{ last₁ with validatorsUpdated := true }, hee, rfl, by simp [hc], by simp [hc]⟩
    · exact ⟨last₁, hee, rfl, hc, by rw [← hc]⟩
  obtain ⟨last₂, he₂, hst₂, hc₂, hs₂⟩ := key₂
  have hfin : s' = { maybeUpdateValidators s₁ last₁ with
      validators := currentValidators (maybeUpdateValidators s₁ last₁), lastBlockHeight := h } := by
    simp only at he
    split at he <;> simp at he <;> exact he.1.symm
  refine ⟨last, last₂, hl, he₂, ?_, ?_, ?_, ?_⟩
  · intro hs
    rcases key₁ with ⟨_, rfl⟩ | ⟨rfl, _⟩ <;> simp_all
  · rw [hfin]; exact hc₂
  · rw [hfin, hs₂]
    rcases key₁ with ⟨rfl, _⟩ | ⟨_, rfl, _⟩ <;> rfl
  · rw [hfin, hs₂]
    rcases key₁ with ⟨rfl, rfl⟩ | ⟨rfl, rfl, h2, h3⟩
    · left; exact ⟨rfl, hst₂⟩
    · right; exact ⟨rfl, hst₂, h2, h3⟩

theorem ids_concat {s s' : State} {last last' : BatchConfig} (hl : s.configs.getLast? = some last)
    (hc : s'.configs = s.configs.dropLast ++ [last']) (he : last'.erase = last.erase) : ids s' = ids s := by
  have := getLast?_eq_some_concat hl
  unfold ids
  rw [hc]
  conv_rhs => rw [this]
  simp [he]

theorem ids_endBlock {o s h s' ups} (he : endBlock o s h = some (s', ups)) : ids s' = ids s := by
  obtain ⟨last, last', hl, hee, _, hc, _⟩ := endBlock_cases he
  exact ids_concat hl hc hee

theorem checkTx_eq {s tx} : ∃ c : CheckTxState, (checkTx s tx).1 = { s with checkTxState := c } := by
  unfold checkTx
  split
  · exact ⟨s.checkTxState, rfl⟩
  · split
    · exact ⟨s.checkTxState, rfl⟩
    · split
      · exact ⟨s.checkTxState, rfl⟩
      · exact ⟨_, rfl⟩

/-! ## Preservation -/

theorem ids_getLast? {s : State} {last} (h : lastConfig s = some last) : (ids s).getLast? = some last.erase := by
  unfold lastConfig at h
  simp [ids, h]

theorem checkConfig_iff {last bc} : checkConfig last bc = true ↔
    bc.ensureValid = true ∧ last.startBatchIndex ≤ bc.startBatchIndex ∧ last.configIndex < bc.configIndex := by
  unfold checkConfig
  constructor
  · intro h
    split at h
    · simp at h
    · split at h
      · simp at h
      · split at h
        · simp at h
        · simp_all
  · rintro ⟨h1, h2, h3⟩
    simp [h1, Nat.not_lt.2 h2, h3]

theorem getLast?_mem {α} {l : List α} {x} (h : l.getLast? = some x) : x ∈ l := List.mem_of_getLast? h

theorem pairwise_last {α} {R : α → α → Prop} {l : List α} {x} (h : l.Pairwise R) (hl : l.getLast? = some x)
    (hr : R x x) {y} (hy : y ∈ l) : R y x := by
  rw [getLast?_eq_some_concat hl] at h hy
  rw [List.pairwise_append] at h
  rcases List.mem_append.1 hy with h' | h'
  · exact h.2.2 y h' x (by simp)
  · simp at h'; subst h'; exact hr

theorem last_index {l : List BatchConfig} (h : l.Pairwise (fun c d => c.configIndex < d.configIndex))
    {last} (hl : l.getLast? = some last) {c} (hc : c ∈ l) : c.configIndex ≤ last.configIndex :=
  pairwise_last (R := fun c d : BatchConfig => c.configIndex ≤ d.configIndex)
    (h.imp (fun h => Nat.le_of_lt h)) hl (Nat.le_refl _) hc

theorem ensureValid_keypers {c : BatchConfig} (h : c.ensureValid = true) : c.keypers ≠ [] := by
  unfold BatchConfig.ensureValid at h
  split at h
  · simp at h
  · next hn => intro hc; apply hn; simp [hc]

theorem CfgInv.snoc {l : List BatchConfig} (h : CfgInv l) {last bc} (hl : l.getLast? = some last)
    (hk : last.keypers ≠ []) (hu : bc.keypers.Nodup) (hck : checkConfig last bc = true) : CfgInv (l ++ [bc]) := by
  rw [checkConfig_iff] at hck
  obtain ⟨hv, hs, hi⟩ := hck
  obtain ⟨c, rest, rfl, hc1, hc2⟩ := h.first
  refine ⟨⟨c, rest ++ [bc], by simp, hc1, hc2⟩, ?_, ?_, ?_, ?_⟩
  · rw [List.pairwise_append]
    refine ⟨h.index, by simp, ?_⟩
    intro d hd e he
    simp at he; subst he
    have := last_index h.index hl hd
    omega
  · rw [List.pairwise_append]
    refine ⟨h.start, by simp, ?_⟩
    intro d hd e he
    simp at he; subst he
    have := pairwise_last (R := fun c d : BatchConfig => c.startBatchIndex ≤ d.startBatchIndex) h.start hl
      (Nat.le_refl _) hd
    omega
  · intro d hd
    left
    rcases List.mem_append.1 hd with hd | hd
    · rcases h.valid d hd with h' | ⟨h1, h2⟩
      · exact h'
      · exfalso
        have : last = d := by
          have := getLast?_mem hl
          rw [h1] at this; simpa using this
        exact hk (by rw [this]; exact h2)
    · simp at hd; subst hd; exact hv
  · intro d hd
    simp only [List.cons_append, List.tail_cons, List.mem_append, List.mem_singleton] at hd
    rcases hd with hd | hd
    · exact h.unique d (by simpa using hd)
    · subst hd; exact hu

theorem isKeyper_iff {c : BatchConfig} {a} : c.isKeyper a = true ↔ a ∈ c.keypers := by
  unfold BatchConfig.isKeyper
  rw [List.any_eq_true]
  constructor
  · rintro ⟨x, hx, he⟩; have : x = a := by simpa using he
    exact this ▸ hx
  · intro h; exact ⟨a, h, by simp⟩

theorem ensureUniqueGo_iff {seen l} : ensureUniqueGo seen l = true ↔ l.Nodup ∧ ∀ a ∈ l, a ∉ seen := by
  induction l generalizing seen with
  | nil => simp [ensureUniqueGo]
  | cons a as ih =>
    unfold ensureUniqueGo
    split
    · next h =>
      have h : a ∈ seen := by simpa using h
      simp [h]
    · next h =>
      have h : a ∉ seen := by simpa using h
      rw [ih]
      simp only [List.nodup_cons, List.mem_cons]
      constructor
      · rintro ⟨h1, h2⟩
        refine ⟨⟨fun hc => (h2 a hc) (Or.inl rfl), h1⟩, ?_⟩
        rintro b (rfl | hb)
        · exact h
        · exact fun hc => h2 b hb (Or.inr hc)
      · rintro ⟨⟨h1, h2⟩, h3⟩
        refine ⟨h2, ?_⟩
        rintro b hb (rfl | hc)
        · exact h1 hb
        · exact h3 b (Or.inr hb) hc

theorem parseAddresses_iff {bs as} : parseAddresses bs = some as ↔ as = bs ∧ (∀ b ∈ bs, b.length = 20) ∧ bs.Nodup := by
  unfold parseAddresses validateAddresses
  by_cases h : ∀ b ∈ bs, b.length = 20
  · have : bs.all (fun b => decide (b.length = 20)) = true := by simpa using h
    simp only [this, if_true]
    by_cases hn : bs.Nodup
    · have : ensureUniqueAddresses bs = true := by simp [ensureUniqueAddresses, ensureUniqueGo_iff, hn]
      simp only [this, if_true, Option.some.injEq]
      exact ⟨fun he => ⟨he.symm, h, hn⟩, fun he => he.1.symm⟩
    · have : ¬ ensureUniqueAddresses bs = true := by simp [ensureUniqueAddresses, ensureUniqueGo_iff, hn]
      simp [this, hn]
  · have : ¬ bs.all (fun b => decide (b.length = 20)) = true := by simpa using h
    simp only [this, if_false]
    simp [h]

theorem asks_iff {m bc} : batchConfigFromMessage m = some bc ↔ Asks m bc := by
  unfold batchConfigFromMessage
  constructor
  · intro h
    split at h
    · simp at h
    next ks hks =>
    obtain ⟨rfl, h1, h2⟩ := parseAddresses_iff.1 hks
    split at h
    · simp at h
    next hl =>
    simp at h hl
    subst h
    exact ⟨rfl, rfl, h1, h2, rfl, ⟨rfl, hl⟩, rfl, rfl, rfl⟩
  · intro h
    have : parseAddresses m.keypers = some m.keypers := parseAddresses_iff.2 ⟨rfl, h.lengths, h.unique⟩
    rw [this]
    simp only [h.contract.2, ne_eq, not_true_eq_false, if_false, Option.some.injEq]
    rw [h.start, h.keypers, h.threshold, h.contract.1, h.index, h.started, h.updated]

theorem getConfig_mem {cs b c} (h : getConfig cs b = some c) : c ∈ cs := by
  have := List.mem_of_find?_eq_some h
  simpa using this

theorem index_inj {l : List BatchConfig} (h : l.Pairwise (fun c d => c.configIndex < d.configIndex)) {c d}
    (hc : c ∈ l) (hd : d ∈ l) (he : c.configIndex = d.configIndex) : c = d := by
  obtain ⟨i, hi, rfl⟩ := List.mem_iff_getElem.1 hc
  obtain ⟨j, hj, rfl⟩ := List.mem_iff_getElem.1 hd
  rw [List.pairwise_iff_getElem] at h
  rcases Nat.lt_trichotomy i j with hlt | heq | hgt
  · have := h i j hi hj hlt; omega
  · subst heq; rfl
  · have := h j i hj hi hgt; omega

/-- The voting the next vote of config `c` is added to. -/
theorem Inv.ev_getD {s : State} (h : Inv s) {c} (hc : c ∈ s.configs) :
    VoteInv ((s.eonStartVotings c.configIndex).getD ⟨[], []⟩).votes
      ((s.eonStartVotings c.configIndex).getD ⟨[], []⟩).candidates.length c := by
  cases hv : s.eonStartVotings c.configIndex with
  | none => exact VoteInv.nil _ _
  | some v =>
    obtain ⟨d, hd, hi, hinv⟩ := h.ev _ _ hv
    have : d = c.erase := index_inj h.cfg.index hd (List.mem_map_of_mem hc) hi
    subst this
    exact hinv.congr rfl rfl

theorem Inv.new (dev) : Inv (newApp dev) := by
  refine ⟨⟨⟨_, _, rfl, rfl, rfl⟩, by simp [ids, newApp], by simp [ids, newApp], ?_, by simp [ids, newApp]⟩, ?_, ?_⟩
  · intro c hc
    right
    have : c = BatchConfig.zero.erase := by simpa [ids, newApp] using hc
    subst this
    exact ⟨rfl, rfl⟩
  · intro last _; exact VoteInv.nil _ _
  · intro ci v h; simp [newApp] at h

theorem Inv.eff {ps ord s a m s' r} (ho : ∀ l, (ord l).Perm l) (h : Inv s) (he : Eff ps ord s a m s' r) : Inv s' := by
  cases he with
  | rejected => exact h
  | configKnown => exact h
  | configVoted m bc last cv hbc hl hck hk hcv hout =>
    refine ⟨h.cfg, ?_, h.ev⟩
    intro l hl'
    have hl'' : (ids s).getLast? = some l := hl'
    have hlast := ids_getLast? hl
    rw [hlast] at hl''
    have : last.erase = l := by simpa using hl''
    subst this
    have hcvi := h.cv _ hlast
    obtain ⟨hno, i, hvotes, hi, hilt, hpre⟩ := ConfigVoting.addVote_cases hcv
    show VoteInv cv.votes cv.candidates.length last.erase
    rw [hvotes]
    exact hcvi.vote ho (by simpa using hk) hpre.length_le hilt (by rw [← hvotes]; exact hout)
  | configAdded m bc last cv i hbc hl hck hk hcv hout hi hs =>
    have hk' : last.keypers ≠ [] := by
      intro hc
      have := isKeyper_iff.1 hk
      rw [hc] at this; simp at this
    have hids : ids (added s bc) = ids s ++ [bc.erase] := by simp [ids, added, updateCheckTxMembers]
    refine ⟨?_, ?_, ?_⟩
    · rw [hids]
      exact h.cfg.snoc (ids_getLast? hl) hk' (by have := (asks_iff.1 hbc); simpa [← this.keypers] using this.unique)
        hck
    · intro l _; exact VoteInv.nil _ _
    · intro ci v hv
      obtain ⟨c, hc, h1, h2⟩ := h.ev ci v hv
      exact ⟨c, by rw [hids]; exact List.mem_append_left _ hc, h1, h2⟩
  | configAddedDKG m bc last cv i hbc hl hck hk hcv hout hi hs =>
    have hk' : last.keypers ≠ [] := by
      intro hc
      have := isKeyper_iff.1 hk
      rw [hc] at this; simp at this
    have hids : ids (startDKG (added s bc) bc).1 = ids s ++ [bc.erase] := by
      simp [ids, added, updateCheckTxMembers, startDKG]
    refine ⟨?_, ?_, ?_⟩
    · rw [hids]
      exact h.cfg.snoc (ids_getLast? hl) hk' (by have := (asks_iff.1 hbc); simpa [← this.keypers] using this.unique)
        hck
    · intro l _; exact VoteInv.nil _ _
    · intro ci v hv
      obtain ⟨c, hc, h1, h2⟩ := h.ev ci v hv
      exact ⟨c, by rw [hids]; exact List.mem_append_left _ hc, h1, h2⟩
  | alreadyStarted => exact h
  | startedVote => exact ⟨h.cfg, h.cv, h.ev⟩
  | checkIn => exact ⟨h.cfg, h.cv, h.ev⟩
  | eonVoted b c hc hk hout =>
    refine ⟨h.cfg, h.cv, ?_⟩
    intro ci v hv
    have hv : Function.update s.eonStartVotings c.configIndex (some (countEonStartVote s a c b)) ci = some v := hv
    by_cases hci : ci = c.configIndex
    · subst hci
      simp at hv
      subst hv
      have hmem := getConfig_mem hc
      refine ⟨c.erase, List.mem_map_of_mem hmem, rfl, ?_⟩
      have hinv := h.ev_getD hmem
      obtain ⟨i, hvotes, hi, hilt, hpre⟩ :=
        EonStartVoting.addVote_cases (v := (s.eonStartVotings c.configIndex).getD ⟨[], []⟩) (a := a) (b := b)
      have hout' := hout
      unfold countEonStartVote at hout' ⊢
      rw [hvotes] at hout' ⊢
      exact (hinv.vote ho hk hpre.length_le hilt hout').congr rfl rfl
    · rw [Function.update_of_ne hci] at hv
      exact h.ev ci v hv
  | eonStarted b c i start hc hk hout hcand =>
    refine ⟨h.cfg, h.cv, ?_⟩
    intro ci v hv
    have hv : Function.update s.eonStartVotings c.configIndex none ci = some v := hv
    by_cases hci : ci = c.configIndex
    · subst hci; simp at hv
    · rw [Function.update_of_ne hci] at hv
      exact h.ev ci v hv
  | decSig => exact ⟨h.cfg, h.cv, h.ev⟩
  | polyEval => exact ⟨h.cfg, h.cv, h.ev⟩
  | polyCommitment => exact ⟨h.cfg, h.cv, h.ev⟩
  | accusation => exact ⟨h.cfg, h.cv, h.ev⟩
  | apology => exact ⟨h.cfg, h.cv, h.ev⟩
  | share => exact h

/-- Nobody can vote before the chain is initialised. -/
theorem Inv.no_votes {s : State} (h : Inv s) {c} (hc : s.configs = [c]) (hk : c.keypers = []) :
    s.configVoting.votes = [] ∧ ∀ ci v, s.eonStartVotings ci = some v → v.votes = [] := by
  have hids : ids s = [c.erase] := by simp [ids, hc]
  constructor
  · have := h.cv c.erase (by simp [hids])
    rw [List.eq_nil_iff_forall_not_mem]
    intro v hv
    have := isKeyper_iff.1 (this.keyper v hv)
    simp [hk] at this
  · intro ci v hv
    obtain ⟨d, hd, _, hinv⟩ := h.ev ci v hv
    rw [hids] at hd
    simp at hd; subst hd
    rw [List.eq_nil_iff_forall_not_mem]
    intro w hw
    have := isKeyper_iff.1 (hinv.keyper w hw)
    simp [hk] at this

theorem Inv.step {ps o s op s' r} (ho : o.Lawful) (h : Inv s) (hs : step ps o s op = some (s', r)) : Inv s' := by
  cases op with
  | initChain req =>
    simp only [App.step, Option.map_eq_some_iff] at hs
    obtain ⟨s₁, h₁, h₂⟩ := hs
    simp at h₂; obtain ⟨rfl, rfl⟩ := h₂
    rcases initChain_cases h₁ with ⟨keypers, threshold, c, pm, hg, hv, hc, hk, hpm, rfl⟩ | ⟨rfl, _⟩
    · obtain ⟨n1, n2⟩ := h.no_votes hc hk
      have hids : ids s = [c.erase] := by simp [ids, hc]
      have hc0 := h.cfg.first
      refine ⟨⟨⟨_, _, rfl, rfl, rfl⟩, by simp [ids], by simp [ids], ?_, by simp [ids]⟩, ?_, ?_⟩
      · intro d hd
        left
        have : d = BatchConfig.erase ⟨0, keypers, threshold, zeroAddr, 0, false, false⟩ := by simpa [ids] using hd
        subst this
        exact hv
      · intro l _
        show VoteInv s.configVoting.votes _ _
        rw [n1]; exact VoteInv.nil _ _
      · intro ci v hv
        refine ⟨_, List.mem_map_of_mem (List.mem_singleton.2 rfl), ?_, ?_⟩
        · obtain ⟨d, hd, hdi, _⟩ := h.ev ci v hv
          rw [hids] at hd
          simp at hd; subst hd
          obtain ⟨c', rest, he, _, h0⟩ := hc0
          rw [hids] at he
          simp at he
          rw [← hdi, he.1, h0]; rfl
        · rw [n2 ci v hv]; exact VoteInv.nil _ _
    · exact ⟨h.cfg, h.cv, h.ev⟩
  | checkTx tx =>
    simp [App.step] at hs
    obtain ⟨rfl, rfl⟩ := hs
    obtain ⟨c, hc⟩ := checkTx_eq (s := s) (tx := tx)
    rw [hc]
    exact ⟨h.cfg, h.cv, h.ev⟩
  | deliverTx tx =>
    simp only [App.step, Option.map_eq_some_iff] at hs
    obtain ⟨⟨s₁, d⟩, h₁, h₂⟩ := hs
    simp at h₂; obtain ⟨rfl, rfl⟩ := h₂
    rcases deliverTx_cases h₁ with ⟨rfl, _⟩ | ⟨a, m, _, _, _, he⟩
    · exact h
    · exact Inv.eff ho.idx (s := withNonce s a m.randomNonce) ⟨h.cfg, h.cv, h.ev⟩ he
  | endBlock ht =>
    simp only [App.step, Option.map_eq_some_iff] at hs
    obtain ⟨⟨s₁, d⟩, h₁, h₂⟩ := hs
    simp at h₂; obtain ⟨rfl, rfl⟩ := h₂
    have hids := ids_endBlock h₁
    obtain ⟨_, _, _, _, _, _, hs', _⟩ := endBlock_cases h₁
    refine ⟨by rw [hids]; exact h.cfg, ?_, ?_⟩
    · rw [hids, hs']; exact h.cv
    · rw [hids, hs']; exact h.ev
  | commit =>
    simp [App.step] at hs
    obtain ⟨rfl, rfl⟩ := hs
    exact ⟨h.cfg, h.cv, h.ev⟩

theorem Exec.inv {ps dev log s} (h : Exec ps dev log s) : Inv s := by
  induction h with
  | start => exact Inv.new _
  | step o op s' r _ ho hs ih => exact ih.step ho hs

/-- Every record of an execution is a step from a reachable state. -/
theorem Exec.mem {ps dev log s} (h : Exec ps dev log s) {r} (hr : r ∈ log) :
    ∃ pre post o, log = pre ++ r :: post ∧ Exec ps dev pre r.before ∧ o.Lawful ∧
      App.step ps o r.before r.op = some (r.after, r.resp) := by
  induction h with
  | start => simp at hr
  | step o op s' rr hE ho hs ih =>
    rcases List.mem_append.1 hr with h | h
    · obtain ⟨pre, post, o', rfl, h1, h2, h3⟩ := ih h
      exact ⟨pre, _, o', by simp; rfl, h1, h2, h3⟩
    · simp at h; subst h
      exact ⟨_, [], o, by simp, hE, ho, hs⟩

end Shutter.App
