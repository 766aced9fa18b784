import Verif.Proofs.App

/-! # Votes: the outcome does not depend on the map order -/

namespace Shutter.App

theorem mem_setVote {votes : Votes} {a i v} (hn : (votes.map (·.1)).Nodup) :
    v ∈ setVote votes a i ↔ v = (a, i) ∨ (v ∈ votes ∧ v.1 ≠ a) := by
  induction votes with
  | nil => simp [setVote]
  | cons w vs ih =>
    obtain ⟨b, j⟩ := w
    simp only [List.map_cons, List.nodup_cons] at hn
    have ih := ih hn.2
    unfold setVote
    split
    · next h =>
      subst h
      simp only [List.mem_cons]
      constructor
      · rintro (h | h)
        · left; exact h
        · right
          refine ⟨Or.inr h, ?_⟩
          intro hc
          exact hn.1 (by rw [← hc]; exact List.mem_map_of_mem h)
      · rintro (h | ⟨h | h, h'⟩)
        · left; exact h
        · subst h; simp at h'
        · right; exact h
    · next h =>
      simp only [List.mem_cons, ih]
      constructor
      · rintro (h1 | h1 | h1)
        · subst h1; right; exact ⟨Or.inl rfl, h⟩
        · left; exact h1
        · right; exact ⟨Or.inr h1.1, h1.2⟩
      · rintro (h1 | ⟨h1 | h1, h2⟩)
        · right; left; exact h1
        · left; exact h1
        · right; right; exact ⟨h1, h2⟩

theorem nodup_setVote {votes : Votes} {a i} (hn : (votes.map (·.1)).Nodup) :
    ((setVote votes a i).map (·.1)).Nodup := by
  induction votes with
  | nil => simp [setVote]
  | cons w vs ih =>
    obtain ⟨b, j⟩ := w
    simp only [List.map_cons, List.nodup_cons] at hn
    unfold setVote
    split
    · next h => subst h; simpa using hn
    · next h =>
      simp only [List.map_cons, List.nodup_cons]
      refine ⟨?_, ih hn.2⟩
      intro hm
      obtain ⟨v, hv, hvb⟩ := List.mem_map.1 hm
      rcases (mem_setVote hn.2).1 hv with rfl | ⟨h1, _⟩
      · exact h hvb.symm
      · exact hn.1 (by rw [← hvb]; exact List.mem_map_of_mem h1)

theorem countVotes_setVote_ne {votes : Votes} {a i j} (h : j ≠ i) :
    countVotes (setVote votes a i) j ≤ countVotes votes j := by
  unfold countVotes
  induction votes with
  | nil => simp [setVote, List.countP_cons]; exact fun hc => h hc.symm
  | cons w vs ih =>
    obtain ⟨b, k⟩ := w
    unfold setVote
    split
    · next hb =>
      simp only [List.countP_cons]
      have : (i == j) = false := by simpa using fun hc => h hc.symm
      simp [this]
    · simp only [List.countP_cons]
      omega

/-- What holds of the votes between two messages. -/
structure VoteInv (votes : Votes) (ncand : Nat) (c : BatchConfig) : Prop where
  nodup : (votes.map (·.1)).Nodup
  keyper : ∀ v ∈ votes, c.isKeyper v.1 = true
  cand : ∀ v ∈ votes, v.2 < ncand
  below : ∀ v ∈ votes, (countVotes votes v.2 : Int) < toInt64 c.threshold

theorem VoteInv.nil (n c) : VoteInv [] n c := ⟨by simp, by simp, by simp, by simp⟩

theorem VoteInv.congr {votes n c c'} (h : VoteInv votes n c) (hk : c'.keypers = c.keypers)
    (ht : c'.threshold = c.threshold) : VoteInv votes n c' :=
  ⟨h.nodup, fun v hv => by have := h.keyper v hv; simpa [BatchConfig.isKeyper, hk] using this, h.cand,
    fun v hv => by rw [ht]; exact h.below v hv⟩

theorem outcomeIndex_setVote {ord : List Nat → List Nat} (ho : ∀ l, (ord l).Perm l) {votes n c a i}
    (h : VoteInv votes n c) :
    outcomeIndex ord (setVote votes a i) (toInt64 c.threshold) =
      if toInt64 c.threshold ≤ (countVotes (setVote votes a i) i : Int) then some i else none := by
  have hmem : ∀ j, j ∈ ord ((setVote votes a i).map (·.2)).dedup ↔ j ∈ (setVote votes a i).map (·.2) := by
    intro j; rw [(ho _).mem_iff, List.mem_dedup]
  have huniq : ∀ j ∈ (setVote votes a i).map (·.2),
      toInt64 c.threshold ≤ (countVotes (setVote votes a i) j : Int) → j = i := by
    intro j hj hle
    by_contra hne
    obtain ⟨v, hv, rfl⟩ := List.mem_map.1 hj
    rcases (mem_setVote h.nodup).1 hv with rfl | ⟨hv', _⟩
    · exact hne rfl
    · have h1 := h.below v hv'
      have h2 := countVotes_setVote_ne (votes := votes) (a := a) hne
      omega
  unfold outcomeIndex
  split
  · next hle =>
    have hi : i ∈ (setVote votes a i).map (·.2) :=
      List.mem_map.2 ⟨(a, i), (mem_setVote h.nodup).2 (Or.inl rfl), rfl⟩
    cases hf : (ord ((setVote votes a i).map (·.2)).dedup).find?
        (fun j => decide (toInt64 c.threshold ≤ (countVotes (setVote votes a i) j : Int))) with
    | none =>
      rw [List.find?_eq_none] at hf
      have := hf i ((hmem i).2 hi)
      simp [hle] at this
    | some j =>
      have h1 := List.find?_some hf
      have h2 := List.mem_of_find?_eq_some hf
      have := huniq j ((hmem j).1 h2) (by simpa using h1)
      rw [this]
  · next hle =>
    rw [List.find?_eq_none]
    intro j hj hc
    have := huniq j ((hmem j).1 hj) (by simpa using hc)
    subst this
    simp at hc
    omega

/-- After a vote without outcome the invariant still holds. -/
theorem VoteInv.vote {ord : List Nat → List Nat} (ho : ∀ l, (ord l).Perm l) {votes n n' c a i}
    (h : VoteInv votes n c) (hk : c.isKeyper a = true) (hn : n ≤ n') (hi : i < n')
    (hout : outcomeIndex ord (setVote votes a i) (toInt64 c.threshold) = none) :
    VoteInv (setVote votes a i) n' c := by
  refine ⟨nodup_setVote h.nodup, ?_, ?_, ?_⟩
  · intro v hv
    rcases (mem_setVote h.nodup).1 hv with rfl | ⟨hv, _⟩
    · exact hk
    · exact h.keyper v hv
  · intro v hv
    rcases (mem_setVote h.nodup).1 hv with rfl | ⟨hv, _⟩
    · exact hi
    · have := h.cand v hv; omega
  · intro v hv
    unfold outcomeIndex at hout
    rw [List.find?_eq_none] at hout
    have := hout v.2 (by rw [(ho _).mem_iff, List.mem_dedup]; exact List.mem_map_of_mem hv)
    simpa using this

/-- The voters of candidate `i`. -/
def votersOf (votes : Votes) (i : Nat) : Finset Addr := ((votes.filter (fun v => v.2 == i)).map (·.1)).toFinset

theorem mem_votersOf {votes i a} : a ∈ votersOf votes i ↔ (a, i) ∈ votes := by
  unfold votersOf
  simp only [List.mem_toFinset, List.mem_map, List.mem_filter]
  constructor
  · rintro ⟨⟨b, j⟩, ⟨h1, h2⟩, rfl⟩
    have : j = i := by simpa using h2
    subst this; exact h1
  · intro h
    exact ⟨(a, i), ⟨h, by simp⟩, rfl⟩

theorem card_votersOf {votes : Votes} {i} (hn : (votes.map (·.1)).Nodup) :
    (votersOf votes i).card = countVotes votes i := by
  unfold votersOf countVotes
  rw [List.toFinset_card_of_nodup, List.length_map, List.countP_eq_length_filter]
  exact hn.sublist (List.Sublist.map _ List.filter_sublist)

theorem candidateIndex_some {α} [DecidableEq α] {cs : List α} {x i} (h : candidateIndex cs x = some i) :
    cs[i]? = some x := by
  induction cs generalizing i with
  | nil => simp [candidateIndex] at h
  | cons c cs ih =>
    unfold candidateIndex at h
    split at h
    · next hc => simp at h; subst h; simp [hc]
    · simp only [Option.map_eq_some_iff] at h
      obtain ⟨j, hj, rfl⟩ := h
      simpa using ih hj

theorem candidateIndex_lt {α} [DecidableEq α] {cs : List α} {x i} (h : candidateIndex cs x = some i) :
    i < cs.length := by
  have := candidateIndex_some h
  by_contra hc
  rw [List.getElem?_eq_none (by omega)] at this
  simp at this

/-- Common description of a vote added to a list of candidates. -/
theorem ConfigVoting.addVote_cases {v v' : ConfigVoting} {a bc} (h : v.addVote a bc = some v') :
    (∀ w ∈ v.votes, w.1 ≠ a) ∧ ∃ i, v'.votes = setVote v.votes a i ∧ v'.candidates[i]? = some bc ∧
      i < v'.candidates.length ∧ v.candidates <+: v'.candidates := by
  unfold ConfigVoting.addVote at h
  split at h
  · simp at h
  next hno =>
  refine ⟨?_, ?_⟩
  · intro w hw hc
    apply hno
    rw [List.any_eq_true]
    exact ⟨w, hw, by simpa using hc⟩
  · split at h
    · next i hi =>
      simp at h; subst h
      exact ⟨i, rfl, candidateIndex_some hi, candidateIndex_lt hi, List.prefix_rfl⟩
    · simp at h; subst h
      exact ⟨_, rfl, by simp, by simp, List.prefix_append _ _⟩

theorem EonStartVoting.addVote_cases {v : EonStartVoting} {a b} :
    ∃ i, (v.addVote a b).votes = setVote v.votes a i ∧ (v.addVote a b).candidates[i]? = some b ∧
      i < (v.addVote a b).candidates.length ∧ v.candidates <+: (v.addVote a b).candidates := by
  unfold EonStartVoting.addVote
  split
  · next i hi => exact ⟨i, rfl, candidateIndex_some hi, candidateIndex_lt hi, List.prefix_rfl⟩
  · exact ⟨_, rfl, by simp, by simp, List.prefix_append _ _⟩

theorem prefix_getElem? {α} {l l' : List α} (h : l <+: l') {i : Nat} {x} (hx : l[i]? = some x) : l'[i]? = some x := by
  obtain ⟨t, rfl⟩ := h
  have : i < l.length := by
    by_contra hc
    rw [List.getElem?_eq_none (by omega)] at hx; simp at hx
  rw [List.getElem?_append_left this]; exact hx

end Shutter.App
