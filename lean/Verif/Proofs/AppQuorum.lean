import Verif.Proofs.AppOnce

/-! # Quorums -/

namespace Shutter.App

theorem getConfig_iff {cs b c} : getConfig cs b = some c ↔ InForce cs b c := by
  unfold getConfig InForce
  rw [List.find?_eq_some_iff_append]
  constructor
  · rintro ⟨h1, as, bs, h2, h3⟩
    refine ⟨bs.reverse, as.reverse, ?_, by simpa using h1, ?_⟩
    · have := congrArg List.reverse h2
      simpa using this
    · intro d hd
      have := h3 d (by simpa using hd)
      simpa using this
  · rintro ⟨pre, post, rfl, h1, h2⟩
    refine ⟨by simpa using h1, post.reverse, pre.reverse, by simp, ?_⟩
    intro d hd
    have := h2 d (by simpa using hd)
    simpa using this

theorem InForce.unique {cs b c d} (h : InForce cs b c) (h' : InForce cs b d) : c = d := by
  rw [← getConfig_iff] at h h'
  rw [h] at h'; simpa using h'

/-- In the frame case of a step nothing is accepted. -/
theorem not_accepts {s op r s'} (h : ∀ d, r = Resp.deliverTx d → d = errorResponse ∧ s' = s) {a m} :
    ¬ (Rec.mk s op r s').Accepts a m := by
  rintro ⟨mw, _, _, evs, hr⟩
  have := (h _ hr).1
  simp [errorResponse] at this

theorem accepts_iff {s a m d s' a' msg} (h : (Rec.mk s (.deliverTx (some (a, m))) (.deliverTx d) s').Accepts a' msg) :
    a' = a ∧ msg = m.msg ∧ d.ok = true := by
  obtain ⟨mw, rfl, h2, evs, h3⟩ := h
  simp at h2 h3
  obtain ⟨rfl, rfl⟩ := h2
  exact ⟨rfl, rfl, by rw [h3]⟩

/-! ## Eon votes -/

theorem CurrentVote.extend {log a ci b r} (h : CurrentVote log a ci b) (h1 : ∀ b', ¬ r.EonVote a ci b')
    (h2 : ¬ r.Restarts ci) : CurrentVote (log ++ [r]) a ci b := by
  obtain ⟨pre, r₀, post, rfl, hv, hp, hr⟩ := h
  refine ⟨pre, r₀, post ++ [r], by simp, hv, ?_, ?_⟩
  · intro r' hr' b'
    rcases List.mem_append.1 hr' with h | h
    · exact hp r' h b'
    · simp at h; subst h; exact h1 b'
  · intro r' hr'
    rw [← List.cons_append] at hr'
    rcases List.mem_append.1 hr' with h | h
    · exact hr r' h
    · simp at h; subst h; exact h2

theorem Exec.eonVotes {ps dev log s} (h : Exec ps dev log s) :
    ∀ ci v, s.eonStartVotings ci = some v → ∀ w ∈ v.votes, ∃ b, v.candidates[w.2]? = some b ∧
      CurrentVote log w.1 ci b := by
  induction h with
  | start => simp [newApp]
  | @step log s o op s' r hE ho hs ih =>
    have hinv := hE.inv
    rcases step_frame hs with ⟨hf, hev, hna⟩ | ⟨a, m, d, rfl, hch, hno, rfl, he⟩
    · rw [hf.eonStartVotings]
      intro ci v hv w hw
      obtain ⟨b, h1, h2⟩ := ih ci v hv w hw
      exact ⟨b, h1, h2.extend (fun b' hb' => not_accepts hna hb'.1)
        (fun hr => by obtain ⟨⟨a, b, h, _⟩, _⟩ := hr; exact not_accepts hna h)⟩
    · have hother : (∀ b, m.msg ≠ .eonStartVote b) → s'.eonStartVotings = s.eonStartVotings →
          ∀ ci v, s'.eonStartVotings ci = some v → ∀ w ∈ v.votes, ∃ b, v.candidates[w.2]? = some b ∧
            CurrentVote (log ++ [⟨s, .deliverTx (some (a, m)), .deliverTx d, s'⟩]) w.1 ci b := by
        intro hm heq ci v hv w hw
        rw [heq] at hv
        obtain ⟨b, h1, h2⟩ := ih ci v hv w hw
        have hn : ∀ a' ci' b', ¬ (Rec.mk s (.deliverTx (some (a, m))) (.deliverTx d) s').EonVote a' ci' b' :=
          fun a' ci' b' hb' => hm b' (accepts_iff hb'.1).2.1.symm
        exact ⟨b, h1, h2.extend (fun b' => hn _ _ _) (fun hr => by obtain ⟨⟨a, b, h⟩, _⟩ := hr; exact hn _ _ _ h)⟩
      have hrej : d.ok = false → s'.eonStartVotings = s.eonStartVotings →
          ∀ ci v, s'.eonStartVotings ci = some v → ∀ w ∈ v.votes, ∃ b, v.candidates[w.2]? = some b ∧
            CurrentVote (log ++ [⟨s, .deliverTx (some (a, m)), .deliverTx d, s'⟩]) w.1 ci b := by
        intro hd heq ci v hv w hw
        rw [heq] at hv
        obtain ⟨b, h1, h2⟩ := ih ci v hv w hw
        have hn : ∀ a' ci' b', ¬ (Rec.mk s (.deliverTx (some (a, m))) (.deliverTx d) s').EonVote a' ci' b' :=
          fun a' ci' b' hb' => by have := (accepts_iff hb'.1).2.2; simp [hd] at this
        exact ⟨b, h1, h2.extend (fun b' => hn _ _ _) (fun hr => by obtain ⟨⟨a, b, h⟩, _⟩ := hr; exact hn _ _ _ h)⟩
      generalize hm : m.msg = msg at he
      cases he with
      | rejected => exact hrej rfl rfl
      | eonVoted b c hc hk hout =>
        intro ci v hv w hw
        have hv : Function.update s.eonStartVotings c.configIndex
          (some (countEonStartVote s a c b)) ci = some v := hv
        have hc' : getConfig s.configs b = some c := hc
        have hfb : InForce s.configs b c := getConfig_iff.1 hc'
        have hvote : ∀ s'' d a' ci' b', (Rec.mk s (.deliverTx (some (a, m))) (.deliverTx d) s'').EonVote a' ci' b' →
            a' = a ∧ b' = b ∧ ci' = c.configIndex := by
          rintro s'' d a' ci' b' ⟨h1, c', hcc, rfl⟩
          obtain ⟨rfl, hmm, _⟩ := accepts_iff h1
          rw [hm] at hmm
          simp at hmm; subst hmm
          exact ⟨rfl, rfl, by rw [hcc.unique hfb]⟩
        by_cases hci : ci = c.configIndex
        · subst hci
          simp at hv
          subst hv
          have hmem := getConfig_mem hc'
          have hinv' := hinv.ev_getD hmem
          obtain ⟨i, hvotes, hi, hilt, hpre⟩ :=
            EonStartVoting.addVote_cases (v := (s.eonStartVotings c.configIndex).getD ⟨[], []⟩) (a := a) (b := b)
          unfold countEonStartVote at hw ⊢
          rw [hvotes] at hw
          rcases (mem_setVote hinv'.nodup).1 hw with rfl | ⟨hw', hne⟩
          · refine ⟨b, hi, log, _, [], rfl, ⟨⟨m, hm, rfl, _, rfl⟩, c, hfb, rfl⟩, by simp, ?_⟩
            intro r' hr'
            simp at hr'; subst hr'
            intro hr
            exact hr.2 rfl
          · cases hsv : s.eonStartVotings c.configIndex with
            | none => simp [hsv] at hw'
            | some v =>
              simp only [hsv, Option.getD_some] at hw' hpre ⊢
              obtain ⟨b', h1, h2⟩ := ih _ v hsv w hw'
              refine ⟨b', prefix_getElem? hpre h1, h2.extend ?_ (fun hr => hr.2 rfl)⟩
              intro b'' hb''
              exact hne (hvote _ _ _ _ _ hb'').1
        · rw [Function.update_of_ne hci] at hv
          obtain ⟨b', h1, h2⟩ := ih ci v hv w hw
          exact ⟨b', h1, h2.extend (fun b'' hb'' => hci (hvote _ _ _ _ _ hb'').2.2) (fun hr => hr.2 rfl)⟩
      | eonStarted b c i start hc hk hout hcand =>
        intro ci v hv w hw
        have hv : Function.update s.eonStartVotings c.configIndex none ci = some v := hv
        have hc' : getConfig s.configs b = some c := hc
        have hfb : InForce s.configs b c := getConfig_iff.1 hc'
        by_cases hci : ci = c.configIndex
        · subst hci; simp at hv
        · rw [Function.update_of_ne hci] at hv
          obtain ⟨b', h1, h2⟩ := ih ci v hv w hw
          have hvote : ∀ s'' d a' ci' b', (Rec.mk s (.deliverTx (some (a, m))) (.deliverTx d) s'').EonVote a' ci' b' →
              ci' = c.configIndex := by
            rintro s'' d a' ci' b' ⟨h1, c', hcc, rfl⟩
            obtain ⟨rfl, hmm, _⟩ := accepts_iff h1
            rw [hm] at hmm
            simp at hmm; subst hmm
            rw [hcc.unique hfb]
          refine ⟨b', h1, h2.extend (fun b'' hb'' => hci (hvote _ _ _ _ _ hb'')) ?_⟩
          rintro ⟨⟨a', b'', h⟩, _⟩
          exact hci (hvote _ _ _ _ _ h)
      | _ => exact hother (by rw [hm]; simp) rfl

/-! ## Config votes -/

theorem Exec.length_mono {ps dev log s} (h : Exec ps dev log s) :
    ∀ r ∈ log, r.before.configs.length ≤ s.configs.length := by
  induction h with
  | start => simp
  | @step log s o op s' r hE ho hs ih =>
    have hle : s.configs.length ≤ s'.configs.length := by
      rcases step_frame hs with ⟨hf, _, _⟩ | ⟨a, m, d, _, _, _, _, he⟩
      · rw [hf.length]
      · generalize m.msg = msg at he
        cases he with
        | configAdded m bc => simp [added, updateCheckTxMembers, withNonce]
        | configAddedDKG m bc => simp [added, updateCheckTxMembers, withNonce, startDKG]
        | _ => exact Nat.le_refl _
    intro r' hr'
    rcases List.mem_append.1 hr' with h | h
    · exact Nat.le_trans (ih r' h) hle
    · simp at h; subst h; exact hle

/-- The votes counted for the next config, and the calls that cast them. -/
theorem Exec.configVotes {ps dev log s} (h : Exec ps dev log s) :
    (∀ w ∈ s.configVoting.votes, ∃ c, s.configVoting.candidates[w.2]? = some c ∧
      ∃ r ∈ log, r.ConfigVote w.1 c ∧ r.before.configs.length = s.configs.length) ∧
    (∀ r ∈ log, ∀ a c, r.ConfigVote a c → r.after.configs.length = s.configs.length →
      r.before.configs.length = s.configs.length →
      (∀ last, lastConfig r.before = some last → last ≠ c) → ∃ w ∈ s.configVoting.votes, w.1 = a) := by
  induction h with
  | start => simp [newApp]
  | @step log s o op s' r hE ho hs ih =>
    have hinv := hE.inv
    obtain ⟨ih1, ih2⟩ := ih
    rcases step_frame hs with ⟨hf, hev, hna⟩ | ⟨a, m, d, rfl, hch, hno, rfl, he⟩
    · rw [hf.configVoting, hf.length]
      refine ⟨?_, ?_⟩
      · intro w hw
        obtain ⟨c, h1, r', h2, h3⟩ := ih1 w hw
        exact ⟨c, h1, r', List.mem_append_left _ h2, h3⟩
      · intro r' hr' a c hv
        rcases List.mem_append.1 hr' with h | h
        · exact ih2 r' h a c hv
        · simp at h; subst h
          obtain ⟨m, hm, _⟩ := hv
          exact absurd hm (not_accepts hna)
    · have hsame : s'.configVoting = s.configVoting → s'.configs = s.configs →
          (∀ c, (Rec.mk s (.deliverTx (some (a, m))) (.deliverTx d) s').ConfigVote a c → lastConfig s = some c) →
          (∀ w ∈ s'.configVoting.votes, ∃ c, s'.configVoting.candidates[w.2]? = some c ∧
            ∃ r ∈ log ++ [⟨s, .deliverTx (some (a, m)), .deliverTx d, s'⟩], r.ConfigVote w.1 c ∧
              r.before.configs.length = s'.configs.length) ∧
          (∀ r ∈ log ++ [⟨s, .deliverTx (some (a, m)), .deliverTx d, s'⟩], ∀ a c, r.ConfigVote a c →
            r.after.configs.length = s'.configs.length →
            r.before.configs.length = s'.configs.length →
            (∀ last, lastConfig r.before = some last → last ≠ c) → ∃ w ∈ s'.configVoting.votes, w.1 = a) := by
        intro h1 h2 h3
        rw [h1, h2]
        refine ⟨?_, ?_⟩
        · intro w hw
          obtain ⟨c, h1, r', h2, h3⟩ := ih1 w hw
          exact ⟨c, h1, r', List.mem_append_left _ h2, h3⟩
        · intro r' hr' a' c hv h4 h5 h6
          rcases List.mem_append.1 hr' with h | h
          · exact ih2 r' h a' c hv h4 h5 h6
          · simp at h; subst h
            have : a' = a := by obtain ⟨m', hm', _⟩ := hv; exact (accepts_iff hm').1
            subst this
            exact absurd rfl (h6 c (h3 c hv))
      have hadd : s'.configs.length = s.configs.length + 1 → s'.configVoting.votes = [] →
          (∀ w ∈ s'.configVoting.votes, ∃ c, s'.configVoting.candidates[w.2]? = some c ∧
            ∃ r ∈ log ++ [⟨s, .deliverTx (some (a, m)), .deliverTx d, s'⟩], r.ConfigVote w.1 c ∧
              r.before.configs.length = s'.configs.length) ∧
          (∀ r ∈ log ++ [⟨s, .deliverTx (some (a, m)), .deliverTx d, s'⟩], ∀ a c, r.ConfigVote a c →
            r.after.configs.length = s'.configs.length →
            r.before.configs.length = s'.configs.length →
            (∀ last, lastConfig r.before = some last → last ≠ c) → ∃ w ∈ s'.configVoting.votes, w.1 = a) := by
        intro h1 h2
        refine ⟨by simp [h2], ?_⟩
        intro r' hr' a' c hv h4 h5 h6
        exfalso
        have hmono := hE.length_mono
        rcases List.mem_append.1 hr' with h | h
        · have := hmono r' h; omega
        · simp at h; subst h; simp at h5; omega
      have hnoconf : (∀ m', m.msg ≠ .batchConfig m') →
          (∀ c, (Rec.mk s (.deliverTx (some (a, m))) (.deliverTx d) s').ConfigVote a c → lastConfig s = some c) := by
        rintro hm c ⟨m', hm', _⟩
        exact absurd (accepts_iff hm').2.1.symm (hm m')
      generalize hm : m.msg = msg at he
      cases he with
      | rejected =>
        refine hsame rfl rfl ?_
        rintro c ⟨m', hm', _⟩
        have := (accepts_iff hm').2.2
        simp [errorResponse] at this
      | configKnown m₀ bc hbc hl =>
        refine hsame rfl rfl ?_
        rintro c ⟨m', hm', hc⟩
        have h1 := (accepts_iff hm').2.1
        rw [hm] at h1; simp at h1; subst h1
        have := asks_iff.2 hc
        rw [hbc] at this
        simp at this; subst this; exact hl
      | configVoted m₀ bc last cv hbc hl hck hk hcv hout =>
        have hl' : lastConfig s = some last := hl
        have hcv' : s.configVoting.addVote a bc = some cv := hcv
        obtain ⟨hno', i, hvotes, hi, hilt, hpre⟩ := ConfigVoting.addVote_cases hcv'
        have hnd := (hinv.cv _ (ids_getLast? hl')).nodup
        refine ⟨?_, ?_⟩
        · intro w hw
          have hw : w ∈ cv.votes := hw
          rw [hvotes] at hw
          rcases (mem_setVote hnd).1 hw with rfl | ⟨hw, _⟩
          · exact ⟨bc, hi, _, List.mem_append_right _ (List.mem_singleton.2 rfl),
              ⟨m₀, ⟨m, hm, rfl, _, rfl⟩, asks_iff.1 hbc⟩, rfl⟩
          · obtain ⟨c, h1, r', h2, h3⟩ := ih1 w hw
            exact ⟨c, prefix_getElem? hpre h1, r', List.mem_append_left _ h2, h3⟩
        · intro r' hr' a' c hv h4 h5 h6
          show ∃ w ∈ cv.votes, w.1 = a'
          rw [hvotes]
          rcases List.mem_append.1 hr' with h | h
          · obtain ⟨w, hw, rfl⟩ := ih2 r' h a' c hv h4 h5 h6
            exact ⟨w, (mem_setVote hnd).2 (Or.inr ⟨hw, hno' w hw⟩), rfl⟩
          · simp at h; subst h
            have : a' = a := by obtain ⟨m', hm', _⟩ := hv; exact (accepts_iff hm').1
            exact ⟨(a, i), (mem_setVote hnd).2 (Or.inl rfl), this.symm⟩
      | configAdded m₀ bc => exact hadd (by simp [added, updateCheckTxMembers, withNonce]) rfl
      | configAddedDKG m₀ bc => exact hadd (by simp [added, updateCheckTxMembers, withNonce, startDKG]) rfl
      | _ => exact hsame rfl rfl (hnoconf (by rw [hm]; simp))

theorem toInt64_of_lt {x : Nat} (h : x < 2 ^ 63) : toInt64 x = x := by simp only [toInt64, h, if_true]

/-- The quorum behind a config addition. -/
theorem Exec.quorum {ps dev log s} (h : Exec ps dev log s) {o : Orders} (ho : o.Lawful) {a bc last cv i}
    (hl : lastConfig s = some last) (hk : last.isKeyper a = true)
    (hcv : s.configVoting.addVote a bc = some cv)
    (hout : outcomeIndex o.idx cv.votes (toInt64 last.threshold) = some i) :
    ∃ S : Finset Addr, toInt64 last.threshold ≤ (S.card : Int) ∧ a ∈ S ∧ ∀ b ∈ S, b ∈ last.keypers ∧
      (b = a ∨ ∃ r ∈ log, r.ConfigVote b bc ∧ r.before.configs.length = s.configs.length) := by
  have hinv := h.inv
  have hvi := hinv.cv _ (ids_getLast? hl)
  obtain ⟨hno, j, hvotes, hj, hjlt, hpre⟩ := ConfigVoting.addVote_cases hcv
  have hout' := hout
  rw [hvotes, show last.threshold = last.erase.threshold from rfl, outcomeIndex_setVote ho.idx hvi] at hout'
  split_ifs at hout' with hle
  simp at hout'; subst hout'
  refine ⟨votersOf (setVote s.configVoting.votes a j) j, ?_, ?_, ?_⟩
  · rw [card_votersOf (nodup_setVote hvi.nodup)]; exact hle
  · rw [mem_votersOf, mem_setVote hvi.nodup]; left; rfl
  · intro b hb
    rw [mem_votersOf, mem_setVote hvi.nodup] at hb
    rcases hb with hb | ⟨hb, _⟩
    · simp at hb; subst hb
      exact ⟨isKeyper_iff.1 hk, Or.inl rfl⟩
    · refine ⟨isKeyper_iff.1 (hvi.keyper _ hb), Or.inr ?_⟩
      obtain ⟨c, h1, r, hr, h2⟩ := h.configVotes.1 _ hb
      have := prefix_getElem? hpre h1
      rw [hj] at this
      simp at this; subst this
      exact ⟨r, hr, h2⟩

/-- The quorum behind an eon start vote. -/
theorem Exec.eonQuorum {ps dev log s} (h : Exec ps dev log s) {o : Orders} (ho : o.Lawful) {a b c i start}
    (hc : getConfig s.configs b = some c)
    (hout : outcomeIndex o.idx (countEonStartVote s a c b).votes (toInt64 c.threshold) = some i)
    (hcand : (countEonStartVote s a c b).candidates[i]? = some start) :
    start = b ∧ ∃ T : Finset Addr, toInt64 c.threshold ≤ (T.card : Int) + 1 ∧ ∀ x ∈ T, x ≠ a ∧ x ∈ c.keypers ∧
      CurrentVote log x c.configIndex b := by
  have hinv := h.inv
  have hvi := hinv.ev_getD (getConfig_mem hc)
  obtain ⟨j, hvotes, hj, hjlt, hpre⟩ :=
    EonStartVoting.addVote_cases (v := (s.eonStartVotings c.configIndex).getD ⟨[], []⟩) (a := a) (b := b)
  unfold countEonStartVote at hout hcand
  rw [hvotes, outcomeIndex_setVote ho.idx hvi] at hout
  split_ifs at hout with hle
  simp at hout; subst hout
  rw [hj] at hcand
  refine ⟨by simpa using hcand.symm, (votersOf (setVote ((s.eonStartVotings c.configIndex).getD ⟨[], []⟩).votes a j) j).erase a, ?_, ?_⟩
  · rw [Finset.card_erase_of_mem (by rw [mem_votersOf, mem_setVote hvi.nodup]; left; rfl),
      card_votersOf (nodup_setVote hvi.nodup)]
    have : 0 < countVotes (setVote ((s.eonStartVotings c.configIndex).getD ⟨[], []⟩).votes a j) j := by
      unfold countVotes
      rw [List.countP_pos_iff]
      exact ⟨(a, j), (mem_setVote hvi.nodup).2 (Or.inl rfl), by simp⟩
    omega
  · intro x hx
    rw [Finset.mem_erase, mem_votersOf, mem_setVote hvi.nodup] at hx
    obtain ⟨hne, hx⟩ := hx
    rcases hx with hx | ⟨hx, _⟩
    · simp at hx; exact absurd hx hne
    · refine ⟨hne, isKeyper_iff.1 (hvi.keyper _ hx), ?_⟩
      cases hsv : s.eonStartVotings c.configIndex with
      | none => simp [hsv] at hx
      | some v =>
        simp only [hsv, Option.getD_some] at hx hpre hj
        obtain ⟨b', h1, h2⟩ := h.eonVotes _ v hsv _ hx
        have := prefix_getElem? hpre h1
        rw [hj] at this
        simp at this; subst this
        exact h2

end Shutter.App
