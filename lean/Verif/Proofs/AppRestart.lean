import Verif.Proofs.NetView
import Verif.Spec.Restart

/-! # Eon start votes are counted -/

namespace Shutter.App

theorem EonStartVoting.addVote_nodup {v : EonStartVoting} {a b} (h : v.candidates.Nodup) : (v.addVote a b).candidates.Nodup := by
  unfold EonStartVoting.addVote
  split
  · exact h
  · next hn =>
    have : ∀ cs : List Nat, candidateIndex cs b = none → b ∉ cs := by
      intro cs
      induction cs with
      | nil => simp
      | cons c cs ih =>
        intro h
        unfold candidateIndex at h
        split at h
        · cases h
        · next hne =>
          rw [Option.map_eq_none_iff] at h
          simp only [List.mem_cons, not_or]
          exact ⟨fun h => hne h.symm, ih h⟩
    show (v.candidates ++ [b]).Nodup
    rw [List.nodup_append]
    exact ⟨h, by simp, fun x hx y hy => by simp at hy; subst hy; rintro rfl; exact this _ hn hx⟩

theorem CurrentVote.shrink {log a ci b r} (h : CurrentVote (log ++ [r]) a ci b) :
    r.EonVote a ci b ∧ ¬ r.Restarts ci ∨ CurrentVote log a ci b ∧ (∀ b', ¬ r.EonVote a ci b') ∧ ¬ r.Restarts ci := by
  obtain ⟨pre, r₀, post, hl, hv, hp, hr⟩ := h
  rcases List.eq_nil_or_concat post with rfl | ⟨post', x, rfl⟩
  · have := List.append_inj' hl rfl
    simp at this
    obtain ⟨rfl, rfl⟩ := this
    exact .inl ⟨hv, hr r (by simp)⟩
  · rw [List.concat_eq_append, ← List.cons_append, ← List.append_assoc] at hl
    obtain ⟨h1, h2⟩ := List.append_inj' hl rfl
    simp only [List.cons.injEq, and_true] at h2
    subst h2
    refine .inr ⟨⟨pre, r₀, post', h1, hv, fun r' hr' => hp r' (by simp [hr']), fun r' hr' => hr r' ?_⟩, hp _ (by simp), hr _ (by simp)⟩
    rcases List.mem_cons.1 hr' with rfl | h
    · simp
    · simp [h]

/-- Every current vote is stored, for its candidate. -/
theorem Exec.votesStored {ps dev log s} (h : Exec ps dev log s) :
    (∀ ci v, s.eonStartVotings ci = some v → v.candidates.Nodup) ∧
    ∀ a ci b, CurrentVote log a ci b → ∃ v, s.eonStartVotings ci = some v ∧ ∃ i : Nat, v.candidates[i]? = some b ∧ (a, i) ∈ v.votes := by
  induction h with
  | start =>
    refine ⟨by simp [newApp], ?_⟩
    rintro a ci b ⟨pre, r, post, h, _⟩
    simp at h
  | @step log s o op s' r hE ho hs ih =>
    obtain ⟨ih1, ih2⟩ := ih
    have hinv := hE.inv
    have same : s'.eonStartVotings = s.eonStartVotings → (∀ a ci b, ¬ (Rec.mk s op r s').EonVote a ci b) →
        (∀ ci v, s'.eonStartVotings ci = some v → v.candidates.Nodup) ∧
        ∀ a ci b, CurrentVote (log ++ [⟨s, op, r, s'⟩]) a ci b → ∃ v, s'.eonStartVotings ci = some v ∧
          ∃ i : Nat, v.candidates[i]? = some b ∧ (a, i) ∈ v.votes := by
      intro h1 h2
      rw [h1]
      refine ⟨ih1, fun a ci b hc => ?_⟩
      rcases hc.shrink with h | h
      · exact absurd h.1 (h2 _ _ _)
      · exact ih2 _ _ _ h.1
    rcases step_frame hs with ⟨hf, hev, hna⟩ | ⟨a, m, d, rfl, hch, hno, rfl, he⟩
    · exact same hf.eonStartVotings (fun a ci b h => not_accepts hna h.1)
    · generalize hm : m.msg = msg at he
      cases he with
      | rejected =>
        refine same rfl (fun a' ci' b' h => ?_)
        have := (accepts_iff h.1).2.2
        simp [errorResponse] at this
      | eonVoted b c hc hk hout =>
        have hc' : getConfig s.configs b = some c := hc
        have hfb : InForce s.configs b c := getConfig_iff.1 hc'
        have hmem := getConfig_mem hc'
        have hinv' := hinv.ev_getD hmem
        obtain ⟨i, hvotes, hi, hilt, hpre⟩ :=
          EonStartVoting.addVote_cases (v := (s.eonStartVotings c.configIndex).getD ⟨[], []⟩) (a := a) (b := b)
        have hnd0 : ((s.eonStartVotings c.configIndex).getD ⟨[], []⟩).candidates.Nodup := by
          cases hsv : s.eonStartVotings c.configIndex with
          | none => simp
          | some v => exact ih1 _ _ hsv
        have hvote : ∀ s'' d a' ci' b', (Rec.mk s (.deliverTx (some (a, m))) (.deliverTx d) s'').EonVote a' ci' b' →
            a' = a ∧ b' = b ∧ ci' = c.configIndex := by
          rintro s'' d a' ci' b' ⟨h1, c', hcc, rfl⟩
          obtain ⟨rfl, hmm, _⟩ := accepts_iff h1
          rw [hm] at hmm
          simp at hmm; subst hmm
          exact ⟨rfl, rfl, by rw [hcc.unique hfb]⟩
        refine ⟨?_, ?_⟩
        · intro ci v hv
          have hv : Function.update s.eonStartVotings c.configIndex (some (countEonStartVote s a c b)) ci = some v := hv
          by_cases hci : ci = c.configIndex
          · subst hci
            simp at hv
            subst hv
            exact EonStartVoting.addVote_nodup hnd0
          · rw [Function.update_of_ne hci] at hv
            exact ih1 _ _ hv
        · intro a' ci b' hcv
          show ∃ v, Function.update s.eonStartVotings c.configIndex (some (countEonStartVote s a c b)) ci = some v ∧ _
          rcases hcv.shrink with ⟨h1, _⟩ | ⟨h1, h2, _⟩
          · obtain ⟨rfl, rfl, rfl⟩ := hvote _ _ _ _ _ h1
            refine ⟨_, Function.update_self _ _ _, i, hi, ?_⟩
            show _ ∈ (countEonStartVote s a' c b').votes
            unfold countEonStartVote
            rw [hvotes, mem_setVote hinv'.nodup]
            exact .inl rfl
          · obtain ⟨v, h3, j, h4, h5⟩ := ih2 _ _ _ h1
            by_cases hci : ci = c.configIndex
            · subst hci
              rw [h3] at hvotes hpre hinv'
              refine ⟨_, Function.update_self _ _ _, j, ?_, ?_⟩
              · unfold countEonStartVote
                rw [h3]
                exact prefix_getElem? hpre h4
              · unfold countEonStartVote
                rw [h3, hvotes, mem_setVote hinv'.nodup]
                refine .inr ⟨h5, ?_⟩
                rintro rfl
                exact h2 b ⟨⟨m, hm, rfl, _, rfl⟩, c, hfb, rfl⟩
            · exact ⟨v, by rw [Function.update_of_ne hci]; exact h3, j, h4, h5⟩
      | eonStarted b c i start hc hk hout hcand =>
        have hc' : getConfig s.configs b = some c := hc
        have hfb : InForce s.configs b c := getConfig_iff.1 hc'
        refine ⟨?_, ?_⟩
        · intro ci v hv
          have hv : Function.update s.eonStartVotings c.configIndex none ci = some v := hv
          by_cases hci : ci = c.configIndex
          · subst hci; simp at hv
          · rw [Function.update_of_ne hci] at hv
            exact ih1 _ _ hv
        · intro a' ci b' hcv
          show ∃ v, Function.update s.eonStartVotings c.configIndex none ci = some v ∧ _
          have hrest : (Rec.mk s (.deliverTx (some (a, m)))
              (.deliverTx ⟨true, [.eonStarted ((withNonce s a m.randomNonce).eonCounter + 1) start]⟩)
              (startDKG { withNonce s a m.randomNonce with
                eonStartVotings := Function.update (withNonce s a m.randomNonce).eonStartVotings c.configIndex none } c).1).Restarts c.configIndex :=
            ⟨⟨a, b, ⟨m, hm, rfl, _, rfl⟩, c, hfb, rfl⟩, by simp [Rec.events]⟩
          by_cases hci : ci = c.configIndex
          · subst hci
            rcases hcv.shrink with ⟨_, h1⟩ | ⟨_, _, h1⟩ <;> exact absurd hrest h1
          · rw [Function.update_of_ne hci]
            rcases hcv.shrink with ⟨⟨h1, c', hcc, rfl⟩, _⟩ | ⟨h1, _⟩
            · obtain ⟨rfl, hmm, _⟩ := accepts_iff h1
              rw [hm] at hmm
              simp at hmm; subst hmm
              exact absurd (by rw [hcc.unique hfb]) hci
            · exact ih2 _ _ _ h1
      | _ =>
        refine same rfl (fun a' ci' b' h => ?_)
        have := (accepts_iff h.1).2.1
        rw [hm] at this
        simp at this

/-- The votes stored for a batch are fewer than the threshold: otherwise the eon would have been started. -/
theorem Exec.votesBelow {ps dev log s} (h : Exec ps dev log s) {c : BatchConfig} (hc : c ∈ s.configs) (ht : c.threshold < 2 ^ 63) {b : Nat}
    {V : Finset Addr} (hne : V.Nonempty) (hV : ∀ x ∈ V, CurrentVote log x c.configIndex b) : V.card < c.threshold := by
  obtain ⟨h1, h2⟩ := h.votesStored
  obtain ⟨x₀, hx₀⟩ := hne
  obtain ⟨v, hv, i, hi, hm⟩ := h2 _ _ _ (hV x₀ hx₀)
  have hvi := h.inv.ev_getD hc
  rw [hv, Option.getD_some] at hvi
  have hsub : V ⊆ votersOf v.votes i := by
    intro x hx
    obtain ⟨v', hv', j, hj, hm'⟩ := h2 _ _ _ (hV x hx)
    rw [hv] at hv'
    cases hv'
    have : j = i := by
      obtain ⟨p1, p2⟩ := List.getElem?_eq_some_iff.1 hi
      obtain ⟨p3, p4⟩ := List.getElem?_eq_some_iff.1 hj
      exact (List.Nodup.getElem_inj_iff (h1 _ _ hv)).1 (p4.trans p2.symm)
    subst this
    exact mem_votersOf.2 hm'
  have hcard := Finset.card_le_card hsub
  rw [card_votersOf hvi.nodup] at hcard
  have : (countVotes v.votes i : Int) < _ := hvi.below _ hm
  rw [toInt64_of_lt ht] at this

  omega

end Shutter.App
