import Verif.Proofs.Vote
import Verif.Proofs.NetKeyper
import Verif.Props.App

set_option linter.unusedSectionVars false

/-! # The votes for batch configs in the application -/

namespace Shutter.App

theorem Frame.indices {s s' : State} (hf : Frame s s') (inv : Inv s) (inv' : Inv s') :
    (App.ids s').map (·.configIndex) = (App.ids s).map (·.configIndex) := by
  by_cases h : ∃ a, a ∈ s.configs.flatMap (·.keypers)
  · rw [hf.ids h]
  · obtain ⟨c, rest, h1, _, h2⟩ := inv.cfg.first
    obtain ⟨c', rest', h1', _, h2'⟩ := inv'.cfg.first
    have hlen : (App.ids s').length = (App.ids s).length := by simp [App.ids, hf.length]
    have hone : App.ids s = [c] := by
      rcases inv.cfg.valid c (by rw [h1]; simp) with hv | ⟨hv, _⟩
      · exfalso
        have : c ∈ App.ids s := by rw [h1]; simp
        obtain ⟨d, hd, rfl⟩ := List.mem_map.1 this
        have hk : d.keypers ≠ [] := by
          intro h0
          simp [BatchConfig.ensureValid, h0] at hv
        obtain ⟨a, ha⟩ := List.exists_mem_of_ne_nil _ hk
        exact h ⟨a, List.mem_flatMap.2 ⟨d, hd, ha⟩⟩
      · exact hv
    rw [hone, h1'] at hlen
    have : rest' = [] := by simpa using hlen
    rw [hone, h1', this]
    simp [h2, h2']

theorem addVote_nodup {v v' : ConfigVoting} {a bc} (h : v.addVote a bc = some v') (hn : v.candidates.Nodup) :
    v'.candidates.Nodup ∧ ∀ c ∈ v'.candidates, c ∈ v.candidates ∨ c = bc := by
  unfold ConfigVoting.addVote at h
  split at h
  · simp at h
  · split at h
    · simp at h; subst h
      exact ⟨hn, fun c hc => .inl hc⟩
    · next hnone =>
      simp at h; subst h
      refine ⟨?_, by simp⟩
      rw [List.nodup_append]
      refine ⟨hn, by simp, ?_⟩
      intro x hx y hy
      simp only [List.mem_singleton] at hy
      subst hy
      rintro rfl
      revert hx
      revert hnone
      generalize v.candidates = l
      induction l with
      | nil => simp
      | cons b l ih =>
        intro hnone hx
        unfold candidateIndex at hnone
        split at hnone
        · simp at hnone
        · next hb =>
          rw [Option.map_eq_none_iff] at hnone
          rcases List.mem_cons.1 hx with rfl | hx
          · exact hb rfl
          · exact ih hnone hx

/-- The candidates are different and come after all configs. -/
theorem Exec.candidates {ps dev log s} (h : Exec ps dev log s) : s.configVoting.candidates.Nodup ∧
    ∀ c ∈ s.configVoting.candidates, ∀ i ∈ (ids s).map (·.configIndex), i < c.configIndex := by
  induction h with
  | start => simp [newApp]
  | @step log s o op s' r hE ho hs ih =>
    have inv := hE.inv
    have inv' := (Exec.step o op s' r hE ho hs).inv
    rcases step_frame hs with ⟨hf, _, _⟩ | ⟨a, m, d, rfl, _, _, rfl, he⟩
    · rw [hf.configVoting, hf.indices inv inv']
      exact ih
    · generalize m.msg = msg at he
      cases he with
      | configVoted m' bc last cv h1 h2 h3 h4 h5 h6 =>
        obtain ⟨k1, k2⟩ := addVote_nodup h5 ih.1
        refine ⟨k1, ?_⟩
        intro c hc i hi
        rcases k2 c hc with hc | rfl
        · exact ih.2 c hc i hi
        · have hl : lastConfig s = some last := h2
          have hg := ids_getLast? hl
          have hlt := (checkConfig_iff.1 h3).2.2
          have hi : i ∈ (ids s).map (·.configIndex) := hi
          obtain ⟨e, he, rfl⟩ := List.mem_map.1 hi
          obtain ⟨l', hl'⟩ := List.getLast?_eq_some_iff.1 hg
          have hp := inv.cfg.index
          rw [hl'] at hp he
          rw [List.mem_append, List.mem_singleton] at he
          rcases he with he | rfl
          · have := (List.pairwise_append.1 hp).2.2 e he last.erase (by simp)
            simp only [erase_index] at this
            omega
          · simpa using hlt
      | configAdded m' bc last cv i hbc => simp [added, updateCheckTxMembers]
      | configAddedDKG m' bc last cv i hbc => simp [added, updateCheckTxMembers, startDKG]
      | _ => exact ih

/-- Votes stay until a config is accepted. -/
theorem Exec.votes_kept {ps dev log s} (h : Exec ps dev log s) : ∀ r ∈ log,
    (r.before.configs.length ≤ s.configs.length ∧ (r.before.configs.length = s.configs.length →
      ∀ w ∈ r.before.configVoting.votes, w ∈ s.configVoting.votes)) ∧
    (r.after.configs.length ≤ s.configs.length ∧ (r.after.configs.length = s.configs.length →
      ∀ w ∈ r.after.configVoting.votes, w ∈ s.configVoting.votes)) := by
  refine h.mono (fun s t => s.configs.length ≤ t.configs.length ∧ (s.configs.length = t.configs.length →
      ∀ w ∈ s.configVoting.votes, w ∈ t.configVoting.votes)) (fun s => ⟨le_refl _, fun _ w hw => hw⟩) ?_ ?_
  · rintro s t u ⟨h1, h2⟩ ⟨h3, h4⟩
    exact ⟨le_trans h1 h3, fun he w hw => h4 (by omega) w (h2 (by omega) w hw)⟩
  · intro log s o op s' r hE ho hs
    have inv := hE.inv
    rcases step_frame hs with ⟨hf, _, _⟩ | ⟨a, m, d, rfl, _, _, rfl, he⟩
    · rw [hf.configVoting, hf.length]
      exact ⟨le_refl _, fun _ w hw => hw⟩
    · generalize m.msg = msg at he
      cases he with
      | configVoted m' bc last cv h1 h2 h3 h4 h5 h6 =>
        refine ⟨le_refl _, fun _ w hw => ?_⟩
        obtain ⟨k1, i, k2, _⟩ := ConfigVoting.addVote_cases h5
        have hvi := inv.cv _ (ids_getLast? (show lastConfig s = some last from h2))
        show w ∈ cv.votes
        rw [k2]
        exact (mem_setVote hvi.nodup).2 (.inr ⟨hw, k1 w hw⟩)
      | configAdded m' bc last cv i hbc =>
        refine ⟨by simp [added, updateCheckTxMembers, withNonce], fun he => ?_⟩
        simp [added, updateCheckTxMembers, withNonce] at he
      | configAddedDKG m' bc last cv i hbc =>
        refine ⟨by simp [added, updateCheckTxMembers, withNonce, startDKG], fun he => ?_⟩
        simp [added, updateCheckTxMembers, withNonce, startDKG] at he
      | _ => exact ⟨le_refl _, fun _ w hw => hw⟩

end Shutter.App
