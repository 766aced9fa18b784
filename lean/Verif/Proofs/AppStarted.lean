import Verif.Proofs.AppQuorum

/-! # Started votes -/

namespace Shutter.App

theorem Eff.ids {ps ord s a m s' r} (h : Eff ps ord s a m s' r) : ids s <+: ids s' := by
  cases h <;> simp [App.ids, added, updateCheckTxMembers, startDKG]

theorem ids_withNonce (s a n) : ids (withNonce s a n) = ids s := rfl

structure StartedVote (log : List Rec) (s : State) (v : Addr) : Prop where
  vote : ∃ pre r post n cur prev, log = pre ++ r :: post ∧ r.StartedReport v cur.configIndex ∧
    (∀ r' ∈ post, ¬ r'.Starts) ∧ (ids s)[n]? = some prev ∧ (ids s)[n + 1]? = some cur ∧ v ∈ prev.keypers

theorem StartedVote.extend {log s v r s'} (h : StartedVote log s v) (hr : ¬ r.Starts) (hi : ids s <+: ids s') :
    StartedVote (log ++ [r]) s' v := by
  obtain ⟨pre, r₀, post, n, cur, prev, rfl, h1, h2, h3, h4, h5⟩ := h.vote
  refine ⟨pre, r₀, post ++ [r], n, cur, prev, by simp, h1, ?_, prefix_getElem? hi h3, prefix_getElem? hi h4, h5⟩
  intro r' hr'
  rcases List.mem_append.1 hr' with h | h
  · exact h2 r' h
  · simp at h; rw [h]; exact hr

theorem not_starts_deliver {s tx r s'} : ¬ (Rec.mk s (.deliverTx tx) r s').Starts := by
  rintro ⟨⟨h, h0⟩, _⟩; simp at h0

theorem StartedVote.two {log s v} (h : StartedVote log s v) : 2 ≤ s.configs.length := by
  obtain ⟨pre, r₀, post, n, cur, prev, _, h1, h2, h3, h4, h5⟩ := h.vote
  have := (List.getElem?_eq_some_iff.1 h4).1
  rw [length_ids] at this; omega

theorem Exec.started {ps dev log s} (h : Exec ps dev log s) :
    s.startedVotes.Nodup ∧ ∀ v ∈ s.startedVotes, StartedVote log s v := by
  induction h with
  | start => simp [newApp]
  | @step log s o op s' r hE ho hs ih =>
    obtain ⟨ih1, ih2⟩ := ih
    cases op with
    | initChain req =>
      simp only [App.step, Option.map_eq_some_iff] at hs
      obtain ⟨s₁, hi, he⟩ := hs
      simp only [Prod.mk.injEq] at he
      obtain ⟨rfl, rfl⟩ := he
      rcases initChain_cases hi with ⟨ks, t, c, pm, _, _, hc, hk, _, rfl⟩ | ⟨rfl, _⟩
      · refine ⟨ih1, fun v hv => ?_⟩
        have := (ih2 v hv).two
        rw [hc] at this; simp at this
      · exact ⟨ih1, fun v hv => (ih2 v hv).extend (by rintro ⟨⟨h, h0⟩, _⟩; simp at h0) (List.prefix_refl _)⟩
    | checkTx tx =>
      simp only [App.step, Option.some.injEq, Prod.mk.injEq] at hs
      obtain ⟨rfl, rfl⟩ := hs
      obtain ⟨c, hc⟩ := checkTx_eq (s := s) (tx := tx)
      rw [hc]
      exact ⟨ih1, fun v hv => (ih2 v hv).extend (by rintro ⟨⟨h, h0⟩, _⟩; simp at h0) (List.prefix_refl _)⟩
    | commit =>
      simp only [App.step, Option.some.injEq, Prod.mk.injEq] at hs
      obtain ⟨rfl, rfl⟩ := hs
      exact ⟨ih1, fun v hv => (ih2 v hv).extend (by rintro ⟨⟨h, h0⟩, _⟩; simp at h0) (List.prefix_refl _)⟩
    | endBlock ht =>
      simp only [App.step, Option.map_eq_some_iff] at hs
      obtain ⟨⟨s₁, ups⟩, hi, he⟩ := hs
      simp only [Prod.mk.injEq] at he
      obtain ⟨rfl, rfl⟩ := he
      obtain ⟨last, last', hl, hle, _, hcf, hs', hv⟩ := endBlock_cases hi
      rcases hv with ⟨hv, hst⟩ | ⟨hv, _⟩
      · rw [hv]
        refine ⟨ih1, fun v hv => (ih2 v hv).extend ?_ ((ids_endBlock hi) ▸ List.prefix_refl _)⟩
        rintro ⟨_, c, c', h1, h2, h3, h4⟩
        simp only at h1 h2
        rw [hcf] at h2
        simp at h2
        have : c = last := by
          have := h1.symm.trans hl
          simpa using this
        subst this; subst h2
        rw [hst, h3] at h4; simp at h4
      · rw [hv]; simp
    | deliverTx tx =>
      rcases step_frame hs with ⟨hf, hev, hd⟩ | ⟨a, m, d, hop, _, _, rfl, he⟩
      · have : s' = s := by
          simp only [App.step, Option.map_eq_some_iff] at hs
          obtain ⟨p, hp, he⟩ := hs
          simp only [Prod.mk.injEq] at he
          exact (hd _ he.2.symm).2
        subst this
        exact ⟨ih1, fun v hv => (ih2 v hv).extend not_starts_deliver (List.prefix_refl _)⟩
      · have hids : ids s <+: ids s' := by have := he.ids; rwa [ids_withNonce] at this
        have key : s'.startedVotes = s.startedVotes →
            s'.startedVotes.Nodup ∧ ∀ v ∈ s'.startedVotes, StartedVote (log ++ [⟨s, .deliverTx tx, .deliverTx d, s'⟩]) s' v := by
          intro h0; rw [h0]
          exact ⟨ih1, fun v hv => (ih2 v hv).extend not_starts_deliver hids⟩
        generalize hm : m.msg = msg at he
        cases he with
        | startedVote last prev hl hlen hp hk hst =>
          by_cases hc : s.startedVotes.contains a = true
          · refine key ?_
            simp only [withNonce, hc, if_true]
          · have hc' : a ∉ s.startedVotes := by simpa using hc
            have : (withNonce s a m.randomNonce).startedVotes = s.startedVotes := rfl
            simp only [this, hc, Bool.false_eq_true, if_false]
            refine ⟨List.nodup_append.2 ⟨ih1, by simp, by simp; exact fun b hb h0 => hc' (h0 ▸ hb)⟩, ?_⟩
            intro v hv
            rcases List.mem_append.1 hv with hv | hv
            · exact (ih2 v hv).extend not_starts_deliver hids
            · simp at hv; subst hv
              have hl' : s.configs.getLast? = some last := hl
              have hlen' : 2 ≤ s.configs.length := hlen
              have hp' : s.configs[s.configs.length - 2]? = some prev := hp
              refine ⟨log, _, [], s.configs.length - 2, last.erase, prev.erase, rfl, ?_, by simp, ?_, ?_, ?_⟩
              · refine ⟨m, by rw [hm]; simp [BatchConfig.erase], hop, [], rfl⟩
              · show (s.configs.map _)[s.configs.length - 2]? = _
                rw [List.getElem?_map, hp']; rfl
              · show (s.configs.map _)[s.configs.length - 2 + 1]? = _
                rw [List.getElem?_map, show s.configs.length - 2 + 1 = s.configs.length - 1 by omega,
                  ← List.getLast?_eq_getElem?, hl']; rfl
              · exact isKeyper_iff.1 hk
        | _ => exact key rfl

end Shutter.App
