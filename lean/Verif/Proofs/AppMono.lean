import Verif.Proofs.AppDkg
import Verif.Proofs.AppStarted
import Verif.Proofs.AppCrash

/-! # Facts about every record of an execution -/

namespace Shutter.App

theorem Exec.at {ps dev log s} (h : Exec ps dev log s) {pre r post} (hl : log = pre ++ r :: post) :
    Exec ps dev pre r.before ∧ ∃ o : Orders, o.Lawful ∧ App.step ps o r.before r.op = some (r.after, r.resp) := by
  induction h generalizing post with
  | start => simp at hl
  | step o op s' rr hE ho hs ih =>
    rcases List.eq_nil_or_concat post with rfl | ⟨post', x, rfl⟩
    · have := List.append_inj' hl rfl
      simp at this
      obtain ⟨rfl, rfl⟩ := this
      exact ⟨hE, o, ho, hs⟩
    · rw [List.concat_eq_append, ← List.cons_append, ← List.append_assoc] at hl
      exact ih (List.append_inj' hl rfl).1

/-- A record of a processed message. -/
theorem Exec.eff {ps dev log s} (h : Exec ps dev log s) {pre r post} (hl : log = pre ++ r :: post) {a msg}
    (ha : r.Accepts a msg) : Exec ps dev pre r.before ∧ ∃ (o : Orders) (m : MessageWithNonce) (d : DeliverResponse),
      o.Lawful ∧ m.msg = msg ∧ r.op = .deliverTx (some (a, m)) ∧ r.resp = .deliverTx d ∧ d.ok = true ∧
      m.chainId = r.before.chainID ∧ r.before.nonceTracker a m.randomNonce = false ∧
      Eff ps o.idx (withNonce r.before a m.randomNonce) a msg r.after d := by
  obtain ⟨hE, o, ho, hst⟩ := h.at hl
  obtain ⟨m, hm, hop, evs, hr⟩ := ha
  rw [hop, hr] at hst
  simp only [App.step, Option.map_eq_some_iff, Prod.mk.injEq] at hst
  obtain ⟨p, hp, h1, h2⟩ := hst
  simp at h2
  obtain ⟨p1, p2⟩ := p
  simp only at h1 h2
  subst h1; subst h2
  rcases deliverTx_cases hp with ⟨_, h0⟩ | ⟨a', m', h3, h4, h5, h6⟩
  · simp [errorResponse] at h0
  · simp at h3
    obtain ⟨rfl, rfl⟩ := h3
    exact ⟨hE, o, m, _, ho, hm, hop, hr, rfl, h4, h5, hm ▸ h6⟩

/-- A record with events is a processed message. -/
theorem Exec.accepted_of_event {ps dev log s} (h : Exec ps dev log s) {pre r post} (hl : log = pre ++ r :: post)
    (he : r.events ≠ []) : ∃ a msg, r.Accepts a msg := by
  obtain ⟨hE, o, ho, hst⟩ := h.at hl
  unfold Rec.events at he
  split at he
  · next d hd =>
    rw [hd] at hst
    cases hop : r.op with
    | deliverTx tx =>
      rw [hop] at hst
      simp only [App.step, Option.map_eq_some_iff, Prod.mk.injEq] at hst
      obtain ⟨⟨p1, p2⟩, hp, h1, h2⟩ := hst
      simp at h1 h2
      subst h1; subst h2
      rcases deliverTx_cases hp with ⟨_, h0⟩ | ⟨a', m', h3, h4, h5, h6⟩
      · simp [h0, errorResponse] at he
      · refine ⟨a', m'.msg, m', rfl, by rw [hop, h3], p2.events, ?_⟩
        rw [hd]
        generalize m'.msg = msg at h6
        generalize r.after = sa at h6
        cases h6 with
        | rejected => simp [errorResponse] at he
        | _ => rfl
    | initChain => rw [hop] at hst; simp [App.step] at hst
    | checkTx => rw [hop] at hst; simp [App.step] at hst
    | endBlock => rw [hop] at hst; simp [App.step] at hst
    | commit => rw [hop] at hst; simp [App.step] at hst
  · simp at he

/-- Relations kept by every call relate the state before any call to the last state. -/
theorem Exec.mono {ps dev} (R : State → State → Prop) (hrefl : ∀ s, R s s) (htrans : ∀ s t u, R s t → R t u → R s u)
    (hstep : ∀ log s o op s' r, Exec ps dev log s → Orders.Lawful o → App.step ps o s op = some (s', r) → R s s')
    {log s} (h : Exec ps dev log s) : ∀ r ∈ log, R r.before s ∧ R r.after s := by
  induction h with
  | start => simp
  | @step log s o op s' rr hE ho hs ih =>
    intro r hr
    have h1 := hstep _ _ _ _ _ _ hE ho hs
    rcases List.mem_append.1 hr with h | h
    · exact ⟨htrans _ _ _ (ih r h).1 h1, htrans _ _ _ (ih r h).2 h1⟩
    · simp at h; subst h; exact ⟨h1, hrefl _⟩

theorem Exec.identities_mono {ps dev log s} (h : Exec ps dev log s) :
    ∀ r ∈ log, ∀ a k, r.before.identities a = some k ∨ r.after.identities a = some k → s.identities a = some k := by
  have := h.mono (fun s t => ∀ a k, s.identities a = some k → t.identities a = some k) (fun _ _ _ h => h)
    (fun _ _ _ h1 h2 a k h => h2 a k (h1 a k h)) (by
      intro log s o op s' r hE ho hs
      rcases step_frame hs with ⟨hf, _, _⟩ | ⟨a, m, d, _, _, _, _, he⟩
      · rw [hf.identities]; exact fun _ _ h => h
      · exact he.identities)
  intro r hr a k hk
  rcases hk with hk | hk
  · exact (this r hr).1 a k hk
  · exact (this r hr).2 a k hk

theorem Exec.dkg_mono {ps dev log s} (h : Exec ps dev log s) :
    ∀ r ∈ log, ∀ e d, r.before.dkgMap e = some d ∨ r.after.dkgMap e = some d → ∃ d', s.dkgMap e = some d' ∧ d.le d' := by
  have := h.mono (fun s t => ∀ e d, s.dkgMap e = some d → ∃ d', t.dkgMap e = some d' ∧ d.le d')
    (fun _ _ d h => ⟨d, h, .refl d⟩)
    (fun _ _ _ h1 h2 e d h => by
      obtain ⟨d', h3, h4⟩ := h1 e d h
      obtain ⟨d'', h5, h6⟩ := h2 e d' h3
      exact ⟨d'', h5, h6.1.trans h4.1, h6.2.trans h4.2, List.Subset.trans h4.3 h6.3, List.Subset.trans h4.4 h6.4,
        List.Subset.trans h4.5 h6.5, List.Subset.trans h4.6 h6.6⟩) (by
      intro log s o op s' r hE ho hs
      rcases step_frame hs with ⟨hf, _, _⟩ | ⟨a, m, d, _, _, _, _, he⟩
      · rw [hf.dkgMap]; exact fun _ d h => ⟨d, h, .refl d⟩
      · exact he.dkg_le (s := withNonce s a m.randomNonce) (fun e d hd => ((hE.eons.2 e).1 d hd).2.1))
  intro r hr e d hd
  rcases hd with hd | hd
  · exact (this r hr).1 e d hd
  · exact (this r hr).2 e d hd

/-- Once there are keypers, configs are only appended (up to the two flags). -/
theorem Exec.ids_mono {ps dev log s} (h : Exec ps dev log s) :
    ∀ r ∈ log, ((∃ c ∈ r.before.configs, c.keypers ≠ []) → ids r.before <+: ids s) ∧
      ((∃ c ∈ r.after.configs, c.keypers ≠ []) → ids r.after <+: ids s) := by
  have hkey : ∀ s t : State, ids s <+: ids t → (∃ c ∈ s.configs, c.keypers ≠ []) → ∃ c ∈ t.configs, c.keypers ≠ [] := by
    intro s t hp ⟨c, hc, hk⟩
    have : c.erase ∈ ids t := hp.subset (List.mem_map_of_mem hc)
    obtain ⟨d, hd, hde⟩ := List.mem_map.1 this
    refine ⟨d, hd, ?_⟩
    have := congrArg BatchConfig.keypers hde
    simp [BatchConfig.erase] at this
    rwa [this]
  exact h.mono (fun s t => (∃ c ∈ s.configs, c.keypers ≠ []) → ids s <+: ids t)
    (fun _ _ => List.prefix_refl _)
    (fun s t u h1 h2 h => (h1 h).trans (h2 (hkey s t (h1 h) h))) (by
      intro log s o op s' r hE ho hs
      rcases step_frame hs with ⟨hf, _, _⟩ | ⟨a, m, d, _, _, _, _, he⟩
      · rintro ⟨c, hc, hk⟩
        obtain ⟨a, ha⟩ := List.exists_mem_of_ne_nil _ hk
        rw [hf.ids ⟨a, List.mem_flatMap.2 ⟨c, hc, ha⟩⟩]
      · intro _; exact he.ids)

end Shutter.App
