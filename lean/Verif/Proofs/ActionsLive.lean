import Verif.Proofs.ActionsWork

/-! # A restarted keyper catches up -/

namespace Shutter.Fx
variable {α H σ : Type} {isTx : α → Bool} {newRest : σ}

theorem GoesOn.trans {a b c : Sys α H σ} (h1 : GoesOn isTx newRest a b) (h2 : GoesOn isTx newRest b c) :
    GoesOn isTx newRest a c := by
  induction h2 with
  | refl => exact h1
  | step _ h3 h4 h5 ih => exact ih.step h3 h4 h5

theorem GoesOn.reach {a b : Sys α H σ} (h1 : GoesOn isTx newRest a b) (h : Sys.Reach isTx newRest a) :
    Sys.Reach isTx newRest b := by
  induction h1 with
  | refl => exact h
  | step _ _ _ h5 ih => exact ih.step h5

theorem GoesOn.one {a b : Sys α H σ} (e : Ev α H σ) (h1 : ∀ as r, e ≠ .decide as r) (h2 : e ≠ .save)
    (h : a.step isTx newRest e = some b) : GoesOn isTx newRest a b := GoesOn.refl.step h1 h2 h

theorem queued_noSaved (f : Nat → Option α) (l : List Nat) :
    savedActions (l.filterMap (fun id => (f id).map (Entry.queued (H := H) (σ := σ) id))) = [] := by
  induction l with
  | nil => rfl
  | cons x l ih =>
    rw [List.filterMap_cons]
    cases f x with
    | none => exact ih
    | some a => exact ih

/-- Only saving decisions changes what was saved. -/
theorem saved_step {s s' : Sys α H σ} {e : Ev α H σ} (h : e ≠ .save) (hs : s.step isTx newRest e = some s') :
    savedActions s'.log = savedActions s.log := by
  have hsnoc : ∀ (l : List (Entry α H σ)) (e : Entry α H σ), savedActions [e] = [] → savedActions (l ++ [e]) = savedActions l := by
    intro l e he; rw [savedActions_append, he, List.append_nil]
  cases hm : s.mem with
  | none => cases e <;> simp [Sys.step, hm] at hs <;> subst hs <;> exact hsnoc _ _ rfl
  | some m =>
    cases e with
    | save => exact absurd rfl h
    | start => simp [Sys.step, hm] at hs
    | load =>
      simp only [Sys.step, hm, Option.bind_eq_bind, Option.bind_some, Option.ite_none_right_eq_some, Option.some.injEq] at hs
      obtain ⟨_, rfl⟩ := hs; rfl
    | schedule =>
      simp only [Sys.step, hm, Option.bind_eq_bind, Option.bind_some, Option.ite_none_right_eq_some, Sys.scheduleNext] at hs
      obtain ⟨_, hs⟩ := hs
      repeat' split at hs
      all_goals cases hs
      all_goals first | rfl | exact hsnoc _ _ rfl
    | loaded =>
      simp only [Sys.step, hm, Option.bind_eq_bind, Option.bind_some, Option.ite_none_right_eq_some, Option.some.injEq] at hs
      obtain ⟨_, rfl⟩ := hs; rfl
    | decide as r =>
      simp only [Sys.step, hm, Option.bind_eq_bind, Option.bind_some, Option.ite_none_right_eq_some] at hs
      obtain ⟨_, hs⟩ := hs
      repeat' split at hs
      all_goals cases hs
      all_goals first | rfl | exact hsnoc _ _ rfl
    | run =>
      simp only [Sys.step, hm, Option.bind_eq_bind, Option.bind_some, Option.ite_none_right_eq_some] at hs
      obtain ⟨_, hs⟩ := hs
      split at hs
      · cases hs; rfl
      · split at hs
        · cases hs; exact hsnoc _ _ rfl
        · cases hs
          simp only [Sys.emit, Sys.withMem, savedActions_append, queued_noSaved, List.append_nil]
          split <;> rfl
    | finish =>
      simp only [Sys.step, hm, Option.bind_eq_bind, Option.bind_some, Option.ite_none_right_eq_some, Option.some.injEq] at hs
      obtain ⟨_, rfl⟩ := hs; rfl
    | mined id =>
      simp only [Sys.step, hm, Option.bind_eq_bind, Option.bind_some, Option.ite_none_right_eq_some] at hs
      obtain ⟨_, hs⟩ := hs
      split at hs <;> cases hs <;> exact hsnoc _ _ rfl
    | stop =>
      simp only [Sys.step, hm, Option.some.injEq] at hs
      subst hs; exact hsnoc _ _ rfl
    | _ =>
      simp only [Sys.step, hm, Option.bind_eq_bind, Option.bind_some] at hs
      repeat' split at hs
      all_goals cases hs
      all_goals exact hsnoc _ _ rfl

theorem GoesOn.saved {a b : Sys α H σ} (h1 : GoesOn isTx newRest a b) : savedActions b.log = savedActions a.log := by
  induction h1 with
  | refl => rfl
  | step _ _ h4 h5 ih => rw [saved_step h4 h5, ih]

/-- The loops that schedule actions come to an end. -/
theorem schedule_all (n : Nat) {s : Sys α H σ} (hr : Sys.Reach isTx newRest s) {m : Mem α H σ} (hm : s.mem = some m)
    (hp : m.phase = .loading ∨ m.phase = .scheduling) (hn : m.toSchedule.length = n) :
    ∃ s' m', GoesOn isTx newRest s s' ∧ s'.mem = some m' ∧ m'.phase = m.phase ∧ m'.toSchedule = [] ∧ m'.state = m.state := by
  induction n generalizing s m with
  | zero => exact ⟨s, m, .refl, hm, rfl, List.length_eq_zero_iff.1 hn, rfl⟩
  | succ n ih =>
    have inv := reach_inv hr
    have hns : m.phase ≠ .started := by rcases hp with hp | hp <;> simp [hp]
    cases hts : m.toSchedule with
    | nil => simp [hts] at hn
    | cons id rest =>
      have hin := (inv.w m hm hns).schedMem id (by simp [hts])
      rw [← inv.pend m hm hns] at hin
      obtain ⟨a, ha⟩ := Option.isSome_iff_exists.1 hin
      have hrest : rest.length = n := by simpa [hts] using hn
      have hstep : ∃ s1 m1, s.step isTx newRest .schedule = some s1 ∧ s1.mem = some m1 ∧ m1.phase = m.phase ∧
          m1.toSchedule = rest ∧ m1.state = m.state := by
        simp only [Sys.step, hm, Option.bind_eq_bind, Option.bind_some, hp, if_true, Sys.scheduleNext, hts, ha]
        cases isTx a <;> cases (m.pend.txHashes id).isSome <;> exact ⟨_, _, rfl, rfl, rfl, rfl, rfl⟩
      obtain ⟨s1, m1, h1, h2, h3, h4, h5⟩ := hstep
      have hg := GoesOn.one (isTx := isTx) (newRest := newRest) _ (by simp) (by simp) h1
      obtain ⟨s', m', g, i1, i2, i3, i4⟩ := ih (hg.reach hr) h2 (by rw [h3]; exact hp) (by rw [h4]; exact hrest)
      exact ⟨s', m', hg.trans g, i1, i2.trans h3, i3, i4.trans h5⟩

/-- After a restart the keyper reaches its main loop. -/
theorem restart {s : Sys α H σ} (hr : Sys.Reach isTx newRest s) :
    ∃ s' m', GoesOn isTx newRest s s' ∧ s'.mem = some m' ∧ m'.phase = .idle := by
  -- end the process, if any, and start it
  have h1 : ∃ s1 m1, GoesOn isTx newRest s s1 ∧ s1.mem = some m1 ∧ m1.phase = .started := by
    have hstart : ∀ s0 : Sys α H σ, s0.mem = none → ∃ s1 m1, s0.step isTx newRest .start = some s1 ∧ s1.mem = some m1 ∧
        m1.phase = .started := by
      intro s0 h0
      simp only [Sys.step, h0]
      exact ⟨_, _, rfl, rfl, rfl⟩
    cases hm : s.mem with
    | none =>
      obtain ⟨s1, m1, h1, h2, h3⟩ := hstart s hm
      exact ⟨s1, m1, .one _ (by simp) (by simp) h1, h2, h3⟩
    | some m =>
      have : ∃ s0, s.step isTx newRest .stop = some s0 ∧ s0.mem = none := by
        simp only [Sys.step, hm]; exact ⟨_, rfl, rfl⟩
      obtain ⟨s0, h0, h0'⟩ := this
      obtain ⟨s1, m1, h1, h2, h3⟩ := hstart s0 h0'
      exact ⟨s1, m1, (GoesOn.one _ (by simp) (by simp) h0).trans (.one _ (by simp) (by simp) h1), h2, h3⟩
  obtain ⟨s1, m1, g1, hm1, hp1⟩ := h1
  have h2 : ∃ s2 m2, s1.step isTx newRest .load = some s2 ∧ s2.mem = some m2 ∧ m2.phase = .loading := by
    simp only [Sys.step, hm1, Option.bind_eq_bind, Option.bind_some, hp1, if_true]
    exact ⟨_, _, rfl, rfl, rfl⟩
  obtain ⟨s2, m2, h2, hm2, hp2⟩ := h2
  have g2 := g1.trans (GoesOn.one _ (by simp) (by simp) h2)
  obtain ⟨s3, m3, g3, hm3, hp3, hts3, -⟩ := schedule_all _ (g2.reach hr) hm2 (Or.inl hp2) rfl
  replace g3 := g2.trans g3
  rw [hp2] at hp3
  have h4 : ∃ s4 m4, s3.step isTx newRest .loaded = some s4 ∧ s4.mem = some m4 ∧ (m4.phase = .idle ∨ m4.phase = .saved) := by
    simp only [Sys.step, hm3, Option.bind_eq_bind, Option.bind_some, hp3, hts3, and_self, if_true]
    refine ⟨_, _, rfl, rfl, ?_⟩
    simp only; split <;> simp
  obtain ⟨s4, m4, h4, hm4, hp4⟩ := h4
  have g4 := g3.trans (GoesOn.one _ (by simp) (by simp) h4)
  rcases hp4 with hp4 | hp4
  · exact ⟨s4, m4, g4, hm4, hp4⟩
  · have inv := reach_inv (g4.reach hr)
    have hns : m4.phase ≠ .started := by simp [hp4]
    have hpe := inv.pend m4 hm4 hns
    have hph := inv.phase m4 hm4
    simp only [PhaseInv, hp4] at hph
    have hcur := inv.cur
    have hlen := inv.len
    rw [← hph.1] at hcur hlen
    have hge : ¬ m4.state.actionCounter > m4.pend.currentID := by
      rw [hpe]; rcases hcur with h | h <;> omega
    have h5 : ∃ s5 m5, s4.step isTx newRest .run = some s5 ∧ s5.mem = some m5 ∧ m5.phase = .scheduling := by
      simp only [Sys.step, hm4, Option.bind_eq_bind, Option.bind_some, hp4, if_true, Pending.addActions, hge, if_false]
      by_cases ha : m4.state.actions = []
      · simp only [ha, if_true]; exact ⟨_, _, rfl, rfl, rfl⟩
      · simp only [ha, if_false]
        by_cases hc : m4.pend.currentID ≥ m4.state.actionCounter + m4.state.actions.length
        · simp only [hc, if_true]; exact ⟨_, _, rfl, rfl, rfl⟩
        · simp only [hc, if_false]; exact ⟨_, _, rfl, rfl, rfl⟩
    obtain ⟨s5, m5, h5, hm5, hp5⟩ := h5
    have g5 := g4.trans (GoesOn.one _ (by simp) (by simp) h5)
    obtain ⟨s6, m6, g6, hm6, hp6, hts6, -⟩ := schedule_all _ (g5.reach hr) hm5 (Or.inr hp5) rfl
    replace g6 := g5.trans g6
    rw [hp5] at hp6
    have h7 : ∃ s7 m7, s6.step isTx newRest .finish = some s7 ∧ s7.mem = some m7 ∧ m7.phase = .idle := by
      simp only [Sys.step, hm6, Option.bind_eq_bind, Option.bind_some, hp6, hts6, and_self, if_true]
      exact ⟨_, _, rfl, rfl, rfl⟩
    obtain ⟨s7, m7, h7, hm7, hp7⟩ := h7
    exact ⟨s7, m7, g6.trans (GoesOn.one _ (by simp) (by simp) h7), hm7, hp7⟩

/-- The worker for messages empties its channel. -/
theorem drain_msgs (n : Nat) {s : Sys α H σ} (hr : Sys.Reach isTx newRest s) {m : Mem α H σ} (hm : s.mem = some m)
    (hp : m.phase = .idle) (hn : m.msgCh.length = n) :
    ∃ s' m', GoesOn isTx newRest s s' ∧ s'.mem = some m' ∧ m'.phase = .idle ∧ m'.msgCh = [] ∧ m'.txCh = m.txCh ∧
      m'.inFlight = m.inFlight := by
  induction n generalizing s m with
  | zero => exact ⟨s, m, .refl, hm, hp, List.length_eq_zero_iff.1 hn, rfl, rfl⟩
  | succ n ih =>
    have inv := reach_inv hr
    have hns : m.phase ≠ .started := by simp [hp]
    cases hch : m.msgCh with
    | nil => simp [hch] at hn
    | cons id rest =>
      have hrest : rest.length = n := by simpa [hch] using hn
      obtain ⟨a, ha, _⟩ := (inv.w m hm hns).msgMem id (by simp [hch])
      rw [← inv.pend m hm hns] at ha
      have h1 : ∃ s1 m1, GoesOn isTx newRest s s1 ∧ s1.mem = some m1 ∧ m1.phase = .idle ∧ m1.msgCh = id :: rest ∧
          m1.msgDone = true ∧ m1.txCh = m.txCh ∧ m1.inFlight = m.inFlight := by
        cases hd : m.msgDone with
        | true => exact ⟨s, m, .refl, hm, hp, hch, hd, rfl, rfl⟩
        | false =>
          have : ∃ s1 m1, s.step isTx newRest .msgSend = some s1 ∧ s1.mem = some m1 ∧ m1.phase = .idle ∧
              m1.msgCh = id :: rest ∧ m1.msgDone = true ∧ m1.txCh = m.txCh ∧ m1.inFlight = m.inFlight := by
            simp only [Sys.step, hm, Option.bind_eq_bind, Option.bind_some, hch, hd, ha, Bool.false_eq_true, if_false]
            exact ⟨_, _, rfl, rfl, hp, rfl, rfl, rfl, rfl⟩
          obtain ⟨s1, m1, h1, h2⟩ := this
          exact ⟨s1, m1, .one _ (by simp) (by simp) h1, h2⟩
      obtain ⟨s1, m1, g1, hm1, hp1, hch1, hd1, e1, e2⟩ := h1
      have h2 : ∃ s2 m2, s1.step isTx newRest .msgRemove = some s2 ∧ s2.mem = some m2 ∧ m2.phase = .idle ∧ m2.msgCh = rest ∧
          m2.txCh = m1.txCh ∧ m2.inFlight = m1.inFlight := by
        simp only [Sys.step, hm1, Option.bind_eq_bind, Option.bind_some, hch1, hd1, if_true]
        exact ⟨_, _, rfl, rfl, hp1, rfl, rfl, rfl⟩
      obtain ⟨s2, m2, h2, hm2, hp2, hch2, e3, e4⟩ := h2
      have g2 := g1.trans (GoesOn.one _ (by simp) (by simp) h2)
      obtain ⟨s', m', g, i1, i2, i3, i4, i5⟩ := ih (g2.reach hr) hm2 hp2 (by rw [hch2]; exact hrest)
      exact ⟨s', m', g2.trans g, i1, i2, i3, i4.trans (e3.trans e1), i5.trans (e4.trans e2)⟩

/-- The worker for transactions empties its channel. -/
theorem drain_txs (x0 : H) (n : Nat) {s : Sys α H σ} (hr : Sys.Reach isTx newRest s) {m : Mem α H σ} (hm : s.mem = some m)
    (hp : m.phase = .idle) (hmsg : m.msgCh = []) (hn : m.txCh.length = n) :
    ∃ s' m', GoesOn isTx newRest s s' ∧ s'.mem = some m' ∧ m'.phase = .idle ∧ m'.msgCh = [] ∧ m'.txCh = [] := by
  induction n generalizing s m with
  | zero => exact ⟨s, m, .refl, hm, hp, hmsg, List.length_eq_zero_iff.1 hn⟩
  | succ n ih =>
    have inv := reach_inv hr
    have hns : m.phase ≠ .started := by simp [hp]
    cases hch : m.txCh with
    | nil => simp [hch] at hn
    | cons id rest =>
      have hrest : rest.length = n := by simpa [hch] using hn
      obtain ⟨a, ha, _⟩ := (inv.w m hm hns).txMem id (by simp [hch])
      rw [← inv.pend m hm hns] at ha
      have h2 : ∃ s2 m2, GoesOn isTx newRest s s2 ∧ s2.mem = some m2 ∧ m2.phase = .idle ∧ m2.msgCh = [] ∧ m2.txCh = rest := by
        cases hd : m.txDone with
        | true =>
          have h2 : ∃ s2 m2, s.step isTx newRest .txRemove = some s2 ∧ s2.mem = some m2 ∧ m2.phase = .idle ∧ m2.msgCh = [] ∧
              m2.txCh = rest := by
            simp only [Sys.step, hm, Option.bind_eq_bind, Option.bind_some, hch, hd, if_true]
            exact ⟨_, _, rfl, rfl, hp, hmsg, rfl⟩
          obtain ⟨s2, m2, h2, h3⟩ := h2
          exact ⟨s2, m2, .one _ (by simp) (by simp) h2, h3⟩
        | false =>
          have h1 : ∃ s1 m1 x, GoesOn isTx newRest s s1 ∧ s1.mem = some m1 ∧ m1.phase = .idle ∧ m1.msgCh = [] ∧
              m1.txCh = id :: rest ∧ m1.txSent = some x := by
            cases hs : m.txSent with
            | some x => exact ⟨s, m, x, .refl, hm, hp, hmsg, hch, hs⟩
            | none =>
              have : ∃ s1 m1, s.step isTx newRest (.txSend x0) = some s1 ∧ s1.mem = some m1 ∧ m1.phase = .idle ∧
                  m1.msgCh = [] ∧ m1.txCh = id :: rest ∧ m1.txSent = some x0 := by
                simp only [Sys.step, hm, Option.bind_eq_bind, Option.bind_some, hch, hd, hs, ha, Option.isSome_none,
                  Bool.or_self, Bool.false_eq_true, if_false]
                exact ⟨_, _, rfl, rfl, hp, hmsg, rfl, rfl⟩
              obtain ⟨s1, m1, h1, h2⟩ := this
              exact ⟨s1, m1, x0, .one _ (by simp) (by simp) h1, h2⟩
          obtain ⟨s1, m1, x, g1, hm1, hp1, e1, e2, e3⟩ := h1
          have h2 : ∃ s2 m2, s1.step isTx newRest .txRecord = some s2 ∧ s2.mem = some m2 ∧ m2.phase = .idle ∧ m2.msgCh = [] ∧
              m2.txCh = rest := by
            simp only [Sys.step, hm1, Option.bind_eq_bind, Option.bind_some, e2, e3]
            exact ⟨_, _, rfl, rfl, hp1, e1, rfl⟩
          obtain ⟨s2, m2, h2, h3⟩ := h2
          exact ⟨s2, m2, g1.trans (.one _ (by simp) (by simp) h2), h3⟩
      obtain ⟨s2, m2, g2, hm2, hp2, e1, e2⟩ := h2
      obtain ⟨s', m', g, i1⟩ := ih (g2.reach hr) hm2 hp2 e1 (by rw [e2]; exact hrest)
      exact ⟨s', m', g2.trans g, i1⟩

/-- The transactions in flight are waited for. -/
theorem drain_fly (n : Nat) {s : Sys α H σ} (hr : Sys.Reach isTx newRest s) {m : Mem α H σ} (hm : s.mem = some m)
    (hp : m.phase = .idle) (hmsg : m.msgCh = []) (htx : m.txCh = []) (hn : m.inFlight.length = n) :
    ∃ s' m', GoesOn isTx newRest s s' ∧ s'.mem = some m' ∧ m'.phase = .idle ∧ m'.msgCh = [] ∧ m'.txCh = [] ∧
      m'.inFlight = [] := by
  induction n generalizing s m with
  | zero => exact ⟨s, m, .refl, hm, hp, hmsg, htx, List.length_eq_zero_iff.1 hn⟩
  | succ n ih =>
    have inv := reach_inv hr
    have hns : m.phase ≠ .started := by simp [hp]
    cases hch : m.inFlight with
    | nil => simp [hch] at hn
    | cons id rest =>
      have hrest : rest.length = n := by simpa [hch] using hn
      have hf := (inv.w m hm hns).flyMem id (by simp [hch])
      obtain ⟨a, ha, _⟩ := inv.q.hash id hf
      obtain ⟨x, hx⟩ := Option.isSome_iff_exists.1 hf
      rw [← inv.pend m hm hns] at ha hx
      have h2 : ∃ s2 m2, s.step isTx newRest (.mined id) = some s2 ∧ s2.mem = some m2 ∧ m2.phase = .idle ∧ m2.msgCh = [] ∧
          m2.txCh = [] ∧ m2.inFlight = rest := by
        simp only [Sys.step, hm, Option.bind_eq_bind, Option.bind_some, hch, ha, hx, List.mem_cons, true_or, if_true]
        exact ⟨_, _, rfl, rfl, hp, hmsg, htx, by simp⟩
      obtain ⟨s2, m2, h2, hm2, hp2, e1, e2, e3⟩ := h2
      have g2 := GoesOn.one (isTx := isTx) (newRest := newRest) _ (by simp) (by simp) h2
      obtain ⟨s', m', g, i1⟩ := ih (g2.reach hr) hm2 hp2 e1 e2 (by rw [e3]; exact hrest)
      exact ⟨s', m', g2.trans g, i1⟩

end Shutter.Fx
