import Verif.Proofs.ActionsStep

/-! # Handing actions to the queue, and the workers -/

namespace Shutter.Fx
variable {α H σ : Type} {isTx : α → Bool} {newRest : σ}

theorem queuedEntries (f : Nat → Option α) (c : Nat) (as : List α) (hf : ∀ i, i < as.length → f (c + i) = as[i]?) :
    (List.range' c as.length).filterMap (fun id => (f id).map (Entry.queued id)) =
      (as.zipIdx c).map (fun x => (Entry.queued x.2 x.1 : Entry α H σ)) := by
  induction as generalizing c with
  | nil => simp
  | cons a as ih =>
    have h0 := hf 0 (by simp)
    simp only [Nat.add_zero, List.getElem?_cons_zero] at h0
    rw [List.length_cons, List.range'_succ, List.filterMap_cons, h0, List.zipIdx_cons, List.map_cons, ih (c + 1)]
    · rfl
    · intro i hi
      have := hf (i + 1) (by simp; omega)
      simp only [List.getElem?_cons_succ] at this
      rw [← this]; congr 1; omega

theorem queuedActions_entries (l : List (α × Nat)) :
    queuedActions (l.map (fun x => (Entry.queued x.2 x.1 : Entry α H σ))) = l := by
  induction l with
  | nil => rfl
  | cons x l ih =>
    rw [List.map_cons]
    have : queuedActions ((Entry.queued x.2 x.1 : Entry α H σ) :: l.map (fun x => Entry.queued x.2 x.1)) =
      (x.1, x.2) :: queuedActions (l.map (fun x => (Entry.queued x.2 x.1 : Entry α H σ))) := rfl
    rw [this, ih]

theorem savedActions_entries (l : List (α × Nat)) :
    savedActions (l.map (fun x => (Entry.queued x.2 x.1 : Entry α H σ))) = [] := by
  induction l with
  | nil => rfl
  | cons x l ih =>
    rw [List.map_cons]
    exact ih

theorem inv_run {s s' : Sys α H σ} (h : Inv isTx newRest s) (hs : s.step isTx newRest .run = some s') :
    Inv isTx newRest s' := by
  cases hm : s.mem with
  | none => simp [Sys.step, hm] at hs
  | some m =>
    simp only [Sys.step, hm, Option.bind_eq_bind, Option.bind_some, Option.ite_none_right_eq_some] at hs
    obtain ⟨hp, hs⟩ := hs
    have hns : m.phase ≠ .started := by simp [hp]
    have hph := h.phase m hm
    simp only [PhaseInv, hp] at hph
    obtain ⟨hst, hts⟩ := hph
    have hw := h.w m hm hns
    have hpe := h.pend m hm hns
    have hw0 : ∀ st p ph, WInv isTx s.log (s.actionsFile.getD .empty) { m with
        state := st
        pend := p
        phase := ph
        toSchedule := [] } := by
      intro st p ph
      have := hw.main st p ph
      rw [← hts]; exact this
    have hlen := h.len
    have hacts := h.acts
    have hcur := h.cur
    rw [← hst] at hlen hacts hcur
    by_cases ha : m.state.actions = []
    · simp only [ha, if_true, Option.some.injEq] at hs
      subst hs
      refine h.withMem hm (by simp) ?_ hpe (hw0 _ _ _)
      simp only [PhaseInv]
      refine ⟨hst, ?_⟩
      simp only [ha, List.length_nil, Nat.add_zero] at hlen
      rcases hcur with h2 | h2 <;> omega
    · simp only [ha, if_false] at hs
      have hpos : 0 < m.state.actions.length := List.length_pos_iff.2 ha
      have hge : ¬ m.state.actionCounter > m.pend.currentID := by
        rw [hpe]; rcases hcur with h2 | h2 <;> omega
      by_cases hc : m.pend.currentID ≥ m.state.actionCounter + m.state.actions.length
      · -- everything was added before
        simp only [Pending.addActions, hge, if_false, hc, if_true, Nat.sub_self, List.range'_zero, List.filterMap_nil,
          Option.some.injEq] at hs
        subst hs
        have : ({ m with
            pend := m.pend
            toSchedule := []
            phase := .scheduling } : Mem α H σ) = { m with
            toSchedule := []
            phase := .scheduling } := rfl
        have hinv := h.withMem (m' := { m with
            toSchedule := []
            phase := .scheduling }) hm (by simp) (by
              simp only [PhaseInv]
              refine ⟨hst, ?_⟩
              rw [hpe] at hc
              rcases hcur with h2 | h2 <;> omega) hpe (hw0 _ _ _)
        simpa [Sys.emit, Sys.withMem] using hinv
      · simp only [Pending.addActions, hge, if_false, hc] at hs
        have hcc : m.pend.currentID = m.state.actionCounter := by
          rw [hpe]; rw [hpe] at hc; rcases hcur with h2 | h2 <;> omega
        rw [hpe] at hcc
        have hle : (s.actionsFile.getD .empty).currentID + m.state.actions.length = (savedActions s.log).length := by omega
        rw [hpe] at hs
        have hq := h.q
        have hr := h.run
        generalize hqd : s.actionsFile.getD .empty = q at *
        simp only [hcc, Nat.sub_self, List.drop_zero, Nat.add_sub_cancel_left,
          show ¬ (m.state.actionCounter + m.state.actions.length = m.state.actionCounter) by omega, if_false,
          Option.some.injEq] at hs
        have hget : ∀ k, Pending.storeAll q.actionMap m.state.actionCounter m.state.actions k =
            if m.state.actionCounter ≤ k ∧ k < m.state.actionCounter + m.state.actions.length then
              m.state.actions[k - m.state.actionCounter]? else q.actionMap k := Pending.storeAll_get _ _ _
        have hes := queuedEntries (H := H) (σ := σ) (Pending.storeAll q.actionMap m.state.actionCounter m.state.actions)
          m.state.actionCounter m.state.actions (fun i hi => by rw [hget, if_pos (by omega)]; congr 1; omega)
        rw [hes] at hs
        have hsaved : savedActions (s.log ++ (m.state.actions.zipIdx m.state.actionCounter).map
            (fun x => (Entry.queued x.2 x.1 : Entry α H σ))) = savedActions s.log := by
          rw [savedActions_append, savedActions_entries, List.append_nil]
        have hqueued : queuedActions (s.log ++ (m.state.actions.zipIdx m.state.actionCounter).map
            (fun x => (Entry.queued x.2 x.1 : Entry α H σ))) = (savedActions s.log).zipIdx := by
          rw [queuedActions_append, queuedActions_entries, hq.queued, hcc]
          conv_rhs => rw [← List.take_append_drop m.state.actionCounter (savedActions s.log), hacts]
          rw [List.zipIdx_append]
          congr 2
          rw [List.length_take]; omega
        have hqe : ∀ e ∈ (m.state.actions.zipIdx m.state.actionCounter).map
            (fun x => (Entry.queued x.2 x.1 : Entry α H σ)), ∃ id a, e = .queued id a := by
          intro e he
          obtain ⟨x, _, rfl⟩ := List.mem_map.1 he
          exact ⟨_, _, rfl⟩
        generalize hE : (m.state.actions.zipIdx m.state.actionCounter).map
            (fun x => (Entry.queued x.2 x.1 : Entry α H σ)) = E at *
        have hrem : ∀ id, (Entry.removed id ∈ s.log ++ E ↔ .removed id ∈ s.log) := by
          intro id
          simp only [List.mem_append, or_iff_left_iff_imp]
          intro hx; obtain ⟨_, _, hx⟩ := hqe _ hx; cases hx
        have hrec : ∀ id x, (Entry.recorded id x ∈ s.log ++ E ↔ .recorded id x ∈ s.log) := by
          intro id x
          simp only [List.mem_append, or_iff_left_iff_imp]
          intro hx; obtain ⟨_, _, hx⟩ := hqe _ hx; cases hx
        have hold : ∀ k, (q.actionMap k).isSome = true →
            Pending.storeAll q.actionMap m.state.actionCounter m.state.actions k = q.actionMap k := by
          intro k hk
          have := hq.lt k hk
          rw [hget, if_neg (by omega)]
        subst hs
        have hrange : ∀ x, x ∈ List.range' m.state.actionCounter m.state.actions.length ↔
            m.state.actionCounter ≤ x ∧ x < m.state.actionCounter + m.state.actions.length := by
          intro x; rw [List.mem_range'_1]
        have hmsgLt : ∀ x ∈ m.msgCh, x < m.state.actionCounter := by
          intro x hx; obtain ⟨a, h1, _⟩ := hw.msgMem x hx; rw [← hcc]; exact hq.lt x (by simp [h1])
        have htxLt : ∀ x ∈ m.txCh, x < m.state.actionCounter := by
          intro x hx; obtain ⟨a, h1, _⟩ := hw.txMem x hx; rw [← hcc]; exact hq.lt x (by simp [h1])
        have hflyLt : ∀ x ∈ m.inFlight, x < m.state.actionCounter := by
          intro x hx; obtain ⟨a, h1, _⟩ := hq.hash x (hw.flyMem x hx); rw [← hcc]; exact hq.lt x (by simp [h1])
        have hrangeSorted : (List.range' m.state.actionCounter m.state.actions.length).Pairwise (· < ·) := by
          have := List.pairwise_lt_range' (s := m.state.actionCounter) (n := m.state.actions.length) (step := 1)
          exact this
        have hst' : ∀ x, ∀ y ∈ List.range' m.state.actionCounter m.state.actions.length, x < m.state.actionCounter → x < y := by
          intro x y hy hx; have := ((hrange y).1 hy).1; omega
        have hmS := hw.msgSorted
        have htS := hw.txSorted
        rw [hts, List.append_nil] at hmS htS
        have hrunp : ∀ p, sentIDs p (lastRun (s.log ++ E)) = sentIDs p (lastRun s.log) := fun p => lastRun_queued _ _ _ hqe
        refine ⟨?_, ?_, ?_, ?_, ?_, ?_, ?_, ?_, ?_, ?_, ?_, ?_⟩
        · -- just
          refine justified_append h.just ?_
          intro pre e post hpost
          rw [← hE] at hpost
          obtain ⟨l1, l2, hl, h1, h2⟩ := List.map_eq_append_iff.1 hpost
          obtain ⟨x, l3, rfl, h3, h4⟩ := List.map_eq_cons_iff.1 h2
          subst h3
          have hlen1 : l1.length < m.state.actions.length := by
            have := congrArg List.length hl
            simp at this; omega
          have hx : (m.state.actions.zipIdx m.state.actionCounter)[l1.length]? = some x := by rw [hl]; simp
          rw [List.getElem?_zipIdx] at hx
          obtain ⟨a, ha1, rfl⟩ := Option.map_eq_some_iff.1 hx
          show m.state.actionCounter + l1.length = (queuedActions (s.log ++ pre)).length ∧
            (savedActions (s.log ++ pre))[m.state.actionCounter + l1.length]? = some a
          rw [← h1]
          refine ⟨?_, ?_⟩
          · rw [queuedActions_append, queuedActions_entries, hq.queued]
            simp only [List.length_append, List.length_zipIdx, List.length_take]
            omega
          · rw [savedActions_append, savedActions_entries, List.append_nil]
            have := congrArg (fun l => l[l1.length]?) hacts
            simp only [List.getElem?_drop] at this
            rw [this]; exact ha1
        · -- queue
          show QInv isTx (s.log ++ E) _
          simp only [Option.getD_some, Sys.emit, Sys.withMem, Sys.savePending]
          refine ⟨?_, ?_, ?_, ?_, ?_, ?_, ?_, ?_, ?_, ?_⟩
          · intro id hid
            simp only [hget] at hid
            split at hid
            · show id < m.state.actionCounter + _; omega
            · have := hq.lt id hid; show id < m.state.actionCounter + _; omega
          · intro id hid
            obtain ⟨a, h1, h2⟩ := hq.hash id hid
            exact ⟨a, (hold id (by simp [h1])).trans h1, h2⟩
          · intro id hid
            obtain ⟨a, h1⟩ := hq.sent id hid
            exact ⟨a, by simp [h1]⟩
          · intro id a hid
            simp only [hget] at hid
            rw [hsaved]
            split at hid
            · next hx =>
              have := congrArg (fun l => l[id - m.state.actionCounter]?) hacts
              simp only [List.getElem?_drop, Nat.add_sub_cancel' hx.1] at this
              rw [this]; exact hid
            · exact hq.act id a hid
          · intro id hid
            simp only [hget, hrem]
            split
            · next hx => left; simp; omega
            · refine hq.present id ?_
              have : id < m.state.actionCounter + m.state.actions.length := hid
              omega
          · intro id hid
            simp only [hget] at hid
            rw [hrem]
            split at hid
            · intro hx; have := hq.removedLt id hx; omega
            · exact hq.notRemoved id hid
          · intro id hid
            rw [hrem] at hid
            have := hq.removedLt id hid
            show id < m.state.actionCounter + m.state.actions.length; omega
          · intro id x hid
            rw [hrem]; rw [hrec] at hid
            exact hq.recorded id x hid
          · rw [hqueued, hsaved, List.take_of_length_le (by simp only; omega)]
          · rw [hsaved]; simp only; omega
        · -- run
          simp only [Option.getD_some, Sys.emit, Sys.withMem, Sys.savePending]
          refine ⟨?_, ?_, ?_, ?_⟩ <;> rw [hrunp]
          · exact hr.msg
          · exact hr.tx
          · intro x hx; have := hr.msgLt x hx; show x < m.state.actionCounter + m.state.actions.length; omega
          · intro x hx; have := hr.txLt x hx; show x < m.state.actionCounter + m.state.actions.length; omega
        · simp only [Sys.emit, Sys.withMem, Sys.savePending, hsaved]; exact h.len
        · simp only [Sys.emit, Sys.withMem, Sys.savePending, hsaved]; exact h.acts
        · simp only [Sys.emit, Sys.withMem, Sys.savePending, hsaved, Option.getD_some]
          right; omega
        · intro m' hm'; cases hm'
          simp only [PhaseInv, Sys.emit, Sys.withMem, Sys.savePending, hsaved, Option.getD_some]
          exact ⟨hst, by omega⟩
        · intro m' hm' _; cases hm'
          simp only [Sys.emit, Sys.withMem, Sys.savePending, Option.getD_some]
        · intro m' hm' _; cases hm'
          simp only [Sys.emit, Sys.withMem, Sys.savePending, Option.getD_some]
          refine ⟨?_, ?_, hw.flyMem, ?_, hw.flyNodup, ?_, ?_, ?_, ?_, ?_, ?_, ?_, ?_, ?_⟩
          · intro x hx
            obtain ⟨a, h1, h2⟩ := hw.msgMem x hx
            exact ⟨a, (hold x (by simp [h1])).trans h1, h2⟩
          · intro x hx
            obtain ⟨a, h1, h2⟩ := hw.txMem x hx
            exact ⟨a, (hold x (by simp [h1])).trans h1, h2⟩
          · intro x hx
            have := (hrange x).1 hx
            simp only [hget, if_pos this]
            simp; omega
          · intro x hx hy
            have := hflyLt x hx
            have := ((hrange x).1 hy).1
            omega
          · rw [List.pairwise_append]
            exact ⟨hmS, hrangeSorted, fun x hx y hy => hst' x y hy (hmsgLt x hx)⟩
          · rw [List.pairwise_append]
            exact ⟨htS, hrangeSorted, fun x hx y hy => hst' x y hy (htxLt x hx)⟩
          · intro x hx y hy
            rw [hrunp] at hx
            rcases List.mem_append.1 hy with hy | hy
            · exact hw.msgSent x hx y (List.mem_append.2 (Or.inl hy))
            · exact hst' x y hy (by have := hr.msgLt x hx; omega)
          · intro x hx y hy
            rw [hrunp] at hx
            rcases List.mem_append.1 hy with hy | hy
            · exact hw.txSent x hx y (List.mem_append.2 (Or.inl hy))
            · exact hst' x y hy (by have := hr.txLt x hx; omega)
          · intro hd
            obtain ⟨i, hi, hx⟩ := hw.msgDone hd
            refine ⟨i, hi, hx.imp (fun ⟨a, ha⟩ => ⟨a, by simp [ha]⟩) (fun ha => by simp [ha])⟩
          · intro x hx
            obtain ⟨h0, i, a, hi, hs, ht⟩ := hw.txS x hx
            exact ⟨h0, i, a, hi, by simp [hs], ht⟩
          · intro hd
            obtain ⟨i, hi, hx⟩ := hw.txD hd
            exact ⟨i, hi, by simp [hx]⟩
          · intro x hx
            simp only [hget] at hx
            split at hx
            · next hh => exact Or.inl ((hrange x).2 hh)
            · rcases hw.cover x hx with h1 | h1
              · rw [hts] at h1; simp at h1
              · exact Or.inr h1
        · intro m' hm' hx; cases hm'; cases hx
        · have hst0 : starts s.log ≠ 0 := h.started m hm
          have key : ∀ es : List (Entry α H σ), (∀ e ∈ es, ∃ id a, e = .queued id a) →
              CountInv (s.log ++ es) ∧ starts (s.log ++ es) = starts s.log := by
            intro es
            induction es using List.reverseRecOn with
            | nil => intro _; simpa using h.count
            | append_singleton es x ih =>
              intro hx
              obtain ⟨i1, i2⟩ := ih (fun e he => hx e (by simp [he]))
              obtain ⟨id, a, rfl⟩ := hx x (by simp)
              rw [← List.append_assoc]
              refine ⟨i1.snoc (by simp) (by rw [i2]; exact hst0), ?_⟩
              rw [← i2]; simp [starts, List.countP_append]
          exact (key E hqe).1
        · intro m' hm'
          have hst0 : starts s.log ≠ 0 := h.started m hm
          simp only [Sys.emit, Sys.withMem, Sys.savePending, starts, List.countP_append] at hst0 ⊢
          omega

end Shutter.Fx
