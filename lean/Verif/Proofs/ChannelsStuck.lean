import Verif.Proofs.Channels

/-! # How the keyper gets stuck -/

namespace Shutter.Fx
variable {α H σ W : Type} {isTx : α → Bool} {newRest : σ} {S : Surroundings α W}

theorem Later.trans {w w' w'' : W} (h1 : Later S w w') (h2 : Later S w' w'') : Later S w w'' := by
  induction h2 with
  | refl => exact h1
  | step _ h ih => exact ih.step h

theorem mem_unsent {p : Pending α H} {id : Nat} : id ∈ unsent isTx p ↔
    id < p.currentID ∧ (∃ a, p.actionMap id = some a ∧ isTx a = true) ∧ p.txHashes id = none := by
  simp only [unsent, List.mem_filter, Pending.mem_sortedIDs, Bool.and_eq_true, Option.isNone_iff_eq_none]
  cases h : p.actionMap id <;> simp

/-- Only saving a decision leaves a trace of it. -/
theorem log_step {s s' : Sys α H σ} {e : Ev α H σ} (h : e ≠ .save) (hs : s.step isTx newRest e = some s') :
    ∃ l, s'.log = s.log ++ l ∧ ∀ as, .saved as ∉ l := by
  have nil : ∀ s' : Sys α H σ, s'.log = s.log → ∃ l, s'.log = s.log ++ l ∧ ∀ as, .saved as ∉ l :=
    fun s' h => ⟨[], by simp [h], by simp⟩
  cases hm : s.mem with
  | none =>
    cases e <;> simp [Sys.step, hm] at hs
    subst hs; exact ⟨_, rfl, by simp⟩
  | some m =>
    cases e with
    | save => exact absurd rfl h
    | start => simp [Sys.step, hm] at hs
    | run =>
      simp only [Sys.step, hm, Option.bind_eq_bind, Option.bind_some, Option.ite_none_right_eq_some] at hs
      obtain ⟨_, hs⟩ := hs
      split at hs
      · cases hs; exact nil _ rfl
      · split at hs
        · cases hs; exact ⟨_, rfl, by simp⟩
        · cases hs
          simp only [Sys.emit, Sys.withMem]
          refine ⟨_, by split <;> rfl, ?_⟩
          intro as h
          rw [List.mem_filterMap] at h
          obtain ⟨id, _, h⟩ := h
          rw [Option.map_eq_some_iff] at h
          obtain ⟨_, _, h⟩ := h
          cases h
    | load =>
      simp only [Sys.step, hm, Option.bind_eq_bind, Option.bind_some, Option.ite_none_right_eq_some, Option.some.injEq] at hs
      obtain ⟨_, rfl⟩ := hs; exact nil _ rfl
    | loaded =>
      simp only [Sys.step, hm, Option.bind_eq_bind, Option.bind_some, Option.ite_none_right_eq_some, Option.some.injEq] at hs
      obtain ⟨_, rfl⟩ := hs; exact nil _ rfl
    | finish =>
      simp only [Sys.step, hm, Option.bind_eq_bind, Option.bind_some, Option.ite_none_right_eq_some, Option.some.injEq] at hs
      obtain ⟨_, rfl⟩ := hs; exact nil _ rfl
    | stop =>
      simp only [Sys.step, hm, Option.some.injEq] at hs
      subst hs; exact ⟨_, rfl, by simp⟩
    | schedule =>
      simp only [Sys.step, hm, Option.bind_eq_bind, Option.bind_some, Option.ite_none_right_eq_some, Sys.scheduleNext] at hs
      obtain ⟨_, hs⟩ := hs
      repeat' split at hs
      all_goals cases hs
      all_goals first | exact nil _ rfl | exact ⟨_, rfl, by simp⟩
    | decide as r =>
      simp only [Sys.step, hm, Option.bind_eq_bind, Option.bind_some, Option.ite_none_right_eq_some] at hs
      obtain ⟨_, hs⟩ := hs
      repeat' split at hs
      all_goals cases hs
      all_goals first | exact nil _ rfl | exact ⟨_, rfl, by simp⟩
    | mined id =>
      simp only [Sys.step, hm, Option.bind_eq_bind, Option.bind_some, Option.ite_none_right_eq_some] at hs
      obtain ⟨_, hs⟩ := hs
      split at hs <;> cases hs <;> exact ⟨_, rfl, by simp⟩
    | _ =>
      simp only [Sys.step, hm, Option.bind_eq_bind, Option.bind_some] at hs
      repeat' split at hs
      all_goals cases hs
      all_goals exact ⟨_, rfl, by simp⟩

theorem NoDecision.trans {a b c : Box α H σ W} (h1 : NoDecision a b) (h2 : NoDecision b c) : NoDecision a c := by
  obtain ⟨l, h1, h3⟩ := h1
  obtain ⟨l', h2, h4⟩ := h2
  refine ⟨l ++ l', by rw [h2, h1, List.append_assoc], fun as h => ?_⟩
  rcases List.mem_append.1 h with h | h
  · exact h3 as h
  · exact h4 as h

/-- The first transaction in the file is tried again and again. -/
structure Stuck (isTx : α → Bool) (S : Surroundings α W) (id0 : Nat) (a : α) (b : Box α H σ W) : Prop where
  act : (b.sys.actionsFile.getD .empty).actionMap id0 = some a
  mem : id0 ∈ unsent isTx (b.sys.actionsFile.getD .empty)
  least : ∀ id ∈ unsent isTx (b.sys.actionsFile.getD .empty), id0 ≤ id
  many : 22 ≤ (unsent isTx (b.sys.actionsFile.getD .empty)).length
  trying : ∀ m, b.sys.mem = some m → m.txSent = none ∧ m.txDone = false ∧ S.expired b.view a = false
  retry : ∀ w, Later S b.now w → S.answer w a = .retry

theorem unsent_nodup (p : Pending α H) : (unsent isTx p).Nodup :=
  (List.Nodup.filter _ ((Pending.sortedIDs_sorted p).imp (fun h => Nat.ne_of_lt h)))

/-- A blocked main goroutine has something to schedule. -/
theorem Stuck.blocked {id0 : Nat} {a : α} {b : Box α H σ W} (st : Stuck isTx S id0 a b) (hr : Box.Reach isTx newRest S b) {m : Mem α H σ}
    (hm : b.sys.mem = some m) (hns : m.phase ≠ .started) : m.toSchedule ≠ [] := by
  intro h
  have inv := reach_inv hr.sys
  have w := inv.w m hm hns
  have sub : unsent isTx (b.sys.actionsFile.getD .empty) ⊆ m.txCh := by
    intro id hid
    obtain ⟨h1, ⟨x, h2, h3⟩, h4⟩ := mem_unsent.1 hid
    rcases w.cover id (by simp [h2]) with h5 | h5 | h5 | h5
    · simp [h] at h5
    · obtain ⟨y, h6, h7⟩ := w.msgMem id h5; rw [h2] at h6; cases h6; simp [h3] at h7
    · exact h5
    · have := w.flyMem id h5; simp [h4] at this
  have := (List.subperm_of_subset (unsent_nodup _) sub).length_le
  have h2 := st.many
  have := (hr.cap m hm).tx
  omega

/-- The transaction the worker tries to send is the first one. -/
theorem Stuck.head {id0 : Nat} {a : α} {b : Box α H σ W} (st : Stuck isTx S id0 a b) (hr : Box.Reach isTx newRest S b) {m : Mem α H σ}
    (hm : b.sys.mem = some m) {id : Nat} {rest : List Nat} (h : m.txCh = id :: rest) : m.txHead = some a := by
  have inv := reach_inv hr.sys
  have hns : m.phase ≠ .started := by
    intro h0; have := inv.phase m hm; simp only [PhaseInv, h0, h] at this; simp at this
  have w := inv.w m hm hns
  obtain ⟨x, h1, h2, h3⟩ := w.txMem id (by simp [h])
  have hu : id ∈ unsent isTx (b.sys.actionsFile.getD .empty) := mem_unsent.2 ⟨inv.q.lt id (by simp [h1]), ⟨x, h1, h2⟩, h3⟩
  have hle := st.least id hu
  obtain ⟨_, ⟨y, h4, h5⟩, h6⟩ := mem_unsent.1 st.mem
  have hge : id ≤ id0 := by
    have hs := w.txSorted
    rw [h, List.cons_append, List.pairwise_cons] at hs
    rcases w.cover id0 (by simp [h4]) with h7 | h7 | h7 | h7
    · exact (hs.1 id0 (by simp [h7])).le
    · obtain ⟨z, h8, h9⟩ := w.msgMem id0 h7; rw [h4] at h8; cases h8; simp [h5] at h9
    · rw [h] at h7
      rcases List.mem_cons.1 h7 with h7 | h7
      · exact h7.ge
      · exact (hs.1 id0 (by simp [h7])).le
    · have := w.flyMem id0 h7; simp [h6] at this
  have : id = id0 := by omega
  subst this
  simp only [Mem.txHead, h, List.head?_cons, Option.bind_some]
  rw [inv.pend m hm hns]; exact st.act

theorem unsent_remove {p : Pending α H} {id : Nat} (h : id ∉ unsent isTx p) : unsent isTx (p.remove id) = unsent isTx p := by
  simp only [unsent, Pending.sortedIDs, List.filter_filter]
  apply List.filter_congr
  intro x hx
  by_cases h0 : x = id
  · subst h0
    simp only [Pending.remove, upd, if_true]
    simp only [mem_unsent] at h
    cases h1 : p.actionMap x with
    | none => simp
    | some y =>
      have : x < p.currentID := by simpa [Pending.remove] using hx
      simp [h1, this] at h
      cases h2 : isTx y
      · simp [h2]
      · have := h h2
        cases h3 : p.txHashes x
        · exact absurd h3 this
        · simp
  · simp [Pending.remove, upd, h0]

theorem Stuck.step {id0 : Nat} {a : α} {b b' : Box α H σ W} {e} (st : Stuck isTx S id0 a b) (hr : Box.Reach isTx newRest S b)
    (hs : Box.Step isTx newRest S b e b') (hstart : e = .ev .start → S.expired b.now a = false) :
    Stuck isTx S id0 a b' ∧ NoDecision b b' := by
  have inv := reach_inv hr.sys
  cases hs with
  | chain h =>
    exact ⟨⟨st.act, st.mem, st.least, st.many, st.trying, fun w hw => st.retry w ((Later.refl.step h).trans hw)⟩, [], by simp, by simp⟩
  | authFails hm _ _ _ _ _ h =>
    simp only [Sys.step, hm, Option.some.injEq] at h
    subst h
    exact ⟨⟨st.act, st.mem, st.least, st.many, (fun m h => by cases h), st.retry⟩, _, rfl, by simp⟩
  | @ev e s' ha h =>
    have hsv : e ≠ .save := by
      rintro rfl
      cases hm : b.sys.mem with
      | none => simp [Sys.step, hm] at h
      | some m =>
        have hd : m.phase = .decided := by
          simp only [Sys.step, hm, Option.bind_eq_bind, Option.bind_some, Option.ite_none_right_eq_some] at h; exact h.1
        have := inv.phase m hm
        simp only [PhaseInv, hd] at this
        exact st.blocked hr hm (by simp [hd]) this.2.2
    refine ⟨?_, log_step hsv h⟩
    cases hm : b.sys.mem with
    | none =>
      obtain ⟨rfl, h2⟩ := start_mem hm h
      have h3 : s'.actionsFile = b.sys.actionsFile := by
        simp only [Sys.step, hm, Option.some.injEq] at h; subst h; rfl
      refine ⟨by rw [h3]; exact st.act, by rw [h3]; exact st.mem, by rw [h3]; exact st.least, by rw [h3]; exact st.many, ?_, st.retry⟩
      intro m h; simp only at h; rw [h2] at h; cases h
      exact ⟨rfl, rfl, hstart rfl⟩
    | some m =>
      have inv' := reach_inv (hr.sys.step h)
      obtain ⟨t1, t2, t3⟩ := st.trying m hm
      have ha := ha m hm
      -- it is enough to look at the file
      have fin : ∀ (hf : unsent isTx (s'.actionsFile.getD .empty) = unsent isTx (b.sys.actionsFile.getD .empty))
          (hact : (s'.actionsFile.getD .empty).actionMap id0 = some a) (hv : b.viewAfter e = b.view)
          (ht : ∀ m', s'.mem = some m' → m'.txSent = none ∧ m'.txDone = false),
          Stuck isTx S id0 a { b with sys := s', view := b.viewAfter e } := by
        intro hf hact hv ht
        refine ⟨hact, by simp only [hf]; exact st.mem, by simp only [hf]; exact st.least, by simp only [hf]; exact st.many, ?_, st.retry⟩
        intro m' hm'; simp only [hv]; exact ⟨(ht m' hm').1, (ht m' hm').2, t3⟩
      -- the file after a step of the memory
      have same : ∀ m', s'.mem = some m' → m'.phase ≠ .started → s'.actionsFile.getD .empty = m'.pend := fun m' h1 h2 => (inv'.pend m' h1 h2).symm
      rcases mstep hr.sys hm h with ⟨rfl, h1⟩ | ⟨m', h1, h2⟩
      · have h3 : s'.actionsFile = b.sys.actionsFile := by
          simp only [Sys.step, hm, Option.some.injEq] at h; subst h; rfl
        exact fin (by rw [h3]) (by rw [h3]; exact st.act) rfl (by rw [h1]; intro m' h; cases h)
      · have hsome : ∀ {P : Mem α H σ → Prop}, P m' → ∀ x, s'.mem = some x → P x := by
          intro P hP x hx; rw [h1] at hx; cases hx; exact hP
        -- steps that leave the queue alone
        have keep : m'.pend = m.pend → m.phase ≠ .started → m'.phase ≠ .started → m'.txSent = none → m'.txDone = false →
            b.viewAfter e = b.view → Stuck isTx S id0 a { b with sys := s', view := b.viewAfter e } := by
          intro k1 k2 k3 k4 k5 k6
          have hp : s'.actionsFile.getD .empty = b.sys.actionsFile.getD .empty := by rw [same m' h1 k3, k1, inv.pend m hm k2]
          exact fin (by rw [hp]) (by rw [hp]; exact st.act) k6 (hsome ⟨k4, k5⟩)
        -- steps that remove something else
        have rem : ∀ id, m'.pend = m.pend.remove id → m.phase ≠ .started → m'.phase ≠ .started → m'.txSent = none → m'.txDone = false →
            b.viewAfter e = b.view → id ∉ unsent isTx m.pend → Stuck isTx S id0 a { b with sys := s', view := b.viewAfter e } := by
          intro id k1 k2 k3 k4 k5 k6 k7
          have hp := inv.pend m hm k2
          have hne : id0 ≠ id := by rintro rfl; rw [hp] at k7; exact k7 st.mem
          refine fin (by rw [same m' h1 k3, k1, unsent_remove k7, hp]) ?_ k6 (hsome ⟨k4, k5⟩)
          rw [same m' h1 k3, k1]
          simp only [Pending.remove, upd, hne, if_false]
          rw [hp]; exact st.act
        have hph := inv.phase m hm
        have started_ch : m.msgCh ≠ [] ∨ m.txCh ≠ [] ∨ m.inFlight ≠ [] → m.phase ≠ .started := by
          intro hx h0
          simp only [PhaseInv, h0] at hph
          obtain ⟨_, _, i1, i2, i3, _⟩ := hph
          simp [i1, i2, i3] at hx
        cases h2 with
        | load h0 =>
          have h3 : s'.actionsFile = b.sys.actionsFile := by
            simp only [Sys.step, hm, h0, Option.bind_eq_bind, Option.bind_some, if_true, Option.some.injEq] at h; subst h; rfl
          exact fin (by rw [h3]) (by rw [h3]; exact st.act) rfl (hsome ⟨t1, t2⟩)
        | schedFly h0 => exact keep rfl (by rcases h0 with h0 | h0 <;> simp [h0]) (by rcases h0 with h0 | h0 <;> simp [h0]) t1 t2 rfl
        | schedTx h0 => exact keep rfl (by rcases h0 with h0 | h0 <;> simp [h0]) (by rcases h0 with h0 | h0 <;> simp [h0]) t1 t2 rfl
        | schedMsg h0 => exact keep rfl (by rcases h0 with h0 | h0 <;> simp [h0]) (by rcases h0 with h0 | h0 <;> simp [h0]) t1 t2 rfl
        | loaded h0 h3 => exact absurd h3 (st.blocked hr hm (by simp [h0]))
        | decide h0 =>
          simp only [PhaseInv, h0] at hph
          exact absurd hph.2.2.2 (st.blocked hr hm (by simp [h0]))
        | save => exact absurd rfl hsv
        | run0 h0 =>
          simp only [PhaseInv, h0] at hph
          exact absurd hph.2 (st.blocked hr hm (by simp [h0]))
        | run h0 =>
          simp only [PhaseInv, h0] at hph
          exact absurd hph.2 (st.blocked hr hm (by simp [h0]))
        | finish h0 h3 => exact absurd h3 (st.blocked hr hm (by simp [h0]))
        | msgSend h0 =>
          have := started_ch (.inl (by simp [h0])); exact keep rfl this this t1 t2 rfl
        | msgGiveUp h0 =>
          have := started_ch (.inl (by simp [h0])); exact keep rfl this this t1 t2 rfl
        | @msgRemove id rest h0 h3 =>
          have hns := started_ch (.inl (by simp [h0]))
          refine rem id rfl hns hns t1 t2 rfl ?_
          intro hu
          obtain ⟨_, ⟨x, u1, u2⟩, _⟩ := mem_unsent.1 hu
          obtain ⟨y, u3, u4⟩ := (inv.w m hm hns).msgMem id (by simp [h0])
          rw [← inv.pend m hm hns, u1] at u3; cases u3; simp [u2] at u4
        | txSend h0 =>
          exfalso
          have hh := st.head hr hm h0
          simp only [Box.allowed, hh, Option.all_some, Bool.and_eq_true, decide_eq_true_eq] at ha
          rw [st.retry _ .refl] at ha; simp at ha
        | txGiveUp h0 =>
          exfalso
          have hh := st.head hr hm h0
          simp only [Box.allowed, hh, Option.all_some, Bool.and_eq_true, Bool.or_eq_true, decide_eq_true_eq] at ha
          rw [st.retry _ .refl, t3] at ha; simp at ha
        | txRecord h0 h3 => rw [t1] at h3; cases h3
        | txRemove h0 h3 => rw [t2] at h3; cases h3
        | @mined id h0 h3 =>
          have hns := started_ch (.inr (.inr (List.ne_nil_of_mem h0)))
          refine rem id rfl hns hns t1 t2 rfl ?_
          intro hu
          obtain ⟨_, _, u1⟩ := mem_unsent.1 hu
          rw [u1] at h3; cases h3

theorem Stuck.run {ok : BoxEv α H σ W → Prop} {id0 : Nat} {a : α} {b b' : Box α H σ W} {es} (st : Stuck isTx S id0 a b)
    (hr : Box.Reach isTx newRest S b) (h : Box.Run isTx newRest S ok b es b')
    (hstart : ¬ ok (.ev .start) ∨ ∀ w, Later S b.now w → S.expired w a = false) :
    Box.Reach isTx newRest S b' ∧ Stuck isTx S id0 a b' ∧ NoDecision b b' ∧ Later S b.now b'.now := by
  induction h with
  | refl => exact ⟨hr, st, ⟨[], by simp, by simp⟩, .refl⟩
  | @step es b' e b'' h hok hs ih =>
    obtain ⟨i1, i2, i3, i4⟩ := ih
    have i5 := i2.step i1 hs (by
      rintro rfl
      rcases hstart with h | h
      · exact absurd hok h
      · exact h _ i4)
    refine ⟨i1.step hs, i5.1, i3.trans i5.2, ?_⟩
    cases hs with
    | chain h => exact i4.step h
    | _ => exact i4

end Shutter.Fx
