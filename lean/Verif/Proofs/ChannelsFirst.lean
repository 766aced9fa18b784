import Verif.Proofs.ChannelsStuck

/-! # A transaction that cannot be sent keeps back those behind it -/

namespace Shutter.Fx
variable {α H σ W : Type} {isTx : α → Bool} {newRest : σ} {S : Surroundings α W}

/-- The first transaction in the file is tried again and again, and does not expire. -/
structure First (isTx : α → Bool) (S : Surroundings α W) (id0 : Nat) (a : α) (b : Box α H σ W) : Prop where
  act : (b.sys.actionsFile.getD .empty).actionMap id0 = some a
  mem : id0 ∈ unsent isTx (b.sys.actionsFile.getD .empty)
  least : ∀ id ∈ unsent isTx (b.sys.actionsFile.getD .empty), id0 ≤ id
  trying : ∀ m, b.sys.mem = some m → m.txSent = none ∧ m.txDone = false ∧ S.expired b.view a = false
  retry : ∀ w, Later S b.now w → S.answer w a = .retry ∧ S.expired w a = false

/-- The transaction the worker tries to send is the first one. -/
theorem First.head {id0 : Nat} {a : α} {b : Box α H σ W} (st : First isTx S id0 a b) (hr : Box.Reach isTx newRest S b) {m : Mem α H σ}
    (hm : b.sys.mem = some m) {id : Nat} {rest : List Nat} (h : m.txCh = id :: rest) : m.txHead = some a := by
  have inv := reach_inv hr.sys
  have hns : m.phase ≠ .started := by
    intro h0; have := inv.phase m hm; simp only [PhaseInv, h0, h] at this; simp at this
  have w := inv.w m hm hns
  obtain ⟨x, h1, h2, h3⟩ := w.txMem id (by simp [h])
  have hu : id ∈ unsent isTx (b.sys.actionsFile.getD .empty) := mem_unsent.2 ⟨inv.q.lt id (by simp [h1]), ⟨x, h1, h2⟩, h3⟩
  have hle := st.least id hu
  obtain ⟨_, ⟨y, h4, h5⟩, h6⟩ := mem_unsent.1 st.mem
  have hge : id ≤ id0 := by
    have hs := w.txSorted
    rw [h, List.cons_append, List.pairwise_cons] at hs
    rcases w.cover id0 (by simp [h4]) with h7 | h7 | h7 | h7
    · exact (hs.1 id0 (by simp [h7])).le
    · obtain ⟨z, h8, h9⟩ := w.msgMem id0 h7; rw [h4] at h8; cases h8; simp [h5] at h9
    · rw [h] at h7
      rcases List.mem_cons.1 h7 with h7 | h7
      · exact h7.ge
      · exact (hs.1 id0 (by simp [h7])).le
    · have := w.flyMem id0 h7; simp [h6] at this
  have : id = id0 := by omega
  subst this
  simp only [Mem.txHead, h, List.head?_cons, Option.bind_some]
  rw [inv.pend m hm hns]; exact st.act

theorem storeAll_lt : ∀ (as : List α) (f : Nat → Option α) (start id : Nat), id < start → Pending.storeAll f start as id = f id
  | [], _, _, _, _ => rfl
  | x :: as, f, start, id, h => by
    rw [Pending.storeAll, storeAll_lt as _ _ _ (by omega)]
    simp [upd, Nat.ne_of_lt h]

/-- New actions come last. -/
theorem unsent_add {p p' : Pending α H} {c : Nat} {as : List α} {st en : Nat} (h : p.addActions c as = some (p', st, en)) :
    (∀ id, id < p.currentID → p'.actionMap id = p.actionMap id) ∧ (∀ id ∈ unsent isTx p, id ∈ unsent isTx p') ∧
    ∀ id ∈ unsent isTx p', id ∈ unsent isTx p ∨ p.currentID ≤ id := by
  unfold Pending.addActions at h
  split at h
  · cases h
  · simp only at h
    split at h
    · cases h
      exact ⟨fun _ _ => rfl, fun _ h => h, fun _ h => .inl h⟩
    · cases h
      have hk : ∀ id, id < p.currentID → Pending.storeAll p.actionMap p.currentID (as.drop (p.currentID - c)) id = p.actionMap id :=
        fun id h => storeAll_lt _ _ _ _ h
      refine ⟨hk, fun id hid => ?_, fun id hid => ?_⟩
      · obtain ⟨h1, h2, h3⟩ := mem_unsent.1 hid
        exact mem_unsent.2 ⟨Nat.lt_add_right _ h1, by simp only; rw [hk id h1]; exact h2, h3⟩
      · by_cases hlt : id < p.currentID
        · obtain ⟨_, h2, h3⟩ := mem_unsent.1 hid
          simp only at h2 h3
          rw [hk id hlt] at h2
          exact .inl (mem_unsent.2 ⟨hlt, h2, h3⟩)
        · exact .inr (by omega)

theorem NoSend.trans {a b c : Box α H σ W} (h1 : NoSend isTx a b) (h2 : NoSend isTx b c) : NoSend isTx a c := by
  obtain ⟨l, h1, h3⟩ := h1
  obtain ⟨l', h2, h4⟩ := h2
  refine ⟨l ++ l', by rw [h2, h1, List.append_assoc], fun id x h => ?_⟩
  rcases List.mem_append.1 h with h | h
  · exact h3 id x h
  · exact h4 id x h

/-- Only the worker for transactions sends them. -/
theorem send_step {s s' : Sys α H σ} {e : Ev α H σ} (hr : Sys.Reach isTx newRest s) (h : ∀ x, e ≠ .txSend x) (hs : s.step isTx newRest e = some s') :
    ∃ l, s'.log = s.log ++ l ∧ ∀ id x, .sent id x ∈ l → isTx x = false := by
  have nil : ∀ s' : Sys α H σ, s'.log = s.log → ∃ l, s'.log = s.log ++ l ∧ ∀ id x, .sent id x ∈ l → isTx x = false :=
    fun s' h => ⟨[], by simp [h], by simp⟩
  cases hm : s.mem with
  | none =>
    cases e <;> simp [Sys.step, hm] at hs
    subst hs; exact ⟨_, rfl, by simp⟩
  | some m =>
    cases e with
    | txSend x => exact absurd rfl (h x)
    | start => simp [Sys.step, hm] at hs
    | save =>
      simp only [Sys.step, hm, Option.bind_eq_bind, Option.bind_some, Option.ite_none_right_eq_some, Option.some.injEq] at hs
      obtain ⟨_, rfl⟩ := hs; exact ⟨_, rfl, by simp⟩
    | run =>
      simp only [Sys.step, hm, Option.bind_eq_bind, Option.bind_some, Option.ite_none_right_eq_some] at hs
      obtain ⟨_, hs⟩ := hs
      split at hs
      · cases hs; exact nil _ rfl
      · split at hs
        · cases hs; exact ⟨_, rfl, by simp⟩
        · cases hs
          simp only [Sys.emit, Sys.withMem]
          refine ⟨_, by split <;> rfl, ?_⟩
          intro id x h
          rw [List.mem_filterMap] at h
          obtain ⟨id, _, h⟩ := h
          rw [Option.map_eq_some_iff] at h
          obtain ⟨_, _, h⟩ := h
          cases h
    | load =>
      simp only [Sys.step, hm, Option.bind_eq_bind, Option.bind_some, Option.ite_none_right_eq_some, Option.some.injEq] at hs
      obtain ⟨_, rfl⟩ := hs; exact nil _ rfl
    | loaded =>
      simp only [Sys.step, hm, Option.bind_eq_bind, Option.bind_some, Option.ite_none_right_eq_some, Option.some.injEq] at hs
      obtain ⟨_, rfl⟩ := hs; exact nil _ rfl
    | finish =>
      simp only [Sys.step, hm, Option.bind_eq_bind, Option.bind_some, Option.ite_none_right_eq_some, Option.some.injEq] at hs
      obtain ⟨_, rfl⟩ := hs; exact nil _ rfl
    | stop =>
      simp only [Sys.step, hm, Option.some.injEq] at hs
      subst hs; exact ⟨_, rfl, by simp⟩
    | schedule =>
      simp only [Sys.step, hm, Option.bind_eq_bind, Option.bind_some, Option.ite_none_right_eq_some, Sys.scheduleNext] at hs
      obtain ⟨_, hs⟩ := hs
      repeat' split at hs
      all_goals cases hs
      all_goals first | exact nil _ rfl | exact ⟨_, rfl, by simp⟩
    | decide as r =>
      simp only [Sys.step, hm, Option.bind_eq_bind, Option.bind_some, Option.ite_none_right_eq_some] at hs
      obtain ⟨_, hs⟩ := hs
      repeat' split at hs
      all_goals cases hs
      all_goals first | exact nil _ rfl | exact ⟨_, rfl, by simp⟩
    | mined id =>
      simp only [Sys.step, hm, Option.bind_eq_bind, Option.bind_some, Option.ite_none_right_eq_some] at hs
      obtain ⟨_, hs⟩ := hs
      split at hs <;> cases hs <;> exact ⟨_, rfl, by simp⟩
    | msgSend =>
      have inv := reach_inv hr
      simp only [Sys.step, hm, Option.bind_eq_bind, Option.bind_some] at hs
      split at hs
      · cases hs
      · next id rest hch =>
        split at hs
        · cases hs
        · split at hs
          · cases hs; exact ⟨_, rfl, by simp⟩
          · next a ha =>
            cases hs
            refine ⟨_, rfl, ?_⟩
            intro id' x hx
            simp only [List.mem_singleton, Entry.sent.injEq] at hx
            obtain ⟨rfl, rfl⟩ := hx
            have hns : m.phase ≠ .started := by
              intro h0; have := inv.phase m hm; simp only [PhaseInv, h0, hch] at this; simp at this
            obtain ⟨y, h1, h2⟩ := (inv.w m hm hns).msgMem id' (by simp [hch])
            rw [inv.pend m hm hns, h1] at ha
            cases ha; exact h2
    | _ =>
      simp only [Sys.step, hm, Option.bind_eq_bind, Option.bind_some] at hs
      repeat' split at hs
      all_goals cases hs
      all_goals exact ⟨_, rfl, by simp⟩

theorem First.step {id0 : Nat} {a : α} {b b' : Box α H σ W} {e} (st : First isTx S id0 a b) (hr : Box.Reach isTx newRest S b)
    (hs : Box.Step isTx newRest S b e b') : First isTx S id0 a b' ∧ NoSend isTx b b' := by
  have inv := reach_inv hr.sys
  cases hs with
  | chain h =>
    exact ⟨⟨st.act, st.mem, st.least, st.trying, fun w hw => st.retry w ((Later.refl.step h).trans hw)⟩, [], by simp, by simp⟩
  | authFails hm _ _ _ _ _ h =>
    simp only [Sys.step, hm, Option.some.injEq] at h
    subst h
    exact ⟨⟨st.act, st.mem, st.least, (fun m h => by cases h), st.retry⟩, _, rfl, by simp⟩
  | @ev e s' ha h =>
    have hsv : ∀ x, e ≠ .txSend x := by
      rintro x rfl
      cases hm : b.sys.mem with
      | none => simp [Sys.step, hm] at h
      | some m =>
        rcases mstep hr.sys hm h with ⟨h0, _⟩ | ⟨m', _, h2⟩
        · cases h0
        · cases h2 with
          | txSend h0 =>
            have ha := ha m hm
            have hh := st.head hr hm h0
            simp only [Box.allowed, hh, Option.all_some, Bool.and_eq_true, decide_eq_true_eq] at ha
            rw [(st.retry _ .refl).1] at ha; simp at ha
    refine ⟨?_, send_step hr.sys hsv h⟩
    cases hm : b.sys.mem with
    | none =>
      obtain ⟨rfl, h2⟩ := start_mem hm h
      have h3 : s'.actionsFile = b.sys.actionsFile := by
        simp only [Sys.step, hm, Option.some.injEq] at h; subst h; rfl
      refine ⟨by rw [h3]; exact st.act, by rw [h3]; exact st.mem, by rw [h3]; exact st.least, ?_, st.retry⟩
      intro m h; simp only at h; rw [h2] at h; cases h
      exact ⟨rfl, rfl, (st.retry _ .refl).2⟩
    | some m =>
      have inv' := reach_inv (hr.sys.step h)
      obtain ⟨t1, t2, t3⟩ := st.trying m hm
      have ha := ha m hm
      have hview : S.expired (b.viewAfter e) a = false := by
        have := (st.retry _ .refl).2
        cases e <;> first | exact t3 | exact this
      -- it is enough to look at the file
      have fin : ∀ (hact : (s'.actionsFile.getD .empty).actionMap id0 = some a) (hmem : id0 ∈ unsent isTx (s'.actionsFile.getD .empty))
          (hle : ∀ id ∈ unsent isTx (s'.actionsFile.getD .empty), id0 ≤ id)
          (ht : ∀ m', s'.mem = some m' → m'.txSent = none ∧ m'.txDone = false),
          First isTx S id0 a { b with sys := s', view := b.viewAfter e } := by
        intro hact hmem hle ht
        exact ⟨hact, hmem, hle, fun m' hm' => ⟨(ht m' hm').1, (ht m' hm').2, hview⟩, st.retry⟩
      have fin' : ∀ (hf : s'.actionsFile = b.sys.actionsFile) (ht : ∀ m', s'.mem = some m' → m'.txSent = none ∧ m'.txDone = false),
          First isTx S id0 a { b with sys := s', view := b.viewAfter e } := by
        intro hf ht
        exact fin (by rw [hf]; exact st.act) (by rw [hf]; exact st.mem) (by rw [hf]; exact st.least) ht
      -- the file after a step of the memory
      have same : ∀ m', s'.mem = some m' → m'.phase ≠ .started → s'.actionsFile.getD .empty = m'.pend := fun m' h1 h2 => (inv'.pend m' h1 h2).symm
      rcases mstep hr.sys hm h with ⟨rfl, h1⟩ | ⟨m', h1, h2⟩
      · have h3 : s'.actionsFile = b.sys.actionsFile := by
          simp only [Sys.step, hm, Option.some.injEq] at h; subst h; rfl
        exact fin' h3 (by rw [h1]; intro m' h; cases h)
      · have hsome : ∀ {P : Mem α H σ → Prop}, P m' → ∀ x, s'.mem = some x → P x := by
          intro P hP x hx; rw [h1] at hx; cases hx; exact hP
        -- steps that leave the queue alone
        have keep : m'.pend = m.pend → m.phase ≠ .started → m'.phase ≠ .started → m'.txSent = none → m'.txDone = false →
            First isTx S id0 a { b with sys := s', view := b.viewAfter e } := by
          intro k1 k2 k3 k4 k5
          have hp : s'.actionsFile.getD .empty = b.sys.actionsFile.getD .empty := by rw [same m' h1 k3, k1, inv.pend m hm k2]
          exact fin (by rw [hp]; exact st.act) (by rw [hp]; exact st.mem) (by rw [hp]; exact st.least) (hsome ⟨k4, k5⟩)
        -- steps that remove something else
        have rem : ∀ id, m'.pend = m.pend.remove id → m.phase ≠ .started → m'.phase ≠ .started → m'.txSent = none → m'.txDone = false →
            id ∉ unsent isTx m.pend → First isTx S id0 a { b with sys := s', view := b.viewAfter e } := by
          intro id k1 k2 k3 k4 k5 k7
          have hp := inv.pend m hm k2
          have hne : id0 ≠ id := by rintro rfl; rw [hp] at k7; exact k7 st.mem
          have e : unsent isTx (s'.actionsFile.getD .empty) = unsent isTx (b.sys.actionsFile.getD .empty) := by
            rw [same m' h1 k3, k1, unsent_remove k7, hp]
          refine fin ?_ (by rw [e]; exact st.mem) (by rw [e]; exact st.least) (hsome ⟨k4, k5⟩)
          rw [same m' h1 k3, k1]
          simp only [Pending.remove, upd, hne, if_false]
          rw [hp]; exact st.act
        have hph := inv.phase m hm
        have started_ch : m.msgCh ≠ [] ∨ m.txCh ≠ [] ∨ m.inFlight ≠ [] → m.phase ≠ .started := by
          intro hx h0
          simp only [PhaseInv, h0] at hph
          obtain ⟨_, _, i1, i2, i3, _⟩ := hph
          simp [i1, i2, i3] at hx
        cases h2 with
        | load h0 =>
          have h3 : s'.actionsFile = b.sys.actionsFile := by
            simp only [Sys.step, hm, h0, Option.bind_eq_bind, Option.bind_some, if_true, Option.some.injEq] at h; subst h; rfl
          exact fin' h3 (hsome ⟨t1, t2⟩)
        | schedFly h0 => exact keep rfl (by rcases h0 with h0 | h0 <;> simp [h0]) (by rcases h0 with h0 | h0 <;> simp [h0]) t1 t2
        | schedTx h0 => exact keep rfl (by rcases h0 with h0 | h0 <;> simp [h0]) (by rcases h0 with h0 | h0 <;> simp [h0]) t1 t2
        | schedMsg h0 => exact keep rfl (by rcases h0 with h0 | h0 <;> simp [h0]) (by rcases h0 with h0 | h0 <;> simp [h0]) t1 t2
        | loaded h0 h3 => exact keep rfl (by simp [h0]) (by simp only; split <;> simp) t1 t2
        | decide h0 => exact keep rfl (by simp [h0]) (by simp) t1 t2
        | save h0 => exact keep rfl (by simp [h0]) (by simp) t1 t2
        | run0 h0 => exact keep rfl (by simp [h0]) (by simp) t1 t2
        | run h0 hadd =>
          obtain ⟨a1, a2, a3⟩ := unsent_add (isTx := isTx) hadd
          have hp := inv.pend m hm (by simp [h0])
          have hf := same _ h1 (by simp)
          simp only at hf
          have hlt := (mem_unsent.1 st.mem).1
          rw [← hp] at hlt
          refine fin ?_ ?_ ?_ (hsome ⟨t1, t2⟩)
          · rw [hf, a1 id0 hlt, hp]; exact st.act
          · rw [hf]; exact a2 id0 (by rw [hp]; exact st.mem)
          · rw [hf]; intro id hid
            rcases a3 id hid with h' | h'
            · rw [hp] at h'; exact st.least id h'
            · omega
        | finish h0 h3 => exact keep rfl (by simp [h0]) (by simp) t1 t2
        | msgSend h0 =>
          have := started_ch (.inl (by simp [h0])); exact keep rfl this this t1 t2
        | msgGiveUp h0 =>
          have := started_ch (.inl (by simp [h0])); exact keep rfl this this t1 t2
        | @msgRemove id rest h0 h3 =>
          have hns := started_ch (.inl (by simp [h0]))
          refine rem id rfl hns hns t1 t2 ?_
          intro hu
          obtain ⟨_, ⟨x, u1, u2⟩, _⟩ := mem_unsent.1 hu
          obtain ⟨y, u3, u4⟩ := (inv.w m hm hns).msgMem id (by simp [h0])
          rw [← inv.pend m hm hns, u1] at u3; cases u3; simp [u2] at u4
        | txSend h0 => exact absurd rfl (hsv _)
        | txGiveUp h0 =>
          exfalso
          have hh := st.head hr hm h0
          simp only [Box.allowed, hh, Option.all_some, Bool.and_eq_true, Bool.or_eq_true, decide_eq_true_eq] at ha
          rw [(st.retry _ .refl).1, t3] at ha; simp at ha
        | txRecord h0 h3 => rw [t1] at h3; cases h3
        | txRemove h0 h3 => rw [t2] at h3; cases h3
        | @mined id h0 h3 =>
          have hns := started_ch (.inr (.inr (List.ne_nil_of_mem h0)))
          refine rem id rfl hns hns t1 t2 ?_
          intro hu
          obtain ⟨_, _, u1⟩ := mem_unsent.1 hu
          rw [u1] at h3; cases h3

theorem First.run {ok : BoxEv α H σ W → Prop} {id0 : Nat} {a : α} {b b' : Box α H σ W} {es} (st : First isTx S id0 a b)
    (hr : Box.Reach isTx newRest S b) (h : Box.Run isTx newRest S ok b es b') :
    Box.Reach isTx newRest S b' ∧ First isTx S id0 a b' ∧ NoSend isTx b b' := by
  induction h with
  | refl => exact ⟨hr, st, ⟨[], by simp, by simp⟩⟩
  | @step es b' e b'' h hok hs ih =>
    obtain ⟨i1, i2, i3⟩ := ih
    have i5 := i2.step i1 hs
    exact ⟨i1.step hs, i5.1, i3.trans i5.2⟩

end Shutter.Fx
