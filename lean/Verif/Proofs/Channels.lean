import Verif.Spec.Channels
import Verif.Proofs.ActionsRun
import Verif.Proofs.ActionsLive

/-! # Proofs about the keyper's goroutines -/

namespace Shutter.Fx
variable {α H σ W : Type} {isTx : α → Bool} {newRest : σ} {S : Surroundings α W}

theorem Box.Reach.sys {b : Box α H σ W} (h : Box.Reach isTx newRest S b) : Sys.Reach isTx newRest b.sys := by
  induction h with
  | fresh => exact .fresh
  | step _ hs ih =>
    cases hs with
    | ev _ h => exact ih.step h
    | authFails _ _ _ _ _ _ h => exact ih.step h
    | chain => exact ih

/-- The steps of a process that goes on, one by one. -/
inductive MStep (isTx : α → Bool) (file : Pending α H) (m : Mem α H σ) : Ev α H σ → Mem α H σ → Prop
  | load : m.phase = .started → MStep isTx file m .load { m with pend := file, toSchedule := file.sortedIDs, phase := .loading }
  | schedFly {id rest a} : m.phase = .loading ∨ m.phase = .scheduling → m.toSchedule = id :: rest → m.pend.actionMap id = some a →
      isTx a = true → (m.pend.txHashes id).isSome = true →
      MStep isTx file m .schedule { m with toSchedule := rest, inFlight := m.inFlight ++ [id] }
  | schedTx {id rest a} : m.phase = .loading ∨ m.phase = .scheduling → m.toSchedule = id :: rest → m.pend.actionMap id = some a →
      isTx a = true → (m.pend.txHashes id).isSome = false →
      MStep isTx file m .schedule { m with toSchedule := rest, txCh := m.txCh ++ [id] }
  | schedMsg {id rest a} : m.phase = .loading ∨ m.phase = .scheduling → m.toSchedule = id :: rest → m.pend.actionMap id = some a →
      isTx a = false → MStep isTx file m .schedule { m with toSchedule := rest, msgCh := m.msgCh ++ [id] }
  | loaded : m.phase = .loading → m.toSchedule = [] →
      MStep isTx file m .loaded { m with phase := if m.state.actions = [] then .idle else .saved }
  | decide {as r} : m.phase = .idle →
      MStep isTx file m (.decide as r) { m with state := { m.state with actions := as, rest := r }, phase := .decided }
  | save : m.phase = .decided → MStep isTx file m .save { m with phase := .saved }
  | run0 : m.phase = .saved → m.state.actions = [] → MStep isTx file m .run { m with phase := .scheduling, toSchedule := [] }
  | run {p st en} : m.phase = .saved → m.pend.addActions m.state.actionCounter m.state.actions = some (p, st, en) →
      MStep isTx file m .run { m with pend := p, toSchedule := List.range' st (en - st), phase := .scheduling }
  | finish : m.phase = .scheduling → m.toSchedule = [] →
      MStep isTx file m .finish { m with
        state := { m.state with actionCounter := m.state.actionCounter + m.state.actions.length, actions := [] }, phase := .idle }
  | msgSend {id rest} : m.msgCh = id :: rest → m.msgDone = false → MStep isTx file m .msgSend { m with msgDone := true }
  | msgGiveUp {id rest} : m.msgCh = id :: rest → m.msgDone = false → MStep isTx file m .msgGiveUp { m with msgDone := true }
  | msgRemove {id rest} : m.msgCh = id :: rest → m.msgDone = true →
      MStep isTx file m .msgRemove { m with pend := m.pend.remove id, msgCh := rest, msgDone := false }
  | txSend {id rest h} : m.txCh = id :: rest → m.txSent = none → m.txDone = false → MStep isTx file m (.txSend h) { m with txSent := some h }
  | txGiveUp {id rest} : m.txCh = id :: rest → m.txSent = none → m.txDone = false → MStep isTx file m .txGiveUp { m with txDone := true }
  | txRecord {id rest h} : m.txCh = id :: rest → m.txSent = some h → MStep isTx file m .txRecord { m with
      pend := m.pend.setTxHash id h, txCh := rest, txSent := none, inFlight := m.inFlight ++ [id] }
  | txRemove {id rest} : m.txCh = id :: rest → m.txDone = true →
      MStep isTx file m .txRemove { m with pend := m.pend.remove id, txCh := rest, txDone := false }
  | mined {id} : id ∈ m.inFlight → (m.pend.txHashes id).isSome = true →
      MStep isTx file m (.mined id) { m with pend := m.pend.remove id, inFlight := m.inFlight.erase id }

theorem no_panic {s s' : Sys α H σ} {e : Ev α H σ} (hr : Sys.Reach isTx newRest s) (hs : s.step isTx newRest e = some s') :
    s' ≠ s.panic := by
  rintro rfl
  have := (reach_inv (hr.step hs)).just s.log .panicked [] rfl
  exact this

theorem mstep {s s' : Sys α H σ} {e : Ev α H σ} {m : Mem α H σ} (hr : Sys.Reach isTx newRest s) (hm : s.mem = some m)
    (hs : s.step isTx newRest e = some s') :
    (e = .stop ∧ s'.mem = none) ∨ ∃ m', s'.mem = some m' ∧ MStep isTx (s.actionsFile.getD .empty) m e m' := by
  have hnp := no_panic hr hs
  cases e with
  | start => simp [Sys.step, hm] at hs
  | load =>
    simp only [Sys.step, hm, Option.bind_eq_bind, Option.bind_some, Option.ite_none_right_eq_some, Option.some.injEq] at hs
    obtain ⟨h1, rfl⟩ := hs; exact .inr ⟨_, rfl, .load h1⟩
  | schedule =>
    simp only [Sys.step, hm, Option.bind_eq_bind, Option.bind_some, Option.ite_none_right_eq_some, Sys.scheduleNext] at hs
    obtain ⟨h0, hs⟩ := hs
    split at hs
    · cases hs
    · next id rest h1 =>
      split at hs
      · cases hs; exact absurd rfl hnp
      · next a h2 =>
        split at hs
        · split at hs
          · next h3 h4 => cases hs; exact .inr ⟨_, rfl, .schedFly h0 h1 h2 h3 h4⟩
          · next h3 h4 => cases hs; exact .inr ⟨_, rfl, .schedTx h0 h1 h2 h3 (by simpa using h4)⟩
        · next h3 => cases hs; exact .inr ⟨_, rfl, .schedMsg h0 h1 h2 (by simpa using h3)⟩
  | loaded =>
    simp only [Sys.step, hm, Option.bind_eq_bind, Option.bind_some, Option.ite_none_right_eq_some, Option.some.injEq] at hs
    obtain ⟨⟨h1, h2⟩, rfl⟩ := hs; exact .inr ⟨_, rfl, .loaded h1 h2⟩
  | decide as r =>
    simp only [Sys.step, hm, Option.bind_eq_bind, Option.bind_some, Option.ite_none_right_eq_some] at hs
    obtain ⟨h1, hs⟩ := hs
    split at hs
    · cases hs; exact absurd rfl hnp
    · cases hs; exact .inr ⟨_, rfl, .decide h1⟩
  | save =>
    simp only [Sys.step, hm, Option.bind_eq_bind, Option.bind_some, Option.ite_none_right_eq_some, Option.some.injEq] at hs
    obtain ⟨h1, rfl⟩ := hs; exact .inr ⟨_, rfl, .save h1⟩
  | run =>
    simp only [Sys.step, hm, Option.bind_eq_bind, Option.bind_some, Option.ite_none_right_eq_some] at hs
    obtain ⟨h1, hs⟩ := hs
    split at hs
    · next h2 => cases hs; exact .inr ⟨_, rfl, .run0 h1 h2⟩
    · split at hs
      · cases hs; exact absurd rfl hnp
      · next h3 => cases hs; exact .inr ⟨_, rfl, .run h1 h3⟩
  | finish =>
    simp only [Sys.step, hm, Option.bind_eq_bind, Option.bind_some, Option.ite_none_right_eq_some, Option.some.injEq] at hs
    obtain ⟨⟨h1, h2⟩, rfl⟩ := hs; exact .inr ⟨_, rfl, .finish h1 h2⟩
  | stop => simp only [Sys.step, hm, Option.some.injEq] at hs; subst hs; exact .inl ⟨rfl, rfl⟩
  | mined id =>
    simp only [Sys.step, hm, Option.bind_eq_bind, Option.bind_some, Option.ite_none_right_eq_some] at hs
    obtain ⟨h1, hs⟩ := hs
    split at hs
    · next h2 h3 => cases hs; exact .inr ⟨_, rfl, .mined h1 (by simp [h2])⟩
    · cases hs; exact absurd rfl hnp
  | msgSend =>
    simp only [Sys.step, hm, Option.bind_eq_bind, Option.bind_some] at hs
    repeat' split at hs
    all_goals cases hs
    · exact absurd rfl hnp
    · next h1 h2 _ _ _ => exact .inr ⟨_, rfl, .msgSend h1 (by simpa using h2)⟩
  | msgGiveUp =>
    simp only [Sys.step, hm, Option.bind_eq_bind, Option.bind_some] at hs
    repeat' split at hs
    all_goals cases hs
    · exact absurd rfl hnp
    · next h1 h2 _ _ _ => exact .inr ⟨_, rfl, .msgGiveUp h1 (by simpa using h2)⟩
  | msgRemove =>
    simp only [Sys.step, hm, Option.bind_eq_bind, Option.bind_some] at hs
    repeat' split at hs
    all_goals cases hs
    next h1 h2 => exact .inr ⟨_, rfl, .msgRemove h1 (by simpa using h2)⟩
  | txSend h =>
    simp only [Sys.step, hm, Option.bind_eq_bind, Option.bind_some] at hs
    repeat' split at hs
    all_goals cases hs
    · exact absurd rfl hnp
    · next h1 h2 _ _ _ => simp at h2; exact .inr ⟨_, rfl, .txSend h1 (by simp [h2]) h2.2⟩
  | txGiveUp =>
    simp only [Sys.step, hm, Option.bind_eq_bind, Option.bind_some] at hs
    repeat' split at hs
    all_goals cases hs
    · exact absurd rfl hnp
    · next h1 h2 _ _ _ => simp at h2; exact .inr ⟨_, rfl, .txGiveUp h1 (by simp [h2]) h2.2⟩
  | txRecord =>
    simp only [Sys.step, hm, Option.bind_eq_bind, Option.bind_some] at hs
    repeat' split at hs
    all_goals cases hs
    next h1 h2 => exact .inr ⟨_, rfl, .txRecord h1 h2⟩
  | txRemove =>
    simp only [Sys.step, hm, Option.bind_eq_bind, Option.bind_some] at hs
    repeat' split at hs
    all_goals cases hs
    next h1 h2 => exact .inr ⟨_, rfl, .txRemove h1 h2⟩

theorem start_mem {s s' : Sys α H σ} {e : Ev α H σ} (hm : s.mem = none) (hs : s.step isTx newRest e = some s') :
    e = .start ∧ s'.mem = some ⟨s.stateFile.getD ⟨0, [], newRest⟩, .empty, .started, [], [], false, [], none, false, []⟩ := by
  cases e <;> simp [Sys.step, hm] at hs
  subst hs; exact ⟨rfl, rfl⟩

theorem handing_iff {m : Mem α H σ} : m.handing = true ↔ 20 < m.inFlight.length := by
  rw [Mem.handing, decide_eq_true_eq]; exact Iff.rfl

theorem handing_false {m : Mem α H σ} : m.handing = false ↔ m.inFlight.length ≤ 20 := by
  rw [Mem.handing, decide_eq_false_iff_not, Nat.not_lt]; exact Iff.rfl

/-- What `room` says. -/
theorem room_fly {m : Mem α H σ} {id rest a} (h1 : m.toSchedule = id :: rest) (h2 : m.pend.actionMap id = some a) (h3 : isTx a = true)
    (h4 : (m.pend.txHashes id).isSome = true) : m.room isTx = true ↔ m.inFlight.length < 20 := by
  simp only [Mem.room, h1, h2, h3, h4, if_true]
  rw [decide_eq_true_eq]; exact Iff.rfl

theorem room_tx {m : Mem α H σ} {id rest a} (h1 : m.toSchedule = id :: rest) (h2 : m.pend.actionMap id = some a) (h3 : isTx a = true)
    (h4 : (m.pend.txHashes id).isSome = false) :
    m.room isTx = true ↔ m.txCh.length < 20 ∨ m.txCh.length < 21 ∧ m.inFlight.length ≤ 20 := by
  simp only [Mem.room, h1, h2, h3, h4, if_true, decide_eq_true_eq, numMainChainWorkers, Bool.false_eq_true, if_false]
  cases h : m.handing
  · rw [handing_false] at h; simp; omega
  · rw [handing_iff] at h; simp; omega

theorem room_msg {m : Mem α H σ} {id rest a} (h1 : m.toSchedule = id :: rest) (h2 : m.pend.actionMap id = some a) (h3 : isTx a = false) :
    m.room isTx = true ↔ m.msgCh = [] := by
  simp [Mem.room, h1, h2, h3]

/-- The capacities are respected. -/
structure Cap (m : Mem α H σ) : Prop where
  msg : m.msgCh.length ≤ 1
  tx : m.txCh.length ≤ 20 ∨ m.txCh.length ≤ 21 ∧ m.inFlight.length ≤ 20
  fly : m.inFlight.length ≤ 21

theorem Cap.step {b : Box α H σ W} {m m' : Mem α H σ} {file e} (c : Cap m) (ha : b.allowed isTx S m e = true)
    (h : MStep isTx file m e m') : Cap m' := by
  obtain ⟨c1, c2, c3⟩ := c
  cases h with
  | schedFly _ h1 h2 h3 h4 =>
    replace ha := (room_fly h1 h2 h3 h4).1 ha
    constructor <;> simp <;> omega
  | schedTx _ h1 h2 h3 h4 =>
    replace ha := (room_tx h1 h2 h3 h4).1 ha
    constructor <;> simp <;> omega
  | schedMsg _ h1 h2 h3 =>
    replace ha := (room_msg h1 h2 h3).1 ha
    constructor <;> simp [ha] <;> omega
  | txRecord h1 h2 =>
    simp only [Box.allowed, Bool.not_eq_true', handing_false] at ha
    simp only [h1, List.length_cons] at c2
    constructor <;> simp <;> omega
  | txRemove h1 h2 =>
    simp only [h1, List.length_cons] at c2
    constructor <;> simp <;> omega
  | mined h1 h2 =>
    have := List.length_erase_of_mem h1
    constructor <;> simp only <;> omega
  | msgRemove h1 h2 =>
    simp only [h1, List.length_cons] at c1
    constructor <;> simp only <;> omega
  | _ => constructor <;> assumption

theorem Box.Reach.cap {b : Box α H σ W} (h : Box.Reach isTx newRest S b) : ∀ m, b.sys.mem = some m → Cap m := by
  induction h with
  | fresh => intro m hm; cases hm
  | @step b e b' hr hs ih =>
    cases hs with
    | chain => exact ih
    | authFails hm _ _ _ _ _ h => simp only [Sys.step, hm, Option.some.injEq] at h; subst h; intro m hm; cases hm
    | @ev e s' ha h =>
      intro m' hm'
      cases hm : b.sys.mem with
      | none =>
        obtain ⟨_, h2⟩ := start_mem hm h
        simp only at hm'
        rw [h2] at hm'; cases hm'
        constructor <;> simp
      | some m =>
        rcases mstep hr.sys hm h with ⟨_, h2⟩ | ⟨m1, h2, h3⟩
        · simp only at hm'; rw [h2] at hm'; cases hm'
        · simp only at hm'; rw [h2] at hm'; cases hm'
          exact (ih m hm).step (ha m hm) h3

/-! ## Work comes to an end -/

/-- How much the main goroutine has to do at most before the next decision; `n` actions are decided, `k` are in the file. -/
def phaseWork (k n : Nat) : Phase → Nat
  | .idle => 0
  | .scheduling => 1
  | .saved => 2 + 6 * n
  | .loading => 3 + 6 * n
  | .decided => 3 + 6 * n
  | .started => 4 + 6 * n + 6 * k

theorem phaseWork_eq {k k' n : Nat} {p : Phase} (h : p ≠ .started) : phaseWork k n p = phaseWork k' n p := by
  cases p <;> first | rfl | exact absurd rfl h

/-- How much is to be done at most before the next decision. -/
def Mem.work (file : Pending α H) (m : Mem α H σ) : Nat :=
  phaseWork file.sortedIDs.length m.state.actions.length m.phase +
  6 * m.toSchedule.length + 2 * m.msgCh.length + (if m.msgDone then 0 else 1) + 4 * m.txCh.length +
  (if m.txSent.isSome || m.txDone then 0 else 1) + m.inFlight.length

theorem addActions_range {p p' : Pending α H} {c : Nat} {as : List α} {st en : Nat} (h : p.addActions c as = some (p', st, en)) :
    en - st ≤ as.length := by
  unfold Pending.addActions at h
  split at h
  · cases h
  · simp only at h
    split at h
    · cases h; omega
    · cases h; simp only [List.length_drop]; omega

theorem MStep.work {file file' : Pending α H} {m m' : Mem α H σ} {e} (h : MStep isTx file m e m') (hd : ∀ as r, e ≠ .decide as r)
    (hs : m.phase = .started → m.toSchedule = [] ∧ m.msgCh = [] ∧ m.txCh = [] ∧ m.inFlight = [])
    (htx : m.txSent.isSome = true → m.txDone = false) (hsaved : m.phase = .saved → m.toSchedule = []) :
    m'.work file' < m.work file := by
  have hns : (m.msgCh ≠ [] ∨ m.txCh ≠ [] ∨ m.inFlight ≠ []) → m.phase ≠ .started := by
    intro h h0; obtain ⟨_, h1, h2, h3⟩ := hs h0; simp [h1, h2, h3] at h
  cases h with
  | load h1 => simp only [Mem.work, h1, (hs h1).1, phaseWork]; simp
  | schedFly h0 h1 => simp only [Mem.work, h1]; rcases h0 with h0 | h0 <;> simp [h0, phaseWork] <;> omega
  | schedTx h0 h1 => simp only [Mem.work, h1]; rcases h0 with h0 | h0 <;> simp [h0, phaseWork] <;> omega
  | schedMsg h0 h1 => simp only [Mem.work, h1]; rcases h0 with h0 | h0 <;> simp [h0, phaseWork] <;> omega
  | loaded h0 h1 =>
    simp only [Mem.work, h0, h1]
    by_cases h : m.state.actions = [] <;> simp [h, phaseWork]
  | decide => exact absurd rfl (hd _ _)
  | save h => simp only [Mem.work, h, phaseWork]; omega
  | run0 h0 h1 => simp only [Mem.work, h0, h1, hsaved h0, phaseWork]; simp
  | run h0 h1 =>
    have := addActions_range h1
    simp only [Mem.work, h0, hsaved h0, List.length_range', List.length_nil, phaseWork]; omega
  | finish h0 h1 => simp only [Mem.work, h0, h1, phaseWork]; omega
  | msgSend h0 h1 =>
    have := @phaseWork_eq file.sortedIDs.length file'.sortedIDs.length m.state.actions.length _ (hns (.inl (by simp [h0])))
    simp only [Mem.work, h1, this]; simp
  | msgGiveUp h0 h1 =>
    have := @phaseWork_eq file.sortedIDs.length file'.sortedIDs.length m.state.actions.length _ (hns (.inl (by simp [h0])))
    simp only [Mem.work, h1, this]; simp
  | msgRemove h0 h1 =>
    have := @phaseWork_eq file.sortedIDs.length file'.sortedIDs.length m.state.actions.length _ (hns (.inl (by simp [h0])))
    simp only [Mem.work, h0, h1, this]; simp; omega
  | txSend h0 h1 h2 =>
    have := @phaseWork_eq file.sortedIDs.length file'.sortedIDs.length m.state.actions.length _ (hns (.inr (.inl (by simp [h0]))))
    simp only [Mem.work, h0, h1, h2, this]; simp
  | txGiveUp h0 h1 h2 =>
    have := @phaseWork_eq file.sortedIDs.length file'.sortedIDs.length m.state.actions.length _ (hns (.inr (.inl (by simp [h0]))))
    simp only [Mem.work, h0, h1, h2, this]; simp
  | txRecord h0 h1 =>
    have := @phaseWork_eq file.sortedIDs.length file'.sortedIDs.length m.state.actions.length _ (hns (.inr (.inl (by simp [h0]))))
    simp only [Mem.work, h0, h1, htx (by simp [h1]), this]; simp; omega
  | txRemove h0 h1 =>
    have := @phaseWork_eq file.sortedIDs.length file'.sortedIDs.length m.state.actions.length _ (hns (.inr (.inl (by simp [h0]))))
    have h2 : m.txSent = none := by
      cases h : m.txSent with
      | none => rfl
      | some x => have := htx (by simp [h]); simp [h1] at this
    simp only [Mem.work, h0, h1, h2, this]; simp; omega
  | mined h0 h1 =>
    have := @phaseWork_eq file.sortedIDs.length file'.sortedIDs.length m.state.actions.length _
      (hns (.inr (.inr (List.ne_nil_of_mem h0))))
    have := List.length_erase_of_mem h0
    have := List.length_pos_of_mem h0
    simp only [Mem.work]; omega

/-- A step of the keyper other than a decision or an end brings it nearer to the next decision. -/
theorem work_step {s s' : Sys α H σ} {e : Ev α H σ} {m m' : Mem α H σ} (hr : Sys.Reach isTx newRest s) (hm : s.mem = some m)
    (hs : s.step isTx newRest e = some s') (hm' : s'.mem = some m') (hd : ∀ as r, e ≠ .decide as r) :
    m'.work (s'.actionsFile.getD .empty) < m.work (s.actionsFile.getD .empty) := by
  have inv := reach_inv hr
  have hp := inv.phase m hm
  rcases mstep hr hm hs with ⟨_, h⟩ | ⟨m1, h1, h2⟩
  · rw [h] at hm'; cases hm'
  · rw [h1] at hm'; cases hm'
    refine h2.work hd ?_ ?_ ?_
    · intro h; simp only [PhaseInv, h] at hp; tauto
    · intro h
      obtain ⟨x, hx⟩ := Option.isSome_iff_exists.1 h
      by_cases hst : m.phase = .started
      · simp only [PhaseInv, hst] at hp; tauto
      · exact ((inv.w m hm hst).txS x hx).1
    · intro h; simp only [PhaseInv, h] at hp; tauto

theorem work_bound {b b' : Box α H σ W} {es} (hr : Box.Reach isTx newRest S b) {m} (hm : b.sys.mem = some m)
    (h : Box.Run isTx newRest S BoxEv.WorkOrChain b es b') : Box.Reach isTx newRest S b' ∧
      ∃ m', b'.sys.mem = some m' ∧ workDone es + m'.work (b'.sys.actionsFile.getD .empty) ≤ m.work (b.sys.actionsFile.getD .empty) := by
  induction h with
  | refl => exact ⟨hr, m, hm, by simp [workDone]⟩
  | @step es b' e b'' h hok hs ih =>
    obtain ⟨hr', m1, h1, h2⟩ := ih
    refine ⟨hr'.step hs, ?_⟩
    cases hs with
    | chain => exact ⟨m1, h1, by simpa [workDone] using h2⟩
    | authFails => exact absurd hok (by simp [BoxEv.WorkOrChain, BoxEv.Work])
    | @ev e s' ha hst =>
      have h3 : e ≠ .stop ∧ ∀ as r, e ≠ .decide as r := by
        cases e <;> simp [BoxEv.WorkOrChain, BoxEv.Work] at hok ⊢
      rcases mstep hr'.sys h1 hst with ⟨h4, _⟩ | ⟨m2, h4, _⟩
      · exact absurd h4 h3.1
      · refine ⟨m2, h4, ?_⟩
        have := work_step hr'.sys h1 hst h4 h3.2
        simp only [workDone, List.countP_append] at h2 ⊢
        simp; omega

/-! ## There is always something to do -/

theorem cover_tx {s : Sys α H σ} {m : Mem α H σ} (inv : Inv isTx newRest s) (hm : s.mem = some m) (hns : m.phase ≠ .started) :
    (∀ id ∈ m.msgCh, ∃ a, m.pend.actionMap id = some a) ∧ (∀ id ∈ m.txCh, ∃ a, m.pend.actionMap id = some a) ∧
    (∀ id ∈ m.inFlight, (m.pend.txHashes id).isSome = true ∧ ∃ a, m.pend.actionMap id = some a) ∧
    (∀ id ∈ m.toSchedule, ∃ a, m.pend.actionMap id = some a) := by
  have w := inv.w m hm hns
  have hp := inv.pend m hm hns
  rw [← hp] at w
  refine ⟨fun id h => ?_, fun id h => ?_, fun id h => ?_, fun id h => ?_⟩
  · obtain ⟨a, h, _⟩ := w.msgMem id h; exact ⟨a, h⟩
  · obtain ⟨a, h, _⟩ := w.txMem id h; exact ⟨a, h⟩
  · have := w.flyMem id h
    have q := inv.q.hash id (by rw [← hp]; exact this)
    obtain ⟨a, h, _⟩ := q; rw [← hp] at h; exact ⟨this, a, h⟩
  · exact Option.isSome_iff_exists.1 (w.schedMem id h)

theorem busy [Nonempty H] {b : Box α H σ W} (hr : Box.Reach isTx newRest S b) {m} (hm : b.sys.mem = some m) (hi : ¬ b.Idle)
    (ha : b.Answered S) : ∃ e b', BoxEv.Work e ∧ Box.Step isTx newRest S b e b' := by
  have inv := reach_inv hr.sys
  have cap := hr.cap m hm
  obtain ⟨x0⟩ := ‹Nonempty H›
  have one : ∀ e : Ev α H σ, BoxEv.Work (W := W) (.ev e) → b.allowed isTx S m e = true → (b.sys.step isTx newRest e).isSome = true →
      ∃ e b', BoxEv.Work e ∧ Box.Step isTx newRest S b e b' := by
    intro e h1 h2 h3
    obtain ⟨s', h3⟩ := Option.isSome_iff_exists.1 h3
    refine ⟨.ev e, _, h1, .ev ?_ h3⟩
    intro m' hm'; rw [hm] at hm'; cases hm'; exact h2
  have hidle : m.phase ≠ .idle := fun h => hi ⟨m, hm, h⟩
  by_cases hst : m.phase = .started
  · exact one .load (by simp [BoxEv.Work]) rfl (by simp [Sys.step, hm, hst])
  by_cases hde : m.phase = .decided
  · exact one .save (by simp [BoxEv.Work]) rfl (by simp [Sys.step, hm, hde])
  by_cases hsa : m.phase = .saved
  · refine one .run (by simp [BoxEv.Work]) rfl ?_
    simp only [Sys.step, hm, hsa, Option.bind_eq_bind, Option.bind_some, if_true]
    split
    · rfl
    · split <;> rfl
  have hls : m.phase = .loading ∨ m.phase = .scheduling := by cases h : m.phase <;> simp_all
  obtain ⟨cm, ct, cf, cs⟩ := cover_tx inv hm hst
  -- a worker that is waited for can go on
  have msgGo : m.msgCh ≠ [] → ∃ e b', BoxEv.Work e ∧ Box.Step isTx newRest S b e b' := by
    intro h
    obtain ⟨id, rest, h⟩ := List.exists_cons_of_ne_nil h
    obtain ⟨a, h2⟩ := cm id (by simp [h])
    cases hd : m.msgDone
    · exact one .msgSend (by simp [BoxEv.Work]) rfl (by simp [Sys.step, hm, h, hd, h2])
    · exact one .msgRemove (by simp [BoxEv.Work]) rfl (by simp [Sys.step, hm, h, hd])
  have flyGo : m.inFlight ≠ [] → ∃ e b', BoxEv.Work e ∧ Box.Step isTx newRest S b e b' := by
    intro h
    obtain ⟨id, rest, h⟩ := List.exists_cons_of_ne_nil h
    obtain ⟨h3, a, h2⟩ := cf id (by simp [h])
    obtain ⟨x, h3⟩ := Option.isSome_iff_exists.1 h3
    exact one (.mined id) (by simp [BoxEv.Work]) (by simp [Box.allowed, h, numMainChainWorkers]) (by simp [Sys.step, hm, h, h2, h3])
  have txGo : m.txCh ≠ [] → ∃ e b', BoxEv.Work e ∧ Box.Step isTx newRest S b e b' := by
    intro h
    obtain ⟨id, rest, h⟩ := List.exists_cons_of_ne_nil h
    obtain ⟨a, h2⟩ := ct id (by simp [h])
    cases hh : m.handing
    · have hhead : m.txHead = some a := by simp [Mem.txHead, h, h2]
      cases hd : m.txDone
      · cases hs : m.txSent with
        | some x => exact one .txRecord (by simp [BoxEv.Work]) (by simp [Box.allowed, hh]) (by simp [Sys.step, hm, h, hs])
        | none =>
          cases he : S.expired b.view a
          · cases hans : S.answer b.now a with
            | ok =>
              exact one (.txSend x0) (by simp [BoxEv.Work]) (by simp [Box.allowed, hh, hhead, he, hans])
                (by simp [Sys.step, hm, h, hs, hd, h2])
            | retry =>
              rcases ha m a hm hhead with h | h
              · simp [h] at he
              · exact absurd hans h
            | giveUp =>
              exact one .txGiveUp (by simp [BoxEv.Work]) (by simp [Box.allowed, hh, hhead, hans])
                (by simp [Sys.step, hm, h, hs, hd, h2])
          · exact one .txGiveUp (by simp [BoxEv.Work]) (by simp [Box.allowed, hh, hhead, he])
              (by simp [Sys.step, hm, h, hs, hd, h2])
      · exact one .txRemove (by simp [BoxEv.Work]) (by simp [Box.allowed, hh]) (by simp [Sys.step, hm, h, hd])
    · rw [handing_iff] at hh
      exact flyGo (by intro h; simp [h] at hh)
  cases hts : m.toSchedule with
  | nil =>
    rcases hls with hp | hp
    · exact one .loaded (by simp [BoxEv.Work]) rfl (by simp [Sys.step, hm, hp, hts])
    · exact one .finish (by simp [BoxEv.Work]) rfl (by simp [Sys.step, hm, hp, hts])
  | cons id rest =>
    obtain ⟨a, h2⟩ := cs id (by simp [hts])
    by_cases hroom : m.room isTx = true
    · refine one .schedule (by simp [BoxEv.Work]) hroom ?_
      simp only [Sys.step, hm, Option.bind_eq_bind, Option.bind_some, hls, if_true, Sys.scheduleNext, hts, h2]
      repeat' split
      all_goals rfl
    · cases h3 : isTx a
      · rw [room_msg hts h2 h3] at hroom; exact msgGo hroom
      · cases h4 : (m.pend.txHashes id).isSome
        · rw [room_tx hts h2 h3 h4] at hroom
          exact txGo (by intro h; simp [h] at hroom)
        · rw [room_fly hts h2 h3 h4] at hroom
          exact flyGo (by intro h; simp [h] at hroom)

end Shutter.Fx
