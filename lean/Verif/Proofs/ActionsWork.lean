import Verif.Proofs.ActionsRun

/-! # The workers -/

namespace Shutter.Fx
variable {α H σ : Type} {isTx : α → Bool} {newRest : σ}

theorem PhaseInv.congr {n c : Nat} {ds : KState α σ} {m m' : Mem α H σ} (h : PhaseInv n c ds m) (hns : m.phase ≠ .started)
    (h1 : m'.phase = m.phase) (h2 : m'.state = m.state) (h3 : m'.toSchedule = m.toSchedule) : PhaseInv n c ds m' := by
  cases hp : m.phase <;> simp_all [PhaseInv]

/-- A worker's step: it changes the queue file and the memory, not the keyper's state. -/
theorem Inv.worker {s : Sys α H σ} (h : Inv isTx newRest s) {m m' : Mem α H σ} (hm : s.mem = some m)
    (hns : m.phase ≠ .started) {f : Option (Pending α H)} {e : Entry α H σ}
    (h1 : m'.phase = m.phase) (h2 : m'.state = m.state) (h3 : m'.toSchedule = m.toSchedule)
    (hsv : savedActions [e] = []) (hne : e ≠ .started)
    (hc : (f.getD .empty).currentID = (s.actionsFile.getD .empty).currentID)
    (hj : Just isTx s.log e) (hq : QInv isTx (s.log ++ [e]) (f.getD .empty))
    (hr : RunInv isTx (s.log ++ [e]) (f.getD .empty)) (hp : m'.pend = f.getD .empty)
    (hw : WInv isTx (s.log ++ [e]) (f.getD .empty) m') :
    Inv isTx newRest ⟨s.stateFile, f, some m', s.log ++ [e]⟩ := by
  have hsv' : savedActions (s.log ++ [e]) = savedActions s.log := by rw [savedActions_append, hsv, List.append_nil]
  refine ⟨justified_snoc h.just hj, hq, hr, ?_, ?_, ?_, ?_, ?_, ?_, ?_, h.count.snoc hne (h.started m hm), ?_⟩
  · simp only [hsv']; exact h.len
  · simp only [hsv']; exact h.acts
  · simp only [hsv', hc]; exact h.cur
  · intro x hx; cases hx; simp only [hsv', hc]; exact (h.phase m hm).congr hns h1 h2 h3
  · intro x hx _; cases hx; exact hp
  · intro x hx _; cases hx; exact hw
  · intro x hx hpx; cases hx; exact absurd (h1 ▸ hpx) hns
  · intro x hx
    have := h.started m hm
    simp only [starts, List.countP_append] at this ⊢
    omega

theorem phase_ne {s : Sys α H σ} (h : Inv isTx newRest s) {m : Mem α H σ} (hm : s.mem = some m)
    (hx : m.msgCh ≠ [] ∨ m.txCh ≠ [] ∨ m.inFlight ≠ []) : m.phase ≠ .started := by
  intro hp
  have := h.phase m hm
  simp only [PhaseInv, hp] at this
  obtain ⟨-, -, h1, h2, h3, -⟩ := this
  rcases hx with hx | hx | hx
  · exact hx h1
  · exact hx h2
  · exact hx h3

theorem QInv.remove {log : List (Entry α H σ)} {q : Pending α H} (h : QInv isTx log q) {id : Nat}
    (hi : (q.actionMap id).isSome = true) : QInv isTx (log ++ [.removed id]) (q.remove id) := by
  have hsv : savedActions (log ++ [(.removed id : Entry α H σ)]) = savedActions log := by simp [savedActions]
  have hqd : queuedActions (log ++ [(.removed id : Entry α H σ)]) = queuedActions log := by simp [queuedActions]
  have hne : ∀ {x}, ((q.remove id).actionMap x).isSome = true → x ≠ id ∧ (q.actionMap x).isSome = true := by
    intro x hx
    simp only [Pending.remove, upd] at hx
    split at hx
    · simp at hx
    · next hne => exact ⟨hne, hx⟩
  have hne' : ∀ {x}, ((q.remove id).txHashes x).isSome = true → x ≠ id ∧ (q.txHashes x).isSome = true := by
    intro x hx
    simp only [Pending.remove, upd] at hx
    split at hx
    · simp at hx
    · next hne => exact ⟨hne, hx⟩
  refine ⟨?_, ?_, ?_, ?_, ?_, ?_, ?_, ?_, ?_, ?_⟩
  · intro x hx; exact h.lt x (hne hx).2
  · intro x hx
    obtain ⟨h1, h2⟩ := hne' hx
    obtain ⟨a, h3, h4⟩ := h.hash x h2
    exact ⟨a, by simp [Pending.remove, upd, h1, h3], h4⟩
  · intro x hx
    obtain ⟨a, ha⟩ := h.sent x (hne' hx).2
    exact ⟨a, by simp [ha]⟩
  · intro x a hx
    have h1 := hne (x := x) (by simp [hx])
    simp only [Pending.remove, upd, if_neg h1.1] at hx
    rw [hsv]; exact h.act x a hx
  · intro x hx
    by_cases he : x = id
    · right; simp [he]
    · rcases h.present x hx with h1 | h1
      · left; simpa [Pending.remove, upd, he] using h1
      · right; simp [h1]
  · intro x hx
    obtain ⟨h1, h2⟩ := hne hx
    simp [h.notRemoved x h2, h1]
  · intro x hx
    rcases List.mem_append.1 hx with hx | hx
    · exact h.removedLt x hx
    · simp only [List.mem_singleton, Entry.removed.injEq] at hx
      subst hx; exact h.lt x hi
  · intro x hh hx
    have : .recorded x hh ∈ log := by simpa using hx
    by_cases he : x = id
    · right; simp [he]
    · rcases h.recorded x hh this with h1 | h1
      · left; simp [Pending.remove, upd, he, h1]
      · right; simp [h1]
  · rw [hsv, hqd]; exact h.queued
  · rw [hsv]; exact h.len

theorem QInv.record {log : List (Entry α H σ)} {q : Pending α H} (h : QInv isTx log q) {id : Nat} {a : α} {x : H}
    (hi : q.actionMap id = some a) (ht : isTx a = true) (hs : ∃ b, .sent id b ∈ log)
    (hn : q.txHashes id = none) : QInv isTx (log ++ [.recorded id x]) (q.setTxHash id x) := by
  have hsv : savedActions (log ++ [(.recorded id x : Entry α H σ)]) = savedActions log := by simp [savedActions]
  have hqd : queuedActions (log ++ [(.recorded id x : Entry α H σ)]) = queuedActions log := by simp [queuedActions]
  have hor : ∀ {y}, ((q.setTxHash id x).txHashes y).isSome = true → y = id ∨ (q.txHashes y).isSome = true := by
    intro y hy
    simp only [Pending.setTxHash, upd] at hy
    split at hy
    · left; assumption
    · right; exact hy
  refine ⟨h.lt, ?_, ?_, ?_, ?_, ?_, ?_, ?_, ?_, ?_⟩
  · intro y hy
    rcases hor hy with rfl | hy
    · exact ⟨a, hi, ht⟩
    · exact h.hash y hy
  · intro y hy
    rcases hor hy with rfl | hy
    · obtain ⟨b, hb⟩ := hs; exact ⟨b, by simp [hb]⟩
    · obtain ⟨b, hb⟩ := h.sent y hy; exact ⟨b, by simp [hb]⟩
  · rw [hsv]; exact h.act
  · intro y hy; simpa [Pending.setTxHash] using h.present y hy
  · intro y hy; simpa using h.notRemoved y hy
  · intro y hy; exact h.removedLt y (by simpa using hy)
  · intro y hh hy
    by_cases he : y = id
    · subst he
      have : .recorded y hh ∈ log ∨ hh = x := by simpa using hy
      rcases this with hx | rfl
      · have h1 := h.recorded y hh hx
        rcases h1 with h1 | h1
        · rw [hn] at h1; cases h1
        · right; simp [h1]
      · left; simp [Pending.setTxHash, upd]
    · have : .recorded y hh ∈ log := by simpa [he] using hy
      rcases h.recorded y hh this with h1 | h1
      · left; simp [Pending.setTxHash, upd, he, h1]
      · right; simp [h1]
  · rw [hsv, hqd]; exact h.queued
  · rw [hsv]; exact h.len

theorem head_mem {l : List Nat} {id : Nat} (h : l.head? = some id) : id ∈ l := by
  cases l with
  | nil => simp at h
  | cons x l => simp at h; simp [h]

theorem sentIDs_lastRun_sent {l : List (Entry α H σ)} (p : α → Bool) (id : Nat) (a : α) :
    sentIDs p (lastRun (l ++ [.sent id a])) = sentIDs p (lastRun l) ++ if p a = true then [id] else [] := by
  rw [lastRun_snoc]
  simp only [sentIDs_append]
  by_cases hp : p a = true <;> simp [sentIDs, hp]

/-- A send is justified for an action in the queue that has no recorded hash. -/
theorem just_sent {s : Sys α H σ} (h : Inv isTx newRest s) {id : Nat} {a : α}
    (ha : (s.actionsFile.getD .empty).actionMap id = some a) (hn : (s.actionsFile.getD .empty).txHashes id = none) :
    Just isTx s.log (.sent id a) := by
  have hs : ((s.actionsFile.getD .empty).actionMap id).isSome = true := by simp [ha]
  refine ⟨(queued_get h.q).2 ⟨h.q.lt id hs, h.q.act id a ha⟩, h.q.notRemoved id hs, ?_⟩
  intro x hx
  rcases h.q.recorded id x hx with h1 | h1
  · rw [hn] at h1; cases h1
  · exact h.q.notRemoved id hs h1

theorem inv_msgSend {s s' : Sys α H σ} (h : Inv isTx newRest s) (hs : s.step isTx newRest .msgSend = some s') :
    Inv isTx newRest s' := by
  cases hm : s.mem with
  | none => simp [Sys.step, hm] at hs
  | some m =>
    simp only [Sys.step, hm, Option.bind_eq_bind, Option.bind_some] at hs
    cases hch : m.msgCh with
    | nil => simp [hch] at hs
    | cons id rest =>
      have hns := phase_ne h hm (Or.inl (by simp [hch]))
      have hw := h.w m hm hns
      have hpe := h.pend m hm hns
      obtain ⟨a, ha, hat⟩ := hw.msgMem id (by simp [hch])
      simp only [hch] at hs
      cases hd : m.msgDone with
      | true => simp [hd] at hs
      | false =>
        simp only [hd, Bool.false_eq_true, if_false, hpe, ha, Option.some.injEq] at hs
        subst hs
        have hth : (s.actionsFile.getD .empty).txHashes id = none := by
          cases hx : (s.actionsFile.getD .empty).txHashes id with
          | none => rfl
          | some x =>
            obtain ⟨b, h1, h2⟩ := h.q.hash id (by simp [hx])
            rw [ha] at h1; cases h1; rw [hat] at h2; cases h2
        have hidlt : id < (s.actionsFile.getD .empty).currentID := h.q.lt id (by simp [ha])
        have hms := hw.msgSent
        rw [hd, hch] at hms
        have hS := hw.msgSorted
        rw [hch, List.cons_append] at hS
        have hS' := (List.pairwise_cons.1 hS).1
        refine h.worker hm hns rfl rfl rfl rfl (by simp) rfl (just_sent h ha hth) (h.q.quiet rfl) ?_ rfl ?_
        · have hr := h.run
          refine ⟨?_, ?_, ?_, ?_⟩
          · rw [sentIDs_lastRun_sent, if_pos (by simp [hat]), List.pairwise_append]
            exact ⟨hr.msg, by simp, fun x hx y hy => by
              simp only [List.mem_singleton] at hy; subst hy
              exact hms x hx y (by simp [restOf])⟩
          · rw [sentIDs_lastRun_sent, if_neg (by simp [hat]), List.append_nil]; exact hr.tx
          · rw [sentIDs_lastRun_sent, if_pos (by simp [hat])]
            intro x hx
            rcases List.mem_append.1 hx with hx | hx
            · exact hr.msgLt x hx
            · simp only [List.mem_singleton] at hx; subst hx; exact hidlt
          · rw [sentIDs_lastRun_sent, if_neg (by simp [hat]), List.append_nil]; exact hr.txLt
        · refine ⟨(by rw [← hch]; exact hw.msgMem), hw.txMem, hw.flyMem, hw.schedMem, hw.flyNodup, hw.flySched, (by rw [← hch]; exact hw.msgSorted), hw.txSorted, ?_, ?_, ?_, ?_,
            ?_, (by rw [← hch]; exact hw.cover)⟩
          · rw [sentIDs_lastRun_sent, if_pos (by simp [hat])]
            simp only [hch, restOf, if_true, List.tail_cons]
            intro x hx y hy
            rcases List.mem_append.1 hx with hx | hx
            · refine hms x hx y ?_
              simp only [restOf, Bool.false_eq_true, if_false, List.cons_append, List.mem_cons]
              exact Or.inr hy
            · simp only [List.mem_singleton] at hx; subst hx; exact hS' y hy
          · rw [sentIDs_lastRun_sent, if_neg (by simp [hat]), List.append_nil]; exact hw.txSent
          · intro _
            exact ⟨id, by simp [hch], Or.inl ⟨a, by simp⟩⟩
          · intro x hx
            obtain ⟨h0, i, b, hi, hb, ht⟩ := hw.txS x hx
            exact ⟨h0, i, b, hi, by simp [hb], ht⟩
          · intro hx
            obtain ⟨i, hi, hb⟩ := hw.txD hx
            exact ⟨i, hi, by simp [hb]⟩

theorem inv_msgGiveUp {s s' : Sys α H σ} (h : Inv isTx newRest s) (hs : s.step isTx newRest .msgGiveUp = some s') :
    Inv isTx newRest s' := by
  cases hm : s.mem with
  | none => simp [Sys.step, hm] at hs
  | some m =>
    simp only [Sys.step, hm, Option.bind_eq_bind, Option.bind_some] at hs
    cases hch : m.msgCh with
    | nil => simp [hch] at hs
    | cons id rest =>
      have hns := phase_ne h hm (Or.inl (by simp [hch]))
      have hw := h.w m hm hns
      have hpe := h.pend m hm hns
      obtain ⟨a, ha, hat⟩ := hw.msgMem id (by simp [hch])
      simp only [hch] at hs
      cases hd : m.msgDone with
      | true => simp [hd] at hs
      | false =>
        simp only [hd, Bool.false_eq_true, if_false, hpe, ha, Option.some.injEq] at hs
        subst hs
        refine h.worker hm hns rfl rfl rfl rfl (by simp) rfl trivial (h.q.quiet rfl)
          (h.run.noSent (by simp) (by simp) (Nat.le_refl _)) rfl ?_
        have hw' := hw.quietLog (e := .gaveUp id) (by simp) (by simp)
        refine ⟨(by rw [← hch]; exact hw'.msgMem), hw'.txMem, hw'.flyMem, hw'.schedMem, hw'.flyNodup, hw'.flySched, (by rw [← hch]; exact hw'.msgSorted), hw'.txSorted, ?_,
          hw'.txSent, ?_, hw'.txS, hw'.txD, (by rw [← hch]; exact hw'.cover)⟩
        · intro x hx y hy
          refine hw'.msgSent x hx y ?_
          simp only [hch, restOf, if_true, List.tail_cons, hd, Bool.false_eq_true, if_false, List.cons_append,
            List.mem_cons] at hy ⊢
          exact Or.inr hy
        · intro _
          exact ⟨id, by simp [hch], Or.inr (by simp)⟩

/-- Sorted channels have no duplicates. -/
theorem not_mem_of_sorted {id : Nat} {l : List Nat} (h : (id :: l).Pairwise (· < ·)) : id ∉ l := by
  intro hx
  exact Nat.lt_irrefl _ ((List.pairwise_cons.1 h).1 id hx)

theorem remove_other {q : Pending α H} {id x : Nat} (h : x ≠ id) :
    (q.remove id).actionMap x = q.actionMap x ∧ (q.remove id).txHashes x = q.txHashes x := by
  simp [Pending.remove, upd, h]

theorem just_removed {s : Sys α H σ} (h : Inv isTx newRest s) {id : Nat} {a : α}
    (ha : (s.actionsFile.getD .empty).actionMap id = some a)
    (hx : (∃ b, .sent id b ∈ s.log) ∨ .gaveUp id ∈ s.log) : Just isTx s.log (.removed id) := by
  have hs : ((s.actionsFile.getD .empty).actionMap id).isSome = true := by simp [ha]
  exact ⟨h.q.notRemoved id hs, ⟨a, (queued_get h.q).2 ⟨h.q.lt id hs, h.q.act id a ha⟩⟩, hx⟩

theorem inv_msgRemove {s s' : Sys α H σ} (h : Inv isTx newRest s) (hs : s.step isTx newRest .msgRemove = some s') :
    Inv isTx newRest s' := by
  cases hm : s.mem with
  | none => simp [Sys.step, hm] at hs
  | some m =>
    simp only [Sys.step, hm, Option.bind_eq_bind, Option.bind_some] at hs
    cases hch : m.msgCh with
    | nil => simp [hch] at hs
    | cons id rest =>
      have hns := phase_ne h hm (Or.inl (by simp [hch]))
      have hw := h.w m hm hns
      have hpe := h.pend m hm hns
      obtain ⟨a, ha, hat⟩ := hw.msgMem id (by simp [hch])
      simp only [hch] at hs
      cases hd : m.msgDone with
      | false => simp [hd] at hs
      | true =>
        simp only [hd, if_true, hpe, Option.some.injEq] at hs
        subst hs
        obtain ⟨i, hi, hdone⟩ := hw.msgDone hd
        rw [hch] at hi
        simp only [List.head?_cons, Option.some.injEq] at hi
        subst hi
        have hS := hw.msgSorted
        rw [hch, List.cons_append] at hS
        have hnm := not_mem_of_sorted hS
        simp only [List.mem_append, not_or] at hnm
        have hntx : ∀ x ∈ m.txCh, x ≠ id := by
          rintro x hx rfl
          obtain ⟨b, h1, h2, _⟩ := hw.txMem x hx
          rw [ha] at h1; cases h1; rw [hat] at h2; cases h2
        have hnfly : ∀ x ∈ m.inFlight, x ≠ id := by
          rintro x hx rfl
          obtain ⟨b, h1, h2⟩ := h.q.hash x (hw.flyMem x hx)
          rw [ha] at h1; cases h1; rw [hat] at h2; cases h2
        refine h.worker hm hns (f := some _) rfl rfl rfl rfl (by simp) rfl (just_removed h ha hdone) (h.q.remove (by simp [ha]))
          (h.run.noSent (by simp) (by simp) (Nat.le_refl _)) rfl ?_
        have hw' := hw.quietLog (e := .removed id) (by simp) (by simp)
        simp only [Option.getD_some]
        refine ⟨?_, ?_, ?_, ?_, hw.flyNodup, hw.flySched, (List.pairwise_cons.1 hS).2, hw.txSorted, ?_, hw'.txSent, ?_, hw'.txS, hw'.txD, ?_⟩
        · intro x hx
          have hne : x ≠ id := fun e => hnm.1 (e ▸ hx)
          rw [(remove_other hne).1]
          exact hw.msgMem x (by simp [hch, hx])
        · intro x hx
          rw [(remove_other (hntx x hx)).1, (remove_other (hntx x hx)).2]; exact hw.txMem x hx
        · intro x hx
          rw [(remove_other (hnfly x hx)).2]; exact hw.flyMem x hx
        · intro x hx
          have hne : x ≠ id := fun e => hnm.2 (e ▸ hx)
          rw [(remove_other hne).1]; exact hw.schedMem x hx
        · intro x hx y hy
          refine hw'.msgSent x hx y ?_
          simp only [hch, hd, restOf, if_true, List.tail_cons, Bool.false_eq_true, if_false] at hy ⊢
          exact hy
        · intro hx; cases hx
        · intro x hx
          have hne : x ≠ id := by
            rintro rfl; simp [Pending.remove, upd] at hx
          rw [(remove_other hne).1] at hx
          have := hw.cover x hx
          rw [hch] at this
          simpa [hne] using this

theorem inv_txSend {s s' : Sys α H σ} (h : Inv isTx newRest s) {hh : H} (hs : s.step isTx newRest (.txSend hh) = some s') :
    Inv isTx newRest s' := by
  cases hm : s.mem with
  | none => simp [Sys.step, hm] at hs
  | some m =>
    simp only [Sys.step, hm, Option.bind_eq_bind, Option.bind_some] at hs
    cases hch : m.txCh with
    | nil => simp [hch] at hs
    | cons id rest =>
      have hns := phase_ne h hm (Or.inr (Or.inl (by simp [hch])))
      have hw := h.w m hm hns
      have hpe := h.pend m hm hns
      obtain ⟨a, ha, hat, hth⟩ := hw.txMem id (by simp [hch])
      simp only [hch] at hs
      cases hd : (m.txSent.isSome || m.txDone) with
      | true => simp only [hd, if_true] at hs; cases hs
      | false =>
        have hd1 : m.txDone = false := by
          rw [Bool.or_eq_false_iff] at hd; exact hd.2
        simp only [hd, Bool.false_eq_true, if_false, hpe, ha, Option.some.injEq] at hs
        subst hs
        have hidlt : id < (s.actionsFile.getD .empty).currentID := h.q.lt id (by simp [ha])
        have hms := hw.txSent
        rw [hd, hch] at hms
        have hS := hw.txSorted
        rw [hch, List.cons_append] at hS
        have hS' := (List.pairwise_cons.1 hS).1
        refine h.worker hm hns rfl rfl rfl rfl (by simp) rfl (just_sent h ha hth) (h.q.quiet rfl) ?_ rfl ?_
        · have hr := h.run
          refine ⟨?_, ?_, ?_, ?_⟩
          · rw [sentIDs_lastRun_sent, if_neg (by simp [hat]), List.append_nil]; exact hr.msg
          · rw [sentIDs_lastRun_sent, if_pos hat, List.pairwise_append]
            exact ⟨hr.tx, by simp, fun x hx y hy => by
              simp only [List.mem_singleton] at hy; subst hy
              exact hms x hx y (by simp [restOf])⟩
          · rw [sentIDs_lastRun_sent, if_neg (by simp [hat]), List.append_nil]; exact hr.msgLt
          · rw [sentIDs_lastRun_sent, if_pos hat]
            intro x hx
            rcases List.mem_append.1 hx with hx | hx
            · exact hr.txLt x hx
            · simp only [List.mem_singleton] at hx; subst hx; exact hidlt
        · refine ⟨hw.msgMem, (by rw [← hch]; exact hw.txMem), hw.flyMem, hw.schedMem, hw.flyNodup, hw.flySched, hw.msgSorted, (by rw [← hch]; exact hw.txSorted), ?_, ?_, ?_, ?_,
            ?_, (by rw [← hch]; exact hw.cover)⟩
          · rw [sentIDs_lastRun_sent, if_neg (by simp [hat]), List.append_nil]; exact hw.msgSent
          · rw [sentIDs_lastRun_sent, if_pos hat]
            simp only [hch, restOf, Option.isSome_some, Bool.true_or, if_true, List.tail_cons]
            intro x hx y hy
            rcases List.mem_append.1 hx with hx | hx
            · refine hms x hx y ?_
              simp only [restOf, Bool.false_eq_true, if_false, List.cons_append, List.mem_cons]
              exact Or.inr hy
            · simp only [List.mem_singleton] at hx; subst hx; exact hS' y hy
          · intro hx
            obtain ⟨i, hi, hb⟩ := hw.msgDone hx
            exact ⟨i, hi, hb.imp (fun ⟨b, hb⟩ => ⟨b, by simp [hb]⟩) (fun hb => by simp [hb])⟩
          · intro x hx
            exact ⟨hd1, id, a, by simp [hch], by simp, hat⟩
          · intro hx; rw [hd1] at hx; cases hx

theorem inv_txGiveUp {s s' : Sys α H σ} (h : Inv isTx newRest s) (hs : s.step isTx newRest .txGiveUp = some s') :
    Inv isTx newRest s' := by
  cases hm : s.mem with
  | none => simp [Sys.step, hm] at hs
  | some m =>
    simp only [Sys.step, hm, Option.bind_eq_bind, Option.bind_some] at hs
    cases hch : m.txCh with
    | nil => simp [hch] at hs
    | cons id rest =>
      have hns := phase_ne h hm (Or.inr (Or.inl (by simp [hch])))
      have hw := h.w m hm hns
      have hpe := h.pend m hm hns
      obtain ⟨a, ha, hat, hth⟩ := hw.txMem id (by simp [hch])
      simp only [hch] at hs
      cases hd : (m.txSent.isSome || m.txDone) with
      | true => simp only [hd, if_true] at hs; cases hs
      | false =>
        have hd1 : m.txSent = none := by
          rw [Bool.or_eq_false_iff] at hd; simpa using hd.1
        simp only [hd, Bool.false_eq_true, if_false, hpe, ha, Option.some.injEq] at hs
        subst hs
        refine h.worker hm hns rfl rfl rfl rfl (by simp) rfl trivial (h.q.quiet rfl)
          (h.run.noSent (by simp) (by simp) (Nat.le_refl _)) rfl ?_
        have hw' := hw.quietLog (e := .gaveUp id) (by simp) (by simp)
        refine ⟨hw'.msgMem, (by rw [← hch]; exact hw'.txMem), hw'.flyMem, hw'.schedMem, hw'.flyNodup, hw'.flySched, hw'.msgSorted, (by rw [← hch]; exact hw'.txSorted),
          hw'.msgSent, ?_, hw'.msgDone, ?_, ?_, (by rw [← hch]; exact hw'.cover)⟩
        · intro x hx y hy
          refine hw'.txSent x hx y ?_
          simp only [hch, restOf, if_true, List.tail_cons, hd, Bool.or_true, Bool.false_eq_true, if_false, List.cons_append,
            List.mem_cons] at hy ⊢
          exact Or.inr hy
        · intro x hx; simp only [hd1] at hx; cases hx
        · intro _
          exact ⟨id, by simp [hch], by simp⟩

theorem inv_txRemove {s s' : Sys α H σ} (h : Inv isTx newRest s) (hs : s.step isTx newRest .txRemove = some s') :
    Inv isTx newRest s' := by
  cases hm : s.mem with
  | none => simp [Sys.step, hm] at hs
  | some m =>
    simp only [Sys.step, hm, Option.bind_eq_bind, Option.bind_some] at hs
    cases hch : m.txCh with
    | nil => simp [hch] at hs
    | cons id rest =>
      have hns := phase_ne h hm (Or.inr (Or.inl (by simp [hch])))
      have hw := h.w m hm hns
      have hpe := h.pend m hm hns
      obtain ⟨a, ha, hat, hth⟩ := hw.txMem id (by simp [hch])
      simp only [hch] at hs
      cases hd : m.txDone with
      | false => simp [hd] at hs
      | true =>
        simp only [hd, if_true, hpe, Option.some.injEq] at hs
        subst hs
        obtain ⟨i, hi, hdone⟩ := hw.txD hd
        rw [hch] at hi
        simp only [List.head?_cons, Option.some.injEq] at hi
        subst hi
        have hd1 : m.txSent = none := by
          cases hx : m.txSent with
          | none => rfl
          | some x => have := (hw.txS x hx).1; rw [hd] at this; cases this
        have hS := hw.txSorted
        rw [hch, List.cons_append] at hS
        have hnm := not_mem_of_sorted hS
        simp only [List.mem_append, not_or] at hnm
        have hnmsg : ∀ x ∈ m.msgCh, x ≠ id := by
          rintro x hx rfl
          obtain ⟨b, h1, h2⟩ := hw.msgMem x hx
          rw [ha] at h1; cases h1; rw [hat] at h2; cases h2
        have hnfly : ∀ x ∈ m.inFlight, x ≠ id := by
          rintro x hx rfl
          have := hw.flyMem x hx
          rw [hth] at this; cases this
        refine h.worker hm hns (f := some _) rfl rfl rfl rfl (by simp) rfl (just_removed h ha (Or.inr hdone))
          (h.q.remove (by simp [ha])) (h.run.noSent (by simp) (by simp) (Nat.le_refl _)) rfl ?_
        have hw' := hw.quietLog (e := .removed id) (by simp) (by simp)
        simp only [Option.getD_some]
        refine ⟨?_, ?_, ?_, ?_, hw.flyNodup, hw.flySched, hw.msgSorted, (List.pairwise_cons.1 hS).2, hw'.msgSent, ?_, hw'.msgDone,
          ?_, ?_, ?_⟩
        · intro x hx
          rw [(remove_other (hnmsg x hx)).1]; exact hw.msgMem x hx
        · intro x hx
          have hne : x ≠ id := fun e => hnm.1 (e ▸ hx)
          rw [(remove_other hne).1, (remove_other hne).2]
          exact hw.txMem x (by simp [hch, hx])
        · intro x hx
          rw [(remove_other (hnfly x hx)).2]; exact hw.flyMem x hx
        · intro x hx
          have hne : x ≠ id := fun e => hnm.2 (e ▸ hx)
          rw [(remove_other hne).1]; exact hw.schedMem x hx
        · intro x hx y hy
          refine hw'.txSent x hx y ?_
          simp only [hch, hd, hd1, restOf, Bool.or_true, Option.isSome_none, Bool.or_self, if_true, List.tail_cons,
            Bool.false_eq_true, if_false] at hy ⊢
          exact hy
        · intro x hx; simp only [hd1] at hx; cases hx
        · intro hx; cases hx
        · intro x hx
          have hne : x ≠ id := by
            rintro rfl; simp [Pending.remove, upd] at hx
          rw [(remove_other hne).1] at hx
          have := hw.cover x hx
          rw [hch] at this
          simpa [hne] using this

theorem inv_txRecord {s s' : Sys α H σ} (h : Inv isTx newRest s) (hs : s.step isTx newRest .txRecord = some s') :
    Inv isTx newRest s' := by
  cases hm : s.mem with
  | none => simp [Sys.step, hm] at hs
  | some m =>
    simp only [Sys.step, hm, Option.bind_eq_bind, Option.bind_some] at hs
    cases hch : m.txCh with
    | nil => simp [hch] at hs
    | cons id rest =>
      cases hx0 : m.txSent with
      | none => simp [hch, hx0] at hs
      | some x0 =>
        have hns := phase_ne h hm (Or.inr (Or.inl (by simp [hch])))
        have hw := h.w m hm hns
        have hpe := h.pend m hm hns
        obtain ⟨a, ha, hat, hth⟩ := hw.txMem id (by simp [hch])
        simp only [hch, hx0, hpe, Option.some.injEq] at hs
        subst hs
        obtain ⟨hd1, i, b, hi, hb, hbt⟩ := hw.txS x0 hx0
        rw [hch] at hi
        simp only [List.head?_cons, Option.some.injEq] at hi
        subst hi
        have hS := hw.txSorted
        rw [hch, List.cons_append] at hS
        have hnm := not_mem_of_sorted hS
        simp only [List.mem_append, not_or] at hnm
        have hother : ∀ {x}, x ≠ id → ((s.actionsFile.getD .empty).setTxHash id x0).txHashes x =
            (s.actionsFile.getD .empty).txHashes x := by
          intro x hx; simp [Pending.setTxHash, upd, hx]
        refine h.worker hm hns (f := some _) rfl rfl rfl rfl (by simp) rfl ⟨b, hb, hbt⟩ (h.q.record ha hat ⟨b, hb⟩ hth)
          (h.run.noSent (by simp) (by simp) (Nat.le_refl _)) rfl ?_
        have hw' := hw.quietLog (e := .recorded id x0) (by simp) (by simp)
        simp only [Option.getD_some]
        refine ⟨hw.msgMem, ?_, ?_, hw.schedMem, ?_, ?_, hw.msgSorted, (List.pairwise_cons.1 hS).2, hw'.msgSent, ?_, hw'.msgDone,
          ?_, ?_, ?_⟩
        · intro x hx
          have hne : x ≠ id := fun e => hnm.1 (e ▸ hx)
          rw [hother hne]
          exact hw.txMem x (by simp [hch, hx])
        · intro x hx
          rcases List.mem_append.1 hx with hx | hx
          · by_cases hne : x = id
            · simp [hne, Pending.setTxHash, upd]
            · rw [hother hne]; exact hw.flyMem x hx
          · simp only [List.mem_singleton] at hx; simp [hx, Pending.setTxHash, upd]
        · rw [List.nodup_append]
          refine ⟨hw.flyNodup, by simp, ?_⟩
          intro x hx y hy he
          simp only [List.mem_singleton] at hy
          subst hy; subst he
          have := hw.flyMem _ hx
          rw [hth] at this; cases this
        · intro x hx
          rcases List.mem_append.1 hx with hx | hx
          · exact hw.flySched x hx
          · simp only [List.mem_singleton] at hx; rw [hx]; exact hnm.2
        · intro x hx y hy
          refine hw'.txSent x hx y ?_
          simp only [hch, hx0, hd1, restOf, Option.isSome_some, Option.isSome_none, Bool.or_false, if_true, List.tail_cons,
            Bool.false_eq_true, if_false] at hy ⊢
          exact hy
        · intro x hx; cases hx
        · intro hx; simp only [hd1] at hx; cases hx
        · intro x hx
          have := hw.cover x hx
          rw [hch] at this
          rcases this with h1 | h1 | h1 | h1
          · exact Or.inl h1
          · exact Or.inr (Or.inl h1)
          · rcases List.mem_cons.1 h1 with h1 | h1
            · right; right; right; simp [h1]
            · right; right; left; exact h1
          · right; right; right; simp [h1]

theorem inv_mined {s s' : Sys α H σ} (h : Inv isTx newRest s) {id : Nat} (hs : s.step isTx newRest (.mined id) = some s') :
    Inv isTx newRest s' := by
  cases hm : s.mem with
  | none => simp [Sys.step, hm] at hs
  | some m =>
    simp only [Sys.step, hm, Option.bind_eq_bind, Option.bind_some, Option.ite_none_right_eq_some] at hs
    obtain ⟨hin, hs⟩ := hs
    have hns := phase_ne h hm (Or.inr (Or.inr (fun e => by rw [e] at hin; cases hin)))
    have hw := h.w m hm hns
    have hpe := h.pend m hm hns
    have hf := hw.flyMem id hin
    obtain ⟨a, ha, hat⟩ := h.q.hash id hf
    obtain ⟨x0, hx0⟩ := Option.isSome_iff_exists.1 hf
    simp only [hpe, hx0, ha, Option.some.injEq] at hs
    subst hs
    obtain ⟨b, hb⟩ := h.q.sent id hf
    have hnmsg : ∀ x ∈ m.msgCh, x ≠ id := by
      rintro x hx rfl
      obtain ⟨b, h1, h2⟩ := hw.msgMem x hx
      rw [ha] at h1; cases h1; rw [hat] at h2; cases h2
    have hntx : ∀ x ∈ m.txCh, x ≠ id := by
      rintro x hx rfl
      obtain ⟨b, _, _, h2⟩ := hw.txMem x hx
      rw [h2] at hx0; cases hx0
    have hnfly : ∀ x ∈ m.inFlight.erase id, x ≠ id ∧ x ∈ m.inFlight := by
      intro x hx
      exact (List.Nodup.mem_erase_iff hw.flyNodup).1 hx
    refine h.worker hm hns (f := some _) rfl rfl rfl rfl (by simp) rfl (just_removed h ha (Or.inl ⟨b, hb⟩))
      (h.q.remove (by simp [ha])) (h.run.noSent (by simp) (by simp) (Nat.le_refl _)) rfl ?_
    have hw' := hw.quietLog (e := .removed id) (by simp) (by simp)
    simp only [Option.getD_some]
    refine ⟨?_, ?_, ?_, ?_, hw.flyNodup.erase id, ?_, hw.msgSorted, hw.txSorted, hw'.msgSent, hw'.txSent, hw'.msgDone,
      hw'.txS, hw'.txD, ?_⟩
    · intro x hx
      rw [(remove_other (hnmsg x hx)).1]; exact hw.msgMem x hx
    · intro x hx
      rw [(remove_other (hntx x hx)).1, (remove_other (hntx x hx)).2]
      exact hw.txMem x hx
    · intro x hx
      rw [(remove_other (hnfly x hx).1).2]; exact hw.flyMem x (hnfly x hx).2
    · intro x hx
      have hne : x ≠ id := by rintro rfl; exact hw.flySched x hin hx
      rw [(remove_other hne).1]; exact hw.schedMem x hx
    · intro x hx; exact hw.flySched x (hnfly x hx).2
    · intro x hx
      have hne : x ≠ id := by
        rintro rfl; simp [Pending.remove, upd] at hx
      rw [(remove_other hne).1] at hx
      rcases hw.cover x hx with h1 | h1 | h1 | h1
      · exact Or.inl h1
      · exact Or.inr (Or.inl h1)
      · exact Or.inr (Or.inr (Or.inl h1))
      · exact Or.inr (Or.inr (Or.inr ((List.Nodup.mem_erase_iff hw.flyNodup).2 ⟨hne, h1⟩)))

theorem inv_step {s s' : Sys α H σ} (h : Inv isTx newRest s) {e : Ev α H σ} (hs : s.step isTx newRest e = some s') :
    Inv isTx newRest s' := by
  cases e with
  | start => exact inv_start h hs
  | load => exact inv_load h hs
  | schedule => exact inv_schedule h hs
  | loaded => exact inv_loaded h hs
  | decide as r => exact inv_decide h hs
  | save => exact inv_save h hs
  | run => exact inv_run h hs
  | finish => exact inv_finish h hs
  | msgSend => exact inv_msgSend h hs
  | msgGiveUp => exact inv_msgGiveUp h hs
  | msgRemove => exact inv_msgRemove h hs
  | txSend x => exact inv_txSend h hs
  | txGiveUp => exact inv_txGiveUp h hs
  | txRecord => exact inv_txRecord h hs
  | txRemove => exact inv_txRemove h hs
  | mined id => exact inv_mined h hs
  | stop => exact inv_stop h hs

theorem reach_inv {s : Sys α H σ} (h : Sys.Reach isTx newRest s) : Inv isTx newRest s := by
  induction h with
  | fresh => exact inv_fresh
  | step _ hs ih => exact inv_step ih hs

end Shutter.Fx
