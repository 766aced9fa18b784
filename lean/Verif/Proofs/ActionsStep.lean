import Verif.Proofs.Actions
import Mathlib.Data.List.Nodup
import Mathlib.Data.List.Count

/-! # The steps preserve the invariants -/

namespace Shutter.Fx
variable {α H σ : Type} {isTx : α → Bool} {newRest : σ}

/-- Entries that do not concern the queue. -/
def Entry.quiet : Entry α H σ → Bool
  | .started | .sent _ _ | .gaveUp _ | .stopped | .panicked => true
  | _ => false

theorem savedActions_quiet {l : List (Entry α H σ)} {e : Entry α H σ} (he : e.quiet = true) :
    savedActions (l ++ [e]) = savedActions l := by
  rw [savedActions_append]
  cases e <;> simp_all [Entry.quiet, savedActions]

theorem queuedActions_quiet {l : List (Entry α H σ)} {e : Entry α H σ} (he : e.quiet = true) :
    queuedActions (l ++ [e]) = queuedActions l := by
  rw [queuedActions_append]
  cases e <;> simp_all [Entry.quiet, queuedActions]

theorem QInv.quiet {log : List (Entry α H σ)} {q : Pending α H} (h : QInv isTx log q) {e : Entry α H σ} (he : e.quiet = true) :
    QInv isTx (log ++ [e]) q := by
  have hr : ∀ id, (.removed id ∈ log ++ [e] ↔ .removed id ∈ log) := by
    intro id; cases e <;> simp_all [Entry.quiet]
  have hc : ∀ id x, (.recorded id x ∈ log ++ [e] ↔ .recorded id x ∈ log) := by
    intro id; cases e <;> simp_all [Entry.quiet]
  constructor
  · exact h.lt
  · exact h.hash
  · intro id hi
    obtain ⟨a, ha⟩ := h.sent id hi
    exact ⟨a, by simp [ha]⟩
  · rw [savedActions_quiet he]; exact h.act
  · intro id; rw [hr]; exact h.present id
  · intro id; rw [hr]; exact h.notRemoved id
  · intro id; rw [hr]; exact h.removedLt id
  · intro id x; rw [hr, hc]; exact h.recorded id x
  · rw [savedActions_quiet he, queuedActions_quiet he]; exact h.queued
  · rw [savedActions_quiet he]; exact h.len

/-- The actions that were sent are the ones queued under the id. -/
theorem queued_get {log : List (Entry α H σ)} {q : Pending α H} (h : QInv isTx log q) {a : α} {id : Nat} :
    (a, id) ∈ queuedActions log ↔ id < q.currentID ∧ (savedActions log)[id]? = some a := by
  rw [h.queued, List.mem_zipIdx_iff_getElem?]
  simp only [List.getElem?_take]
  split
  · simp_all
  · simp; intro _; omega

theorem sent_queued {log : List (Entry α H σ)} (hj : Justified (Just isTx) log) {id : Nat} {a : α} (h : .sent id a ∈ log) :
    (a, id) ∈ queuedActions log := by
  obtain ⟨pre, post, rfl⟩ := List.append_of_mem h
  have := (hj pre _ post rfl).1
  rw [queuedActions_append]
  simp [this]

theorem lastRun_suffix (l : List (Entry α H σ)) : ∃ pre, l = pre ++ lastRun l := by
  induction l using List.reverseRecOn with
  | nil => exact ⟨[], rfl⟩
  | append_singleton l e ih =>
    obtain ⟨pre, h⟩ := ih
    rw [lastRun_snoc]
    cases e <;> first | exact ⟨_, (List.append_nil _).symm⟩ | exact ⟨pre, by simp only [← List.append_assoc]; rw [← h]⟩

theorem timesSent_lastRun {log : List (Entry α H σ)} {q : Pending α H} (hj : Justified (Just isTx) log) (hq : QInv isTx log q)
    (hr : RunInv isTx log q) (id : Nat) : timesSent id (lastRun log) ≤ 1 := by
  obtain ⟨pre, hpre⟩ := lastRun_suffix log
  have hsub : ∀ e ∈ lastRun log, e ∈ log := by intro e he; rw [hpre]; simp [he]
  have huniq : ∀ a b, Entry.sent id a ∈ lastRun log → Entry.sent id b ∈ lastRun log → a = b := by
    intro a b ha hb
    have h1 := (queued_get hq).1 (sent_queued hj (hsub _ ha))
    have h2 := (queued_get hq).1 (sent_queued hj (hsub _ hb))
    have := h1.2.symm.trans h2.2
    injection this
  have hm := hr.msg
  have ht := hr.tx
  revert huniq hm ht
  generalize lastRun log = l
  intro huniq hm ht
  -- the counts in the two lists
  have hcount : timesSent id l = (sentIDs (fun a => !isTx a) l).count id + (sentIDs isTx l).count id := by
    clear huniq hm ht
    induction l with
    | nil => simp [timesSent, sentIDs]
    | cons e l ih =>
      rw [show e :: l = [e] ++ l from rfl, sentIDs_append, sentIDs_append]
      simp only [List.count_append]
      have : timesSent id ([e] ++ l) = timesSent id [e] + timesSent id l := by
        rw [timesSent, List.countP_append]; rfl
      rw [this, ih]
      have : timesSent id [e] = (sentIDs (fun a => !isTx a) [e]).count id + (sentIDs isTx [e]).count id := by
        cases e with
        | sent id' a =>
          cases hx : isTx a <;> simp [timesSent, sentIDs, hx, List.count_cons, List.countP_cons]
        | _ => simp [timesSent, sentIDs]
      omega
  have hnd1 : (sentIDs (fun a => !isTx a) l).Nodup := hm.imp (fun h => Nat.ne_of_lt h)
  have hnd2 : (sentIDs isTx l).Nodup := ht.imp (fun h => Nat.ne_of_lt h)
  have c1 := List.nodup_iff_count_le_one.1 hnd1 id
  have c2 := List.nodup_iff_count_le_one.1 hnd2 id
  have hx : ¬ (id ∈ sentIDs (fun a => !isTx a) l ∧ id ∈ sentIDs isTx l) := by
    rintro ⟨h1, h2⟩
    simp only [sentIDs, List.mem_filterMap] at h1 h2
    obtain ⟨e1, he1, h1⟩ := h1
    obtain ⟨e2, he2, h2⟩ := h2
    cases e1 with
    | sent i1 a1 =>
      cases e2 with
      | sent i2 a2 =>
        simp only [ite_eq_iff, Option.some.injEq] at h1 h2
        have hh1 : isTx a1 = false ∧ i1 = id := by
          rcases h1 with ⟨h1, h3⟩ | ⟨_, h3⟩
          · exact ⟨by simpa using h1, h3⟩
          · cases h3
        have hh2 : isTx a2 = true ∧ i2 = id := by
          rcases h2 with ⟨h1, h3⟩ | ⟨_, h3⟩
          · exact ⟨h1, h3⟩
          · cases h3
        obtain ⟨hh1, rfl⟩ := hh1
        obtain ⟨hh2, rfl⟩ := hh2
        have := huniq _ _ he1 he2
        subst this
        rw [hh1] at hh2
        cases hh2
      | _ => simp at h2
    | _ => simp at h1
  rw [hcount]
  by_cases h1 : id ∈ sentIDs (fun a => !isTx a) l
  · have h2 : id ∉ sentIDs isTx l := fun h2 => hx ⟨h1, h2⟩
    rw [List.count_eq_zero_of_not_mem h2]; omega
  · rw [List.count_eq_zero_of_not_mem h1]; omega

/-- A file-less quiet entry that is not a start. -/
theorem lastRun_quiet_sent {l : List (Entry α H σ)} {e : Entry α H σ} (p : α → Bool) (h1 : e ≠ .started)
    (h2 : ∀ id a, e ≠ .sent id a) : sentIDs p (lastRun (l ++ [e])) = sentIDs p (lastRun l) := by
  rw [lastRun_snoc]
  cases e <;> simp_all [sentIDs]

theorem RunInv.noSent {log : List (Entry α H σ)} {q q' : Pending α H} (h : RunInv isTx log q) {e : Entry α H σ}
    (h1 : e ≠ .started) (h2 : ∀ id a, e ≠ .sent id a) (hc : q.currentID ≤ q'.currentID) : RunInv isTx (log ++ [e]) q' := by
  constructor <;> rw [lastRun_quiet_sent _ h1 h2]
  · exact h.msg
  · exact h.tx
  · exact fun x hx => Nat.lt_of_lt_of_le (h.msgLt x hx) hc
  · exact fun x hx => Nat.lt_of_lt_of_le (h.txLt x hx) hc

theorem CountInv.snoc {log : List (Entry α H σ)} (h : CountInv log) {e : Entry α H σ} (h1 : e ≠ .started)
    (hs : starts log ≠ 0) : CountInv (log ++ [e]) := by
  have hst : starts (log ++ [e]) = starts log := by
    cases e <;> simp_all [starts, List.countP_append]
  refine ⟨fun id => ?_, fun h0 => absurd (hst ▸ h0) hs⟩
  have hl : lastRun (log ++ [e]) = lastRun log ++ [e] := by
    rw [lastRun_snoc]; cases e <;> first | rfl | exact absurd rfl h1
  have := h.1 id
  rw [hst, hl]
  simp only [timesSent, List.countP_append] at *
  omega

theorem CountInv.start {log : List (Entry α H σ)} {q : Pending α H} (h : CountInv log) (hj : Justified (Just isTx) log)
    (hq : QInv isTx log q) (hr : RunInv isTx log q) : CountInv (log ++ [.started]) := by
  have hst : starts (log ++ [(.started : Entry α H σ)]) = starts log + 1 := by
    simp [starts, List.countP_append]
  refine ⟨fun id => ?_, fun h0 => by omega⟩
  have h1 : timesSent id (log ++ [(.started : Entry α H σ)]) = timesSent id log := by
    simp [timesSent, List.countP_append]
  rw [hst, h1]
  by_cases h0 : starts log = 0
  · rw [h.2 h0]; simp [timesSent]
  · have := h.1 id
    have := timesSent_lastRun hj hq hr id
    omega

/-! ## Main goroutine -/

/-- Changes of the memory only. -/
theorem Inv.withMem {s : Sys α H σ} (h : Inv isTx newRest s) {m m' : Mem α H σ} (hm : s.mem = some m) (hm' : m'.phase ≠ .started)
    (h1 : PhaseInv (savedActions s.log).length (s.actionsFile.getD .empty).currentID
      (s.stateFile.getD ⟨0, [], newRest⟩) m') (h2 : m'.pend = s.actionsFile.getD .empty)
    (h3 : WInv isTx s.log (s.actionsFile.getD .empty) m') : Inv isTx newRest (s.withMem m') where
  just := h.just
  q := h.q
  run := h.run
  len := h.len
  acts := h.acts
  cur := h.cur
  phase := by intro x hx; cases hx; exact h1
  pend := by intro x hx _; cases hx; exact h2
  w := by intro x hx _; cases hx; exact h3
  noRun := by intro x hx hp; cases hx; exact absurd hp hm'
  count := h.count
  started := fun x _ => h.started m hm

theorem inv_fresh : Inv isTx newRest (Sys.fresh : Sys α H σ) where
  just := by intro pre e post h; simp [Sys.fresh] at h
  q := by constructor <;> simp [Sys.fresh, Pending.empty, savedActions, queuedActions]
  run := by constructor <;> simp [Sys.fresh, sentIDs, lastRun]
  len := by simp [Sys.fresh, savedActions]
  acts := by simp [Sys.fresh, savedActions]
  cur := by simp [Sys.fresh, Pending.empty]
  phase := by intro m hm; simp [Sys.fresh] at hm
  pend := by intro m hm; simp [Sys.fresh] at hm
  w := by intro m hm; simp [Sys.fresh] at hm
  noRun := by intro m hm; simp [Sys.fresh] at hm
  count := ⟨by intro id; simp [Sys.fresh, timesSent], fun _ => rfl⟩
  started := by intro m hm; simp [Sys.fresh] at hm

theorem inv_start {s s' : Sys α H σ} (h : Inv isTx newRest s) (hs : s.step isTx newRest .start = some s') :
    Inv isTx newRest s' := by
  cases hm : s.mem with
  | some m => simp [Sys.step, hm] at hs
  | none =>
    simp only [Sys.step, hm, Option.some.injEq] at hs
    subst hs
    have hq : (Entry.started : Entry α H σ).quiet = true := rfl
    refine ⟨justified_snoc h.just trivial, h.q.quiet hq, ?_, ?_, ?_, ?_, ?_, ?_, ?_, ?_, h.count.start h.just h.q h.run, ?_⟩
    · constructor <;> simp [Sys.emit, Sys.withMem, lastRun_snoc, sentIDs]
    · simpa only [Sys.emit, Sys.withMem, savedActions_quiet hq] using h.len
    · simpa only [Sys.emit, Sys.withMem, savedActions_quiet hq] using h.acts
    · simpa only [Sys.emit, Sys.withMem, savedActions_quiet hq] using h.cur
    · intro m' hm'; cases hm'; simp [PhaseInv, Sys.emit, Sys.withMem]
    · intro m' hm' hp; cases hm'; exact absurd rfl hp
    · intro m' hm' hp; cases hm'; exact absurd rfl hp
    · intro m' hm' hp; simp [Sys.emit, Sys.withMem, lastRun_snoc]
    · intro m' hm'; simp [Sys.emit, Sys.withMem, starts, List.countP_append]

theorem inv_stop {s s' : Sys α H σ} (h : Inv isTx newRest s) (hs : s.step isTx newRest .stop = some s') :
    Inv isTx newRest s' := by
  cases hm : s.mem with
  | none => simp [Sys.step, hm] at hs
  | some m =>
    simp only [Sys.step, hm, Option.some.injEq] at hs
    subst hs
    have hq : (Entry.stopped : Entry α H σ).quiet = true := rfl
    refine ⟨justified_snoc h.just trivial, h.q.quiet hq, h.run.noSent (by simp) (by simp) (Nat.le_refl _), ?_, ?_, ?_, ?_, ?_, ?_, ?_,
      h.count.snoc (by simp) (h.started m hm), ?_⟩
    · simpa only [savedActions_quiet hq] using h.len
    · simpa only [savedActions_quiet hq] using h.acts
    · simpa only [savedActions_quiet hq] using h.cur
    all_goals intro m' hm'; cases hm'

theorem inv_load {s s' : Sys α H σ} (h : Inv isTx newRest s) (hs : s.step isTx newRest .load = some s') :
    Inv isTx newRest s' := by
  cases hm : s.mem with
  | none => simp [Sys.step, hm] at hs
  | some m =>
    simp only [Sys.step, hm, Option.bind_eq_bind, Option.bind_some, Option.ite_none_right_eq_some, Option.some.injEq] at hs
    obtain ⟨hp, rfl⟩ := hs
    have hph := h.phase m hm
    simp only [PhaseInv, hp] at hph
    obtain ⟨hst, h1, h2, h3, h4, h5, h6, h7⟩ := hph
    have hnr := h.noRun m hm hp
    refine h.withMem hm (by simp) (by simpa [PhaseInv] using hst) rfl ?_
    constructor <;> simp only [h1, h2, h3, h4, h5, h6, h7, List.nil_append]
    · simp
    · simp
    · simp
    · intro id hi; exact (Pending.mem_sortedIDs.1 hi).2
    · simp
    · simp
    · exact Pending.sortedIDs_sorted _
    · exact Pending.sortedIDs_sorted _
    · simp [hnr, sentIDs]
    · simp [hnr, sentIDs]
    · simp
    · simp
    · simp
    · intro id hi; exact Or.inl (Pending.mem_sortedIDs.2 ⟨h.q.lt id hi, hi⟩)

theorem inv_schedule {s s' : Sys α H σ} (h : Inv isTx newRest s) (hs : s.step isTx newRest .schedule = some s') :
    Inv isTx newRest s' := by
  cases hm : s.mem with
  | none => simp [Sys.step, hm] at hs
  | some m =>
    simp only [Sys.step, hm, Option.bind_eq_bind, Option.bind_some, Option.ite_none_right_eq_some] at hs
    obtain ⟨hp, hs⟩ := hs
    have hns : m.phase ≠ .started := by rcases hp with hp | hp <;> simp [hp]
    have hw := h.w m hm hns
    have hpe := h.pend m hm hns
    have hph := h.phase m hm
    unfold Sys.scheduleNext at hs
    cases hts : m.toSchedule with
    | nil => simp [hts] at hs
    | cons id rest =>
      simp only [hts] at hs
      have hin := hw.schedMem id (by simp [hts])
      obtain ⟨a, ha⟩ := Option.isSome_iff_exists.1 hin
      rw [← hpe] at ha
      simp only [ha] at hs
      have hmS := hw.msgSorted
      have htS := hw.txSorted
      rw [hts] at hmS htS
      have hmS' := hmS
      have htS' := htS
      rw [List.pairwise_append] at hmS' htS'
      have hsorted : (id :: rest).Pairwise (· < ·) := hmS'.2.1
      have hlt : ∀ x ∈ rest, id < x := (List.pairwise_cons.1 hsorted).1
      have hdrop : ∀ {l : List Nat}, (l ++ id :: rest).Pairwise (· < ·) → (l ++ rest).Pairwise (· < ·) := by
        intro l hl
        refine hl.sublist (List.Sublist.append (List.Sublist.refl _) (List.sublist_cons_self _ _))
      have hmove : ∀ {l : List Nat}, (l ++ id :: rest).Pairwise (· < ·) → ((l ++ [id]) ++ rest).Pairwise (· < ·) := by
        intro l hl; simpa using hl
      have hfly : ∀ x ∈ m.inFlight, x ∉ rest := fun x hx hr => hw.flySched x hx (by simp [hts, hr])
      have hphase : ∀ m' : Mem α H σ, m'.phase = m.phase → m'.state = m.state →
          PhaseInv (savedActions s.log).length (s.actionsFile.getD .empty).currentID
            (s.stateFile.getD ⟨0, [], newRest⟩) m' := by
        intro m' e1 e2
        rcases hp with hp | hp <;> simp only [PhaseInv, hp, e1, e2] at hph ⊢ <;> exact hph
      have hrest : ∀ {d : Bool} {l : List Nat} {y : Nat}, (d = true → l ≠ []) → (y ∈ restOf d (l ++ [id]) ++ rest ↔
          y ∈ restOf d l ++ id :: rest) := by
        intro d l y hd
        cases d with
        | false => simp [restOf]
        | true =>
          cases l with
          | nil => exact absurd rfl (hd rfl)
          | cons x l => simp [restOf]
      have hmd : m.msgDone = true → m.msgCh ≠ [] := by
        intro hd hn
        obtain ⟨i, hi, _⟩ := hw.msgDone hd
        simp [hn] at hi
      have htd : (m.txSent.isSome || m.txDone) = true → m.txCh ≠ [] := by
        intro hd hn
        rcases Bool.or_eq_true _ _ ▸ hd with hd | hd
        · obtain ⟨x, hx⟩ := Option.isSome_iff_exists.1 hd
          obtain ⟨_, i, a, hi, _⟩ := hw.txS x hx
          simp [hn] at hi
        · obtain ⟨i, hi, _⟩ := hw.txD hd
          simp [hn] at hi
      have hheadm : ∀ i, m.msgCh.head? = some i → (m.msgCh ++ [id]).head? = some i := by
        intro i hi; cases hc : m.msgCh with
        | nil => simp [hc] at hi
        | cons x l => simpa [hc] using hi
      have hheadt : ∀ i, m.txCh.head? = some i → (m.txCh ++ [id]).head? = some i := by
        intro i hi; cases hc : m.txCh with
        | nil => simp [hc] at hi
        | cons x l => simpa [hc] using hi
      have hms := hw.msgSent
      have hts' := hw.txSent
      rw [hts] at hms hts'
      have hcov := hw.cover
      rw [hts] at hcov
      by_cases htx : isTx a = true
      · simp only [htx, if_true] at hs
        by_cases hh : (m.pend.txHashes id).isSome = true
        · simp only [hh, if_true, Option.some.injEq] at hs
          subst hs
          refine h.withMem hm hns (hphase _ rfl rfl) hpe ?_
          constructor
          · exact hw.msgMem
          · exact hw.txMem
          · intro x hx
            rcases List.mem_append.1 hx with hx | hx
            · exact hw.flyMem x hx
            · simp only [List.mem_singleton] at hx; rw [hx, ← hpe]; exact hh
          · intro x hx; exact hw.schedMem x (by rw [hts]; exact List.mem_cons_of_mem _ hx)
          · rw [List.nodup_append]
            refine ⟨hw.flyNodup, by simp, ?_⟩
            intro x hx y hy he
            simp only [List.mem_singleton] at hy
            subst hy; subst he
            exact hw.flySched _ hx (by simp [hts])
          · intro x hx hr
            rcases List.mem_append.1 hx with hx | hx
            · exact hfly x hx hr
            · simp only [List.mem_singleton] at hx; subst hx
              exact absurd (hlt _ hr) (Nat.lt_irrefl _)
          · exact hdrop hmS
          · exact hdrop htS
          · intro x hx y hy
            refine hms x hx y ?_
            rcases List.mem_append.1 hy with hy | hy
            · exact List.mem_append.2 (Or.inl hy)
            · exact List.mem_append.2 (Or.inr (List.mem_cons_of_mem _ hy))
          · intro x hx y hy
            refine hts' x hx y ?_
            rcases List.mem_append.1 hy with hy | hy
            · exact List.mem_append.2 (Or.inl hy)
            · exact List.mem_append.2 (Or.inr (List.mem_cons_of_mem _ hy))
          · exact hw.msgDone
          · exact hw.txS
          · exact hw.txD
          · intro x hx
            rcases hcov x hx with h1 | h1 | h1 | h1
            · rcases List.mem_cons.1 h1 with h1 | h1 <;> simp [h1]
            all_goals simp [h1]
        · simp only [Bool.not_eq_true] at hh
          simp only [hh, Bool.false_eq_true, if_false, Option.some.injEq] at hs
          subst hs
          refine h.withMem hm hns (hphase _ rfl rfl) hpe ?_
          constructor
          · exact hw.msgMem
          · intro x hx
            rcases List.mem_append.1 hx with hx | hx
            · exact hw.txMem x hx
            · simp only [List.mem_singleton] at hx; subst hx; rw [← hpe]
              exact ⟨a, ha, htx, by simpa using hh⟩
          · exact hw.flyMem
          · intro x hx; exact hw.schedMem x (by rw [hts]; exact List.mem_cons_of_mem _ hx)
          · exact hw.flyNodup
          · exact hfly
          · exact hdrop hmS
          · exact hmove htS
          · intro x hx y hy
            refine hms x hx y ?_
            rcases List.mem_append.1 hy with hy | hy
            · exact List.mem_append.2 (Or.inl hy)
            · exact List.mem_append.2 (Or.inr (List.mem_cons_of_mem _ hy))
          · intro x hx y hy
            exact hts' x hx y ((hrest htd).1 hy)
          · exact hw.msgDone
          · intro x hx
            obtain ⟨h0, i, b, h1, h2⟩ := hw.txS x hx
            exact ⟨h0, i, b, hheadt i h1, h2⟩
          · intro x
            obtain ⟨i, h1, h2⟩ := hw.txD x
            exact ⟨i, hheadt i h1, h2⟩
          · intro x hx
            rcases hcov x hx with h1 | h1 | h1 | h1
            · rcases List.mem_cons.1 h1 with h1 | h1 <;> simp [h1]
            all_goals simp [h1]
      · simp only [htx, Bool.false_eq_true, if_false, Option.some.injEq] at hs
        subst hs
        refine h.withMem hm hns (hphase _ rfl rfl) hpe ?_
        constructor
        · intro x hx
          rcases List.mem_append.1 hx with hx | hx
          · exact hw.msgMem x hx
          · simp only [List.mem_singleton] at hx; subst hx; rw [← hpe]
            exact ⟨a, ha, by simpa using htx⟩
        · exact hw.txMem
        · exact hw.flyMem
        · intro x hx; exact hw.schedMem x (by rw [hts]; exact List.mem_cons_of_mem _ hx)
        · exact hw.flyNodup
        · exact hfly
        · exact hmove hmS
        · exact hdrop htS
        · intro x hx y hy
          exact hms x hx y ((hrest hmd).1 hy)
        · intro x hx y hy
          refine hts' x hx y ?_
          rcases List.mem_append.1 hy with hy | hy
          · exact List.mem_append.2 (Or.inl hy)
          · exact List.mem_append.2 (Or.inr (List.mem_cons_of_mem _ hy))
        · intro x
          obtain ⟨i, h1, h2⟩ := hw.msgDone x
          exact ⟨i, hheadm i h1, h2⟩
        · exact hw.txS
        · exact hw.txD
        · intro x hx
          rcases hcov x hx with h1 | h1 | h1 | h1
          · rcases List.mem_cons.1 h1 with h1 | h1 <;> simp [h1]
          all_goals simp [h1]

/-- Changes of the main goroutine's fields do not concern the workers. -/
theorem WInv.main {log : List (Entry α H σ)} {q : Pending α H} {m : Mem α H σ} (h : WInv isTx log q m) (st : KState α σ)
    (p : Pending α H) (ph : Phase) : WInv isTx log q { m with
      state := st
      pend := p
      phase := ph } :=
  ⟨h.msgMem, h.txMem, h.flyMem, h.schedMem, h.flyNodup, h.flySched, h.msgSorted, h.txSorted, h.msgSent, h.txSent, h.msgDone,
    h.txS, h.txD, h.cover⟩

theorem inv_loaded {s s' : Sys α H σ} (h : Inv isTx newRest s) (hs : s.step isTx newRest .loaded = some s') :
    Inv isTx newRest s' := by
  cases hm : s.mem with
  | none => simp [Sys.step, hm] at hs
  | some m =>
    simp only [Sys.step, hm, Option.bind_eq_bind, Option.bind_some, Option.ite_none_right_eq_some, Option.some.injEq] at hs
    obtain ⟨⟨hp, hts⟩, rfl⟩ := hs
    have hns : m.phase ≠ .started := by simp [hp]
    have hph := h.phase m hm
    simp only [PhaseInv, hp] at hph
    refine h.withMem hm (by split <;> simp) ?_ (h.pend m hm hns) ((h.w m hm hns).main _ _ _)
    by_cases ha : m.state.actions = []
    · simp only [ha, if_true, PhaseInv, hts, and_true, true_and]
      have h1 := h.len
      have h2 := h.cur
      rw [← hph, ha] at h1
      rw [← hph] at h2
      simp only [List.length_nil, Nat.add_zero] at h1
      exact ⟨h1.symm, by rcases h2 with h2 | h2 <;> omega⟩
    · simp only [ha, if_false, PhaseInv, hts, and_true]
      exact hph

theorem inv_decide {s s' : Sys α H σ} (h : Inv isTx newRest s) {as : List α} {r : σ}
    (hs : s.step isTx newRest (.decide as r) = some s') : Inv isTx newRest s' := by
  cases hm : s.mem with
  | none => simp [Sys.step, hm] at hs
  | some m =>
    simp only [Sys.step, hm, Option.bind_eq_bind, Option.bind_some, Option.ite_none_right_eq_some] at hs
    obtain ⟨hp, hs⟩ := hs
    have hns : m.phase ≠ .started := by simp [hp]
    have hph := h.phase m hm
    simp only [PhaseInv, hp] at hph
    simp only [hph.1, ne_eq, not_true_eq_false, if_false, Option.some.injEq] at hs
    subst hs
    refine h.withMem hm (by simp) ?_ (h.pend m hm hns) ((h.w m hm hns).main _ _ _)
    simpa [PhaseInv] using hph.2

theorem inv_finish {s s' : Sys α H σ} (h : Inv isTx newRest s) (hs : s.step isTx newRest .finish = some s') :
    Inv isTx newRest s' := by
  cases hm : s.mem with
  | none => simp [Sys.step, hm] at hs
  | some m =>
    simp only [Sys.step, hm, Option.bind_eq_bind, Option.bind_some, Option.ite_none_right_eq_some, Option.some.injEq] at hs
    obtain ⟨⟨hp, hts⟩, rfl⟩ := hs
    have hns : m.phase ≠ .started := by simp [hp]
    have hph := h.phase m hm
    simp only [PhaseInv, hp] at hph
    refine h.withMem hm (by simp) ?_ (h.pend m hm hns) ((h.w m hm hns).main _ _ _)
    simp only [PhaseInv, hts, true_and, and_true]
    rw [hph.1]
    exact ⟨h.len.symm, hph.2⟩

/-- The invariant of the workers survives entries about decisions and the queue. -/
theorem WInv.quietLog {log : List (Entry α H σ)} {q : Pending α H} {m : Mem α H σ} (h : WInv isTx log q m)
    {e : Entry α H σ} (h1 : e ≠ .started) (h2 : ∀ id a, e ≠ .sent id a) : WInv isTx (log ++ [e]) q m := by
  refine ⟨h.msgMem, h.txMem, h.flyMem, h.schedMem, h.flyNodup, h.flySched, h.msgSorted, h.txSorted, ?_, ?_, ?_, ?_, ?_, h.cover⟩
  · rw [lastRun_quiet_sent _ h1 h2]; exact h.msgSent
  · rw [lastRun_quiet_sent _ h1 h2]; exact h.txSent
  · intro hd
    obtain ⟨i, hi, hx⟩ := h.msgDone hd
    refine ⟨i, hi, hx.imp (fun ⟨a, ha⟩ => ⟨a, by simp [ha]⟩) (fun ha => by simp [ha])⟩
  · intro x hx
    obtain ⟨h0, i, a, hi, hs, ht⟩ := h.txS x hx
    exact ⟨h0, i, a, hi, by simp [hs], ht⟩
  · intro hd
    obtain ⟨i, hi, hx⟩ := h.txD hd
    exact ⟨i, hi, by simp [hx]⟩

theorem inv_save {s s' : Sys α H σ} (h : Inv isTx newRest s) (hs : s.step isTx newRest .save = some s') :
    Inv isTx newRest s' := by
  cases hm : s.mem with
  | none => simp [Sys.step, hm] at hs
  | some m =>
    simp only [Sys.step, hm, Option.bind_eq_bind, Option.bind_some, Option.ite_none_right_eq_some, Option.some.injEq] at hs
    obtain ⟨hp, rfl⟩ := hs
    have hns : m.phase ≠ .started := by simp [hp]
    have hph := h.phase m hm
    simp only [PhaseInv, hp] at hph
    have hsv : savedActions (s.log ++ [.saved m.state.actions]) = savedActions s.log ++ m.state.actions := by
      simp [savedActions_append, savedActions]
    have hqd : queuedActions (s.log ++ [.saved m.state.actions]) = queuedActions s.log := by
      simp [queuedActions_append, queuedActions]
    have hall : queuedActions s.log = (savedActions s.log).zipIdx := by
      rw [h.q.queued, List.take_of_length_le (by omega)]
    refine ⟨justified_snoc h.just hall, ?_, h.run.noSent (by simp) (by simp) (Nat.le_refl _), ?_, ?_, ?_, ?_, ?_, ?_, ?_,
      h.count.snoc (by simp) (h.started m hm), ?_⟩
    · have hq := h.q
      simp only [Sys.emit, Sys.withMem]
      refine ⟨hq.lt, hq.hash, ?_, ?_, ?_, ?_, ?_, ?_, ?_, ?_⟩
      · intro id hi; obtain ⟨a, ha⟩ := hq.sent id hi; exact ⟨a, by simp [ha]⟩
      · intro id a hi
        have := hq.act id a hi
        rw [hsv, List.getElem?_append_left (List.getElem?_eq_some_iff.1 this).1]; exact this
      · intro id hi; simpa using hq.present id hi
      · intro id hi; simpa using hq.notRemoved id hi
      · intro id hi; exact hq.removedLt id (by simpa using hi)
      · intro id x hi; simpa using hq.recorded id x (by simpa using hi)
      · rw [hqd, hsv, List.take_append_of_le_length hq.len]; exact hq.queued
      · rw [hsv]; have := hq.len; simp only [List.length_append]; omega
    · simp only [Sys.emit, Sys.withMem, hsv, Option.getD_some, List.length_append, hph.1]
    · simp only [Sys.emit, Sys.withMem, hsv, Option.getD_some, hph.1]
      simp
    · simp only [Sys.emit, Sys.withMem, hsv, Option.getD_some, hph.1]
      exact Or.inl hph.2.1
    · intro m' hm'; cases hm'
      simp only [PhaseInv, Sys.emit, Sys.withMem, Option.getD_some, hph.2.2, and_true]
    · intro m' hm' _; cases hm'; exact h.pend m hm hns
    · intro m' hm' _; cases hm'
      exact ((h.w m hm hns).main _ _ _).quietLog (by simp) (by simp)
    · intro m' hm' hx; cases hm'; cases hx
    · intro m' hm'
      have := h.started m hm
      simpa [Sys.emit, Sys.withMem, starts, List.countP_append] using this

end Shutter.Fx
