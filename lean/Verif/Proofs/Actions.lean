import Verif.Spec.Actions
import Mathlib.Data.List.Basic
import Mathlib.Data.List.Induction
import Mathlib.Tactic.Tauto

/-! # Invariants of the keyper's action queue -/

namespace Shutter.Fx
variable {α H σ : Type}

theorem justified_snoc {ε : Type} {Q : List ε → ε → Prop} {log : List ε} {e : ε} (h : Justified Q log) (he : Q log e) :
    Justified Q (log ++ [e]) := by
  intro pre x post hl
  rcases List.eq_nil_or_concat post with rfl | ⟨post', y, rfl⟩
  · have := List.append_inj' hl rfl
    obtain ⟨h1, h2⟩ := this
    injection h2 with h2 _
    rw [← h1, ← h2]; exact he
  · have h2 : log ++ [e] = (pre ++ x :: post') ++ [y] := by rw [hl]; simp
    have := List.append_inj' h2 rfl
    exact h pre x post' this.1

theorem justified_append {ε : Type} {Q : List ε → ε → Prop} {log es : List ε} (h : Justified Q log)
    (he : ∀ pre e post, es = pre ++ e :: post → Q (log ++ pre) e) : Justified Q (log ++ es) := by
  induction es using List.reverseRecOn with
  | nil => simpa using h
  | append_singleton es x ih =>
    rw [← List.append_assoc]
    refine justified_snoc (ih ?_) (he es x [] (by simp))
    intro pre e post hes
    exact he pre e (post ++ [x]) (by rw [hes]; simp)

/-! ## Log functions on appended entries -/

theorem savedActions_append (l l' : List (Entry α H σ)) : savedActions (l ++ l') = savedActions l ++ savedActions l' := by
  simp [savedActions]

theorem queuedActions_append (l l' : List (Entry α H σ)) : queuedActions (l ++ l') = queuedActions l ++ queuedActions l' := by
  simp [queuedActions]

theorem sentIDs_append (p : α → Bool) (l l' : List (Entry α H σ)) : sentIDs p (l ++ l') = sentIDs p l ++ sentIDs p l' := by
  simp [sentIDs]

theorem lastRun_snoc (l : List (Entry α H σ)) (e : Entry α H σ) :
    lastRun (l ++ [e]) = match e with | .started => [] | e => lastRun l ++ [e] := by
  unfold lastRun
  rw [List.foldl_append]
  cases e <;> rfl

theorem lastRun_queued (l : List (Entry α H σ)) (p : α → Bool) (es : List (Entry α H σ))
    (hes : ∀ e ∈ es, ∃ id a, e = .queued id a) : sentIDs p (lastRun (l ++ es)) = sentIDs p (lastRun l) := by
  induction es using List.reverseRecOn with
  | nil => simp
  | append_singleton es x ih =>
    obtain ⟨id, a, rfl⟩ := hes x (by simp)
    rw [← List.append_assoc, lastRun_snoc]
    simp only [sentIDs_append]
    rw [ih (fun e he => hes e (by simp [he]))]
    simp [sentIDs]

/-! ## The queue -/

namespace Pending

theorem storeAll_get (m : Nat → Option α) (st : Nat) (as : List α) (k : Nat) :
    storeAll m st as k = if st ≤ k ∧ k < st + as.length then as[k - st]? else m k := by
  induction as generalizing m st with
  | nil => simp [storeAll]; intro h1 h2; omega
  | cons a as ih =>
    simp only [storeAll, ih, List.length_cons]
    by_cases h1 : k = st
    · subst h1; rw [if_neg (by omega), if_pos (by omega)]; simp [upd]
    · by_cases h2 : st ≤ k
      · obtain ⟨d, rfl⟩ : ∃ d, k = st + d + 1 := ⟨k - st - 1, by omega⟩
        have e1 : st + d + 1 - (st + 1) = d := by omega
        have e2 : st + d + 1 - st = d + 1 := by omega
        rw [e1, e2]
        simp only [List.getElem?_cons_succ]
        by_cases h3 : d < as.length
        · rw [if_pos (by omega), if_pos (by omega)]
        · rw [if_neg (by omega), if_neg (by omega)]; simp only [upd, if_neg h1]
      · rw [if_neg (by omega), if_neg (by omega)]; simp [upd, h1]

theorem mem_sortedIDs {p : Pending α H} {id : Nat} :
    id ∈ p.sortedIDs ↔ id < p.currentID ∧ (p.actionMap id).isSome = true := by
  simp [sortedIDs]

theorem sortedIDs_sorted (p : Pending α H) : p.sortedIDs.Pairwise (· < ·) :=
  List.Pairwise.filter _ List.pairwise_lt_range

end Pending

/-! ## Invariants -/

/-- What each entry of the log is justified by. -/
def Just (isTx : α → Bool) (pre : List (Entry α H σ)) : Entry α H σ → Prop
  | .sent id a => (a, id) ∈ queuedActions pre ∧ .removed id ∉ pre ∧ ∀ h, .recorded id h ∉ pre
  | .removed id => .removed id ∉ pre ∧ (∃ a, (a, id) ∈ queuedActions pre) ∧ ((∃ a, .sent id a ∈ pre) ∨ .gaveUp id ∈ pre)
  | .queued id a => id = (queuedActions pre).length ∧ (savedActions pre)[id]? = some a
  | .recorded id _ => ∃ a, .sent id a ∈ pre ∧ isTx a = true
  | .panicked => False
  | .saved _ => queuedActions pre = (savedActions pre).zipIdx
  | _ => True

/-- What holds of the queue file. -/
structure QInv (isTx : α → Bool) (log : List (Entry α H σ)) (q : Pending α H) : Prop where
  lt : ∀ id, (q.actionMap id).isSome = true → id < q.currentID
  hash : ∀ id, (q.txHashes id).isSome = true → ∃ a, q.actionMap id = some a ∧ isTx a = true
  sent : ∀ id, (q.txHashes id).isSome = true → ∃ a, .sent id a ∈ log
  act : ∀ id a, q.actionMap id = some a → (savedActions log)[id]? = some a
  present : ∀ id, id < q.currentID → (q.actionMap id).isSome = true ∨ .removed id ∈ log
  notRemoved : ∀ id, (q.actionMap id).isSome = true → .removed id ∉ log
  removedLt : ∀ id, .removed id ∈ log → id < q.currentID
  recorded : ∀ id h, .recorded id h ∈ log → q.txHashes id = some h ∨ .removed id ∈ log
  queued : queuedActions log = ((savedActions log).take q.currentID).zipIdx
  len : q.currentID ≤ (savedActions log).length

/-- The part of a channel that may still be sent. -/
def restOf (done : Bool) (ch : List Nat) : List Nat := if done then ch.tail else ch

/-- What holds of the workers. -/
structure WInv (isTx : α → Bool) (log : List (Entry α H σ)) (q : Pending α H) (m : Mem α H σ) : Prop where
  msgMem : ∀ id ∈ m.msgCh, ∃ a, q.actionMap id = some a ∧ isTx a = false
  txMem : ∀ id ∈ m.txCh, ∃ a, q.actionMap id = some a ∧ isTx a = true ∧ q.txHashes id = none
  flyMem : ∀ id ∈ m.inFlight, (q.txHashes id).isSome = true
  schedMem : ∀ id ∈ m.toSchedule, (q.actionMap id).isSome = true
  flyNodup : m.inFlight.Nodup
  flySched : ∀ id ∈ m.inFlight, id ∉ m.toSchedule
  msgSorted : (m.msgCh ++ m.toSchedule).Pairwise (· < ·)
  txSorted : (m.txCh ++ m.toSchedule).Pairwise (· < ·)
  msgSent : ∀ x ∈ sentIDs (fun a => !isTx a) (lastRun log), ∀ y ∈ restOf m.msgDone m.msgCh ++ m.toSchedule, x < y
  txSent : ∀ x ∈ sentIDs isTx (lastRun log), ∀ y ∈ restOf (m.txSent.isSome || m.txDone) m.txCh ++ m.toSchedule, x < y
  msgDone : m.msgDone = true → ∃ id, m.msgCh.head? = some id ∧ ((∃ a, .sent id a ∈ log) ∨ .gaveUp id ∈ log)
  txS : ∀ h, m.txSent = some h → m.txDone = false ∧ ∃ id a, m.txCh.head? = some id ∧ .sent id a ∈ log ∧ isTx a = true
  txD : m.txDone = true → ∃ id, m.txCh.head? = some id ∧ .gaveUp id ∈ log
  cover : ∀ id, (q.actionMap id).isSome = true → id ∈ m.toSchedule ∨ id ∈ m.msgCh ∨ id ∈ m.txCh ∨ id ∈ m.inFlight

/-- The order of the sends since the last start. -/
structure RunInv (isTx : α → Bool) (log : List (Entry α H σ)) (q : Pending α H) : Prop where
  msg : (sentIDs (fun a => !isTx a) (lastRun log)).Pairwise (· < ·)
  tx : (sentIDs isTx (lastRun log)).Pairwise (· < ·)
  msgLt : ∀ x ∈ sentIDs (fun a => !isTx a) (lastRun log), x < q.currentID
  txLt : ∀ x ∈ sentIDs isTx (lastRun log), x < q.currentID

/-- What holds of the main goroutine. `n` is the number of actions saved so far, `c` the queue's next id. -/
def PhaseInv (n c : Nat) (ds : KState α σ) (m : Mem α H σ) : Prop :=
  match m.phase with
  | .started => m.state = ds ∧ m.toSchedule = [] ∧ m.msgCh = [] ∧ m.txCh = [] ∧ m.inFlight = [] ∧ m.msgDone = false ∧
      m.txSent = none ∧ m.txDone = false
  | .loading => m.state = ds
  | .idle => m.state.actions = [] ∧ m.state.actionCounter = n ∧ c = n ∧ m.toSchedule = []
  | .decided => m.state.actionCounter = n ∧ c = n ∧ m.toSchedule = []
  | .saved => m.state = ds ∧ m.toSchedule = []
  | .scheduling => m.state = ds ∧ c = n

/-- Counting the sends. -/
def CountInv (log : List (Entry α H σ)) : Prop :=
  (∀ id, timesSent id log ≤ starts log - 1 + timesSent id (lastRun log)) ∧ (starts log = 0 → log = [])

/-- The invariant. -/
structure Inv (isTx : α → Bool) (newRest : σ) (s : Sys α H σ) : Prop where
  just : Justified (Just isTx) s.log
  q : QInv isTx s.log (s.actionsFile.getD .empty)
  run : RunInv isTx s.log (s.actionsFile.getD .empty)
  len : (savedActions s.log).length = (s.stateFile.getD ⟨0, [], newRest⟩).actionCounter +
    (s.stateFile.getD ⟨0, [], newRest⟩).actions.length
  acts : (savedActions s.log).drop (s.stateFile.getD ⟨0, [], newRest⟩).actionCounter =
    (s.stateFile.getD ⟨0, [], newRest⟩).actions
  cur : (s.actionsFile.getD .empty).currentID = (s.stateFile.getD ⟨0, [], newRest⟩).actionCounter ∨
    (s.actionsFile.getD .empty).currentID = (savedActions s.log).length
  phase : ∀ m, s.mem = some m → PhaseInv (savedActions s.log).length (s.actionsFile.getD .empty).currentID
    (s.stateFile.getD ⟨0, [], newRest⟩) m
  pend : ∀ m, s.mem = some m → m.phase ≠ .started → m.pend = s.actionsFile.getD .empty
  w : ∀ m, s.mem = some m → m.phase ≠ .started → WInv isTx s.log (s.actionsFile.getD .empty) m
  noRun : ∀ m, s.mem = some m → m.phase = .started → lastRun s.log = []
  count : CountInv s.log
  started : ∀ m, s.mem = some m → starts s.log ≠ 0

end Shutter.Fx
