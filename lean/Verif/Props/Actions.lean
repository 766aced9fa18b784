import Verif.Proofs.ActionsLive

/-! Property theorems C41: decided actions are handed to the queue exactly once, whatever crashes happen.

Everything is about arbitrary histories of the keyper with its two files (`Sys.Reach`): arbitrary decisions, arbitrary
progress of the workers, the process ending at any moment and being started again. -/

namespace Shutter.Fx.Props
open Shutter.Fx
variable {α H σ : Type} {isTx : α → Bool} {newRest : σ}

/-- **C41** The actions handed to the queue are the saved decisions, in order, none omitted, none repeated: the first `n` of
them, each with its number as id. -/
theorem C41_queued_in_order {s : Sys α H σ} (h : Sys.Reach isTx newRest s) :
    ∃ n, n ≤ (savedActions s.log).length ∧ queuedActions s.log = ((savedActions s.log).take n).zipIdx :=
  ⟨_, (reach_inv h).q.len, (reach_inv h).q.queued⟩

/-- **C41** Whenever a new decision is saved, all actions saved before have been handed to the queue. -/
theorem C41_all_queued_before_next {s : Sys α H σ} (h : Sys.Reach isTx newRest s) {pre post : List (Entry α H σ)} {as : List α}
    (hl : s.log = pre ++ .saved as :: post) : queuedActions pre = (savedActions pre).zipIdx :=
  (reach_inv h).just pre _ post hl

/-- **C41** The ids are unique: an id never stands for two actions. -/
theorem C41_ids_unique {s : Sys α H σ} (h : Sys.Reach isTx newRest s) :
    ((queuedActions s.log).map Prod.snd).Nodup ∧
      ∀ i a, (a, i) ∈ queuedActions s.log ↔ i < (queuedActions s.log).length ∧ (savedActions s.log)[i]? = some a := by
  have hq := (reach_inv h).q
  have hlen : (queuedActions s.log).length = (s.actionsFile.getD .empty).currentID := by
    rw [hq.queued]; simp [hq.len]
  refine ⟨?_, fun i a => by rw [hlen]; exact queued_get hq⟩
  rw [hq.queued, List.zipIdx_map_snd]
  exact List.nodup_range'

/-- **C41** None of the code's internal checks on ids, queued actions and transaction hashes ever fails. -/
theorem C41_no_panic {s : Sys α H σ} (h : Sys.Reach isTx newRest s) : .panicked ∉ s.log := by
  intro hx
  obtain ⟨pre, post, hl⟩ := List.append_of_mem hx
  exact (reach_inv h).just pre _ post hl

/-- **C41** No action is lost: a queued action is in the queue file, or it was removed from it; and it is removed only after
it was sent or given up (expired, or rejected for good), and only once. -/
theorem C41_not_lost {s : Sys α H σ} (h : Sys.Reach isTx newRest s) {a : α} {id : Nat} (hq : (a, id) ∈ queuedActions s.log) :
    (∃ p, s.actionsFile = some p ∧ p.actionMap id = some a) ∨
      ∃ pre post, s.log = pre ++ .removed id :: post ∧ .removed id ∉ pre ∧ .removed id ∉ post ∧
        (.sent id a ∈ pre ∨ .gaveUp id ∈ pre) := by
  have inv := reach_inv h
  obtain ⟨h1, h2⟩ := (queued_get inv.q).1 hq
  rcases inv.q.present id h1 with h3 | h3
  · left
    obtain ⟨b, hb⟩ := Option.isSome_iff_exists.1 h3
    have := inv.q.act id b hb
    rw [h2] at this
    cases this
    cases hf : s.actionsFile with
    | none => simp [hf, Pending.empty] at hb
    | some p => exact ⟨p, rfl, by simpa [hf] using hb⟩
  · right
    obtain ⟨pre, post, hl⟩ := List.append_of_mem h3
    obtain ⟨j1, j2, j3⟩ := inv.just pre _ post hl
    refine ⟨pre, post, hl, j1, ?_, ?_⟩
    · intro hx
      obtain ⟨p1, p2, hp⟩ := List.append_of_mem hx
      have := (inv.just (pre ++ .removed id :: p1) (.removed id) p2 (by rw [hl, hp]; simp)).1
      simp at this
    · refine j3.imp (fun ⟨b, hb⟩ => ?_) (fun x => x)
      have hb' := sent_queued inv.just (by rw [hl]; simp [hb] : Entry.sent id b ∈ s.log)
      have := ((queued_get inv.q).1 hb').2
      rw [h2] at this
      cases this
      exact hb

/-- **C41** Only queued actions are sent, and never again after their removal or after their transaction hash was recorded. -/
theorem C41_sent_only_queued {s : Sys α H σ} (h : Sys.Reach isTx newRest s) {pre post : List (Entry α H σ)} {id : Nat} {a : α}
    (hl : s.log = pre ++ .sent id a :: post) :
    (a, id) ∈ queuedActions pre ∧ .removed id ∉ pre ∧ ∀ x, .recorded id x ∉ pre :=
  (reach_inv h).just pre _ post hl

/-- **C41** An action is sent successfully at most once for each time the process was started. -/
theorem C41_sent_at_most_once_per_run {s : Sys α H σ} (h : Sys.Reach isTx newRest s) (id : Nat) :
    timesSent id s.log ≤ starts s.log := by
  have inv := reach_inv h
  have h1 := inv.count.1 id
  have h2 := timesSent_lastRun inv.just inv.q inv.run id
  by_cases h0 : starts s.log = 0
  · rw [inv.count.2 h0]; simp [timesSent]
  · omega

/-- **C41** Since the last start, messages were sent in the order in which they were decided, and so were transactions. -/
theorem C41_sent_in_order {s : Sys α H σ} (h : Sys.Reach isTx newRest s) :
    (sentIDs (fun a => !isTx a) (lastRun s.log)).Pairwise (· < ·) ∧ (sentIDs isTx (lastRun s.log)).Pairwise (· < ·) :=
  ⟨(reach_inv h).run.msg, (reach_inv h).run.tx⟩

/-- **C41** From every situation, in particular after any crash, the keyper can go on (after a restart, and without new
decisions) until every saved action was handed to the queue, and was taken out of it after being sent or given up. -/
theorem C41_recovers {s : Sys α H σ} (h : Sys.Reach isTx newRest s) [Inhabited H] :
    ∃ s', GoesOn isTx newRest s s' ∧ savedActions s'.log = savedActions s.log ∧
      queuedActions s'.log = (savedActions s.log).zipIdx ∧
      ∀ id, id < (savedActions s.log).length → .removed id ∈ s'.log := by
  obtain ⟨s1, m1, g1, hm1, hp1⟩ := restart h
  obtain ⟨s2, m2, g2, hm2, hp2, e2, _, _⟩ := drain_msgs _ (g1.reach h) hm1 hp1 rfl
  replace g2 := g1.trans g2
  obtain ⟨s3, m3, g3, hm3, hp3, e3, e4⟩ := drain_txs default _ (g2.reach h) hm2 hp2 e2 rfl
  replace g3 := g2.trans g3
  obtain ⟨s4, m4, g4, hm4, hp4, e5, e6, e7⟩ := drain_fly _ (g3.reach h) hm3 hp3 e3 e4 rfl
  replace g4 := g3.trans g4
  have inv := reach_inv (g4.reach h)
  have hph := inv.phase m4 hm4
  simp only [PhaseInv, hp4] at hph
  obtain ⟨_, _, hc, hts⟩ := hph
  have hsv := g4.saved
  refine ⟨s4, g4, hsv, ?_, ?_⟩
  · rw [inv.q.queued, hc, List.take_length, hsv]
  · intro id hid
    rcases inv.q.present id (by rw [hc, hsv]; exact hid) with h1 | h1
    · have := (inv.w m4 hm4 (by simp [hp4])).cover id h1
      rw [hts, e5, e6, e7] at this
      simp at this
    · exact h1

/-! ### Concrete histories -/

/-- Runs a list of events. -/
def exec (s : Sys Bool Nat Unit) : List (Ev Bool Nat Unit) → Option (Sys Bool Nat Unit)
  | [] => some s
  | e :: es => (s.step id () e).bind (fun s' => exec s' es)

theorem exec_reach {s s' : Sys Bool Nat Unit} (h : Sys.Reach id () s) {es} (he : exec s es = some s') : Sys.Reach id () s' := by
  induction es generalizing s with
  | nil => simp only [exec, Option.some.injEq] at he; exact he ▸ h
  | cons e es ih =>
    simp only [exec, Option.bind_eq_some_iff] at he
    obtain ⟨s1, h1, h2⟩ := he
    exact ih (h.step h1) h2

/-- A keyper decides a message (`false`) and a transaction (`true`), crashes after saving the decision, restarts, sends both,
crashes before it records the transaction's hash, and restarts. -/
def demo : List (Ev Bool Nat Unit) :=
  [.start, .load, .loaded, .decide [false, true] (), .save, .stop, .start, .load, .loaded, .run, .schedule, .schedule, .finish,
    .msgSend, .txSend 7, .msgRemove, .stop, .start, .load, .schedule, .loaded, .run, .finish, .txSend 8, .txRecord, .mined 1]

theorem demo_log : (exec .fresh demo).map Sys.log = some
    [.started, .saved [false, true], .stopped, .started, .queued 0 false, .queued 1 true, .sent 0 false, .sent 1 true,
      .removed 0, .stopped, .started, .sent 1 true, .recorded 1 8, .removed 1] := by decide +kernel

/-- A non-trivial history to which the theorems above apply. -/
example : ∃ s : Sys Bool Nat Unit, Sys.Reach id () s ∧ savedActions s.log = [false, true] ∧
    queuedActions s.log = [(false, 0), (true, 1)] ∧ starts s.log = 3 := by
  have h := demo_log
  cases he : exec Sys.fresh demo with
  | none => rw [he] at h; cases h
  | some s =>
    rw [he] at h
    simp only [Option.map_some, Option.some.injEq] at h
    exact ⟨s, exec_reach .fresh he, by rw [h]; rfl, by rw [h]; rfl, by rw [h]; rfl⟩

/-- **C41** (finding) Sending is not exactly once: after a crash between sending a transaction and recording its hash the
transaction is sent again. -/
theorem C41_sent_twice_finding :
    ∃ s : Sys Bool Nat Unit, Sys.Reach id () s ∧ queuedActions s.log = [(false, 0), (true, 1)] ∧ timesSent 1 s.log = 2 := by
  have h := demo_log
  cases he : exec Sys.fresh demo with
  | none => rw [he] at h; cases h
  | some s =>
    rw [he] at h
    simp only [Option.map_some, Option.some.injEq] at h
    exact ⟨s, exec_reach .fresh he, by rw [h]; rfl, by rw [h]; rfl⟩

/-- **C41** The queue itself, in any state: offered actions numbered from `id` on, it adds exactly those whose numbers are new, each
under its number, and leaves the others alone - so offering them again after a crash at any point adds nothing twice. -/
theorem C41_offered_again (p : Pending α H) (id : Nat) (actions : List α) (h : id ≤ p.currentID) :
    ∃ p' lo hi, p.addActions id actions = some (p', lo, hi) ∧ lo = p.currentID ∧ hi = p'.currentID ∧
      p'.currentID = max p.currentID (id + actions.length) ∧
      ∀ n, p'.actionMap n = if p.currentID ≤ n ∧ n < id + actions.length then actions[n - id]? else p.actionMap n := by
  unfold Pending.addActions
  rw [if_neg (by omega)]
  simp only
  split
  · refine ⟨_, _, _, rfl, rfl, rfl, by omega, ?_⟩
    intro n
    rw [if_neg (by omega)]
  · refine ⟨_, _, _, rfl, rfl, rfl, ?_, ?_⟩
    · simp only [List.length_drop]; omega
    · intro n
      simp only [Pending.storeAll_get, List.length_drop, List.getElem?_drop]
      by_cases hn : p.currentID ≤ n ∧ n < id + actions.length
      · rw [if_pos hn, if_pos (by omega)]
        congr 1
        omega
      · rw [if_neg hn, if_neg (by omega)]

example : ∃ p : Pending Nat Nat, 3 ≤ p.currentID ∧ (p.addActions 3 [30, 40, 50]).map (fun r => (r.1.currentID, r.2)) = some (6, 5, 6) :=
  ⟨{ Pending.empty with
    currentID := 5 }, by decide, by decide⟩

end Shutter.Fx.Props
