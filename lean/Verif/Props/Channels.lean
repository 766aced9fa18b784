import Verif.Proofs.ChannelsStuck
import Verif.Props.Expiry

/-! Property theorems C80 (shuttermint/keyper/fx/runenv.go, keyper.go: goroutines that wait for each other).

Everything is about arbitrary histories of the keyper and the main chain (`Box.Reach`), with any order of the goroutines, and with any
actions. -/

namespace Shutter.Fx.Props
open Shutter.Fx
variable {α H σ W : Type} {isTx : α → Bool} {newRest : σ} {S : Surroundings α W}

/-- **C80** However the goroutines are scheduled, a running keyper can do only a bounded number of things before it decides again, and as long
as it is not about to decide and nobody has to try again there is something it can do. So it always comes back to look at both chains. -/
theorem C80_goes_on_partial [Nonempty H] {b : Box α H σ W} (hr : Box.Reach isTx newRest S b) {m : Mem α H σ} (hm : b.sys.mem = some m) :
    ∃ n, ∀ es b', Box.Run isTx newRest S BoxEv.WorkOrChain b es b' →
      workDone es ≤ n ∧
      (b'.Answered S → b'.Idle ∨ ∃ e b'', BoxEv.Work e ∧ Box.Step isTx newRest S b' e b'') := by
  refine ⟨m.work (b.sys.actionsFile.getD .empty), fun es b' h => ?_⟩
  obtain ⟨h1, m', h2, h3⟩ := work_bound hr hm h
  refine ⟨by omega, fun ha => ?_⟩
  by_cases hi : b'.Idle
  · exact .inl hi
  · exact .inr (busy h1 h2 hi ha)

/-- **C80** What the main goroutine waits for, if it cannot go on: a message that is being sent, twenty transactions that are to be sent
before, or twenty transactions that are not mined. -/
theorem C80_waits {b : Box α H σ W} (hr : Box.Reach isTx newRest S b) {m : Mem α H σ} (hm : b.sys.mem = some m)
    (hb : ∀ e ∈ ([.load, .schedule, .loaded, .save, .run, .finish] : List (Ev α H σ)), ∀ b', ¬ Box.Step isTx newRest S b (.ev e) b') :
    m.phase = .idle ∨ m.msgCh ≠ [] ∨ 20 ≤ m.txCh.length ∨ 20 ≤ m.inFlight.length := by
  have one : ∀ e ∈ ([.load, .schedule, .loaded, .save, .run, .finish] : List (Ev α H σ)), b.allowed isTx S m e = true →
      (b.sys.step isTx newRest e).isSome = true → False := by
    intro e h1 h2 h3
    obtain ⟨s', h3⟩ := Option.isSome_iff_exists.1 h3
    refine hb e h1 _ (.ev ?_ h3)
    intro m' hm'; rw [hm] at hm'; cases hm'; exact h2
  have inv := reach_inv hr.sys
  have sched : m.phase = .loading ∨ m.phase = .scheduling → m.msgCh ≠ [] ∨ 20 ≤ m.txCh.length ∨ 20 ≤ m.inFlight.length := by
    intro hls
    obtain ⟨_, _, _, cs⟩ := cover_tx inv hm (by rcases hls with h | h <;> simp [h])
    cases hts : m.toSchedule with
    | nil =>
      exfalso
      rcases hls with hp | hp
      · exact one .loaded (by simp) rfl (by simp [Sys.step, hm, hp, hts])
      · exact one .finish (by simp) rfl (by simp [Sys.step, hm, hp, hts])
    | cons id rest =>
      obtain ⟨a, h2⟩ := cs id (by simp [hts])
      have hroom : ¬ m.room isTx = true := by
        intro hroom
        refine one .schedule (by simp) hroom ?_
        simp only [Sys.step, hm, Option.bind_eq_bind, Option.bind_some, hls, if_true, Sys.scheduleNext, hts, h2]
        repeat' split
        all_goals rfl
      cases h3 : isTx a
      · rw [room_msg hts h2 h3] at hroom; exact .inl hroom
      · cases h4 : (m.pend.txHashes id).isSome
        · rw [room_tx hts h2 h3 h4] at hroom; omega
        · rw [room_fly hts h2 h3 h4] at hroom; omega
  cases hp : m.phase with
  | idle => exact .inl rfl
  | started => exact (one .load (by simp) rfl (by simp [Sys.step, hm, hp])).elim
  | decided => exact (one .save (by simp) rfl (by simp [Sys.step, hm, hp])).elim
  | saved =>
    refine (one .run (by simp) rfl ?_).elim
    simp only [Sys.step, hm, hp, Option.bind_eq_bind, Option.bind_some, if_true]
    split
    · rfl
    · split <;> rfl
  | loading => exact .inr (sched (.inl hp))
  | scheduling => exact .inr (sched (.inr hp))

/-- **C80** Whenever the keyper starts or decides, it looks at the main chain anew: if by then all the transactions that would have to be tried
again are useless, then nobody has to try again. -/
theorem C80_looks_again {b b' : Box α H σ W} {e : Ev α H σ} (he : e = .start ∨ ∃ x y, e = .decide x y) (h : Box.Step isTx newRest S b (.ev e) b')
    (useless : ∀ a, S.answer b.now a = .retry → S.expired b.now a = true) : b'.view = b.now ∧ b'.Answered S := by
  cases h with
  | ev _ _ =>
    have hv : b.viewAfter e = b.now := by
      rcases he with rfl | ⟨x, y, rfl⟩ <;> rfl
    refine ⟨hv, fun m a _ _ => ?_⟩
    simp only [hv]
    by_cases hr : S.answer b.now a = .retry
    · exact .inl (useless a hr)
    · exact .inr hr

/-- **C80** What is missing: if a transaction has to be tried again forever, and 21 further transactions are queued, then the keyper never decides
again. Without a restart this is so even if the transaction has become useless on the main chain: the view of the main chain in which the
worker looks for that is stored by the main goroutine only. With restarts it is so as long as the transaction does not become useless. -/
theorem C80_stuck {b : Box α H σ W} (hr : Box.Reach isTx newRest S b) {p : Pending α H} (hf : b.sys.actionsFile = some p) {id : Nat}
    {rest : List Nat} (hu : unsent isTx p = id :: rest) (hn : 21 ≤ rest.length) {a : α} (ha : p.actionMap id = some a)
    (htry : ∀ m, b.sys.mem = some m → m.txSent = none ∧ m.txDone = false ∧ S.expired b.view a = false)
    (hretry : ∀ w, Later S b.now w → S.answer w a = .retry)
    {ok : BoxEv α H σ W → Prop} (hok : ¬ ok (.ev .start) ∨ ∀ w, Later S b.now w → S.expired w a = false)
    {es : List (BoxEv α H σ W)} {b' : Box α H σ W} (h : Box.Run isTx newRest S ok b es b') : NoDecision b b' := by
  have st : Stuck isTx S id a b := by
    refine ⟨by rw [hf]; exact ha, by rw [hf]; simp [hu], ?_, by rw [hf]; simp [hu]; omega, htry, hretry⟩
    intro x hx
    rw [hf] at hx
    simp only [Option.getD_some] at hx
    have hs : (unsent isTx p).Pairwise (· < ·) := (Pending.sortedIDs_sorted p).filter _
    rw [hu] at hs hx
    rcases List.mem_cons.1 hx with rfl | hx
    · exact le_refl _
    · exact (List.rel_of_pairwise_cons hs hx).le
  exact (st.run hr h hok).2.2.1

/-! ## Examples -/

/-- Events that do not depend on channels and the main chain. -/
def plain : Ev α H σ → Bool
  | .start | .load | .loaded | .decide _ _ | .save | .run => true
  | _ => false

/-- Several steps. -/
def steps (isTx : α → Bool) (newRest : σ) (es : List (Ev α H σ)) (s : Sys α H σ) : Option (Sys α H σ) :=
  es.foldlM (fun s e => s.step isTx newRest e) s

theorem reach_plain (w : W) (es : List (Ev α H σ)) (hp : ∀ e ∈ es, plain e = true) : ∀ {s s' : Sys α H σ},
    Box.Reach isTx newRest S ⟨s, w, w, 0⟩ → steps isTx newRest es s = some s' →
    Box.Reach isTx newRest S ⟨s', w, w, 0⟩ := by
  induction es with
  | nil => intro s s' hr h; simp [steps] at h; subst h; exact hr
  | cons e es ih =>
    intro s s' hr h
    rw [steps, List.foldlM_cons] at h
    obtain ⟨s1, h1, h2⟩ := Option.bind_eq_some_iff.1 h
    refine ih (fun e he => hp e (by simp [he])) (s := s1) ?_ h2
    have h3 := hp e (by simp)
    have := hr.step (.ev (e := e) (s' := s1) (by
      intro m _
      cases e <;> first | rfl | simp [plain] at h3) h1)
    simpa [Box.viewAfter] using (by
      cases e <;> first | exact this | simp [plain] at h3)

/-- The start of a keyper that decides on these actions, up to the loop that schedules them. -/
def firstDecision (as : List α) : List (Ev α H Unit) := [.start, .load, .loaded, .decide as (), .save, .run]

/-- Non-vacuity of `C80_goes_on_partial` and `C80_waits`: a keyper with 25 transactions to schedule and a node that takes them. -/
theorem C80_example : ∃ (S : Surroundings Bool Unit) (b : Box Bool Nat Unit Unit) (m : Mem Bool Nat Unit),
    Box.Reach id () S b ∧ b.sys.mem = some m ∧ m.toSchedule.length = 25 ∧ ¬ b.Idle ∧ ∀ b' : Box Bool Nat Unit Unit, b'.Answered S := by
  let S : Surroundings Bool Unit := ⟨fun _ _ => false, fun _ _ => .ok, fun _ _ => True⟩
  obtain ⟨s', hs'⟩ : ∃ s', steps id () (firstDecision (H := Nat) (List.replicate 25 true)) Sys.fresh = some s' := ⟨_, rfl⟩
  have h1 := reach_plain (S := S) () (firstDecision (H := Nat) (List.replicate 25 true)) (by decide) (.fresh ()) hs'
  have h2 := hs'
  have h3 : s' = (steps id () (firstDecision (H := Nat) (List.replicate 25 true)) Sys.fresh).getD .fresh := by
    rw [hs']; rfl
  obtain ⟨m, hm⟩ : ∃ m, s'.mem = some m := by rw [h3]; exact ⟨_, rfl⟩
  refine ⟨S, _, m, h1, hm, ?_, ?_, fun b' m a _ _ => .inr (by simp [S])⟩
  · have : s'.mem.map (·.toSchedule.length) = some 25 := by rw [h3]; decide +kernel
    rw [hm] at this; simpa using this
  · rintro ⟨m1, g1, g2⟩
    have : s'.mem.map (·.phase) = some .scheduling := by rw [h3]; decide +kernel
    simp only at g1
    rw [g1] at this
    simp [g2] at this

/-- **C80** What is missing: a call to the node that fails while a transaction is being prepared ends the process. -/
theorem C80_auth_finding (S : Surroundings Bool Unit) (hS : S.expired () true = false) :
    ∃ b b' : Box Bool Nat Unit Unit, Box.Reach id () S b ∧ b.sys.mem.isSome = true ∧ Box.Step id () S b .authFails b' ∧ b'.sys.mem = none ∧ b'.panics = b.panics + 1 := by
  have h1 := reach_plain (isTx := id) (newRest := ()) (S := S) () (firstDecision (H := Nat) [true]) (by decide) (.fresh ()) (s' :=
    (steps id () (firstDecision (H := Nat) [true]) Sys.fresh).getD .fresh) rfl
  have h4 : Box.Step (H := Nat) id () S ⟨(steps id () (firstDecision (H := Nat) [true]) Sys.fresh).getD .fresh, (), (), 0⟩ (.ev .schedule)
      ⟨(steps id () (firstDecision (H := Nat) [true] ++ [.schedule]) Sys.fresh).getD .fresh, (), (), 0⟩ :=
    .ev (by intro m hm; cases hm; rfl) rfl
  exact ⟨_, _, h1.step h4, rfl, .authFails rfl rfl rfl rfl rfl (by intro a h; cases h; exact hS) rfl, rfl, rfl⟩

end Shutter.Fx.Props

namespace Shutter.Decide.Props
open Shutter.Crypto Shutter.Dkg Shutter.Observe Shutter.Decide Shutter.Main Shutter.GoConfig Shutter.Fx
open Shutter.Sol (World)
open Shutter.Fx.Props

/-- The node's answer to the appeal with a mirrored signature, forever. -/
theorem mirrored_answer {w : World} (later : Sol.WorldLater Demo.env (Demo.hist 118) w) (own : Sol.Address) :
    (Action.appeal mirroredAppeal : Action Zq Zq).answer Demo.env own w = .retry := by
  cases hna : (w.slasher.accusations 0).appealed
  · obtain ⟨h1, h2, _⟩ := C64_stuck_counterexample later hna (own := own)
    simp only [Action.answer, h1, h2, Option.isSome_none, Bool.false_eq_true, if_false]
  · have hacc : ((Demo.hist 118).slasher.accusations 0).accused = true := by decide +kernel
    have hr : Sol.WorldReach Demo.env (Demo.hist 118) := Demo.chain.reach (by decide)
    have hacc' := accused_later (Sol.worldLater_plater hr.preach.inv later) hacc
    have hreason : appealReason Demo.env w mirroredAppeal = .error .alreadyAppealed := by
      have h0 : mirroredAppeal.halfStep = 0 := rfl
      simp [appealReason, h0, Sol.u64, Sol.two64, get', require', bind, Except.bind, hacc', hna]
    have h1 : w.step Demo.env (.appeal own mirroredAppeal) = none := by
      rw [Option.eq_none_iff_forall_ne_some]
      intro w2 hw2
      have hok := (appealReason_ok (E := Demo.env) (sender := own)).mpr ⟨w2, hw2⟩
      rw [hreason] at hok
      cases hok
    have h2 : (Action.appeal mirroredAppeal : Action Zq Zq).givenUp Demo.env w own = false := by
      simp [Action.givenUp, hreason]
    simp only [Action.answer, h1, h2, Option.isSome_none, Bool.false_eq_true, if_false]

/-- The appeal with a signature that a malicious keyper has mirrored, and 21 other transactions. -/
def stuckActions : List (Action Zq Zq) := .appeal mirroredAppeal :: (List.range 21).map .skipCipherBatch

/-- **C80** The hypotheses of `C80_stuck` are met: one keyper that mirrors its signature stops the keypers that appeal with it. Such a keyper never
decides again unless it is restarted, whatever happens on the main chain; and a restart does not help as long as nobody else has appealed. -/
theorem C80_stuck_counterexample {own : Sol.Address} {S : Surroundings (Action Zq Zq) World}
    (hans : S.answer = fun w a => a.answer Demo.env own w) (hnext : ∀ w w', S.next w w' → Sol.WorldLater Demo.env w w')
    (hexp : ∀ w a, S.expired w a = true → a.Achieved w) :
    ∃ b : Box (Action Zq Zq) Nat Unit World, Box.Reach Action.isMainChainTX () S b ∧ b.now = Demo.hist 118 ∧ b.sys.mem.isSome = true ∧
      ∀ ok es b', Box.Run Action.isMainChainTX () S ok b es b' →
        (¬ ok (.ev .start) ∨ ∀ w, Later S (Demo.hist 118) w → (w.slasher.accusations 0).appealed = false) → NoDecision b b' := by
  obtain ⟨s', hs'⟩ : ∃ s', steps Action.isMainChainTX () (firstDecision (H := Nat) stuckActions) Sys.fresh = some s' :=
    ⟨_, rfl⟩
  have h1 := reach_plain (S := S) (Demo.hist 118) (firstDecision (H := Nat) stuckActions) (by decide) (.fresh (Demo.hist 118)) hs'
  have h3 : s' = (steps Action.isMainChainTX () (firstDecision (H := Nat) stuckActions) Sys.fresh).getD .fresh := by
    rw [hs']; rfl
  have hlater : ∀ w, Later S (Demo.hist 118) w → Sol.WorldLater Demo.env (Demo.hist 118) w := by
    intro w h
    induction h with
    | refl => exact .refl
    | step _ h ih => exact ih.trans (hnext _ _ h)
  have hna : ∀ w, Later S (Demo.hist 118) w → (w.slasher.accusations 0).appealed = false →
      S.expired w (.appeal mirroredAppeal) = false := by
    intro w hw h
    cases he : S.expired w (.appeal mirroredAppeal)
    · rfl
    · exact absurd (hexp _ _ he) (C64_stuck_counterexample (hlater w hw) h (own := own)).2.2
  have hm : s'.mem.map (fun m => (m.txSent, m.txDone)) = some (none, false) := by rw [h3]; decide +kernel
  have hf : s'.actionsFile.map (fun p => (unsent Action.isMainChainTX p)) = some (List.range 22) := by rw [h3]; decide +kernel
  have hf0 : ∀ p, s'.actionsFile = some p → p.actionMap 0 = some (.appeal mirroredAppeal) := by rw [h3]; intro p hp; cases hp; rfl
  refine ⟨_, h1, rfl, ?_, fun ok es b' hrun hok => ?_⟩
  · cases hx : s'.mem
    · simp [hx] at hm
    · rfl
  · obtain ⟨p, hp, hu⟩ := Option.map_eq_some_iff.1 hf
    refine C80_stuck h1 hp (id := 0) (rest := List.range' 1 21) (hu.trans (by decide)) (by decide) (hf0 p hp) ?_ ?_ ?_ hrun
    · intro m hm'
      simp only at hm'
      rw [hm'] at hm
      simp only [Option.map_some, Option.some.injEq, Prod.mk.injEq] at hm
      exact ⟨hm.1, hm.2, hna (Demo.hist 118) .refl (by decide +kernel)⟩
    · intro w hw; rw [hans]; exact mirrored_answer (hlater w hw) own
    · rcases hok with h | h
      · exact .inl h
      · exact .inr (fun w hw => hna w hw (h w hw))

end Shutter.Decide.Props
