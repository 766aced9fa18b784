import Verif.Proofs.Tasks

/-! # Proofs about a keyper's tasks: going on and stopping -/

namespace Shutter.Tasks

variable {A B F M S : Type} {P : M → Prop} {Q : S → Prop} {NM : M → M → Prop} {NS : S → S → Prop}

theorem steps_append (c : Code A B F M S) (s : State F M S) (xs ys : List (Ev A B F)) :
    steps c s (xs ++ ys) = (steps c s xs).bind (fun t => steps c t ys) := by
  induction xs generalizing s with
  | nil => simp [steps]
  | cons x xs ih =>
    simp only [List.cons_append, steps]
    cases step c s x <;> simp [ih]

/-- `t` can be reached from `s` by events with a property. -/
def Can (c : Code A B F M S) (p : Ev A B F → Bool) (s t : State F M S) : Prop :=
  ∃ evs, (∀ e ∈ evs, p e = true) ∧ steps c s evs = some t

theorem Can.refl (c : Code A B F M S) (p : Ev A B F → Bool) (s : State F M S) : Can c p s s := ⟨[], by simp, rfl⟩

theorem Can.trans {c : Code A B F M S} {p : Ev A B F → Bool} {s t u : State F M S} (h1 : Can c p s t) (h2 : Can c p t u) :
    Can c p s u := by
  obtain ⟨xs, hx, h1⟩ := h1
  obtain ⟨ys, hy, h2⟩ := h2
  refine ⟨xs ++ ys, fun e he => ?_, by simp [steps_append, h1, h2]⟩
  rcases List.mem_append.1 he with he | he
  · exact hx e he
  · exact hy e he

theorem Can.one {c : Code A B F M S} {p : Ev A B F → Bool} {s t : State F M S} (e : Ev A B F) (hp : p e = true)
    (h : step c s e = some t) : Can c p s t := ⟨[e], by simpa using hp, by simp [steps, h]⟩

/-- The tasks of a keyper nobody told to stop. -/
structure Alive (P : M → Prop) (Q : S → Prop) (s : State F M S) : Prop where
  cancelled : s.cancelled = false
  crashed : s.crashed = false
  main : s.main ≠ .stopped
  shutter : s.shutter ≠ .stopped
  keyper : s.keyper ≠ .stopped
  pm : P s.mainView
  pv : ∀ v, s.main = .sending v → P v
  qm : Q s.shutterView
  qv : ∀ v, s.shutter = .sending v → Q v

def Quiet (s : State F M S) : Prop :=
  (s.main = .stopped → s.cancelled = true) ∧ (s.shutter = .stopped → s.cancelled = true) ∧
    (s.keyper = .stopped → s.cancelled = true)

theorem step_quiet {c : Code A B F M S} {s t : State F M S} {ev : Ev A B F} (h : Quiet s) (ht : step c s ev = some t) :
    Quiet t := by
  obtain ⟨hm, hsh, hk⟩ := h
  obtain ⟨hs, ⟨_, rfl⟩ | h1 | h1 | h1⟩ := step_cases ht
  · exact ⟨fun _ => rfl, fun _ => rfl, fun _ => rfl⟩
  · cases ev <;> simp only [stepMain] at h1 <;> (try (simp at h1; done)) <;> split at h1 <;>
      (try (simp at h1; done)) <;> (try split at h1) <;> simp only [Option.some.injEq] at h1 <;> subst h1 <;>
      simp_all [Quiet]
  · cases ev <;> simp only [stepShutter] at h1 <;> (try (simp at h1; done)) <;> split at h1 <;>
      (try (simp at h1; done)) <;> (try split at h1) <;> simp only [Option.some.injEq] at h1 <;> subst h1 <;>
      simp_all [Quiet]
  · cases ev with
    | takeMain =>
      simp only [stepKeyper, takeMain] at h1
      split at h1
      · rename_i v m x _ _
        simp only [Option.some.injEq] at h1; subst h1
        cases x <;> simp_all [Quiet, State.first]
      · simp only [Option.some.injEq] at h1; subst h1
        simp_all [Quiet, State.decide]
      · simp at h1
    | takeShutter =>
      simp only [stepKeyper, takeShutter] at h1
      split at h1
      · rename_i v m x _ _
        simp only [Option.some.injEq] at h1; subst h1
        cases m <;> simp_all [Quiet, State.first]
      · simp only [Option.some.injEq] at h1; subst h1
        simp_all [Quiet, State.decide]
      · simp at h1
    | goOn | keyperStops =>
      simp only [stepKeyper] at h1
      split at h1
      · simp only [Option.some.injEq] at h1; subst h1
        simp_all [Quiet]
      · simp at h1
    | resumed ok | done ok f =>
      simp only [stepKeyper] at h1
      split at h1
      · simp only [Option.some.injEq] at h1; subst h1
        cases ok <;> simp_all [Quiet]
      · simp at h1
    | _ => simp [stepKeyper] at h1

theorem reached_quiet {c : Code A B F M S} {m0 : M} {s0 : S} {t : State F M S} (h : Reached c m0 s0 t) : Quiet t := by
  obtain ⟨evs, he⟩ := h
  have : ∀ (s : State F M S), Quiet s → steps c s evs = some t → Quiet t := by
    clear he
    induction evs with
    | nil => intro s h he; simp only [steps, Option.some.injEq] at he; exact he ▸ h
    | cons e es ih =>
      intro s h he
      simp only [steps, Option.bind_eq_some_iff] at he
      obtain ⟨u, h1, h2⟩ := he
      exact ih u (step_quiet h h1) h2
  exact this _ (by simp [Quiet, State.start]) he

theorem can_sendMain {c : Code A B F M S} {s : State F M S} {a : A} {v : M} (h : Alive P Q s) (hn : ∀ w, s.main ≠ .sending w)
    (hv : c.syncMain a s.mainView = some v) : Can c (fun e => !e.bad) s { s with main := .sending v } := by
  have wait : s.main = .waiting → Can c (fun e => !e.bad) s { s with main := .sending v } := fun hw =>
    Can.one (.header (some a)) (by simp [Ev.bad]) (by simp [step, h.crashed, stepMain, hw, hv])
  have go : ∀ (s' : State F M S), s' = { s with main := .waiting } →
      Can c (fun e => !e.bad) s' { s with main := .sending v } := fun s' he => by
    subst he
    exact Can.one (.header (some a)) (by simp [Ev.bad]) (by simp [step, h.crashed, stepMain, hv])
  cases hm : s.main with
  | starting =>
    exact (Can.one (t := { s with main := .waiting }) (.mainSubscribed true) (by simp [Ev.bad])
      (by simp [step, h.crashed, stepMain, hm])).trans (go _ rfl)
  | reconnecting r =>
    exact (Can.one (t := { s with main := .waiting }) (.mainSubscribed true) (by simp [Ev.bad])
      (by simp [step, h.crashed, stepMain, hm])).trans (go _ rfl)
  | waiting => exact wait hm
  | sending w => exact absurd hm (hn w)
  | stopped => exact absurd hm h.main

theorem can_sendShutter {c : Code A B F M S} {s : State F M S} {b : B} {v : S} (h : Alive P Q s)
    (hn : ∀ w, s.shutter ≠ .sending w) (hv : c.syncShutter b s.shutterView = some v) :
    Can c (fun e => !e.bad) s { s with shutter := .sending v } := by
  have go : ∀ (s' : State F M S), s' = { s with shutter := .waiting } →
      Can c (fun e => !e.bad) s' { s with shutter := .sending v } := fun s' he => by
    subst he
    exact Can.one (.block (some b)) (by simp [Ev.bad]) (by simp [step, h.crashed, stepMain, stepShutter, hv])
  cases hm : s.shutter with
  | starting =>
    exact (Can.one (t := { s with shutter := .waiting }) (.shutterSubscribed true) (by simp [Ev.bad])
      (by simp [step, h.crashed, stepMain, stepShutter, hm])).trans (go _ rfl)
  | reconnecting r =>
    exact (Can.one (t := { s with shutter := .waiting }) (.shutterSubscribed true) (by simp [Ev.bad])
      (by simp [step, h.crashed, stepMain, stepShutter, hm])).trans (go _ rfl)
  | waiting =>
    exact Can.one (.block (some b)) (by simp [Ev.bad]) (by simp [step, h.crashed, stepMain, stepShutter, hm, hv])
  | sending w => exact absurd hm (hn w)
  | stopped => exact absurd hm h.shutter

/-- Some view of the main chain is about to be handed over. -/
theorem can_someMain {c : Code A B F M S} {s : State F M S} (h : Alive P Q s) (ans : Answers c P Q NM NS) :
    ∃ v, P v ∧ Can c (fun e => !e.bad) s { s with main := .sending v } := by
  by_cases hn : ∃ w, s.main = .sending w
  · obtain ⟨w, hw⟩ := hn
    refine ⟨w, h.pv w hw, ?_⟩
    rw [← hw]; exact Can.refl _ _ _
  · obtain ⟨a, v, hv, _⟩ := ans.main _ h.pm
    exact ⟨v, ans.keepMain _ _ _ h.pm hv, can_sendMain h (fun w hw => hn ⟨w, hw⟩) hv⟩

theorem can_someShutter {c : Code A B F M S} {s : State F M S} (h : Alive P Q s) (ans : Answers c P Q NM NS) :
    ∃ v, Q v ∧ Can c (fun e => !e.bad) s { s with shutter := .sending v } := by
  by_cases hn : ∃ w, s.shutter = .sending w
  · obtain ⟨w, hw⟩ := hn
    refine ⟨w, h.qv w hw, ?_⟩
    rw [← hw]; exact Can.refl _ _ _
  · obtain ⟨b, v, hv, _⟩ := ans.shutter _ h.qm
    exact ⟨v, ans.keepShutter _ _ _ h.qm hv, can_sendShutter h (fun w hw => hn ⟨w, hw⟩) hv⟩

/-- The keyper can get to where it waits for views. -/
theorem can_idle {c : Code A B F M S} {s : State F M S} (f : F) (h : Alive P Q s)
    (ans : Answers c P Q NM NS) :
    ∃ t, Can c (fun e => !e.bad) s t ∧ Alive P Q t ∧ t.keyper = .idle ∧ t.decided = s.decided := by
  have resume : ∀ u : State F M S, Alive P Q u → u.keyper = .resuming →
      ∃ t, Can c (fun e => !e.bad) u t ∧ Alive P Q t ∧ t.keyper = .idle ∧ t.decided = u.decided := fun u hu hk =>
    ⟨{ u with keyper := .idle }, Can.one (.resumed true) (by simp [Ev.bad])
      (by simp [step, hu.crashed, stepMain, stepShutter, stepKeyper, hk]),
      ⟨hu.cancelled, hu.crashed, hu.main, hu.shutter, by simp, hu.pm, hu.pv, hu.qm, hu.qv⟩, rfl, rfl⟩
  have shut : ∀ (u : State F M S) (m : M) (x : Option S), Alive P Q u → u.keyper = .starting (some m) x →
      ∃ t, Can c (fun e => !e.bad) u t ∧ Alive P Q t ∧ t.keyper = .idle ∧ t.decided = u.decided := by
    intro u m x hu hk
    obtain ⟨v, hqv, hv⟩ := can_someShutter hu ans
    have h1 : Can c (fun e => !e.bad) { u with shutter := .sending v }
        { u with shutter := .waiting, shutterView := v, got := u.got ++ [Sum.inr v], world := (m, v), keyper := .resuming } :=
      Can.one .takeShutter (by simp [Ev.bad])
        (by simp [step, hu.crashed, stepMain, stepShutter, stepKeyper, takeShutter, hk, State.first])
    obtain ⟨t, h2, h3, h4, h5⟩ := resume
      { u with shutter := .waiting, shutterView := v, got := u.got ++ [Sum.inr v], world := (m, v), keyper := .resuming }
      ⟨hu.cancelled, hu.crashed, hu.main, by simp, by simp, hu.pm, hu.pv, hqv, by simp⟩ rfl
    exact ⟨t, (hv.trans h1).trans h2, h3, h4, h5⟩
  cases hk : s.keyper with
  | starting m x =>
    cases m with
    | some m => exact shut s m x h hk
    | none =>
      obtain ⟨v, hpv, hv⟩ := can_someMain h ans
      cases x with
      | none =>
        have h1 : Can c (fun e => !e.bad) { s with main := .sending v }
            { s with main := .waiting, mainView := v, got := s.got ++ [Sum.inl v], keyper := .starting (some v) none } :=
          Can.one .takeMain (by simp [Ev.bad])
            (by simp [step, h.crashed, stepMain, stepShutter, stepKeyper, takeMain, hk, State.first])
        obtain ⟨t, h2, h3, h4, h5⟩ := shut
          { s with main := .waiting, mainView := v, got := s.got ++ [Sum.inl v], keyper := .starting (some v) none }
          v none ⟨h.cancelled, h.crashed, by simp, h.shutter, by simp, hpv, by simp, h.qm, h.qv⟩ rfl
        exact ⟨t, (hv.trans h1).trans h2, h3, h4, h5⟩
      | some x =>
        have h1 : Can c (fun e => !e.bad) { s with main := .sending v }
            { s with main := .waiting, mainView := v, got := s.got ++ [Sum.inl v], world := (v, x), keyper := .resuming } :=
          Can.one .takeMain (by simp [Ev.bad])
            (by simp [step, h.crashed, stepMain, stepShutter, stepKeyper, takeMain, hk, State.first])
        obtain ⟨t, h2, h3, h4, h5⟩ := resume
          { s with main := .waiting, mainView := v, got := s.got ++ [Sum.inl v], world := (v, x), keyper := .resuming }
          ⟨h.cancelled, h.crashed, by simp, h.shutter, by simp, hpv, by simp, h.qm, h.qv⟩ rfl
        exact ⟨t, (hv.trans h1).trans h2, h3, h4, h5⟩
  | resuming => exact resume s h hk
  | idle => exact ⟨s, Can.refl _ _ _, h, hk, rfl⟩
  | deciding =>
    exact ⟨{ s with keyper := .idle, filters := if s.filters.length < 3 then s.filters ++ [f] else s.filters },
      Can.one (.done true f) (by simp [Ev.bad]) (by simp [step, h.crashed, stepMain, stepShutter, stepKeyper, hk]),
      ⟨h.cancelled, h.crashed, h.main, h.shutter, by simp, h.pm, h.pv, h.qm, h.qv⟩, rfl, rfl⟩
  | stopped => exact absurd hk h.keyper

theorem can_takeMain {c : Code A B F M S} {s : State F M S} {v : M} (h : Alive P Q s) (hk : s.keyper = .idle)
    (hm : s.main = .sending v) : ∃ t, Can c (fun e => !e.bad) s t ∧ Alive P Q t ∧ t.keyper = .deciding ∧
      t.main = .waiting ∧ t.decided = s.decided ++ [(v, s.world.2)] :=
  ⟨_, Can.one (t := { s with main := .waiting, mainView := v, got := s.got ++ [Sum.inl v] }.decide (v, s.world.2))
    .takeMain (by simp [Ev.bad]) (by simp [step, h.crashed, stepMain, stepShutter, stepKeyper, takeMain, hk, hm]),
    ⟨h.cancelled, h.crashed, by simp [State.decide], h.shutter, by simp [State.decide], h.pv v hm, by simp [State.decide], h.qm, h.qv⟩,
    rfl, rfl, rfl⟩

theorem can_takeShutter {c : Code A B F M S} {s : State F M S} {v : S} (h : Alive P Q s) (hk : s.keyper = .idle)
    (hm : s.shutter = .sending v) : ∃ t, Can c (fun e => !e.bad) s t ∧ Alive P Q t ∧ t.keyper = .deciding ∧
      t.shutter = .waiting ∧ t.decided = s.decided ++ [(s.world.1, v)] :=
  ⟨_, Can.one (t := { s with shutter := .waiting, shutterView := v, got := s.got ++ [Sum.inr v] }.decide (s.world.1, v))
    .takeShutter (by simp [Ev.bad]) (by simp [step, h.crashed, stepMain, stepShutter, stepKeyper, takeShutter, hk, hm]),
    ⟨h.cancelled, h.crashed, h.main, by simp [State.decide], by simp [State.decide], h.pm, h.pv, h.qv v hm, by simp [State.decide]⟩,
    rfl, rfl, rfl⟩

theorem can_decideMain {c : Code A B F M S} {s : State F M S} (f : F) (h : Alive P Q s)
    (ans : Answers c P Q NM NS) :
    ∃ t ws x y z, Can c (fun e => !e.bad) s t ∧ t.decided = s.decided ++ ws ++ [(y, z)] ∧ NM x y := by
  obtain ⟨u, h1, hu, hk, hd⟩ := can_idle (c := c) f h ans
  have fin : ∀ (u : State F M S), Alive P Q u → u.keyper = .idle → (∀ w, u.main ≠ .sending w) →
      ∃ t x y z, Can c (fun e => !e.bad) u t ∧ t.decided = u.decided ++ [(y, z)] ∧ NM x y := by
    intro u hu hk hn
    obtain ⟨a, v, hv, hnm⟩ := ans.main _ hu.pm
    have h2 := can_sendMain hu hn hv
    obtain ⟨t, h3, _, _, _, h4⟩ := can_takeMain (c := c) (s := { u with main := .sending v }) (v := v)
      ⟨hu.cancelled, hu.crashed, by simp, hu.shutter, hu.keyper, hu.pm,
        fun w hw => by simp at hw; subst hw; exact ans.keepMain _ _ _ hu.pm hv, hu.qm, hu.qv⟩ hk rfl
    exact ⟨t, _, v, _, h2.trans h3, h4, hnm⟩
  by_cases hn : ∃ w, u.main = .sending w
  · obtain ⟨w, hw⟩ := hn
    obtain ⟨u2, h3, hu2, hk2, hm2, hd2⟩ := can_takeMain (c := c) hu hk hw
    have h4 : Can c (fun e => !e.bad) u2
        { u2 with keyper := .idle, filters := if u2.filters.length < 3 then u2.filters ++ [f] else u2.filters } :=
      Can.one (.done true f) (by simp [Ev.bad]) (by simp [step, hu2.crashed, stepMain, stepShutter, stepKeyper, hk2])
    obtain ⟨t, x, y, z, h5, h6, h7⟩ := fin
      { u2 with keyper := .idle, filters := if u2.filters.length < 3 then u2.filters ++ [f] else u2.filters }
      ⟨hu2.cancelled, hu2.crashed, hu2.main, hu2.shutter, by simp, hu2.pm, hu2.pv, hu2.qm, hu2.qv⟩ rfl (by simp [hm2])
    exact ⟨t, _, x, y, z, ((h1.trans h3).trans h4).trans h5, by rw [h6, ← hd, hd2], h7⟩
  · obtain ⟨t, x, y, z, h5, h6, h7⟩ := fin u hu hk (fun w hw => hn ⟨w, hw⟩)
    exact ⟨t, [], x, y, z, h1.trans h5, by rw [h6, hd]; simp, h7⟩

theorem can_decideShutter {c : Code A B F M S} {s : State F M S} (f : F) (h : Alive P Q s)
    (ans : Answers c P Q NM NS) :
    ∃ t ws x y z, Can c (fun e => !e.bad) s t ∧ t.decided = s.decided ++ ws ++ [(y, z)] ∧ NS x z := by
  obtain ⟨u, h1, hu, hk, hd⟩ := can_idle (c := c) f h ans
  have fin : ∀ (u : State F M S), Alive P Q u → u.keyper = .idle → (∀ w, u.shutter ≠ .sending w) →
      ∃ t x y z, Can c (fun e => !e.bad) u t ∧ t.decided = u.decided ++ [(y, z)] ∧ NS x z := by
    intro u hu hk hn
    obtain ⟨b, v, hv, hnm⟩ := ans.shutter _ hu.qm
    have h2 := can_sendShutter hu hn hv
    obtain ⟨t, h3, _, _, _, h4⟩ := can_takeShutter (c := c) (s := { u with shutter := .sending v }) (v := v)
      ⟨hu.cancelled, hu.crashed, hu.main, by simp, hu.keyper, hu.pm, hu.pv, hu.qm,
        fun w hw => by simp at hw; subst hw; exact ans.keepShutter _ _ _ hu.qm hv⟩ hk rfl
    exact ⟨t, _, _, v, h2.trans h3, h4, hnm⟩
  by_cases hn : ∃ w, u.shutter = .sending w
  · obtain ⟨w, hw⟩ := hn
    obtain ⟨u2, h3, hu2, hk2, hm2, hd2⟩ := can_takeShutter (c := c) hu hk hw
    have h4 : Can c (fun e => !e.bad) u2
        { u2 with keyper := .idle, filters := if u2.filters.length < 3 then u2.filters ++ [f] else u2.filters } :=
      Can.one (.done true f) (by simp [Ev.bad]) (by simp [step, hu2.crashed, stepMain, stepShutter, stepKeyper, hk2])
    obtain ⟨t, x, y, z, h5, h6, h7⟩ := fin
      { u2 with keyper := .idle, filters := if u2.filters.length < 3 then u2.filters ++ [f] else u2.filters }
      ⟨hu2.cancelled, hu2.crashed, hu2.main, hu2.shutter, by simp, hu2.pm, hu2.pv, hu2.qm, hu2.qv⟩ rfl (by simp [hm2])
    exact ⟨t, _, x, y, z, ((h1.trans h3).trans h4).trans h5, by rw [h6, ← hd, hd2], h7⟩
  · obtain ⟨t, x, y, z, h5, h6, h7⟩ := fin u hu hk (fun w hw => hn ⟨w, hw⟩)
    exact ⟨t, [], x, y, z, h1.trans h5, by rw [h6, hd]; simp, h7⟩

theorem can_endMain {c : Code A B F M S} {s : State F M S} (hcan : s.cancelled = true) (hcr : s.crashed = false)
    (hm : ∀ r, s.main ≠ .reconnecting r) : Can c Ev.alone s { s with main := .stopped } := by
  cases h : s.main with
  | starting =>
    have e : { s with main := .stopped } = { s with main := .stopped, cancelled := true } := by rw [← hcan]
    rw [e]
    exact Can.one (.mainSubscribed false) rfl (by simp [step, hcr, stepMain, h])
  | waiting => exact Can.one .mainStops rfl (by simp [step, hcr, stepMain, h, hcan])
  | sending v => exact Can.one .mainStops rfl (by simp [step, hcr, stepMain, h, hcan])
  | reconnecting r => exact absurd h (hm r)
  | stopped => rw [← h]; exact Can.refl _ _ _

theorem can_endShutter {c : Code A B F M S} {s : State F M S} (hcan : s.cancelled = true) (hcr : s.crashed = false) :
    Can c Ev.alone s { s with shutter := .stopped } := by
  have stops : ∀ u : State F M S, u.cancelled = true → u.crashed = false → u.shutter = .waiting →
      Can c Ev.alone u { u with shutter := .stopped } := fun u h1 h2 h3 =>
    Can.one .shutterStops rfl (by simp [step, h2, stepMain, stepShutter, h3, h1])
  have gives : ∀ u : State F M S, u.cancelled = true → u.crashed = false → u.shutter = .reconnecting true →
      Can c Ev.alone u { u with shutter := .stopped } := fun u h1 h2 h3 =>
    (Can.one (t := { u with shutter := .waiting }) .shutterGivesUp rfl
      (by simp [step, h2, stepMain, stepShutter, h3, h1])).trans (stops { u with shutter := .waiting } h1 h2 rfl)
  cases h : s.shutter with
  | starting =>
    have e : { s with shutter := .stopped } = { s with shutter := .stopped, cancelled := true } := by rw [← hcan]
    rw [e]
    exact Can.one (.shutterSubscribed false) rfl (by simp [step, hcr, stepMain, stepShutter, h])
  | waiting => exact stops s hcan hcr h
  | sending v => exact Can.one .shutterStops rfl (by simp [step, hcr, stepMain, stepShutter, h, hcan])
  | reconnecting r =>
    exact (Can.one (t := { s with shutter := .reconnecting true }) (.shutterSubscribed false) rfl
      (by simp [step, hcr, stepMain, stepShutter, h])).trans (gives { s with shutter := .reconnecting true } hcan hcr rfl)
  | stopped => rw [← h]; exact Can.refl _ _ _

theorem can_endKeyper {c : Code A B F M S} {s : State F M S} (f : F) (hcan : s.cancelled = true) (hcr : s.crashed = false) :
    Can c Ev.alone s { s with keyper := .stopped } := by
  have e : { s with keyper := .stopped } = { s with keyper := .stopped, cancelled := true } := by rw [← hcan]
  have res : ∀ u : State F M S, u.cancelled = true → u.crashed = false → u.keyper = .resuming →
      Can c Ev.alone u { u with keyper := .stopped, cancelled := true } := fun u h1 h2 h3 =>
    Can.one (.resumed false) rfl (by simp [step, h2, stepMain, stepShutter, stepKeyper, h3])
  cases h : s.keyper with
  | starting m x =>
    rw [e]
    exact (Can.one (t := { s with keyper := .resuming }) .goOn rfl
      (by simp [step, hcr, stepMain, stepShutter, stepKeyper, h, hcan])).trans (res { s with keyper := .resuming } hcan hcr rfl)
  | resuming => rw [e]; exact res s hcan hcr h
  | idle => exact Can.one .keyperStops rfl (by simp [step, hcr, stepMain, stepShutter, stepKeyper, h, hcan])
  | deciding =>
    rw [e]
    exact Can.one (.done false f) rfl (by simp [step, hcr, stepMain, stepShutter, stepKeyper, h])
  | stopped => rw [← h]; exact Can.refl _ _ _

theorem can_end {c : Code A B F M S} {s : State F M S} (f : F) (hcan : s.cancelled = true) (hcr : s.crashed = false)
    (hm : ∀ r, s.main ≠ .reconnecting r) :
    Can c Ev.alone s { s with main := .stopped, shutter := .stopped, keyper := .stopped } :=
  ((can_endMain hcan hcr hm).trans (can_endShutter (s := { s with main := .stopped }) hcan hcr)).trans
    (can_endKeyper (s := { s with main := .stopped, shutter := .stopped }) f hcan hcr)

/-- Without the node, a broken connection is never given up without a crash. -/
theorem step_broken {c : Code A B F M S} {s t : State F M S} {ev : Ev A B F}
    (h : s.crashed = true ∨ ∃ r, s.main = .reconnecting r) (hne : ev ≠ .mainSubscribed true) (ht : step c s ev = some t) :
    t.crashed = true ∨ ∃ r, t.main = .reconnecting r := by
  obtain ⟨hs, hcase⟩ := step_cases ht
  obtain ⟨r, hr⟩ : ∃ r, s.main = .reconnecting r := by
    rcases h with h | h
    · simp [hs] at h
    · exact h
  rcases hcase with ⟨_, rfl⟩ | h1 | h1 | h1
  · exact Or.inr ⟨r, hr⟩
  · cases ev with
    | mainSubscribed ok =>
      cases ok
      · simp [stepMain, hr] at h1; subst h1; exact Or.inr ⟨true, rfl⟩
      · exact absurd rfl hne
    | mainGivesUp =>
      simp only [stepMain] at h1
      split at h1
      · simp only [Option.some.injEq] at h1; subst h1; exact Or.inl rfl
      · simp at h1
    | _ => simp [stepMain, hr] at h1
  · cases ev <;> simp only [stepShutter] at h1 <;> (try (simp at h1; done)) <;> split at h1 <;>
      (try (simp at h1; done)) <;> (try split at h1) <;> simp only [Option.some.injEq] at h1 <;> subst h1 <;>
      simp_all
  · cases ev with
    | takeMain => simp [stepKeyper, takeMain, hr] at h1
    | takeShutter =>
      simp only [stepKeyper, takeShutter] at h1
      split at h1
      · rename_i v m x _ _
        simp only [Option.some.injEq] at h1; subst h1
        cases m <;> exact Or.inr ⟨r, hr⟩
      · simp only [Option.some.injEq] at h1; subst h1
        exact Or.inr ⟨r, hr⟩
      · simp at h1
    | goOn | keyperStops =>
      simp only [stepKeyper] at h1
      split at h1
      · simp only [Option.some.injEq] at h1; subst h1
        exact Or.inr ⟨r, hr⟩
      · simp at h1
    | resumed ok | done ok f =>
      simp only [stepKeyper] at h1
      split at h1
      · simp only [Option.some.injEq] at h1; subst h1
        cases ok <;> exact Or.inr ⟨r, hr⟩
      · simp at h1
    | _ => simp [stepKeyper] at h1

theorem steps_broken {c : Code A B F M S} {s t : State F M S} {evs : List (Ev A B F)}
    (h : s.crashed = true ∨ ∃ r, s.main = .reconnecting r) (hne : .mainSubscribed true ∉ evs) (ht : steps c s evs = some t) :
    t.crashed = true ∨ ∃ r, t.main = .reconnecting r := by
  induction evs generalizing s with
  | nil => simp only [steps, Option.some.injEq] at ht; exact ht ▸ h
  | cons e es ih =>
    simp only [steps, Option.bind_eq_some_iff] at ht
    obtain ⟨u, h1, h2⟩ := ht
    simp only [List.mem_cons, not_or] at hne
    exact ih (step_broken h (fun he => hne.1 he.symm) h1) hne.2 h2

/-- Something that holds for the first view and is kept by syncs holds for all. -/
theorem chain_all {R : M → M → Prop} {P : M → Prop} {l : List M} {x : M} (h : (x :: l).IsChain R) (hx : P x)
    (hR : ∀ a b, P a → R a b → P b) : ∀ y ∈ x :: l, P y := by
  induction l generalizing x with
  | nil => simpa using hx
  | cons z l ih =>
    rw [List.isChain_cons_cons] at h
    intro y hy
    rcases List.mem_cons.1 hy with rfl | hy
    · exact hx
    · exact ih h.2 (hR _ _ hx h.1) y hy

theorem foldl_keep {c : Code A B F M S} (hF : ∀ f x, Q x → Q (c.applyFilter f x)) (fs : List F) (x : S) (h : Q x) :
    Q (fs.foldl (fun s f => c.applyFilter f s) x) := by
  induction fs generalizing x with
  | nil => exact h
  | cons f fs ih => exact ih _ (hF _ _ h)

theorem inv_mains {c : Code A B F M S} {m0 : M} {s0 : S} {s : State F M S} (h : Inv c m0 s0 s) (h0 : P m0)
    (hP : ∀ a x y, P x → c.syncMain a x = some y → P y) : ∀ x ∈ m0 :: mains s.got, P x :=
  chain_all h.chainMain h0 (fun x y hx ⟨a, ha⟩ => hP a x y hx ha)

theorem inv_shutters {c : Code A B F M S} {m0 : M} {s0 : S} {s : State F M S} (h : Inv c m0 s0 s) (h0 : Q s0)
    (hQ : ∀ b x y, Q x → c.syncShutter b x = some y → Q y) (hF : ∀ f x, Q x → Q (c.applyFilter f x)) :
    ∀ x ∈ s0 :: shutters s.got, Q x :=
  chain_all h.chainShutter h0 (fun _ _ hx ⟨fs, b, hb⟩ => hQ b _ _ (foldl_keep hF fs _ hx) hb)

theorem reached_alive {c : Code A B F M S} {m0 : M} {s0 : S} {s : State F M S} (h : Reached c m0 s0 s)
    (hcan : s.cancelled = false) (hcr : s.crashed = false) (ans : Answers c P Q NM NS) (hm : P m0) (hs : Q s0) :
    Alive P Q s := by
  have hi := reached_inv h
  obtain ⟨q1, q2, q3⟩ := reached_quiet h
  have hpm := inv_mains hi hm ans.keepMain _ (List.mem_of_getLast? hi.mainView)
  have hqm : Q s.shutterView := by
    obtain ⟨x, fs, h1, h2⟩ := hi.shutterView
    rw [h2]
    exact foldl_keep ans.keepFilter fs x
      (inv_shutters hi hs ans.keepShutter ans.keepFilter _ (List.mem_of_getLast? h1))
  exact ⟨hcan, hcr, fun e => by simp [q1 e] at hcan, fun e => by simp [q2 e] at hcan, fun e => by simp [q3 e] at hcan,
    hpm, fun v hv => (hi.sendMain v hv).elim (fun a ha => ans.keepMain a _ _ hpm ha), hqm,
    fun v hv => (hi.sendShutter v hv).elim (fun b hb => ans.keepShutter b _ _ hqm hb)⟩

/-! ### Every schedule -/

/-- How many steps the tasks can take without a decision. -/
def fuel (s : State F M S) : Nat :=
  (match s.main with
    | .starting | .reconnecting _ => 2
    | .waiting => 1
    | _ => 0) +
  (match s.shutter with
    | .starting | .reconnecting _ => 2
    | .waiting => 1
    | _ => 0) +
  s.filters.length +
  (match s.keyper with
    | .deciding => 2
    | .resuming => 1
    | _ => 0) +
  (if s.crashed then 0 else 1)

def Started (s : State F M S) : Prop := s.cancelled = false ∧ ∀ m x, s.keyper ≠ .starting m x

theorem step_fuel {c : Code A B F M S} {s t : State F M S} {ev : Ev A B F} (hst : Started s)
    (hok : ∀ a, (c.syncMain a s.mainView).isSome = true) (hb : ev.bad = false) (ht : step c s ev = some t) :
    Started t ∧ fuel t + 1 + 4 * s.decided.length ≤ fuel s + 4 * t.decided.length := by
  obtain ⟨hcan, hk⟩ := hst
  obtain ⟨hs, ⟨rfl, _⟩ | h1 | h1 | h1⟩ := step_cases ht
  · simp [Ev.bad] at hb
  · cases ev with
    | mainSubscribed ok =>
      cases ok
      · simp [Ev.bad] at hb
      · simp only [stepMain, if_true] at h1
        split at h1
        · rename_i hm
          simp only [Option.some.injEq] at h1; subst h1
          exact ⟨⟨hcan, hk⟩, by simp only [fuel, hm]; omega⟩
        · rename_i hm
          simp only [Option.some.injEq] at h1; subst h1
          exact ⟨⟨hcan, hk⟩, by simp only [fuel, hm]; omega⟩
        · simp at h1
    | mainGivesUp => simp [stepMain, hcan] at h1
    | header a =>
      cases a with
      | none => simp [Ev.bad] at hb
      | some a =>
        obtain ⟨v, hv⟩ := Option.isSome_iff_exists.1 (hok a)
        simp only [stepMain, Option.bind_some, hv] at h1
        split at h1
        · rename_i hm _
          simp only [Option.some.injEq] at h1; subst h1
          exact ⟨⟨hcan, hk⟩, by simp only [fuel, hm]; omega⟩
        · rename_i hx; simp at hx
        · simp at h1
    | mainLost => simp [Ev.bad] at hb
    | mainStops => simp [stepMain, hcan] at h1
    | _ => simp [stepMain] at h1
  · cases ev with
    | shutterSubscribed ok =>
      cases ok
      · simp [Ev.bad] at hb
      · simp only [stepShutter, if_true] at h1
        split at h1
        · rename_i hm
          simp only [Option.some.injEq] at h1; subst h1
          exact ⟨⟨hcan, hk⟩, by simp only [fuel, hm]; omega⟩
        · rename_i hm
          simp only [Option.some.injEq] at h1; subst h1
          exact ⟨⟨hcan, hk⟩, by simp only [fuel, hm]; omega⟩
        · simp at h1
    | shutterGivesUp => simp [stepShutter, hcan] at h1
    | block b =>
      cases b with
      | none => simp [Ev.bad] at hb
      | some b =>
        simp only [stepShutter] at h1
        split at h1
        · rename_i hm; simp at hm
        · rename_i hm _
          split at h1
          · simp only [Option.some.injEq] at h1; subst h1
            exact ⟨⟨hcan, hk⟩, by simp only [fuel, hm]; omega⟩
          · simp only [Option.some.injEq] at h1; subst h1
            exact ⟨⟨hcan, hk⟩, by simp only [fuel, hs]; simp⟩
        · simp at h1
    | shutterQuiet => simp [Ev.bad] at hb
    | filter =>
      simp only [stepShutter] at h1
      split at h1
      · rename_i f fs hm hf
        simp only [Option.some.injEq] at h1; subst h1
        refine ⟨⟨hcan, hk⟩, ?_⟩
        simp only [fuel, hf, List.length_cons]
        omega
      · simp at h1
    | shutterStops => simp [stepShutter, hcan] at h1
    | _ => simp [stepShutter] at h1
  · cases ev with
    | takeMain =>
      simp only [stepKeyper, takeMain] at h1
      split at h1
      · rename_i hx; exact absurd hx (hk _ _)
      · rename_i v hm hi
        simp only [Option.some.injEq] at h1; subst h1
        refine ⟨⟨hcan, by simp [State.decide]⟩, ?_⟩
        simp only [fuel, State.decide, hm, hi, hs, List.length_append, List.length_singleton]
        omega
      · simp at h1
    | takeShutter =>
      simp only [stepKeyper, takeShutter] at h1
      split at h1
      · rename_i hx; exact absurd hx (hk _ _)
      · rename_i v hm hi
        simp only [Option.some.injEq] at h1; subst h1
        refine ⟨⟨hcan, by simp [State.decide]⟩, ?_⟩
        simp only [fuel, State.decide, hm, hi, hs, List.length_append, List.length_singleton]
        omega
      · simp at h1
    | goOn => simp [stepKeyper, hcan] at h1
    | keyperStops => simp [stepKeyper, hcan] at h1
    | resumed ok =>
      cases ok
      · simp [Ev.bad] at hb
      · simp only [stepKeyper, if_true] at h1
        split at h1
        · rename_i hi
          simp only [Option.some.injEq] at h1; subst h1
          refine ⟨⟨hcan, by simp⟩, ?_⟩
          simp only [fuel, hi]
          omega
        · simp at h1
    | done ok f =>
      cases ok
      · simp [Ev.bad] at hb
      · simp only [stepKeyper, if_true] at h1
        split at h1
        · rename_i hi
          simp only [Option.some.injEq] at h1; subst h1
          refine ⟨⟨hcan, by simp⟩, ?_⟩
          have hl : (if s.filters.length < 3 then s.filters ++ [f] else s.filters).length ≤ s.filters.length + 1 := by
            split <;> simp
          simp only [fuel, hi]
          omega
        · simp at h1
    | _ => simp [stepKeyper] at h1

theorem steps_fuel {c : Code A B F M S} {m0 : M} {s0 : S} {s t : State F M S} {evs : List (Ev A B F)} (hi : Inv c m0 s0 s)
    (hm : P m0) (hP : ∀ a x y, P x → c.syncMain a x = some y → P y) (hok : ∀ a x, P x → (c.syncMain a x).isSome = true)
    (hst : Started s) (hb : ∀ e ∈ evs, Ev.bad e = false) (ht : steps c s evs = some t) :
    fuel t + evs.length + 4 * s.decided.length ≤ fuel s + 4 * t.decided.length := by
  induction evs generalizing s with
  | nil => simp only [steps, Option.some.injEq] at ht; subst ht; simp
  | cons e es ih =>
    simp only [steps, Option.bind_eq_some_iff] at ht
    obtain ⟨u, h1, h2⟩ := ht
    obtain ⟨h3, h4⟩ := step_fuel hst (fun a => hok a _ (inv_mains hi hm hP _ (List.mem_of_getLast? hi.mainView)))
      (hb e (by simp)) h1
    have := ih (step_inv hi h1) h3 (fun x hx => hb x (by simp [hx])) h2
    simp only [List.length_cons]
    omega

theorem fuel_le {s : State F M S} (h : s.filters.length ≤ 3) : fuel s ≤ 10 := by
  unfold fuel
  have h1 : (match s.main with
    | .starting | .reconnecting _ => 2
    | .waiting => 1
    | _ => 0) ≤ 2 := by split <;> omega
  have h2 : (match s.shutter with
    | .starting | .reconnecting _ => 2
    | .waiting => 1
    | _ => 0) ≤ 2 := by split <;> omega
  have h3 : (match s.keyper with
    | .deciding => 2
    | .resuming => 1
    | _ => 0) ≤ 2 := by split <;> omega
  have h4 : (if s.crashed then 0 else 1) ≤ 1 := by split <;> omega
  omega

end Shutter.Tasks
