import Verif.Spec.Tasks
import Mathlib.Data.List.Infix
import Mathlib.Data.List.Chain
import Mathlib.Tactic.Tauto

/-! # Proofs about a keyper's tasks -/

namespace Shutter.Tasks

variable {A B F M S : Type}

theorem mains_inl (got : List (M ⊕ S)) (v : M) : mains (got ++ [Sum.inl v]) = mains got ++ [v] := by simp [mains]
theorem mains_inr (got : List (M ⊕ S)) (v : S) : mains (got ++ [Sum.inr v]) = mains got := by simp [mains]
theorem shutters_inl (got : List (M ⊕ S)) (v : M) : shutters (got ++ [Sum.inl v]) = shutters got := by simp [shutters]
theorem shutters_inr (got : List (M ⊕ S)) (v : S) : shutters (got ++ [Sum.inr v]) = shutters got ++ [v] := by simp [shutters]

theorem worlds_append (got : List (M ⊕ S)) (x : M ⊕ S) :
    worlds (got ++ [x]) = worlds got ++ (newest (got ++ [x])).toList := by
  simp only [worlds, List.inits_append, List.inits, List.map_nil, List.tail_cons, List.map_cons, List.filterMap_append]
  congr 1

/-- One view of the main chain after the other. -/
def NextMain (c : Code A B F M S) (x y : M) : Prop := ∃ a, c.syncMain a x = some y

/-- One view of shuttermint after the other. -/
def NextShutter (c : Code A B F M S) (x y : S) : Prop :=
  ∃ (fs : List F) (b : B), c.syncShutter b (fs.foldl (fun s f => c.applyFilter f s) x) = some y

structure Inv (c : Code A B F M S) (m0 : M) (s0 : S) (t : State F M S) : Prop where
  starting : ∀ m s, t.cancelled = false → t.keyper = .starting m s → m = (mains t.got).getLast? ∧
    s = (shutters t.got).getLast? ∧ (m = none ∨ s = none) ∧ worlds t.got = [] ∧ t.decided = []
  running : t.cancelled = false → (∀ m s, t.keyper ≠ .starting m s) → newest t.got = some t.world ∧
    t.decided = (worlds t.got).tail ∧ worlds t.got ≠ []
  gotStart : ∀ m s, t.keyper = .starting m s → (∀ x, m = some x → x ∈ mains t.got) ∧ (∀ x, s = some x → x ∈ shutters t.got)
  world : t.world.1 ∈ m0 :: mains t.got ∧ t.world.2 ∈ s0 :: shutters t.got
  decided : ∀ w ∈ t.decided, w.1 ∈ m0 :: mains t.got ∧ w.2 ∈ s0 :: shutters t.got
  chainMain : (m0 :: mains t.got).IsChain (NextMain c)
  chainShutter : (s0 :: shutters t.got).IsChain (NextShutter c)
  mainView : (m0 :: mains t.got).getLast? = some t.mainView
  shutterView : ∃ x fs, (s0 :: shutters t.got).getLast? = some x ∧
    t.shutterView = (fs : List F).foldl (fun s f => c.applyFilter f s) x
  sendMain : ∀ v, t.main = .sending v → ∃ a, c.syncMain a t.mainView = some v
  sendShutter : ∀ v, t.shutter = .sending v → ∃ b, c.syncShutter b t.shutterView = some v
  filters : t.filters.length ≤ 3
  crashed : t.crashed = true → (t.cancelled = true ∧ t.main = .reconnecting true) ∨ ∃ b x, c.syncShutter b x = none

theorem inv_start (c : Code A B F M S) (m0 : M) (s0 : S) : Inv c m0 s0 (State.start m0 s0) := by
  constructor <;> simp [State.start, mains, shutters, worlds, newest]
  exact ⟨[], rfl⟩

theorem chain_snoc {R : M → M → Prop} {l : List M} {x y : M} (h : l.IsChain R) (hl : l.getLast? = some x) (hr : R x y) :
    (l ++ [y]).IsChain R := by
  rw [List.isChain_append]
  refine ⟨h, by simp, ?_⟩
  intro a ha b hb
  rw [hl] at ha
  simp at ha hb
  subst ha; subst hb
  exact hr

theorem stepMain_inv {c : Code A B F M S} {m0 : M} {s0 : S} {s t : State F M S} {ev : Ev A B F} (h : Inv c m0 s0 s)
    (hs : s.crashed = false) (ht : stepMain c s ev = some t) : Inv c m0 s0 t := by
  have hc : ¬ s.crashed = true := by simp [hs]
  cases ev with
  | mainSubscribed ok =>
    simp only [stepMain] at ht
    split at ht
    · cases ok with
      | true =>
        simp only [if_true, Option.some.injEq] at ht; subst ht
        exact { h with
          sendMain := fun _ hx => by simp at hx
          crashed := fun hx => absurd hx hc }
      | false =>
        simp only [Bool.false_eq_true, if_false, Option.some.injEq] at ht; subst ht
        exact { h with
          starting := fun _ _ hx => by simp at hx
          running := fun hx => by simp at hx
          sendMain := fun _ hx => by simp at hx
          crashed := fun hx => absurd hx hc }
    · cases ok <;> simp only [Bool.false_eq_true, if_false, if_true, Option.some.injEq] at ht <;> subst ht <;>
      exact { h with
          sendMain := fun _ hx => by simp at hx
          crashed := fun hx => absurd hx hc }
    · simp at ht
  | mainGivesUp =>
    simp only [stepMain] at ht
    split at ht
    · rename_i h1 h2
      simp only [Option.some.injEq] at ht; subst ht
      exact { h with crashed := fun _ => Or.inl ⟨h2, h1⟩ }
    · simp at ht
  | header a =>
    simp only [stepMain] at ht
    split at ht
    · rename_i v _ hv
      simp only [Option.some.injEq] at ht; subst ht
      refine { h with
        sendMain := fun w hx => ?_
        crashed := fun hx => absurd hx hc }
      simp at hx; subst hx
      rcases a with _ | a
      · simp at hv
      · exact ⟨a, by simpa using hv⟩
    · simp only [Option.some.injEq] at ht; subst ht; exact h
    · simp at ht
  | mainLost =>
    simp only [stepMain] at ht
    split at ht
    · simp only [Option.some.injEq] at ht; subst ht
      exact { h with
        sendMain := fun _ hx => by simp at hx
        crashed := fun hx => absurd hx hc }
    · simp at ht
  | mainStops =>
    simp only [stepMain] at ht
    split at ht
    · simp only [Option.some.injEq] at ht; subst ht
      exact { h with
        sendMain := fun _ hx => by simp at hx
        crashed := fun hx => absurd hx hc }
    · simp only [Option.some.injEq] at ht; subst ht
      exact { h with
        sendMain := fun _ hx => by simp at hx
        crashed := fun hx => absurd hx hc }
    · simp at ht
  | _ => simp [stepMain] at ht

theorem stepShutter_inv {c : Code A B F M S} {m0 : M} {s0 : S} {s t : State F M S} {ev : Ev A B F} (h : Inv c m0 s0 s)
    (hs : s.crashed = false) (ht : stepShutter c s ev = some t) : Inv c m0 s0 t := by
  have hc : ¬ s.crashed = true := by simp [hs]
  cases ev with
  | shutterSubscribed ok =>
    simp only [stepShutter] at ht
    split at ht
    · cases ok with
      | true =>
        simp only [if_true, Option.some.injEq] at ht; subst ht
        exact { h with
          sendShutter := fun _ hx => by simp at hx
          crashed := fun hx => absurd hx hc }
      | false =>
        simp only [Bool.false_eq_true, if_false, Option.some.injEq] at ht; subst ht
        exact { h with
          starting := fun _ _ hx => by simp at hx
          running := fun hx => by simp at hx
          sendShutter := fun _ hx => by simp at hx
          crashed := fun hx => absurd hx hc }
    · cases ok <;> simp only [Bool.false_eq_true, if_false, if_true, Option.some.injEq] at ht <;> subst ht <;>
      exact { h with
          sendShutter := fun _ hx => by simp at hx
          crashed := fun hx => absurd hx hc }
    · simp at ht
  | shutterGivesUp =>
    simp only [stepShutter] at ht
    split at ht
    · simp only [Option.some.injEq] at ht; subst ht
      exact { h with
        sendShutter := fun _ hx => by simp at hx
        crashed := fun hx => absurd hx hc }
    · simp at ht
  | block b =>
    simp only [stepShutter] at ht
    split at ht
    · simp only [Option.some.injEq] at ht; subst ht; exact h
    · rename_i b _
      split at ht
      · rename_i hv
        simp only [Option.some.injEq] at ht; subst ht
        refine { h with
          sendShutter := fun v hx => ?_
          crashed := fun hx => absurd hx hc }
        simp at hx; subst hx
        exact ⟨_, hv⟩
      · rename_i hv
        simp only [Option.some.injEq] at ht; subst ht
        exact { h with crashed := fun _ => Or.inr ⟨_, _, hv⟩ }
    · simp at ht
  | shutterQuiet =>
    simp only [stepShutter] at ht
    split at ht
    · simp only [Option.some.injEq] at ht; subst ht
      exact { h with
        sendShutter := fun _ hx => by simp at hx
        crashed := fun hx => absurd hx hc }
    · simp at ht
  | filter =>
    simp only [stepShutter] at ht
    split at ht
    · rename_i f fs hw hf
      simp only [Option.some.injEq] at ht; subst ht
      refine { h with
        shutterView := ?_
        sendShutter := fun _ hx => by simp [hw] at hx
        filters := ?_
        crashed := fun hx => absurd hx hc }
      · obtain ⟨x, gs, h1, h2⟩ := h.shutterView
        exact ⟨x, gs ++ [f], h1, by simp [h2]⟩
      · have := h.filters
        simp [hf] at this
        simp only
        omega
    · simp at ht
  | shutterStops =>
    simp only [stepShutter] at ht
    split at ht
    · simp only [Option.some.injEq] at ht; subst ht
      exact { h with
        sendShutter := fun _ hx => by simp at hx
        crashed := fun hx => absurd hx hc }
    · simp only [Option.some.injEq] at ht; subst ht
      exact { h with
        sendShutter := fun _ hx => by simp at hx
        crashed := fun hx => absurd hx hc }
    · simp at ht
  | _ => simp [stepShutter] at ht

theorem getLast?_cons_snoc (a : M) (l : List M) (x : M) : (a :: (l ++ [x])).getLast? = some x := by
  rw [show a :: (l ++ [x]) = (a :: l) ++ [x] from rfl, List.getLast?_append]; simp

theorem tail_snoc {l : List M} {x : M} (h : l ≠ []) : (l ++ [x]).tail = l.tail ++ [x] := by
  cases l with
  | nil => exact absurd rfl h
  | cons a l => rfl

theorem newest_some {got : List (M ⊕ S)} {m : M} {s : S} (h : newest got = some (m, s)) :
    (mains got).getLast? = some m ∧ (shutters got).getLast? = some s := by
  unfold newest at h
  split at h
  · rename_i h1 h2
    simp only [Option.some.injEq, Prod.mk.injEq] at h
    exact ⟨by rw [h1, h.1], by rw [h2, h.2]⟩
  · simp at h

theorem newest_inl (got : List (M ⊕ S)) (v : M) :
    newest (got ++ [Sum.inl v]) = ((shutters got).getLast?).map (fun s => (v, s)) := by
  unfold newest
  rw [mains_inl, shutters_inl, List.getLast?_append]
  cases (shutters got).getLast? <;> simp

theorem newest_inr (got : List (M ⊕ S)) (v : S) :
    newest (got ++ [Sum.inr v]) = ((mains got).getLast?).map (fun m => (m, v)) := by
  unfold newest
  rw [mains_inr, shutters_inr, List.getLast?_append]
  cases (mains got).getLast? <;> simp

theorem takeMain_inv {c : Code A B F M S} {m0 : M} {s0 : S} {s t : State F M S} (h : Inv c m0 s0 s)
    (hs : s.crashed = false) (ht : takeMain s = some t) : Inv c m0 s0 t := by
  have hc : ¬ s.crashed = true := by simp [hs]
  have key : ∀ v, s.main = .sending v →
      (m0 :: mains (s.got ++ [Sum.inl v])).IsChain (NextMain c) ∧
      (m0 :: mains (s.got ++ [Sum.inl v])).getLast? = some v ∧
      v ∈ mains (s.got ++ [Sum.inl v]) ∧ (∀ x ∈ mains s.got, x ∈ mains (s.got ++ [Sum.inl v])) ∧
      (∀ x ∈ m0 :: mains s.got, x ∈ m0 :: mains (s.got ++ [Sum.inl v])) := by
    intro v hv
    rw [mains_inl]
    refine ⟨?_, getLast?_cons_snoc _ _ _, by simp, fun x hx => by simp [hx], fun x hx => ?_⟩
    · exact chain_snoc h.chainMain h.mainView (h.sendMain v hv)
    · rcases List.mem_cons.1 hx with hx | hx <;> simp [hx]
  unfold takeMain at ht
  split at ht
  · rename_i v m1 x hv hk
    obtain ⟨k1, k2, k3, k4, k5⟩ := key v hv
    have hst := fun hcan => h.starting _ _ hcan hk
    simp only [Option.some.injEq] at ht; subst ht
    cases x with
    | none =>
      exact { h with
        starting := fun m y hcan hx => by
          simp only [State.first, Keyper.starting.injEq] at hx
          obtain ⟨rfl, rfl⟩ := hx
          obtain ⟨a1, a2, a3, a4, a5⟩ := hst hcan
          refine ⟨by simp [State.first, mains_inl], by simp [State.first, shutters_inl, ← a2], by simp, ?_, a5⟩
          show worlds (s.got ++ [Sum.inl v]) = []
          rw [worlds_append, newest_inl, ← a2, a4]; rfl
        running := fun hcan hx => absurd rfl (hx (some v) none)
        gotStart := fun m y hx => by
          simp only [State.first, Keyper.starting.injEq] at hx
          obtain ⟨rfl, rfl⟩ := hx
          exact ⟨fun x hx => by simp at hx; subst hx; exact k3, by simp⟩
        world := ⟨k5 _ h.world.1, by simpa only [State.first, shutters_inl] using h.world.2⟩
        decided := fun w hw => ⟨k5 _ (h.decided w hw).1, by simpa only [State.first, shutters_inl] using (h.decided w hw).2⟩
        chainMain := k1
        chainShutter := by simpa only [State.first, shutters_inl] using h.chainShutter
        mainView := k2
        shutterView := by simpa only [State.first, shutters_inl] using h.shutterView
        sendMain := fun _ hx => by simp [State.first] at hx
        crashed := fun hx => absurd hx hc }
    | some x =>
      exact { h with
        starting := fun m y hcan hx => by simp [State.first] at hx
        running := fun hcan hx => by
          obtain ⟨a1, a2, a3, a4, a5⟩ := hst hcan
          refine ⟨?_, ?_, ?_⟩
          · show newest (s.got ++ [Sum.inl v]) = some (v, x)
            rw [newest_inl, ← a2]; rfl
          · show s.decided = (worlds (s.got ++ [Sum.inl v])).tail
            rw [worlds_append, newest_inl, ← a2, a4, a5]; rfl
          · show worlds (s.got ++ [Sum.inl v]) ≠ []
            rw [worlds_append, newest_inl, ← a2, a4]; simp
        gotStart := fun m y hx => by simp [State.first] at hx
        world := ⟨List.mem_cons_of_mem _ k3, by
          simp only [State.first, shutters_inl]
          exact List.mem_cons_of_mem _ ((h.gotStart _ _ hk).2 x rfl)⟩
        decided := fun w hw => ⟨k5 _ (h.decided w hw).1, by simpa only [State.first, shutters_inl] using (h.decided w hw).2⟩
        chainMain := k1
        chainShutter := by simpa only [State.first, shutters_inl] using h.chainShutter
        mainView := k2
        shutterView := by simpa only [State.first, shutters_inl] using h.shutterView
        sendMain := fun _ hx => by simp [State.first] at hx
        crashed := fun hx => absurd hx hc }
  · rename_i v hv hk
    obtain ⟨k1, k2, k3, k4, k5⟩ := key v hv
    have hrun := fun hcan => h.running hcan (by simp [hk])
    simp only [Option.some.injEq] at ht; subst ht
    exact { h with
        starting := fun m y hcan hx => by simp [State.decide] at hx
        running := fun hcan hx => by
          obtain ⟨a1, a2, a3⟩ := hrun hcan
          have a4 := (newest_some a1).2
          refine ⟨?_, ?_, ?_⟩
          · show newest (s.got ++ [Sum.inl v]) = some (v, s.world.2)
            rw [newest_inl, a4]; rfl
          · show s.decided ++ [(v, s.world.2)] = (worlds (s.got ++ [Sum.inl v])).tail
            rw [worlds_append, newest_inl, a4, a2]
            exact (tail_snoc a3).symm
          · show worlds (s.got ++ [Sum.inl v]) ≠ []
            rw [worlds_append]; simp [a3]
        gotStart := fun m y hx => by simp [State.decide] at hx
        world := ⟨List.mem_cons_of_mem _ k3, by simpa only [State.decide, shutters_inl] using h.world.2⟩
        decided := fun w hw => by
          simp only [State.decide, List.mem_append, List.mem_singleton] at hw
          rcases hw with hw | rfl
          · exact ⟨k5 _ (h.decided w hw).1, by simpa only [State.decide, shutters_inl] using (h.decided w hw).2⟩
          · exact ⟨List.mem_cons_of_mem _ k3, by simpa only [State.decide, shutters_inl] using h.world.2⟩
        chainMain := k1
        chainShutter := by simpa only [State.decide, shutters_inl] using h.chainShutter
        mainView := k2
        shutterView := by simpa only [State.decide, shutters_inl] using h.shutterView
        sendMain := fun _ hx => by simp [State.decide] at hx
        crashed := fun hx => absurd hx hc }
  · simp at ht

theorem takeShutter_inv {c : Code A B F M S} {m0 : M} {s0 : S} {s t : State F M S} (h : Inv c m0 s0 s)
    (hs : s.crashed = false) (ht : takeShutter s = some t) : Inv c m0 s0 t := by
  have hc : ¬ s.crashed = true := by simp [hs]
  have key : ∀ v, s.shutter = .sending v →
      (s0 :: shutters (s.got ++ [Sum.inr v])).IsChain (NextShutter c) ∧
      (∃ x fs, (s0 :: shutters (s.got ++ [Sum.inr v])).getLast? = some x ∧
        v = (fs : List F).foldl (fun s f => c.applyFilter f s) x) ∧
      v ∈ shutters (s.got ++ [Sum.inr v]) ∧ (∀ x ∈ shutters s.got, x ∈ shutters (s.got ++ [Sum.inr v])) ∧
      (∀ x ∈ s0 :: shutters s.got, x ∈ s0 :: shutters (s.got ++ [Sum.inr v])) := by
    intro v hv
    rw [shutters_inr]
    refine ⟨?_, ⟨v, [], getLast?_cons_snoc _ _ _, rfl⟩, by simp, fun x hx => by simp [hx], fun x hx => ?_⟩
    · obtain ⟨x, fs, h1, h2⟩ := h.shutterView
      obtain ⟨b, hb⟩ := h.sendShutter v hv
      exact chain_snoc h.chainShutter h1 ⟨fs, b, h2 ▸ hb⟩
    · rcases List.mem_cons.1 hx with hx | hx <;> simp [hx]
  unfold takeShutter at ht
  split at ht
  · rename_i v x s1 hv hk
    obtain ⟨k1, k2, k3, k4, k5⟩ := key v hv
    have hst := fun hcan => h.starting _ _ hcan hk
    simp only [Option.some.injEq] at ht; subst ht
    cases x with
    | none =>
      exact { h with
        starting := fun m y hcan hx => by
          simp only [State.first, Keyper.starting.injEq] at hx
          obtain ⟨rfl, rfl⟩ := hx
          obtain ⟨a1, a2, a3, a4, a5⟩ := hst hcan
          refine ⟨by simp [State.first, mains_inr, ← a1], by simp [State.first, shutters_inr], by simp, ?_, a5⟩
          show worlds (s.got ++ [Sum.inr v]) = []
          rw [worlds_append, newest_inr, ← a1, a4]; rfl
        running := fun hcan hx => absurd rfl (hx none (some v))
        gotStart := fun m y hx => by
          simp only [State.first, Keyper.starting.injEq] at hx
          obtain ⟨rfl, rfl⟩ := hx
          exact ⟨by simp, fun x hx => by simp at hx; subst hx; exact k3⟩
        world := ⟨by simpa only [State.first, mains_inr] using h.world.1, k5 _ h.world.2⟩
        decided := fun w hw => ⟨by simpa only [State.first, mains_inr] using (h.decided w hw).1, k5 _ (h.decided w hw).2⟩
        chainMain := by simpa only [State.first, mains_inr] using h.chainMain
        chainShutter := k1
        mainView := by simpa only [State.first, mains_inr] using h.mainView
        shutterView := k2
        sendShutter := fun _ hx => by simp [State.first] at hx
        crashed := fun hx => absurd hx hc }
    | some x =>
      exact { h with
        starting := fun m y hcan hx => by simp [State.first] at hx
        running := fun hcan hx => by
          obtain ⟨a1, a2, a3, a4, a5⟩ := hst hcan
          refine ⟨?_, ?_, ?_⟩
          · show newest (s.got ++ [Sum.inr v]) = some (x, v)
            rw [newest_inr, ← a1]; rfl
          · show s.decided = (worlds (s.got ++ [Sum.inr v])).tail
            rw [worlds_append, newest_inr, ← a1, a4, a5]; rfl
          · show worlds (s.got ++ [Sum.inr v]) ≠ []
            rw [worlds_append, newest_inr, ← a1, a4]; simp
        gotStart := fun m y hx => by simp [State.first] at hx
        world := ⟨by
          simp only [State.first, mains_inr]
          exact List.mem_cons_of_mem _ ((h.gotStart _ _ hk).1 x rfl), List.mem_cons_of_mem _ k3⟩
        decided := fun w hw => ⟨by simpa only [State.first, mains_inr] using (h.decided w hw).1, k5 _ (h.decided w hw).2⟩
        chainMain := by simpa only [State.first, mains_inr] using h.chainMain
        chainShutter := k1
        mainView := by simpa only [State.first, mains_inr] using h.mainView
        shutterView := k2
        sendShutter := fun _ hx => by simp [State.first] at hx
        crashed := fun hx => absurd hx hc }
  · rename_i v hv hk
    obtain ⟨k1, k2, k3, k4, k5⟩ := key v hv
    have hrun := fun hcan => h.running hcan (by simp [hk])
    simp only [Option.some.injEq] at ht; subst ht
    exact { h with
        starting := fun m y hcan hx => by simp [State.decide] at hx
        running := fun hcan hx => by
          obtain ⟨a1, a2, a3⟩ := hrun hcan
          have a4 := (newest_some a1).1
          refine ⟨?_, ?_, ?_⟩
          · show newest (s.got ++ [Sum.inr v]) = some (s.world.1, v)
            rw [newest_inr, a4]; rfl
          · show s.decided ++ [(s.world.1, v)] = (worlds (s.got ++ [Sum.inr v])).tail
            rw [worlds_append, newest_inr, a4, a2]
            exact (tail_snoc a3).symm
          · show worlds (s.got ++ [Sum.inr v]) ≠ []
            rw [worlds_append]; simp [a3]
        gotStart := fun m y hx => by simp [State.decide] at hx
        world := ⟨by simpa only [State.decide, mains_inr] using h.world.1, List.mem_cons_of_mem _ k3⟩
        decided := fun w hw => by
          simp only [State.decide, List.mem_append, List.mem_singleton] at hw
          rcases hw with hw | rfl
          · exact ⟨by simpa only [State.decide, mains_inr] using (h.decided w hw).1, k5 _ (h.decided w hw).2⟩
          · exact ⟨by simpa only [State.decide, mains_inr] using h.world.1, List.mem_cons_of_mem _ k3⟩
        chainMain := by simpa only [State.decide, mains_inr] using h.chainMain
        chainShutter := k1
        mainView := by simpa only [State.decide, mains_inr] using h.mainView
        shutterView := k2
        sendShutter := fun _ hx => by simp [State.decide] at hx
        crashed := fun hx => absurd hx hc }
  · simp at ht

theorem stepKeyper_inv {c : Code A B F M S} {m0 : M} {s0 : S} {s t : State F M S} {ev : Ev A B F} (h : Inv c m0 s0 s)
    (hs : s.crashed = false) (ht : stepKeyper s ev = some t) : Inv c m0 s0 t := by
  have hc : ¬ s.crashed = true := by simp [hs]
  cases ev with
  | takeMain => exact takeMain_inv h hs ht
  | takeShutter => exact takeShutter_inv h hs ht
  | goOn =>
    simp only [stepKeyper] at ht
    split at ht
    · rename_i hcan
      simp only [Option.some.injEq] at ht; subst ht
      exact { h with
        starting := fun _ _ _ hx => by simp at hx
        running := fun hx => by simp [hcan] at hx
        gotStart := fun _ _ hx => by simp at hx
        crashed := fun hx => absurd hx hc }
    · simp at ht
  | resumed ok =>
    simp only [stepKeyper] at ht
    split at ht
    · rename_i hk
      have hrun := fun hcan => h.running hcan (by simp [hk])
      cases ok <;> simp only [Bool.false_eq_true, if_false, if_true, Option.some.injEq] at ht <;> subst ht
      · exact { h with
          starting := fun _ _ _ hx => by simp at hx
          running := fun hx => by simp at hx
          gotStart := fun _ _ hx => by simp at hx
          crashed := fun hx => absurd hx hc }
      · exact { h with
          starting := fun _ _ _ hx => by simp at hx
          running := fun hcan _ => hrun hcan
          gotStart := fun _ _ hx => by simp at hx
          crashed := fun hx => absurd hx hc }
    · simp at ht
  | done ok f =>
    simp only [stepKeyper] at ht
    split at ht
    · rename_i hk
      have hrun := fun hcan => h.running hcan (by simp [hk])
      cases ok <;> simp only [Bool.false_eq_true, if_false, if_true, Option.some.injEq] at ht <;> subst ht
      · exact { h with
          starting := fun _ _ _ hx => by simp at hx
          running := fun hx => by simp at hx
          gotStart := fun _ _ hx => by simp at hx
          crashed := fun hx => absurd hx hc }
      · exact { h with
          starting := fun _ _ _ hx => by simp at hx
          running := fun hcan _ => hrun hcan
          gotStart := fun _ _ hx => by simp at hx
          filters := by
            have := h.filters
            simp only
            split
            · simp; omega
            · exact this
          crashed := fun hx => absurd hx hc }
    · simp at ht
  | keyperStops =>
    simp only [stepKeyper] at ht
    split at ht
    · rename_i hcan
      simp only [Option.some.injEq] at ht; subst ht
      exact { h with
        starting := fun _ _ _ hx => by simp at hx
        running := fun hx => by simp [hcan] at hx
        gotStart := fun _ _ hx => by simp at hx
        crashed := fun hx => absurd hx hc }
    · simp at ht
  | _ => simp [stepKeyper] at ht

/-- A step is a step of one of the tasks. -/
theorem step_cases {c : Code A B F M S} {s t : State F M S} {ev : Ev A B F} (ht : step c s ev = some t) :
    s.crashed = false ∧ ((ev = .cancel ∧ t = { s with cancelled := true }) ∨ stepMain c s ev = some t ∨
      stepShutter c s ev = some t ∨ stepKeyper s ev = some t) := by
  unfold step at ht
  split at ht
  · simp at ht
  · rename_i hc
    refine ⟨by simpa using hc, ?_⟩
    split at ht
    · simp only [Option.some.injEq] at ht
      exact Or.inl ⟨rfl, ht.symm⟩
    · split at ht
      · rename_i h1
        rw [h1, ht]; simp
      · split at ht
        · rename_i h1
          rw [h1, ht]; simp
        · rw [ht]; simp

theorem step_inv {c : Code A B F M S} {m0 : M} {s0 : S} {s t : State F M S} {ev : Ev A B F} (h : Inv c m0 s0 s)
    (ht : step c s ev = some t) : Inv c m0 s0 t := by
  obtain ⟨hs, ⟨_, rfl⟩ | h1 | h1 | h1⟩ := step_cases ht
  · have hc : ¬ s.crashed = true := by simp [hs]
    exact { h with
      starting := fun _ _ hx => by simp at hx
      running := fun hx => by simp at hx
      crashed := fun hx => absurd hx hc }
  · exact stepMain_inv h hs h1
  · exact stepShutter_inv h hs h1
  · exact stepKeyper_inv h hs h1

theorem steps_inv {c : Code A B F M S} {m0 : M} {s0 : S} {s t : State F M S} {evs : List (Ev A B F)} (h : Inv c m0 s0 s)
    (ht : steps c s evs = some t) : Inv c m0 s0 t := by
  induction evs generalizing s with
  | nil => simp only [steps, Option.some.injEq] at ht; exact ht ▸ h
  | cons e es ih =>
    simp only [steps, Option.bind_eq_some_iff] at ht
    obtain ⟨u, h1, h2⟩ := ht
    exact ih (step_inv h h1) h2

theorem reached_inv {c : Code A B F M S} {m0 : M} {s0 : S} {t : State F M S} (h : Reached c m0 s0 t) : Inv c m0 s0 t := by
  obtain ⟨evs, he⟩ := h
  exact steps_inv (inv_start c m0 s0) he

end Shutter.Tasks
