import Verif.Proofs.TasksLive
import Verif.Proofs.MainChainDemo
import Verif.Props.Observe

/-! # C97: a keyper's tasks -/

namespace Shutter.Tasks.Props

variable {A B F M S : Type} {c : Code A B F M S} {m0 : M} {s0 : S} {t : State F M S}

/-- **C97** Until it is told to stop (or a task fails), a keyper decides exactly once for each view of one of the chains
that it gets, in order, with the newest views of both; it begins with the first view after it has got both. The views it
had stored before the restart play no role. -/
theorem C97_decides (h : Reached c m0 s0 t) (hc : t.cancelled = false) : t.decided = (worlds t.got).tail := by
  have hi := reached_inv h
  by_cases hk : ∃ m s, t.keyper = .starting m s
  · obtain ⟨m, s, hk⟩ := hk
    obtain ⟨_, _, _, h1, h2⟩ := hi.starting m s hc hk
    rw [h1, h2]; rfl
  · exact (hi.running hc (fun m s e => hk ⟨m, s, e⟩)).2.1

/-- **C97** Also afterwards, it decides only with views it got from its tasks, or with the stored ones. -/
theorem C97_known (h : Reached c m0 s0 t) : ∀ w ∈ t.decided, w.1 ∈ m0 :: mains t.got ∧ w.2 ∈ s0 :: shutters t.got :=
  (reached_inv h).decided

/-- **C97** No view is lost and none is handed over twice: each view of the main chain the keyper gets is what an answer of the node makes of
the one before (at first, of the stored one); the same for shuttermint, with some filters of the keyper applied first. -/
theorem C97_views (h : Reached c m0 s0 t) :
    (m0 :: mains t.got).IsChain (fun x y => ∃ a, c.syncMain a x = some y) ∧
    (s0 :: shutters t.got).IsChain (fun x y =>
      ∃ (fs : List F) (b : B), c.syncShutter b (fs.foldl (fun s f => c.applyFilter f s) x) = some y) :=
  ⟨(reached_inv h).chainMain, (reached_inv h).chainShutter⟩

/-- **C97** With the real chains: the keyper decides only with views of the main chain that C37 and C55 to C58 are about. -/
theorem C97_observed {hist : Nat → Sol.World} {cx : Events.Codecs} {chain : Observe.Chain} {E : Sol.Env} {fd : Nat}
    {m0 : Main.MainChain} {s0 : Observe.Shutter} {t : State Observe.Filter Main.MainChain Observe.Shutter}
    (h : Reached (realCode hist cx chain) m0 s0 t) (h0 : Main.Observed E fd true m0 hist) :
    ∀ w ∈ t.decided, Main.Observed E fd true w.1 hist := by
  intro w hw
  refine inv_mains (P := fun m => Main.Observed E fd true m hist) (reached_inv h) h0 (fun a x y hx hs => ?_) _ (C97_known h w hw).1
  exact .sync hx a.head.isLt (by simp) hs

theorem runLoop_append {cx : Events.Codecs} {chain : Observe.Chain} {s : Observe.Shutter} (xs ys : List Observe.LoopStep) :
    Observe.runLoop cx chain s (xs ++ ys) = (Observe.runLoop cx chain s xs).bind (fun s => Observe.runLoop cx chain s ys) := by
  induction xs generalizing s with
  | nil => simp [Observe.runLoop]
  | cons x xs ih =>
    simp only [List.cons_append, Observe.runLoop]
    cases Observe.loopStep cx chain s x <;> simp [ih]

/-- **C97** With the real chains: the keyper decides only with views of shuttermint that C35 and C36 are about. -/
theorem C97_run {hist : Nat → Sol.World} {cx : Events.Codecs} {chain : Observe.Chain}
    {m0 : Main.MainChain} {s0 : Observe.Shutter} {t : State Observe.Filter Main.MainChain Observe.Shutter}
    (h : Reached (realCode hist cx chain) m0 s0 t) : ∀ w ∈ t.decided, ∃ xs, Observe.runLoop cx chain s0 xs = some w.2 := by
  intro w hw
  refine inv_shutters (Q := fun s => ∃ xs, Observe.runLoop cx chain s0 xs = some s) (reached_inv h) ⟨[], rfl⟩
    (fun b x y hx hs => ?_) (fun f x hx => ?_) _ (C97_known h w hw).2
  · obtain ⟨xs, hx⟩ := hx
    refine ⟨xs ++ [.sync b.height b.committed b.catchingUp], ?_⟩
    rw [runLoop_append, hx]
    simp only [Option.bind_some, Observe.runLoop, Observe.loopStep]
    rw [show Observe.syncToHead cx chain x b.height b.committed b.catchingUp = some y from hs]; rfl
  · obtain ⟨xs, hx⟩ := hx
    refine ⟨xs ++ [.filter f], ?_⟩
    rw [runLoop_append, hx]
    rfl

/-- **C97** The tasks do not block each other: whatever happened before (lost connections, failed requests, views nobody took yet),
as long as the keyper was not told to stop and no task failed, it can go on, without anything bad happening, until it decides with
a new view of the main chain, and also until it decides with a new view of shuttermint. -/
theorem C97_goes_on {P : M → Prop} {Q : S → Prop} {NM : M → M → Prop} {NS : S → S → Prop} (h : Reached c m0 s0 t)
    (hc : t.cancelled = false) (hcr : t.crashed = false) (ans : Answers c P Q NM NS) (hm : P m0) (hs : Q s0) (f : F) :
    (∃ evs u ws x y z, (∀ e ∈ evs, Ev.bad e = false) ∧ steps c t evs = some u ∧ u.decided = t.decided ++ ws ++ [(y, z)] ∧ NM x y) ∧
    (∃ evs u ws x y z, (∀ e ∈ evs, Ev.bad e = false) ∧ steps c t evs = some u ∧ u.decided = t.decided ++ ws ++ [(y, z)] ∧ NS x z) := by
  have ha := reached_alive h hc hcr ans hm hs
  obtain ⟨u, ws, x, y, z, ⟨evs, h1, h2⟩, h3, h4⟩ := can_decideMain f ha ans
  obtain ⟨u', ws', x', y', z', ⟨evs', h1', h2'⟩, h3', h4'⟩ := can_decideShutter f ha ans
  exact ⟨⟨evs, u, ws, x, y, z, fun e he => by simpa using h1 e he, h2, h3, h4⟩,
    ⟨evs', u', ws', x', y', z', fun e he => by simpa using h1' e he, h2', h3', h4'⟩⟩

/-- **C97** Once the keyper has started, it keeps deciding, whatever the schedule: in any run in which nothing bad happens there are at most four steps
per decision, and ten more. -/
theorem C97_busy {P : M → Prop} {u : State F M S} {evs : List (Ev A B F)} (h : Reached c m0 s0 t)
    (hc : t.cancelled = false) (hk : ∀ m s, t.keyper ≠ .starting m s) (hm : P m0)
    (hP : ∀ a x y, P x → c.syncMain a x = some y → P y) (hok : ∀ a x, P x → (c.syncMain a x).isSome = true)
    (hb : ∀ e ∈ evs, Ev.bad e = false) (hu : steps c t evs = some u) :
    evs.length ≤ 10 + 4 * (u.decided.length - t.decided.length) := by
  have hi := reached_inv h
  have h1 := steps_fuel hi hm hP hok ⟨hc, hk⟩ hb hu
  have h2 := fuel_le hi.filters
  omega

/-- **C97** The same with the real chains. -/
theorem C97_busy_real {hist : Nat → Sol.World} {cx : Events.Codecs} {chain : Observe.Chain} {E : Sol.Env} {fd : Nat}
    {m0 : Main.MainChain} {s0 : Observe.Shutter} {t u : State Observe.Filter Main.MainChain Observe.Shutter}
    {evs : List (Ev MainAnswer ShutterAnswer Observe.Filter)} (h : Reached (realCode hist cx chain) m0 s0 t)
    (h0 : Main.Observed E fd true m0 hist) (hc : t.cancelled = false) (hk : ∀ m s, t.keyper ≠ .starting m s)
    (hb : ∀ e ∈ evs, Ev.bad e = false) (hu : steps (realCode hist cx chain) t evs = some u) :
    evs.length ≤ 10 + 4 * (u.decided.length - t.decided.length) :=
  C97_busy (P := fun m => Main.Observed E fd true m hist) h hc hk h0
    (fun a x y hx hs => .sync hx a.head.isLt (by simp) hs)
    (fun a x hx => Option.isSome_iff_exists.2 (Main.sync_ok hx a.head.isLt a.synced)) hb hu

/-- **C97** The keyper's channel for filters never holds more than three; it never waits for a place in it, since a task that decides
can always finish. -/
theorem C97_filters (h : Reached c m0 s0 t) : t.filters.length ≤ 3 ∧
    (t.crashed = false → t.keyper = .deciding → ∀ f, ∃ u, step c t (.done true f) = some u ∧ u.keyper = .idle ∧
      (t.filters.length < 3 → u.filters = t.filters ++ [f]) ∧ (t.filters.length = 3 → u.filters = t.filters)) := by
  refine ⟨(reached_inv h).filters, fun hcr hk f => ?_⟩
  refine ⟨{ t with keyper := .idle, filters := if t.filters.length < 3 then t.filters ++ [f] else t.filters },
    by simp [step, hcr, stepMain, stepShutter, stepKeyper, hk], rfl, fun h => by simp [h], fun h => by simp [h]⟩

/-- **C97** A keyper that is told to stop, or one of whose tasks failed, can end all tasks on its own, unless the connection to the
main chain is broken. -/
theorem C97_stops_partial (hc : t.cancelled = true) (hcr : t.crashed = false) (hm : ∀ r, t.main ≠ .reconnecting r) (f : F) :
    ∃ evs u, (∀ e ∈ evs, Ev.alone e = true) ∧ steps c t evs = some u ∧ u.Ended ∧ u.decided = t.decided := by
  obtain ⟨evs, h1, h2⟩ := can_end (c := c) f hc hcr hm
  exact ⟨evs, _, h1, h2, ⟨hcr, rfl, rfl, rfl⟩, rfl⟩

/-- **C97** If the connection to the main chain is broken, it cannot end, except by a panic, before a new connection is made. -/
theorem C97_broken {r : Bool} {u : State F M S} {evs : List (Ev A B F)} (hm : t.main = .reconnecting r)
    (hn : .mainSubscribed true ∉ evs) (h : steps c t evs = some u) : ¬ u.Ended := by
  rintro ⟨h1, h2, -⟩
  rcases steps_broken (.inr ⟨r, hm⟩) hn h with h3 | ⟨r', h3⟩
  · simp [h1] at h3
  · simp [h2] at h3

/-- **C97** A panic of a task that follows a chain has one of two reasons: the keyper is told to stop (or a task fails) while the connection to the main
chain is broken, or shuttermint's node shows a chain that is shorter than before (C35). -/
theorem C97_panic (h : Reached c m0 s0 t) (hcr : t.crashed = true) :
    (t.cancelled = true ∧ t.main = .reconnecting true) ∨ ∃ b x, c.syncShutter b x = none :=
  (reached_inv h).crashed hcr

/-- **C97** With the real chains: whatever happened before, as long as the keyper was not told to stop and no task failed, it can go on until it
decides with the view of the main chain at the node's head, and until it decides with the view of shuttermint at any height
from the one it knows on. -/
theorem C97_follows {hist : Nat → Sol.World} {cx : Events.Codecs} {chain : Observe.Chain} {E : Sol.Env} {fd : Nat}
    {m0 : Main.MainChain} {s0 : Observe.Shutter} {t : State Observe.Filter Main.MainChain Observe.Shutter}
    (h : Reached (realCode hist cx chain) m0 s0 t) (h0 : Main.Observed E fd true m0 hist) (hc : t.cancelled = false)
    (hcr : t.crashed = false) (head : Nat) (h64 : head < Sol.two64) (height : Int) :
    (∃ evs u ws y z, (∀ e ∈ evs, Ev.bad e = false) ∧ steps (realCode hist cx chain) t evs = some u ∧
      u.decided = t.decided ++ ws ++ [(y, z)] ∧
      ∃ x, Main.Observed E fd true x hist ∧ Main.syncToHead x hist head true = some y) ∧
    (∃ evs u ws y z, (∀ e ∈ evs, Ev.bad e = false) ∧ steps (realCode hist cx chain) t evs = some u ∧
      u.decided = t.decided ++ ws ++ [(y, z)] ∧ height ≤ z.currentBlock) := by
  have ans : Answers (realCode hist cx chain) (fun m => Main.Observed E fd true m hist) (fun _ => True)
      (fun x y => Main.Observed E fd true x hist ∧ Main.syncToHead x hist head true = some y)
      (fun _ y => height ≤ y.currentBlock) := by
    refine ⟨fun x hx => ?_, fun x _ => ?_, fun a x y hx hs => .sync hx a.head.isLt (by simp) hs, fun _ _ _ _ _ => trivial,
      fun _ _ _ => trivial⟩
    · obtain ⟨y, hy⟩ := Main.sync_ok hx h64 true
      exact ⟨⟨⟨head, h64⟩, true⟩, y, hy, hx, hy⟩
    · obtain ⟨y, hy⟩ := Observe.Props.C35_no_panic (cx := cx) (chain := chain) [.sync (max height x.currentBlock) 0 false] x
        (by simp)
      simp only [Observe.runLoop, Observe.loopStep] at hy
      obtain ⟨y', h1, h2⟩ := Option.bind_eq_some_iff.1 hy
      refine ⟨⟨max height x.currentBlock, 0, false⟩, y', h1, ?_⟩
      unfold Observe.syncToHead at h1
      split at h1
      · next he => simp only [Option.some.injEq] at h1; subst h1; omega
      · simp only [Observe.syncToHeight, Option.map_eq_some_iff] at h1
        obtain ⟨r, _, rfl⟩ := h1
        simp only
        omega
  obtain ⟨⟨evs, u, ws, x, y, z, h1, h2, h3, h4⟩, ⟨evs', u', ws', x', y', z', h1', h2', h3', h4'⟩⟩ :=
    C97_goes_on h hc hcr ans h0 trivial ⟨0, 0⟩
  exact ⟨⟨evs, u, ws, y, z, h1, h2, h3, x, h4⟩, ⟨evs', u', ws', y', z', h1', h2', h3', h4'⟩⟩

/-! ## Examples -/

/-- Views are heights (in thousands: the filter); shuttermint's node may not go back. -/
def demo : Code Nat Nat Nat Nat Nat where
  syncMain a x := if a = 0 then none else some (a + x - x)
  syncShutter b x := if b < x % 1000 then none else some (b + 1000 * (x / 1000))
  applyFilter f x := x % 1000 + 1000 * f

theorem some_getD {α : Type} {o : Option α} (d : α) (h : o.isSome = true) : o = some (o.getD d) := by
  cases o with
  | none => simp at h
  | some a => rfl

/-- A run in which shuttermint comes first; then the connection to the main chain is lost. -/
def demoRun : List (Ev Nat Nat Nat) :=
  [.shutterSubscribed true, .block (some 7), .takeShutter, .mainSubscribed true, .header none, .header (some 0), .header (some 10),
    .block (some 8), .takeShutter, .takeMain, .block (some 9), .header (some 11), .resumed true, .takeMain, .mainLost, .done true 3,
    .mainSubscribed false, .takeShutter, .filter, .done true 4, .mainSubscribed true, .block (some 9), .takeShutter]

/-- The hypotheses of `C97_decides`, `C97_goes_on` and `C97_views` are met: the stored views are 5 and 6, the keyper decides with the
views 11 and 8, then with 11 and 9, and then with the filter applied. -/
theorem C97_example : ∃ t, Reached demo 5 6 t ∧ t.cancelled = false ∧ t.crashed = false ∧
    t.got = [.inr 7, .inr 8, .inl 10, .inl 11, .inr 9, .inr 3009] ∧ t.decided = [(11, 8), (11, 9), (11, 3009)] ∧
    t.filters = [4] ∧ Answers demo (fun _ => True) (fun _ => True) (fun _ y => y = 12) (fun x y => y % 1000 = x % 1000) := by
  refine ⟨(steps demo (State.start 5 6) demoRun).getD (State.start 0 0), ⟨demoRun, some_getD _ (by decide +kernel)⟩, by decide +kernel,
    by decide +kernel, by decide +kernel, by decide +kernel, by decide +kernel, ?_⟩
  refine ⟨fun x _ => ⟨12, 12, by simp [demo], rfl⟩, fun x _ => ⟨x % 1000, x % 1000 + 1000 * (x / 1000), by simp [demo], ?_⟩,
    fun _ _ _ _ _ => trivial, fun _ _ _ _ _ => trivial, fun _ _ _ => trivial⟩
  omega

/-- After it is told to stop, a keyper may still decide with a stored view: here it stops waiting for the views at the start, but then gets one
of the main chain before it looks at the context again. -/
theorem C97_decides_counterexample : ∃ t, Reached demo 5 6 t ∧ t.cancelled = true ∧ t.got = [.inl 10] ∧ t.decided = [(10, 6)] := by
  let evs : List (Ev Nat Nat Nat) :=
    [.mainSubscribed true, .header (some 10), .cancel, .goOn, .resumed true, .takeMain]
  exact ⟨(steps demo (State.start 5 6) evs).getD (State.start 0 0), ⟨evs, some_getD _ (by decide +kernel)⟩, by decide +kernel, by decide +kernel,
    by decide +kernel⟩

/-- **C97** A keyper that is told to stop while its node of the main chain is away panics: `reconnect` returns and the subscription is
`nil`. -/
theorem C97_stops_counterexample : ∃ t u, Reached demo 5 6 t ∧ t.cancelled = true ∧ t.crashed = false ∧
    t.main = .reconnecting true ∧ step demo t .mainGivesUp = some u ∧ u.crashed = true := by
  let evs : List (Ev Nat Nat Nat) :=
    [.shutterSubscribed true, .mainSubscribed true, .header (some 10), .block (some 8), .takeShutter, .takeMain, .resumed true,
      .mainLost, .mainSubscribed false, .mainSubscribed false, .cancel]
  let t := (steps demo (State.start 5 6) evs).getD (State.start 0 0)
  exact ⟨t, (step demo t .mainGivesUp).getD t, ⟨evs, some_getD _ (by decide +kernel)⟩, by decide +kernel, by decide +kernel, by decide +kernel,
    some_getD _ (by decide +kernel), by decide +kernel⟩

/-- The hypotheses of `C97_stops_partial` are met: the keyper of the example above, told to stop while it decides. -/
theorem C97_stops_example : ∃ t, Reached demo 5 6 t ∧ t.cancelled = true ∧ t.crashed = false ∧ (∀ r, t.main ≠ .reconnecting r) ∧
    t.keyper = .deciding ∧ t.decided ≠ [] := by
  refine ⟨(steps demo (State.start 5 6) (demoRun ++ [.cancel])).getD (State.start 0 0), ⟨demoRun ++ [.cancel], some_getD _ (by decide +kernel)⟩,
    by decide +kernel, by decide +kernel, fun r => ?_, by decide +kernel, by decide +kernel⟩
  have : ((steps demo (State.start 5 6) (demoRun ++ [.cancel])).getD (State.start 0 0)).main = .waiting := by decide +kernel
  rw [this]; simp

/-- The hypotheses of `C97_follows` are met while the connection to the example's main chain is broken, with any shuttermint. -/
theorem C97_follows_example (cx : Events.Codecs) (chain : Observe.Chain) : ∃ t : State Observe.Filter _ _,
    Reached (realCode Main.Demo.hist cx chain) (Main.MainChain.new 3) Observe.newShutter t ∧
    Main.Observed Sol.Demo.env 3 true (Main.MainChain.new 3) Main.Demo.hist ∧ t.cancelled = false ∧ t.crashed = false ∧
    t.main = .reconnecting true ∧ ((Main.MainChain.new 3).configs.length = 0 ∧ ∃ y, Main.syncToHead (Main.MainChain.new 3) Main.Demo.hist 117 true = some y ∧
      y.currentBlock = 114 ∧ y.configs.length = 2) :=
  ⟨{ State.start _ _ with main := .reconnecting true },
    ⟨[.mainSubscribed true, .header none, .mainLost, .mainSubscribed false], rfl⟩, .start Main.Demo.chain, rfl, rfl, rfl, rfl,
    (Main.syncToHead (Main.MainChain.new 3) Main.Demo.hist 117 true).getD (Main.MainChain.new 3),
    some_getD _ (by decide +kernel), by decide +kernel, by decide +kernel⟩

/-- The hypotheses of `C97_busy` are met: in eleven steps after the example, the keyper decides three times more. (In `demo`, an answer of 0 is
an error, so that here the answers are those of another node.) -/
theorem C97_busy_example :
    let c : Code Nat Nat Nat Nat Nat := { demo with syncMain := fun a _ => some a }
    ∃ t u, Reached c 5 6 t ∧ t.cancelled = false ∧ (∀ m s, t.keyper ≠ .starting m s) ∧ (∀ a x, (c.syncMain a x).isSome = true) ∧
      ∃ evs, (∀ e ∈ evs, Ev.bad e = false) ∧ evs.length = 11 ∧ steps c t evs = some u ∧ u.decided.length = t.decided.length + 3 := by
  intro c
  let evs : List (Ev Nat Nat Nat) := [.done true 1, .header (some 12), .takeMain, .done true 2, .block (some 9), .takeShutter, .filter,
    .filter, .header (some 13), .done true 3, .takeMain]
  let run : List (Ev Nat Nat Nat) := demoRun.erase (.header (some 0))
  let t := (steps c (State.start 5 6) run).getD (State.start 0 0)
  refine ⟨t, (steps c t evs).getD t, ⟨run, some_getD _ (by decide +kernel)⟩, by decide +kernel, fun m s => ?_, fun _ _ => rfl, evs,
    by decide +kernel, rfl, some_getD _ (by decide +kernel), by decide +kernel⟩
  have : t.keyper = .deciding := by decide +kernel
  rw [this]; simp

end Shutter.Tasks.Props
