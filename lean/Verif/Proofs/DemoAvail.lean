import Verif.Proofs.Avail
import Verif.Proofs.LifeWorld
import Verif.Spec.Sent

/-! # Concrete lives in which the shares for a batch are published -/

namespace Shutter.Decide.Props.AvailDemo
open Shutter.Crypto Shutter.Dkg Shutter.Observe Shutter.Decide Shutter.Decide.Spec Shutter.Decide.Props
open Shutter.Events Shutter.Events.Props
open Shutter.App (Addr)

/-- A check for `FiltersAt`. -/
def filtersOk (codecs : Codecs) (chain : Chain) (p : Filter → Int → Bool) : Observe.Shutter → List LoopStep → Bool
  | _, [] => true
  | s, x :: xs => (match x with
      | .filter f => p f s.currentBlock
      | _ => true) && (match loopStep codecs chain s x with
      | none => true
      | some s' => filtersOk codecs chain p s' xs)

theorem filtersOk_at {codecs : Codecs} {chain : Chain} {p : Filter → Int → Bool} {s : Observe.Shutter} {ys : List LoopStep}
    (h : filtersOk codecs chain p s ys = true) : FiltersAt codecs chain (fun f seen => p f seen = true) s ys := by
  induction ys generalizing s with
  | nil => exact trivial
  | cons x xs ih =>
    unfold filtersOk at h
    rw [Bool.and_eq_true] at h
    refine ⟨fun f hf => ?_, fun s' hs' => ih ?_⟩
    · subst hf; exact h.1
    · have := h.2
      rw [hs'] at this
      exact this

/-- A life: what the keyper sees of shuttermint in each round, and the heads of the main chain it has seen up to then. With `attentive`, a
filter is only applied to a view the keyper has decided on. -/
def lives (attentive : Bool) (cx : Cfg Zq Zq (Multiplicative Zq) Unit) (chain : Chain) (rounds : List (List LoopStep × List Nat)) :
    Option (List (Round Zq Zq) × Observe.Shutter × State Zq Zq) :=
  rounds.foldlM (fun r x =>
    if filtersOk demoCodecs chain (fun f seen => decide (f.syncHeight ≤ r.2.2.syncHeight) && (!attentive || decide (seen < r.2.2.syncHeight)))
        r.2.1 x.1 then
      (runLoop demoCodecs chain r.2.1 x.1).bind (fun s => (Main.Demo.syncs Demo.hist (Main.MainChain.new 3) x.2).bind (fun mc =>
        (decideStep cx s mc [] r.2.2).map (fun d => (r.1 ++ [⟨decides cx s mc, s.currentBlock + 1, d.2⟩], s, d.1))))
    else none) ([], newShutter, State.new Zq Zq)

theorem lives_attentive {cx : Cfg Zq Zq (Multiplicative Zq) Unit} {chain : Chain} {rounds : List (List LoopStep × List Nat)}
    {r : List (Round Zq Zq) × Observe.Shutter × State Zq Zq} (h : lives true cx chain rounds = some r) :
    Attentive cx demoCodecs chain r.1 r.2.1 r.2.2 := by
  unfold lives at h
  refine foldlM_option_inv (fun r : List (Round Zq Zq) × Observe.Shutter × State Zq Zq => Attentive cx demoCodecs chain r.1 r.2.1 r.2.2) _ ?_ _ _ _ h
    Attentive.init
  intro r x r' hr hl
  split at hr
  · next hf =>
    rw [Option.bind_eq_some_iff] at hr
    obtain ⟨s', h1, h2⟩ := hr
    rw [Option.bind_eq_some_iff] at h2
    obtain ⟨mc, _, h2⟩ := h2
    rw [Option.map_eq_some_iff] at h2
    obtain ⟨d, h2, rfl⟩ := h2
    refine Attentive.round hl h1 ?_ h2
    have := filtersOk_at hf
    simpa using this
  · cases hr

theorem filtersAt_all {codecs : Codecs} {chain : Chain} {P : Filter → Int → Prop} {Q : Filter → Prop} {s s' : Observe.Shutter} {ys : List LoopStep}
    (h : FiltersAt codecs chain P s ys) (hr : runLoop codecs chain s ys = some s') (pq : ∀ f n, P f n → Q f) : ∀ f ∈ filtersOf ys, Q f := by
  induction ys generalizing s with
  | nil => intro f hf; cases hf
  | cons x xs ih =>
    rw [runLoop, Option.bind_eq_some_iff] at hr
    obtain ⟨s1, h1, h2⟩ := hr
    have := ih (h.2 s1 h1) h2
    intro f hf
    cases x with
    | filter g =>
      rcases List.mem_cons.1 hf with rfl | hf
      · exact pq _ _ (h.1 _ rfl)
      · exact this f hf
    | _ => exact this f hf

theorem lives_lived {cx : Cfg Zq Zq (Multiplicative Zq) Unit} {chain : Chain} {rounds : List (List LoopStep × List Nat)} {b : Bool}
    {r : List (Round Zq Zq) × Observe.Shutter × State Zq Zq} (h : lives b cx chain rounds = some r) :
    Lived cx demoCodecs chain r.1 r.2.1 r.2.2 := by
  unfold lives at h
  refine foldlM_option_inv (fun r : List (Round Zq Zq) × Observe.Shutter × State Zq Zq => Lived cx demoCodecs chain r.1 r.2.1 r.2.2) _ ?_ _ _ _ h
    Lived.init
  intro r x r' hr hl
  split at hr
  · next hf =>
    rw [Option.bind_eq_some_iff] at hr
    obtain ⟨s', h1, h2⟩ := hr
    rw [Option.bind_eq_some_iff] at h2
    obtain ⟨mc, _, h2⟩ := h2
    rw [Option.map_eq_some_iff] at h2
    obtain ⟨d, h2, rfl⟩ := h2
    refine Lived.round hl h1 ?_ h2
    have := filtersOk_at hf
    exact filtersAt_all this h1 (fun f n hp => by simp only [Bool.and_eq_true, decide_eq_true_eq] at hp; exact hp.1)
  · cases hr

/-- After each round the view is filtered. -/
def rounds : List (List LoopStep × List Nat) :=
  [([.sync 2 2 false], [50]), ([.filter ⟨3, 0⟩, .sync 4 4 false], [50]), ([.filter ⟨5, 0⟩, .sync 6 6 false], [50]),
    ([.filter ⟨7, 0⟩, .sync 8 8 false], [50, 110, 112]),
    ([.filter ⟨9, 0⟩], [50, 110, 112, 113]), ([.filter ⟨9, 0⟩, .sync 9 9 false], [50, 110, 112, 113, 114])]

/-- The same, but the filter after the round at height 8 is not received, and the node has not caught up when the view has the share: the
keyper does nothing in that round, but the view is filtered. -/
def missed : List (List LoopStep × List Nat) :=
  rounds.take 4 ++ [([], [50, 110, 112, 113]), ([.sync 9 9 true], [50, 110, 112, 113, 114]), ([.filter ⟨9, 0⟩, .sync 10 10 false], [50, 110, 112, 113, 114])]

/-- What has to be known of a life. -/
structure Seen where
  height : Int
  dkgs : List (Nat × Bool × List Addr × Nat × Nat)
  key : List (Nat × Option (Option Zq))
  shared : List (Int × Zq)
  com : List (Int × List Zq)
  acc : List (Int × List Addr)
  apo : List (Int × List Addr × List Int)
  online : List Bool
  results : List (Option (Zq × List Zq × Nat))
deriving DecidableEq

def seen (r : List (Round Zq Zq) × Observe.Shutter × State Zq Zq) : Seen where
  height := r.2.2.syncHeight
  dkgs := r.2.2.dkgs.map (fun d => (d.eon, decide (d.pure.state.phase = finalized), d.keypers, d.startBatchIndex, d.pure.state.threshold))
  key := r.2.2.ekgs.map (fun e => (e.eon, e.kg.secretKeys 0))
  shared := said (sharesFor 1 0) r.1
  com := said (commitmentsFor 1) r.1
  acc := said (accusationsFor 1) r.1
  apo := said (apologiesFor 1) r.1
  online := [(firstIn 2 2 0 r.1).isSome, (firstIn 2 2 1 r.1).isSome, (firstIn 2 2 2 r.1).isSome]
  results := r.2.2.dkgs.map (fun d => (computeResult zEnv d.pure.state).map (fun x => (x.publicKey, x.publicKeyShares, x.threshold)))

theorem seen_A : (lives true Demo.cxA Demo.shares rounds).map seen = some ⟨10, [(1, true, [kA, kB], 0, 1)],
    [(1, some (some ((8 : Nat) • epochIDOf zEnv 0)))], [(9, (8 : Nat) • epochIDOf zEnv 0)], [(3, [Zq.of 3])], [], [],
    [true, true, true], [some (Zq.of 8, [Zq.of 8, Zq.of 8], 1)]⟩ := by decide +kernel
theorem seen_missed : (lives false Demo.cxA Demo.shares missed).map seen = some ⟨11, [(1, true, [kA, kB], 0, 1)],
    [(1, none)], [(9, (8 : Nat) • epochIDOf zEnv 0)], [(3, [Zq.of 3])], [], [],
    [true, true, true], [some (Zq.of 8, [Zq.of 8, Zq.of 8], 1)]⟩ := by decide +kernel

end Shutter.Decide.Props.AvailDemo
