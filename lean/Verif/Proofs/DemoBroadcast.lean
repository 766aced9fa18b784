import Verif.Props.Broadcast
import Verif.Proofs.DemoNet
import Verif.Proofs.SolDemo

/-! # The keypers of `DemoNet` vote for their eon key in the key broadcast contract -/

namespace Shutter.Net.Demo
open Shutter.App Shutter.Events Shutter.Events.Props Shutter.Observe Shutter.Decide Shutter.Decide.Spec Shutter.Decide.Props Shutter.Crypto Shutter.Net.Props
open Shutter.Decide.Props.HonestDemo (kC cxOf rounds)
open Shutter.App.Demo (ps)
open Shutter.Sol (World WorldReach)

/-! ## The lives -/

theorem filtersAt_none {codecs : Codecs} {chain : Chain} {P : Filter → Int → Prop} {ys : List LoopStep} (h : filtersOf ys = []) (s : Observe.Shutter) :
    FiltersAt codecs chain P s ys := by
  induction ys generalizing s with
  | nil => exact trivial
  | cons x xs ih =>
    cases x with
    | filter f => simp [filtersOf] at h
    | _ => exact ⟨fun f hf => by simp at hf, fun s' _ => ih (by simpa [filtersOf] using h) s'⟩

theorem lifeLog_attentive {G1 G2 GT R : Type} [AddCommGroup G1] [AddCommGroup G2] [DecidableEq G2] [DecidableEq GT] {cx : Cfg G1 G2 GT R} {codecs : Codecs}
    {chain : Chain} {mc : Main.MainChain} {rounds : List (List LoopStep)} (no : ∀ ys ∈ rounds, filtersOf ys = [])
    {r : List (Round G1 G2) × Observe.Shutter × Decide.State G1 G2} (h : lifeLog cx codecs chain mc rounds = some r) :
    Attentive cx codecs chain r.1 r.2.1 r.2.2 := by
  unfold lifeLog at h
  have : ∀ (rounds : List (List LoopStep)), (∀ ys ∈ rounds, filtersOf ys = []) → ∀ r0 : List (Round G1 G2) × Observe.Shutter × Decide.State G1 G2,
      Attentive cx codecs chain r0.1 r0.2.1 r0.2.2 → ∀ r, rounds.foldlM (fun r ys =>
        if (filtersOf ys).all (fun f => decide (f.syncHeight ≤ r.2.2.syncHeight)) then
          (runLoop codecs chain r.2.1 ys).bind (fun s => (decideStep cx s mc [] r.2.2).map (fun d =>
            (r.1 ++ [⟨decides cx s mc, s.currentBlock + 1, d.2⟩], s, d.1)))
        else none) r0 = some r → Attentive cx codecs chain r.1 r.2.1 r.2.2 := by
    intro rounds
    induction rounds with
    | nil => intro _ r0 h0 r hr; simp at hr; subst hr; exact h0
    | cons ys rounds ih =>
      intro hn r0 h0 r hr
      rw [List.foldlM_cons, Option.bind_eq_bind, Option.bind_eq_some_iff] at hr
      obtain ⟨r1, h1, h2⟩ := hr
      refine ih (fun y hy => hn y (List.mem_cons_of_mem _ hy)) r1 ?_ r h2
      split at h1
      · rw [Option.bind_eq_some_iff] at h1
        obtain ⟨s', h3, h4⟩ := h1
        rw [Option.map_eq_some_iff] at h4
        obtain ⟨d, h4, rfl⟩ := h4
        exact Attentive.round h0 h3 (filtersAt_none (hn ys (by simp)) _) h4
      · cases h1
  exact this rounds no _ Attentive.init r h

theorem attentive {i : Nat} {r : List (Round Zq Zq) × Observe.Shutter × Decide.State Zq Zq} (hr : lives i = some r) :
    Attentive (cxOf i) demoCodecs (appChain demoCodecs log) r.1 r.2.1 r.2.2 :=
  lifeLog_attentive (by decide) hr

theorem short : log.all (fun r => r.events.all (fun ev => match ev with
    | .batchConfig _ _ keypers _ => decide (keypers.length < 10)
    | .polyCommitment _ _ gammas => decide (gammas.length < 10)
    | _ => true)) = true := by decide +kernel

theorem counter : (App.Demo.stateOf false ops).eonCounter + 1 < 2 ^ 64 := by decide +kernel

theorem slices (i : Nat) : SlicesFit (cxOf i) demoCodecs (appChain demoCodecs log) := by
  intro upTo x hx
  obtain ⟨_, hpub⟩ := published_iff.1 hx
  obtain ⟨_, pre, r, post, hl, hr, _⟩ := (published_app exec fit sane counter _ _).1 hpub
  have := List.all_eq_true.1 (List.all_eq_true.1 short r (by rw [hl]; simp)) _ hr
  have hg : (cxOf i).gammas = List.map (fun b => Zq.of (beNat b)) := by unfold cxOf; split <;> rfl
  cases hev : x.ev <;> rw [hev] at this <;> simp only [decide_eq_true_eq] at this <;> simp only [hg, List.length_map] <;> omega

/-! ## The contracts -/

/-- The three keypers are those of the contracts' config as well. -/
def solSetup : List (Nat × Sol.Op) :=
  [.startBlockNumber 100, .batchSpan 10, .addKeypers [1, 2, 3], .threshold 2, .executionTimeout 30].map (fun o => (4, Sol.Op.config 1 (.set o))) ++
  [(4, .config 1 .schedule)]

/-- C votes first, for another key. -/
def votes : List (Nat × Sol.Op) := [(5, .vote 3 2 0 [9]), (6, .vote 1 0 0 [8]), (7, .vote 2 1 0 [8])]

def worldOf (l : List (Nat × Sol.Op)) : World := (Sol.Demo.run Sol.Demo.start l).getD Sol.Demo.start

theorem reach_of {l : List (Nat × Sol.Op)} (h : (Sol.Demo.run Sol.Demo.start l).isSome = true) : WorldReach Sol.Demo.env (worldOf l) := by
  obtain ⟨w, hw⟩ := Option.isSome_iff_exists.1 h
  unfold worldOf
  rw [hw]
  exact ⟨_, Sol.Demo.start_deployed, Sol.Demo.run_later hw⟩

def world : World := worldOf (solSetup ++ votes)

theorem world_reach : WorldReach Sol.Demo.env world := reach_of (by decide +kernel)

def genuineVotesOk (own : Addr) (rs : List (Round Zq Zq)) (w : World) (b : Nat) : Bool :=
  w.log.all (fun x => match x.2 with
    | .voted a b' key _ => decide (a ≠ addrNat own) || decide (b' ≠ b) ||
        rs.any (fun y => y.sent.any (fun act => match act.call (addrNat own) pointBytes [] with
          | some (.vote a' _ b'' key') => decide (a' = addrNat own) && decide (b'' = b) && decide (key' = key)
          | _ => false))
    | _ => true)

theorem genuineVotes_of {own : Addr} {rs : List (Round Zq Zq)} {w : World} {b : Nat} (h : genuineVotesOk own rs w b = true) : GenuineKeyVotes pointBytes own rs w b := by
  rintro key ⟨n, m, hv⟩
  have := List.all_eq_true.1 h _ hv
  simp only [ne_eq, not_true_eq_false, decide_false, Bool.false_or, List.any_eq_true] at this
  obtain ⟨y, hy, act, ha, h1⟩ := this
  split at h1
  · next a' k b'' key' hc =>
    simp only [Bool.and_eq_true, decide_eq_true_eq] at h1
    obtain ⟨⟨rfl, rfl⟩, rfl⟩ := h1
    exact ⟨y, hy, act, ha, k, hc⟩
  · cases h1

theorem genuine_A : (lives 0).map (fun r => genuineVotesOk (cxOf 0).own r.1 world 0) = some true := by decide +kernel
theorem genuine_B : (lives 1).map (fun r => genuineVotesOk (cxOf 1).own r.1 world 0) = some true := by decide +kernel

theorem genuineVotes {i : Nat} (hi : i ∈ ({0, 1} : Finset Nat)) {r : List (Round Zq Zq) × Observe.Shutter × Decide.State Zq Zq} (hr : lives i = some r) :
    GenuineKeyVotes pointBytes (cxOf i).own r.1 world 0 := by
  apply genuineVotes_of
  simp only [Finset.mem_insert, Finset.mem_singleton] at hi
  rcases hi with rfl | rfl
  · have := genuine_A; rw [hr] at this; simpa using this
  · have := genuine_B; rw [hr] at this; simpa using this

theorem only_eon : log.all (fun r => r.events.all (fun ev => match ev with
    | .eonStarted e' b => decide (b ≠ 0) || decide (e' = 1)
    | _ => true)) = true := by decide +kernel

theorem only : ∀ r ∈ log, ∀ e', .eonStarted e' 0 ∈ r.events → e' = 1 := by
  intro r hr e' he
  have := List.all_eq_true.1 (List.all_eq_true.1 only_eon r hr) _ he
  simpa using this

theorem oneKey {i : Nat} {r : List (Round Zq Zq) × Observe.Shutter × Decide.State Zq Zq} (hr : lives i = some r) : OneKey r.1 0 := by
  refine C76_one_key exec fit sane counter (fun p => zLawful.order_smul_G2 p) only (cx := cxOf i) ?_ (lifeLog_lived hr)
  unfold cxOf; split <;> decide

/-- Before B's vote. -/
def before : World := worldOf (solSetup ++ votes.take 2)

/-- The hypotheses of `C76_accepted` for B's vote. -/
theorem vote_ok : before.config.configIndexForBatchIndex 0 = some 1 ∧ (before.config.scheduledConfig 1).map (fun bc => (bc.batchSpan, bc.keypers[1]?)) = some (10, some 2) ∧
    2 ∉ before.voters 0 ∧ before.getNumVotes Sol.Demo.env 0 [8] = 1 := by decide +kernel

theorem before_reach : WorldReach Sol.Demo.env before := reach_of (by decide +kernel)

/-- **C76** The hypotheses of `C76_accepted` and of `C76_right_key` are met: A and B take part, C does not, and votes for another key, before the other two. -/
theorem C76_example :
    (∃ bc, WorldReach Sol.Demo.env before ∧ before.config.configIndexForBatchIndex 0 = some 1 ∧ before.config.scheduledConfig 1 = some bc ∧ 0 < bc.batchSpan ∧
      bc.keypers[1]? = some (addrNat kB) ∧ addrNat kB ∉ before.voters 0) ∧
    ∃ (lv : Nat → List (Round Zq Zq) × Observe.Shutter × Decide.State Zq Zq) (pk : Zq),
      (∀ i ∈ ({0, 1} : Finset Nat), Participates ps wire (cxOf i) demoCodecs log 1 batchConfig 2 (lv i).1 (lv i).2.1 (lv i).2.2 ∧
        Attentive (cxOf i) demoCodecs (appChain demoCodecs log) (lv i).1 (lv i).2.1 (lv i).2.2 ∧ SlicesFit (cxOf i) demoCodecs (appChain demoCodecs log) ∧
        GenuineKeyVotes pointBytes (cxOf i).own (lv i).1 world 0 ∧ OneKey (lv i).1 0) ∧
      WorldReach Sol.Demo.env world ∧ world.voters 0 = [3, 1, 2] ∧ 2 ≤ world.getBestKeyNumVotes 0 ∧
      Sol.Demo.env.keccak (world.getBestKey 0) = Sol.Demo.env.keccak (pointBytes pk) ∧ world.getBestKey 0 = [8] := by
  have voters : world.voters 0 = [3, 1, 2] := by decide +kernel
  have own : (cxOf 0).own = kA ∧ (cxOf 1).own = kB := by decide
  have nats : addrNat kA = 1 ∧ addrNat kB = 2 := by decide
  refine ⟨?_, ?_⟩
  · obtain ⟨h1, h2, h3, h4⟩ := vote_ok
    obtain ⟨bc, hbc, h5⟩ := Option.map_eq_some_iff.1 h2
    simp only [Prod.mk.injEq] at h5
    rw [nats.2]
    exact ⟨bc, before_reach, h1, hbc, by omega, h5.2, h3⟩
  · let lv := fun i => (lives i).getD ([], newShutter, State.new Zq Zq)
    have hlv : ∀ i ∈ ({0, 1} : Finset Nat), lives i = some (lv i) := by
      intro i hi
      obtain ⟨r, hr, _⟩ := Option.map_eq_some_iff.1 (check_of hi)
      simp [lv, hr]
    have hall : ∀ i ∈ ({0, 1} : Finset Nat), Participates ps wire (cxOf i) demoCodecs log 1 batchConfig 2 (lv i).1 (lv i).2.1 (lv i).2.2 ∧
        Attentive (cxOf i) demoCodecs (appChain demoCodecs log) (lv i).1 (lv i).2.1 (lv i).2.2 ∧ SlicesFit (cxOf i) demoCodecs (appChain demoCodecs log) ∧
        GenuineKeyVotes pointBytes (cxOf i).own (lv i).1 world 0 ∧ OneKey (lv i).1 0 := fun i hi =>
      ⟨participates hi (hlv i hi), attentive (hlv i hi), slices i, genuineVotes hi (hlv i hi), oneKey (hlv i hi)⟩
    obtain ⟨pk, _, h2, _⟩ := C76_right_key exec fit sane counter announced settled (by decide) (fun _ => wire) cxOf zEnv zLawful
      (List.map (fun b => Zq.of (beNat b))) (fun b => Zq.of (beNat b)) 3 (fun i => (lv i).1) (fun i => (lv i).2.1) (fun i => (lv i).2.2) {0, 1}
      (by intro i _; unfold cxOf; split <;> exact ⟨rfl, rfl, rfl, rfl⟩)
      (by intro i hi; simp only [Finset.mem_insert, Finset.mem_singleton] at hi; rcases hi with rfl | rfl <;> decide)
      (fun i hi => (hall i hi).1) (fun i hi => (hall i hi).2.1) (fun i hi => (hall i hi).2.2.1) (by decide) world_reach pointBytes
      (fun i hi => (hall i hi).2.2.2.1) (fun i hi => (hall i hi).2.2.2.2) {3}
      (by
        intro a ha
        rw [voters] at ha
        simp only [List.mem_cons, List.not_mem_nil, or_false] at ha
        rcases ha with rfl | rfl | rfl
        · left; simp
        · right; exact ⟨0, by simp, by rw [own.1, nats.1]⟩
        · right; exact ⟨1, by simp, by rw [own.2, nats.2]⟩)
    obtain ⟨h3, h4⟩ := h2 (by
      intro i hi
      rw [voters]
      simp only [Finset.mem_insert, Finset.mem_singleton] at hi
      rcases hi with rfl | rfl
      · rw [own.1, nats.1]; decide
      · rw [own.2, nats.2]; decide) (by decide)
    exact ⟨lv, pk, hall, world_reach, voters, by simpa using h3, h4, by decide +kernel⟩

end Shutter.Net.Demo
