import Verif.Proofs.Once
import Verif.Proofs.DemoOnce
import Verif.Props.Appeals

/-! Property theorems C65 (shuttermint/keyper/decide.go: nothing is decided twice). -/

namespace Shutter.Decide.Props
open Shutter.Crypto Shutter.Dkg Shutter.Observe Shutter.Decide Shutter.Main
open Shutter.Events (Codecs)
open Shutter.Sol (World)

variable {G1 G2 GT R : Type} [AddCommGroup G1] [AddCommGroup G2] [DecidableEq G2] [DecidableEq GT]
variable {cx : Cfg G1 G2 GT R} {codecs : Codecs} {chain : Observe.Chain} {E : Sol.Env} {fd : Nat}
variable {s : Observe.Shutter} {st : State G1 G2} {mc : MainChain} {hist : Nat → World} {log : List (MainChain × List (Action G1 G2))}

/-- **C65** In its whole life, with all crashes, restarts and reorganizations, a keyper accuses the executors of half steps in the
order of the half steps, each at most once. -/
theorem C65_accusations (l : Life cx codecs chain E fd s st mc hist log) : (log.flatMap (fun e => accusedBy e.2)).Pairwise (· < ·) :=
  (life_accused l).1

/-- **C65** In its whole life a keyper appeals at most once against an accusation. -/
theorem C65_appeals (l : Life cx codecs chain E fd s st mc hist log) : (log.flatMap (fun e => appealedBy e.2)).Nodup :=
  (life_appealed l).1

/-- **C65** In its whole life a keyper checks in at most once, and votes for batch configs in order, at most once for each index. -/
theorem C65_votes (l : Life cx codecs chain E fd s st mc hist log) :
    (log.flatMap (fun e => checkInsOf e.2)).length ≤ 1 ∧ (log.flatMap (fun e => votesOf e.2)).Pairwise (· < ·) := by
  obtain ⟨h1, h2, _⟩ := life_first l
  exact ⟨by rw [h1]; split <;> omega, h2⟩

/-- **C65** Between two restarts that make it forget the pending half step, a keyper decides to execute or skip half steps in order,
each at most once. Missing: such restarts (see `C65_restart_counterexample`). -/
theorem C65_half_steps_partial {s₀ : Observe.Shutter} {st₀ : State G1 G2} {mc₀ : MainChain} {hist₀ : Nat → World}
    {log₀ : List (MainChain × List (Action G1 G2))} (l : Life cx codecs chain E fd s₀ st₀ mc₀ hist₀ log₀)
    (h : Steady cx codecs chain E s₀ st₀ mc₀ hist₀ s st mc hist log) :
    (log.flatMap (fun e => halfStepsOf e.2)).Pairwise (· < ·) ∧ Life cx codecs chain E fd s st mc hist (log₀ ++ log) :=
  ⟨(steady_halfSteps l h).1, h.life l⟩

/-- A `Life` without restarts is steady. -/
theorem lifeRun_steady {hist : Nat → World} (hc : Main.Chain E hist) {rounds : List (List LoopStep × List Nat)} {r : Run G1 G2}
    (h : lifeRun cx codecs chain hist fd rounds = some r) :
    Steady cx codecs chain E newShutter (State.new G1 G2) (MainChain.new fd) hist r.s r.st r.mc hist r.log := by
  unfold lifeRun at h
  refine foldlM_option_inv (fun r : Run G1 G2 => Steady cx codecs chain E newShutter (State.new G1 G2) (MainChain.new fd) hist
    r.s r.st r.mc hist r.log) _ ?_ _ _ _ h .start
  intro r x r' hr l
  unfold lifeRound at hr
  split at hr
  · next hf =>
    simp only [Bool.and_eq_true, List.all_eq_true, decide_eq_true_eq] at hf
    obtain ⟨⟨hf1, hf2⟩, hf3⟩ := hf
    rw [Option.bind_eq_some_iff] at hr
    obtain ⟨s, h1, hr⟩ := hr
    rw [Option.bind_eq_some_iff] at hr
    obtain ⟨mc, h2, hr⟩ := hr
    rw [Option.map_eq_some_iff] at hr
    obtain ⟨d, h3, rfl⟩ := hr
    have hfol : Follows E (r.mc, hist) (mc, hist) := syncs_follows hf2 hf3 h2
    exact .round l h1 hf1 hfol (List.nodup_dedup _)
      (accused_keys (follows_spec hfol (life_observed (l.life (Life.init (followDistance := fd) hc))).1).1) h3
  · cases hr

section demo
open Shutter.Events Shutter.Events.Props

/-- In the demo keyper A checks in, executes both parts of batch 0 and appeals. -/
theorem C65_example : ∃ r : Run Zq Zq,
    Steady Demo.cxA demoCodecs Demo.shares Demo.env newShutter (State.new Zq Zq) (MainChain.new 3) Demo.hist r.s r.st r.mc Demo.hist r.log ∧
    r.log.flatMap (fun e => checkInsOf e.2) = [()] ∧ r.log.flatMap (fun e => halfStepsOf e.2) = [0, 1] ∧
    r.log.flatMap (fun e => appealedBy e.2) = [0] := by
  have h := Demo.actionsA_eq
  unfold Demo.actionsA at h
  rw [Option.map_eq_some_iff] at h
  obtain ⟨r, hr, hl⟩ := h
  have key : ∀ {β : Type} (f : List (Action Zq Zq) → List β), r.log.flatMap (fun e => f e.2) =
      (r.log.map (fun e => (e.1.currentBlock, e.2))).flatMap (fun e => f e.2) := by
    intro β f; rw [List.flatMap_map]
  refine ⟨r, lifeRun_steady Demo.chain hr, ?_, ?_, ?_⟩ <;> rw [key, hl] <;> rfl

/-- If a restart makes the keyper forget the pending half step (because its transaction was already mined but not seen yet, or
because the half step is zero), it decides to execute the same half steps again. -/
theorem C65_restart_counterexample : ∃ r : Run Zq Zq, Life Demo.cxA demoCodecs Demo.shares Demo.env 3 r.s r.st r.mc Demo.hist r.log ∧
    ¬ (r.log.flatMap (fun e => halfStepsOf e.2)).Nodup := by
  have h := twiceRun_facts
  rw [Option.any_eq_true] at h
  obtain ⟨r, hr, hf⟩ := h
  unfold twiceRun at hr
  rw [Option.bind_eq_some_iff] at hr
  obtain ⟨r0, h0, hr⟩ := hr
  rw [if_pos rfl] at hr
  have l0 := Demo.runA_life h0
  have l1 : Life Demo.cxA demoCodecs Demo.shares Demo.env 3 (forgetful r0).s (forgetful r0).st (forgetful r0).mc Demo.hist (forgetful r0).log :=
    Life.restart true l0
  refine ⟨r, lifeRound_life l1 hr, fun hnd => ?_⟩
  simp only [twiceFacts, decide_eq_true_eq] at hf
  rw [← List.take_append_drop 5 r.log, List.flatMap_append, List.nodup_append] at hnd
  have h2 := hnd.2.1
  have key : (r.log.drop 5).flatMap (fun e => halfStepsOf e.2) =
      ((r.log.drop 5).map (fun e => (e.1.currentBlock, halfStepsOf e.2))).flatMap Prod.snd := by rw [List.flatMap_map]
  rw [key, hf] at h2
  revert h2
  decide

end demo

end Shutter.Decide.Props
