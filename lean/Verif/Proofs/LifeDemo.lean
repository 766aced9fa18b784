import Verif.Proofs.Life
import Verif.Proofs.MainChainDemo
import Verif.Props.Driver
import Verif.Props.MainChain

/-! # Concrete lives of a keyper between the two chains -/

namespace Shutter.Decide
open Shutter.Crypto Shutter.Dkg Shutter.Observe Shutter.Main
open Shutter.Events (Codecs)
open Shutter.Sol (World Event two64)

variable {G1 G2 GT R : Type} [AddCommGroup G1] [AddCommGroup G2] [DecidableEq G2] [DecidableEq GT]

/-- A life so far. -/
structure Run (G1 G2 : Type) where
  s : Observe.Shutter
  st : State G1 G2
  mc : MainChain
  log : List (MainChain × List (Action G1 G2))

/-- The half steps that were accused. -/
def accusedIn (w : World) : List Nat :=
  (w.log.filterMap (fun e => match e.2 with
    | .accused h _ _ => some h
    | _ => none)).dedup

theorem mem_accusedIn {w : World} {h : Nat} : h ∈ accusedIn w ↔ ∃ n e s, (n, Event.accused h e s) ∈ w.log := by
  unfold accusedIn
  rw [List.mem_dedup, List.mem_filterMap]
  constructor
  · rintro ⟨⟨n, ev⟩, h1, h2⟩
    cases ev <;> simp at h2
    subst h2
    exact ⟨_, _, _, h1⟩
  · rintro ⟨n, e, s, h1⟩
    exact ⟨_, h1, rfl⟩

/-- One round: iterations of the loop of the view of shuttermint, heads the node of the main chain reports. -/
def lifeRound (cx : Cfg G1 G2 GT R) (codecs : Codecs) (chain : Observe.Chain) (hist : Nat → World) (r : Run G1 G2)
    (x : List LoopStep × List Nat) : Option (Run G1 G2) :=
  if (filtersOf x.1).all (fun f => decide (f.syncHeight ≤ r.st.syncHeight)) && x.2.all (fun h => decide (h < two64)) &&
      Main.Demo.forward hist r.mc x.2 then
    (runLoop codecs chain r.s x.1).bind (fun s =>
      (Main.Demo.syncs hist r.mc x.2).bind (fun mc =>
        (decideStep cx s mc (accusedIn (hist mc.currentBlock)) r.st).map (fun d => ⟨s, d.1, mc, r.log ++ [(mc, d.2)]⟩)))
  else none

def lifeRun (cx : Cfg G1 G2 GT R) (codecs : Codecs) (chain : Observe.Chain) (hist : Nat → World) (fd : Nat)
    (rounds : List (List LoopStep × List Nat)) : Option (Run G1 G2) :=
  rounds.foldlM (lifeRound cx codecs chain hist) ⟨newShutter, State.new G1 G2, MainChain.new fd, []⟩

theorem syncs_follows {E : Sol.Env} {hist : Nat → World} {heads : List Nat} {mc mc' : MainChain}
    (h64 : ∀ h ∈ heads, h < two64) (hf : Main.Demo.forward hist mc heads = true) (h : Main.Demo.syncs hist mc heads = some mc') :
    Follows E (mc, hist) (mc', hist) := by
  induction heads generalizing mc with
  | nil => simp [Main.Demo.syncs] at h; subst h; exact .refl
  | cons head heads ih =>
    rw [Main.Demo.syncs] at h
    obtain ⟨mc1, h1, h2⟩ := Option.bind_eq_some_iff.mp h
    simp [Main.Demo.forward, h1] at hf
    exact (Relation.ReflTransGen.single (FollowStep.sync (h64 head (by simp)) hf.1 h1)).trans
      (ih (fun x hx => h64 x (by simp [hx])) hf.2 h2)

theorem accused_keys {E fd mc hist} (o : Observed E fd false mc hist) (k : Nat) :
    k ∈ accusedIn (hist mc.currentBlock) ↔ (mc.accusations k).isSome := by
  rw [mem_accusedIn]
  constructor
  · rintro ⟨n, e, s, h⟩
    rw [Option.isSome_iff_ne_none]
    exact acc_known o n k e s h
  · intro h
    obtain ⟨a, ha⟩ := Option.isSome_iff_exists.mp h
    exact ⟨_, _, _, ((Main.Props.C57_accusations o k).2 a ha).2.2.2.2⟩

theorem lifeRound_life {cx : Cfg G1 G2 GT R} {codecs : Codecs} {chain : Observe.Chain} {E : Sol.Env} {hist : Nat → World} {fd : Nat}
    {x : List LoopStep × List Nat} {r r' : Run G1 G2} (l : Life cx codecs chain E fd r.s r.st r.mc hist r.log)
    (hr : lifeRound cx codecs chain hist r x = some r') : Life cx codecs chain E fd r'.s r'.st r'.mc hist r'.log := by
  unfold lifeRound at hr
  split at hr
  · next hf =>
    simp only [Bool.and_eq_true, List.all_eq_true, decide_eq_true_eq] at hf
    obtain ⟨⟨hf1, hf2⟩, hf3⟩ := hf
    rw [Option.bind_eq_some_iff] at hr
    obtain ⟨s, h1, hr⟩ := hr
    rw [Option.bind_eq_some_iff] at hr
    obtain ⟨mc, h2, hr⟩ := hr
    rw [Option.map_eq_some_iff] at hr
    obtain ⟨d, h3, rfl⟩ := hr
    have hfol : Follows E (r.mc, hist) (mc, hist) := syncs_follows hf2 hf3 h2
    exact Life.round l h1 hf1 hfol (List.nodup_dedup _)
      (accused_keys (follows_spec hfol (life_observed l).1).1) h3
  · cases hr

theorem lifeRun_life {cx : Cfg G1 G2 GT R} {codecs : Codecs} {chain : Observe.Chain} {E : Sol.Env} {hist : Nat → World} {fd : Nat}
    (hc : Main.Chain E hist) {rounds : List (List LoopStep × List Nat)} {r : Run G1 G2}
    (h : lifeRun cx codecs chain hist fd rounds = some r) : Life cx codecs chain E fd r.s r.st r.mc hist r.log := by
  unfold lifeRun at h
  exact foldlM_option_inv (fun r : Run G1 G2 => Life cx codecs chain E fd r.s r.st r.mc hist r.log) _
    (fun _ _ _ hr l => lifeRound_life l hr) _ _ _ h (Life.init hc)

theorem lifeRun_reach {cx : Cfg G1 G2 GT R} {codecs : Codecs} {chain : Observe.Chain} {hist : Nat → World} {fd : Nat}
    {rounds : List (List LoopStep × List Nat)} {r : Run G1 G2} (h : lifeRun cx codecs chain hist fd rounds = some r) :
    Reach cx codecs chain r.s r.st := by
  unfold lifeRun at h
  refine foldlM_option_inv (fun r : Run G1 G2 => Reach cx codecs chain r.s r.st) _ (fun r x r' hr l => ?_) _ _ _ h Reach.init
  unfold lifeRound at hr
  split at hr
  · next hf =>
    simp only [Bool.and_eq_true, List.all_eq_true, decide_eq_true_eq] at hf
    rw [Option.bind_eq_some_iff] at hr
    obtain ⟨s, h1, hr⟩ := hr
    rw [Option.bind_eq_some_iff] at hr
    obtain ⟨mc, h2, hr⟩ := hr
    rw [Option.map_eq_some_iff] at hr
    obtain ⟨d, h3, rfl⟩ := hr
    exact Reach.round l h1 hf.1.1 h3
  · cases hr

end Shutter.Decide
