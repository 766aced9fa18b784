import Verif.Model.Keyper
import Verif.Spec.MainChain

/-! # Vocabulary for the life of a keyper between the two chains -/

namespace Shutter.Main
open Shutter.Sol

/-- A keyper's view of the main chain goes on: it syncs to a head its node reports, which is not behind the block it has
synced to; or the chain of its node is reorganized above that block. -/
inductive FollowStep (E : Env) : MainChain × (Nat → World) → MainChain × (Nat → World) → Prop
  | sync {mc mc' : MainChain} {hist : Nat → World} {head : Nat} {synced : Bool} : head < two64 →
      mc.currentBlock ≤ syncUntil mc head → syncToHead mc hist head synced = some mc' → FollowStep E (mc, hist) (mc', hist)
  | reorg {mc : MainChain} {hist hist' : Nat → World} : Chain E hist' → (∀ n, n ≤ mc.currentBlock → hist' n = hist n) →
      FollowStep E (mc, hist) (mc, hist')

/-- Any number of these steps. -/
abbrev Follows (E : Env) : MainChain × (Nat → World) → MainChain × (Nat → World) → Prop := Relation.ReflTransGen (FollowStep E)

end Shutter.Main

namespace Shutter.Decide
open Shutter.Crypto Shutter.Dkg Shutter.Observe Shutter.Main
open Shutter.Events (Codecs)

variable {G1 G2 GT R : Type} [AddCommGroup G1] [AddCommGroup G2] [DecidableEq G2] [DecidableEq GT]

/-- The life of a keyper: its saved view of shuttermint, its saved state, its saved view of the main chain, the chain its node
follows, and all rounds so far: the view of the main chain and the actions decided on. In a round (keyper.go:213-238, 405-418)
either view goes on, the keyper decides, state and views are saved, and the actions are run. A crash forgets what was not
saved. A restart loads what was saved (310-339); it may forget the pending half step (254-257; also gob does not
distinguish a pointer to zero from a nil pointer). -/
inductive Life (cx : Cfg G1 G2 GT R) (codecs : Codecs) (chain : Observe.Chain) (E : Sol.Env) (followDistance : Nat) :
    Observe.Shutter → State G1 G2 → MainChain → (Nat → Sol.World) → List (MainChain × List (Action G1 G2)) → Prop
  | init {hist : Nat → Sol.World} : Main.Chain E hist →
      Life cx codecs chain E followDistance newShutter (State.new G1 G2) (MainChain.new followDistance) hist []
  | round {s s' : Observe.Shutter} {st st' : State G1 G2} {mc mc' : MainChain} {hist hist' : Nat → Sol.World}
      {log : List (MainChain × List (Action G1 G2))} {ys : List LoopStep} {keys : List Nat} {acts : List (Action G1 G2)} :
      Life cx codecs chain E followDistance s st mc hist log → runLoop codecs chain s ys = some s' →
      (∀ f ∈ filtersOf ys, f.syncHeight ≤ st.syncHeight) → Follows E (mc, hist) (mc', hist') →
      keys.Nodup → (∀ k, k ∈ keys ↔ (mc'.accusations k).isSome) →
      decideStep cx s' mc' keys st = some (st', acts) →
      Life cx codecs chain E followDistance s' st' mc' hist' (log ++ [(mc', acts)])
  | restart {s : Observe.Shutter} {st : State G1 G2} {mc : MainChain} {hist : Nat → Sol.World}
      {log : List (MainChain × List (Action G1 G2))} (forget : Bool) : Life cx codecs chain E followDistance s st mc hist log →
      Life cx codecs chain E followDistance s { loadState s st with
        pendingHalfStep := if forget then none else st.pendingHalfStep } mc hist log

/-- The batches of the epoch secret key shares among some actions. -/
def sharesOf (acts : List (Action G1 G2)) : List Nat :=
  acts.filterMap (fun a => match a with
    | .epochSecretKeyShare _ epoch _ => some epoch
    | _ => none)

end Shutter.Decide

namespace Shutter.Sol

/-- The configs scheduled later do not start earlier. (The contract ensures it as long as no inactive config is scheduled.) -/
def InOrder (cs : List BatchConfig) : Prop := cs.Pairwise (fun a b => a.startBlockNumber ≤ b.startBlockNumber)

/-- Up to block `n`, no scheduled config was taken back. -/
def NoneTakenBack (hist : Nat → World) (n : Nat) : Prop :=
  ∀ k m, k ≤ m → m ≤ n → (hist k).config.scheduled <+: (hist m).config.scheduled

end Shutter.Sol
