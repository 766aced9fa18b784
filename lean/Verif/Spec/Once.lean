import Verif.Spec.Life
import Verif.Spec.Batches

/-! # Vocabulary: what a keyper decides on over several rounds -/

namespace Shutter.Decide
open Shutter.Crypto Shutter.Dkg Shutter.Observe Shutter.Main
open Shutter.Events (Codecs)

variable {G1 G2 GT R : Type}

/-- The half steps accused by some actions. -/
def accusedBy (acts : List (Action G1 G2)) : List Nat := acts.filterMap (fun a => match a with
  | .accuse h _ => some h
  | _ => none)

/-- The half steps appealed by some actions. -/
def appealedBy (acts : List (Action G1 G2)) : List Nat := acts.filterMap (fun a => match a with
  | .appeal x => some x.halfStep
  | _ => none)

/-- The indices of the batch configs voted for by some actions. -/
def votesOf (acts : List (Action G1 G2)) : List Nat := acts.filterMap (fun a => match a with
  | .batchConfig _ _ _ index => some index
  | _ => none)

/-- The check-ins among some actions. -/
def checkInsOf (acts : List (Action G1 G2)) : List Unit := acts.filterMap (fun a => match a with
  | .checkIn => some ()
  | _ => none)

variable [AddCommGroup G1] [AddCommGroup G2] [DecidableEq G2] [DecidableEq GT]

/-- A part of the life of a keyper (see `Life`) during which no restart makes it forget the pending half step. -/
inductive Steady (cx : Cfg G1 G2 GT R) (codecs : Codecs) (chain : Observe.Chain) (E : Sol.Env)
    (s₀ : Observe.Shutter) (st₀ : State G1 G2) (mc₀ : MainChain) (hist₀ : Nat → Sol.World) :
    Observe.Shutter → State G1 G2 → MainChain → (Nat → Sol.World) → List (MainChain × List (Action G1 G2)) → Prop
  | start : Steady cx codecs chain E s₀ st₀ mc₀ hist₀ s₀ st₀ mc₀ hist₀ []
  | round {s s' : Observe.Shutter} {st st' : State G1 G2} {mc mc' : MainChain} {hist hist' : Nat → Sol.World}
      {log : List (MainChain × List (Action G1 G2))} {ys : List LoopStep} {keys : List Nat} {acts : List (Action G1 G2)} :
      Steady cx codecs chain E s₀ st₀ mc₀ hist₀ s st mc hist log → runLoop codecs chain s ys = some s' →
      (∀ f ∈ filtersOf ys, f.syncHeight ≤ st.syncHeight) → Follows E (mc, hist) (mc', hist') →
      keys.Nodup → (∀ k, k ∈ keys ↔ (mc'.accusations k).isSome) →
      decideStep cx s' mc' keys st = some (st', acts) →
      Steady cx codecs chain E s₀ st₀ mc₀ hist₀ s' st' mc' hist' (log ++ [(mc', acts)])
  | restart {s : Observe.Shutter} {st : State G1 G2} {mc : MainChain} {hist : Nat → Sol.World}
      {log : List (MainChain × List (Action G1 G2))} : Steady cx codecs chain E s₀ st₀ mc₀ hist₀ s st mc hist log →
      Steady cx codecs chain E s₀ st₀ mc₀ hist₀ s (loadState s st) mc hist log

end Shutter.Decide
