import Verif.Model.Decide
import Verif.Spec.Observe

/-!
# shuttermint/keyper/keyper.go: the life of a keyper

The state and the views the keyper decided on are saved together before the actions are run (keyper.go:392-402), so after a
crash the keyper goes on from the last saved pair; the actions are modelled in `Verif.Model.Actions`. The view of the main chain
is left unconstrained here: every round is given some view.
-/

namespace Shutter.Decide
open Shutter.Crypto Shutter.Dkg Shutter.Observe
open Shutter.Events (Codecs)

variable {G1 G2 GT R : Type}

/-- keyper.go:328-331: the condition for "fixing" the sync height -/
def needsFix (sh : Observe.Shutter) (st : State G1 G2) : Bool := decide (st.syncHeight = 0 ∧ sh.currentBlock > 0)

/-- keyper.go:310-339 `LoadState`: what is loaded for a saved state and view -/
def loadState (sh : Observe.Shutter) (st : State G1 G2) : State G1 G2 :=
  if needsFix sh st then { st with syncHeight := sh.currentBlock } else st

variable [AddCommGroup G1] [AddCommGroup G2] [DecidableEq G2] [DecidableEq GT]

/-- The pairs of a view of shuttermint and a state that a keyper on the chain `chain` can have saved. In a round the view goes
on (keyper.go:208-238 `syncLoop`, observe/shutter.go `SyncShutter`); the filters it gets were sent after this or an earlier
round (keyper.go:232-235), so they ask for no more than the height of the state; then the keyper decides (386-402). A crash
forgets the rounds that were not saved. A restart (310-339) does not change a state whose height is set; for the others
see `loadState`. -/
inductive Reach (cx : Cfg G1 G2 GT R) (codecs : Codecs) (chain : Chain) : Observe.Shutter → State G1 G2 → Prop
  | init : Reach cx codecs chain newShutter (State.new G1 G2)
  | round {s s' : Observe.Shutter} {st st' : State G1 G2} {ys : List LoopStep} {mc : Main.MainChain} {keys : List Nat}
      {acts : List (Action G1 G2)} : Reach cx codecs chain s st → runLoop codecs chain s ys = some s' →
      (∀ f ∈ filtersOf ys, f.syncHeight ≤ st.syncHeight) →
      decideStep cx s' mc keys st = some (st', acts) → Reach cx codecs chain s' st'
  | restart {s : Observe.Shutter} {st : State G1 G2} : Reach cx codecs chain s st → needsFix s st = false →
      Reach cx codecs chain s (loadState s st)

/-- A round of the loop of a keyper (keyper.go:386-402): whether it got past the first checks of `Decide` (decide.go:1190-1197), the
height of the next block of shuttermint, as far as it had seen, and the actions it decided on. -/
structure Round (G1 G2 : Type) where
  deciding : Bool
  next : Int
  sent : List (Action G1 G2)

/-- decide.go:1190-1197: both nodes are synced, and we are a keyper in some config. -/
def decides (cx : Cfg G1 G2 GT R) (sh : Observe.Shutter) (mc : Main.MainChain) : Bool :=
  isSynced sh && mc.nodeSynced && isKeyper sh cx.own

/-- `Reach` with the rounds that led there. -/
inductive Lived (cx : Cfg G1 G2 GT R) (codecs : Codecs) (chain : Chain) : List (Round G1 G2) → Observe.Shutter → State G1 G2 → Prop
  | init : Lived cx codecs chain [] newShutter (State.new G1 G2)
  | round {rs : List (Round G1 G2)} {s s' : Observe.Shutter} {st st' : State G1 G2} {ys : List LoopStep} {mc : Main.MainChain}
      {keys : List Nat} {acts : List (Action G1 G2)} : Lived cx codecs chain rs s st → runLoop codecs chain s ys = some s' →
      (∀ f ∈ filtersOf ys, f.syncHeight ≤ st.syncHeight) →
      decideStep cx s' mc keys st = some (st', acts) →
      Lived cx codecs chain (rs ++ [⟨decides cx s' mc, s'.currentBlock + 1, acts⟩]) s' st'
  | restart {rs : List (Round G1 G2)} {s : Observe.Shutter} {st : State G1 G2} : Lived cx codecs chain rs s st →
      needsFix s st = false → Lived cx codecs chain rs s (loadState s st)

end Shutter.Decide
