import Verif.Model.Keyper

/-!
# Vocabulary for the shares a keyper collects
-/

namespace Shutter.Decide
open Shutter.Crypto Shutter.Dkg Shutter.Observe
open Shutter.Events (Codecs)

variable {G1 G2 GT R : Type} [AddCommGroup G1] [AddCommGroup G2] [DecidableEq G2] [DecidableEq GT]

/-- The lives (see `Lived`) in which a filter is only applied to a view the keyper has already decided on. The keyper sends a filter after
each round (keyper/keyper.go:232-235), and its view does not go on before the keyper has received it (observe/shutter.go:576-582; the channel is not
buffered, keyper/keyper.go:138), so this is so if the keyper decides in every round. It is not if it returns early, for instance because a node
is catching up (decide.go:1190-1197). -/
inductive Attentive (cx : Cfg G1 G2 GT R) (codecs : Codecs) (chain : Chain) : List (Round G1 G2) → Observe.Shutter → State G1 G2 → Prop
  | init : Attentive cx codecs chain [] newShutter (State.new G1 G2)
  | round {rs : List (Round G1 G2)} {s s' : Observe.Shutter} {st st' : State G1 G2} {ys : List LoopStep} {mc : Main.MainChain}
      {keys : List Nat} {acts : List (Action G1 G2)} : Attentive cx codecs chain rs s st → runLoop codecs chain s ys = some s' →
      FiltersAt codecs chain (fun f seen => f.syncHeight ≤ st.syncHeight ∧ seen < st.syncHeight) s ys →
      decideStep cx s' mc keys st = some (st', acts) →
      Attentive cx codecs chain (rs ++ [⟨decides cx s' mc, s'.currentBlock + 1, acts⟩]) s' st'
  | restart {rs : List (Round G1 G2)} {s : Observe.Shutter} {st : State G1 G2} : Attentive cx codecs chain rs s st →
      needsFix s st = false → Attentive cx codecs chain rs s (loadState s st)

end Shutter.Decide
