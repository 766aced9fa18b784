import Verif.Spec.Sign
import Verif.Spec.Avail
import Verif.Spec.Broadcast

/-!
# Vocabulary for the way of a transaction through the whole system
-/

namespace Shutter.Net
open Shutter.App Shutter.Crypto Shutter.Dkg Shutter.Observe Shutter.Main Shutter.Decide Shutter.Decide.Spec
open Shutter.Events (Codecs)
open Shutter.Sol (World)

variable {G1 G2 GT R : Type} [AddCommGroup G1] [AddCommGroup G2] [DecidableEq G2] [DecidableEq GT]

/-- The life of a keyper on both chains: what is both a `Watch` (Verif.Spec.Turn) and `Attentive` (Verif.Spec.Avail). A filter (keyper.go:232-235, decide.go:277-282) is for batches not
yet executed, and it is only applied to a view the keyper has decided on. -/
inductive JointLife (cx : Cfg G1 G2 GT R) (codecs : Codecs) (chain : Observe.Chain) (E : Sol.Env) (followDistance : Nat) :
    Observe.Shutter → Decide.State G1 G2 → MainChain → (Nat → World) → List (Moment G1 G2) → Prop
  | init {hist : Nat → World} : Main.Chain E hist →
      JointLife cx codecs chain E followDistance newShutter (State.new G1 G2) (MainChain.new followDistance) hist []
  | round {s s' : Observe.Shutter} {st st' : Decide.State G1 G2} {mc mc' : MainChain} {hist hist' : Nat → World}
      {log : List (Moment G1 G2)} {ys : List LoopStep} {keys : List Nat} {acts : List (Action G1 G2)} :
      JointLife cx codecs chain E followDistance s st mc hist log → runLoop codecs chain s ys = some s' →
      FiltersAt codecs chain (fun f seen => f.syncHeight ≤ st.syncHeight ∧ seen < st.syncHeight ∧ f.batchIndex ≤ mc.numHalfSteps / 2) s ys →
      Follows E (mc, hist) (mc', hist') → keys.Nodup → (∀ k, k ∈ keys ↔ (mc'.accusations k).isSome) →
      decideStep cx s' mc' keys st = some (st', acts) →
      JointLife cx codecs chain E followDistance s' st' mc' hist' (log ++ [⟨s', st, mc', st', acts⟩])
  | restart {s : Observe.Shutter} {st : Decide.State G1 G2} {mc : MainChain} {hist : Nat → World} {log : List (Moment G1 G2)} :
      JointLife cx codecs chain E followDistance s st mc hist log → needsFix s st = false →
      JointLife cx codecs chain E followDistance s (loadState s st) mc hist log

/-- The rounds of a life, as far as shuttermint is concerned. -/
def roundsOf (cx : Cfg G1 G2 GT R) (log : List (Moment G1 G2)) : List (Round G1 G2) :=
  log.map (fun m => ⟨decides cx m.view m.main, m.view.currentBlock + 1, m.acts⟩)

omit [AddCommGroup G1] [AddCommGroup G2] [DecidableEq G2] [DecidableEq GT]

/-- The keyper has sent its share of the key of eon `e` for batch `n`, and the share was delivered in a block below height `upTo`. -/
def ShareDelivered (w : Wire G1 G2) (log : List Rec) (own : Addr) (e n : Nat) (rs : List (Round G1 G2)) (upTo : Int) : Prop :=
  ∃ m ∈ said (sharesFor e n) rs, ∃ pre r post, log = pre ++ r :: post ∧ ActArrives w pre r own (.epochSecretKeyShare e n m.2) ∧
    m.1 ≤ heightAfter pre ∧ heightAfter pre < upTo

/-- The only shares for batch `n` on shuttermint are those of eon `e`. -/
def OnlyEon (log : List Rec) (e n : Nat) : Prop := ∀ r ∈ log, ∀ a e' x, .epochSecretKeyShare a e' n x ∈ r.events → e' = e

/-- The keyper gets the key of eon `e` for batch `n` early enough: neither is the batch executed, nor is it about to time out; its signatures for the batch are delivered up to
height `upTo`; nobody else signs for it; and it is a keyper of the batch for shuttermint as well. -/
structure SignsEarly (wire : Wire G1 G2) (log : List Rec) (hist : Nat → World) (ml : List (Moment G1 G2)) (own : Addr) (e n timeout : Nat) (upTo : Int) : Prop where
  early : ∀ m ∈ ml, ∀ key, m.Gets e n key → m.view.currentBlock ≤ upTo ∧ (hist m.main.currentBlock).block + 1 < timeout ∧
    (hist m.main.currentBlock).executor.halfSteps ≤ 2 * n + 1
  delivered : ∀ m ∈ ml, ∀ sig, .decryptionSignature n sig ∈ m.acts →
    ∃ pre r post, log = pre ++ r :: post ∧ ActArrives wire pre r own (.decryptionSignature n sig) ∧ heightAfter pre ≤ upTo
  genuine : ∀ r ∈ log, ∀ m, r.Delivers own m → ∀ sig, m.msg = .decryptionSignature n sig → ∃ x ∈ ml, ∃ act ∈ x.acts, message wire act = some m.msg
  member : ∀ r ∈ log, isDelivery r.op = true → ∀ c, InForce r.before.configs n c → own ∈ c.keypers

/-- The executor contract has called the target with the transaction. -/
def Executed (w : World) (target : Sol.Address) (selector tx : Crypto.Bytes) : Prop := ∃ b, (b, Sol.Event.targetCalled target selector tx) ∈ w.log

end Shutter.Net
