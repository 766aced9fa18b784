import Verif.Spec.Batches
import Verif.Spec.Honest

/-!
# Vocabulary for when it is a keyper's turn to execute

The life of a keyper as in `Verif.Spec.Life`, with the views and states of each round, and with the filters the keyper really sends
(keyper.go:232-235, decide.go:277-282): they ask for no batches before the next one to execute.
-/

namespace Shutter.Decide
open Shutter.Crypto Shutter.Dkg Shutter.Observe Shutter.Main Shutter.Decide.Spec
open Shutter.Events (Codecs)
open Shutter.Sol (World BatchConfig)

/-- A round: the view of shuttermint, the state before, the view of the main chain, the state after, and the actions decided on. -/
structure Moment (G1 G2 : Type) where
  view : Observe.Shutter
  before : State G1 G2
  main : MainChain
  after : State G1 G2
  acts : List (Action G1 G2)

variable {G1 G2 GT R : Type} [AddCommGroup G1] [AddCommGroup G2] [DecidableEq G2] [DecidableEq GT]

/-- `Life`, where all rounds are recorded, and all filters are for batches that are not yet executed, as far as the keyper knows. -/
inductive Watch (cx : Cfg G1 G2 GT R) (codecs : Codecs) (chain : Observe.Chain) (E : Sol.Env) (followDistance : Nat) :
    Observe.Shutter → State G1 G2 → MainChain → (Nat → World) → List (Moment G1 G2) → Prop
  | init {hist : Nat → World} : Main.Chain E hist →
      Watch cx codecs chain E followDistance newShutter (State.new G1 G2) (MainChain.new followDistance) hist []
  | round {s s' : Observe.Shutter} {st st' : State G1 G2} {mc mc' : MainChain} {hist hist' : Nat → World}
      {log : List (Moment G1 G2)} {ys : List LoopStep} {keys : List Nat} {acts : List (Action G1 G2)} :
      Watch cx codecs chain E followDistance s st mc hist log → runLoop codecs chain s ys = some s' →
      (∀ f ∈ filtersOf ys, f.syncHeight ≤ st.syncHeight ∧ f.batchIndex ≤ mc.numHalfSteps / 2) → Follows E (mc, hist) (mc', hist') →
      keys.Nodup → (∀ k, k ∈ keys ↔ (mc'.accusations k).isSome) →
      decideStep cx s' mc' keys st = some (st', acts) →
      Watch cx codecs chain E followDistance s' st' mc' hist' (log ++ [⟨s', st, mc', st', acts⟩])
  | restart {s : Observe.Shutter} {st : State G1 G2} {mc : MainChain} {hist : Nat → World} {log : List (Moment G1 G2)} (forget : Bool) :
      Watch cx codecs chain E followDistance s st mc hist log →
      Watch cx codecs chain E followDistance s { loadState s st with
        pendingHalfStep := if forget then none else st.pendingHalfStep } mc hist log

/-- In this round the keyper gets past the first checks: both its nodes are synced, and it is a keyper of shuttermint; and no half step it
has executed or skipped is still waiting for the main chain, which is at half step `next`. -/
structure Moment.Free (cx : Cfg G1 G2 GT R) (r : Moment G1 G2) (next : Nat) : Prop where
  awake : decides cx r.view r.main = true
  idle : ∀ p, r.before.pendingHalfStep = some p → p < next

/-- The number of blocks the keyper `own` waits with half step `h` of a batch with the config `bc`, after the batch ended (or timed out): the
keypers take turns to be the first, and follow one another at the given distance, or closer, so that all are through in half the time. -/
def turnDelay (staggering : Nat) (own : Sol.Address) (bc : BatchConfig) (h : Nat) : Nat :=
  (h + if own ∈ bc.keypers then bc.keypers.idxOf own else 0) % bc.keypers.length *
    min staggering (bc.executionTimeout / (2 * (bc.keypers.length - 1)))

/-- At height `upTo` of shuttermint, threshold many keypers of the batch have published signatures on the given hashes. -/
def EnoughSignatures (cx : Cfg G1 G2 GT R) (codecs : Codecs) (chain : Observe.Chain) (upTo : Int) (bc : BatchConfig) (b : Nat)
    (cipherBatchHash : Bytes) (txs : List Bytes) : Prop :=
  ∃ signers : Finset Sol.Address, bc.threshold ≤ signers.card ∧ ∀ a ∈ signers, a ∈ bc.keypers ∧
    ∃ h sender sig, h ≤ upTo ∧ Published codecs chain h (.decryptionSignature b sender sig) ∧ addrNat sender = a ∧
      cx.goRecover (decryptionSignatureHash cx b cipherBatchHash (transactionsHash cx txs)) sig = some a

/-- In this round the keyper is able to execute the encrypted part of batch `b`: it has a key; and no encrypted transactions were submitted, or there are
enough signatures for what each of its keys gives. -/
structure Able (cx : Cfg G1 G2 GT R) (codecs : Codecs) (chain : Observe.Chain) (w : World) (bc : BatchConfig) (b : Nat) (r : Moment G1 G2) : Prop where
  hasKey : ∃ key, HasKey r.after b key
  signed : w.batcher.hashes b .cipher = Sol.zeroHash ∨ ∀ key txs, HasKey r.after b key → DecryptedWith cx key (w.accepted b .cipher) txs →
    EnoughSignatures cx codecs chain r.view.currentBlock bc b (w.batcher.hashes b .cipher) txs

/-- It is the keyper's turn with half step `h`. -/
inductive Ready (cx : Cfg G1 G2 GT R) (codecs : Codecs) (chain : Observe.Chain) (w : World) (r : Moment G1 G2) : Nat → Prop
  | cipher {b start stop timeout : Nat} {bc : BatchConfig} : w.HasBatch b bc start stop timeout → bc.keypers.Nodup → addrNat cx.own ∈ bc.keypers →
      stop + turnDelay cx.staggering (addrNat cx.own) bc (2 * b) ≤ w.block → w.block < timeout → Able cx codecs chain w bc b r →
      Ready cx codecs chain w r (2 * b)
  | skip {b start stop timeout : Nat} {bc : BatchConfig} : w.HasBatch b bc start stop timeout → bc.keypers.Nodup → bc.keypers ≠ [] →
      timeout + turnDelay cx.staggering (addrNat cx.own) bc (2 * b) ≤ w.block → Ready cx codecs chain w r (2 * b)
  | plain {b start stop timeout : Nat} {bc : BatchConfig} : w.HasBatch b bc start stop timeout → bc.keypers.Nodup → addrNat cx.own ∈ bc.keypers →
      stop + turnDelay cx.staggering (addrNat cx.own) bc (2 * b + 1) ≤ w.block → Ready cx codecs chain w r (2 * b + 1)

/-- The keyper never had a key for a batch that was not over. -/
def KeysInTime (hist : Nat → World) (log : List (Moment G1 G2)) : Prop :=
  ∀ m ∈ log, ∀ b key, HasKey m.after b key → (hist m.main.currentBlock).BatchOver b

/-- Numbers are far from overflowing. -/
structure Moderate (w : World) : Prop where
  block : w.block < 2 ^ 61
  configs : ∀ bc ∈ w.config.scheduled, bc.startBatchIndex < 2 ^ 61 ∧ bc.keypers.length < 2 ^ 61 ∧ bc.executionTimeout < 2 ^ 61

/-- Batching is on: the last scheduled config that has started is active. -/
def BatchingOn (w : World) : Prop :=
  ∃ (i : Nat) (bc : BatchConfig), w.config.scheduled[i]? = some bc ∧ bc.startBlockNumber ≤ w.block ∧ 0 < bc.batchSpan ∧
    ∀ (j : Nat) (bc' : BatchConfig), i < j → w.config.scheduled[j]? = some bc' → w.block < bc'.startBlockNumber

/-- Batching is off: the last scheduled config that has started is inactive. -/
def BatchingOff (w : World) : Prop :=
  ∃ (i : Nat) (bc : BatchConfig), w.config.scheduled[i]? = some bc ∧ bc.startBlockNumber ≤ w.block ∧ bc.batchSpan = 0 ∧
    ∀ (j : Nat) (bc' : BatchConfig), i < j → w.config.scheduled[j]? = some bc' → w.block < bc'.startBlockNumber

end Shutter.Decide
