import Verif.Spec.Life
import Verif.Spec.Net

/-!
# Vocabulary for the votes for batch configs

The life of a keyper as in `Verif.Spec.Life`, with what it has seen of shuttermint in each round.
-/

namespace Shutter.Decide
open Shutter.Crypto Shutter.Dkg Shutter.Observe Shutter.Main
open Shutter.Events (Codecs)
open Shutter.App (announcedConfigs)

variable {G1 G2 GT R : Type} [AddCommGroup G1] [AddCommGroup G2] [DecidableEq G2] [DecidableEq GT]

/-- `Life`, where all rounds are recorded with the view of the main chain and the height of the next block of shuttermint. -/
inductive Career (cx : Cfg G1 G2 GT R) (codecs : Codecs) (chain : Observe.Chain) (E : Sol.Env) (followDistance : Nat) :
    Observe.Shutter → State G1 G2 → MainChain → (Nat → Sol.World) → List (MainChain × Round G1 G2) → Prop
  | init {hist : Nat → Sol.World} : Main.Chain E hist →
      Career cx codecs chain E followDistance newShutter (State.new G1 G2) (MainChain.new followDistance) hist []
  | round {s s' : Observe.Shutter} {st st' : State G1 G2} {mc mc' : MainChain} {hist hist' : Nat → Sol.World}
      {rounds : List (MainChain × Round G1 G2)} {ys : List LoopStep} {keys : List Nat} {acts : List (Action G1 G2)} :
      Career cx codecs chain E followDistance s st mc hist rounds → runLoop codecs chain s ys = some s' →
      (∀ f ∈ filtersOf ys, f.syncHeight ≤ st.syncHeight) → Follows E (mc, hist) (mc', hist') →
      keys.Nodup → (∀ k, k ∈ keys ↔ (mc'.accusations k).isSome) →
      decideStep cx s' mc' keys st = some (st', acts) →
      Career cx codecs chain E followDistance s' st' mc' hist' (rounds ++ [(mc', ⟨decides cx s' mc', s'.currentBlock + 1, acts⟩)])
  | restart {s : Observe.Shutter} {st : State G1 G2} {mc : MainChain} {hist : Nat → Sol.World}
      {rounds : List (MainChain × Round G1 G2)} (forget : Bool) : Career cx codecs chain E followDistance s st mc hist rounds →
      Career cx codecs chain E followDistance s { loadState s st with
        pendingHalfStep := if forget then none else st.pendingHalfStep } mc hist rounds

/-- The number of the latest config announced on shuttermint, in the blocks before the block of height `next`. -/
def latestConfig (codecs : Codecs) (chain : Observe.Chain) (next : Int) : Option Nat :=
  ((announcedConfigs ((chainEvents codecs chain 0 (next - 1)).map (·.ev))).getLast?).map (fun x => x.2.2.2)

/-- The keypers of a config of the main chain, each once, as shuttermint addresses. -/
def keypersOf (bc : Sol.BatchConfig) : List App.Addr := (bc.keypers.reverse.dedup).reverse.map (Sol.World.beBytes · 20)

/-- The vote for the config `bc` of the main chain as config number `i`. -/
def voteFor (i : Nat) (bc : Sol.BatchConfig) : Action G1 G2 := .batchConfig bc.startBatchIndex (keypersOf bc) bc.threshold i

/-- The numbers of the configs voted for, in order. -/
def numbersVoted (acts : List (Action G1 G2)) : List Nat :=
  acts.filterMap (fun a => match a with
    | .batchConfig _ _ _ i => some i
    | _ => none)

end Shutter.Decide

namespace Shutter.Net
open Shutter.App Shutter.Events Shutter.Observe Shutter.Decide Shutter.Decide.Spec

variable {G1 G2 GT R : Type}

/-- The config of shuttermint is config number `i` of the main chain (for the config contract at the address `contract`). -/
structure Mirrors (c : BatchConfig) (i : Nat) (bc : Sol.BatchConfig) (contract : Bytes) : Prop where
  index : c.configIndex = i
  start : c.startBatchIndex = bc.startBatchIndex
  threshold : c.threshold = bc.threshold
  keypers : c.keypers = keypersOf bc
  address : c.configContractAddress = contract

/-- Nobody else signs config votes for the keyper, except for config number 1, which is made by hand (the command `bootstrap`): all others that
are delivered with its signature are ones it has decided on, in a round before the block. -/
def GenuineVotes (w : Wire G1 G2) (log : List Rec) (own : Addr) (rounds : List (Round G1 G2)) : Prop :=
  ∀ pre r post m v, log = pre ++ r :: post → r.Delivers own m → m.msg = .batchConfig v → 1 < v.configIndex →
    ∃ x ∈ rounds, ∃ act ∈ x.sent, message w act = some m.msg ∧ x.next ≤ heightAfter pre

/-- Every config vote the keyper decides on is delivered some time. -/
def VotesArrive (w : Wire G1 G2) (log : List Rec) (own : Addr) (rounds : List (Round G1 G2)) : Prop :=
  ∀ x ∈ rounds, ∀ act ∈ x.sent, ∀ v, message w act = some (.batchConfig v) →
    ∃ pre r post, log = pre ++ r :: post ∧ Arrives pre r own (.batchConfig v) ∧ x.next ≤ heightAfter pre

/-- A keyper that runs the program, whose node has seen no scheduled config taken back, and for which nobody else votes (but for config number 1). -/
structure Voter [AddCommGroup G1] [AddCommGroup G2] [DecidableEq G2] [DecidableEq GT] (w : Wire G1 G2) (cx : Cfg G1 G2 GT R)
    (codecs : Codecs) (log : List Rec) (E : Sol.Env) (followDistance : Nat) (sh : Observe.Shutter) (st : Decide.State G1 G2)
    (mc : Main.MainChain) (hist : Nat → Sol.World) (rounds : List (Main.MainChain × Round G1 G2)) : Prop where
  career : Career cx codecs (appChain codecs log) E followDistance sh st mc hist rounds
  kept : Sol.NoneTakenBack hist mc.currentBlock
  genuine : GenuineVotes w log cx.own (rounds.map (·.2))

/-- The keyper has decided in a round in which it had seen, of the configs of shuttermint, those up to number `i` and, of the configs of
the main chain, number `i + 1`, which is `bc`. -/
def HasSeen (codecs : Codecs) (log : List Rec) (hist : Nat → Sol.World)
    (rounds : List (Main.MainChain × Round G1 G2)) (i : Nat) (bc : Sol.BatchConfig) : Prop :=
  ∃ x ∈ rounds, x.2.deciding = true ∧ latestConfig codecs (appChain codecs log) x.2.next = some i ∧
    x.1.configs ≠ [] ∧ (hist x.1.currentBlock).config.scheduled[i + 1]? = some bc

/-- Shuttermint takes `bc` as a config after `c`: it has at least one keyper, and the threshold is neither zero nor larger than the number of
keypers. -/
structure Acceptable (c : BatchConfig) (bc : Sol.BatchConfig) : Prop where
  addresses : ∀ a ∈ bc.keypers, a < 2 ^ 160
  threshold : 0 < bc.threshold
  enough : bc.threshold ≤ (keypersOf bc).length
  start : c.startBatchIndex ≤ bc.startBatchIndex

end Shutter.Net
