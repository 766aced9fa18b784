import Verif.Proofs.LifeWorld
import Verif.Props.SolConfig

/-! Property theorems C39 (shuttermint/keyper/decide.go: release of epoch secret key shares). -/

namespace Shutter.Decide.Props
open Shutter.Crypto Shutter.Dkg Shutter.Observe Shutter.Decide Shutter.Main
open Shutter.Events (Codecs)
open Shutter.Sol (World TxType BatchConfig Responsible InOrder NoneTakenBack two64 ConfigAt ConfigReach)

variable {G1 G2 GT R : Type} [AddCommGroup G1] [AddCommGroup G2] [DecidableEq G2] [DecidableEq GT]
variable {cx : Cfg G1 G2 GT R} {codecs : Codecs} {chain : Observe.Chain} {E : Sol.Env} {fd : Nat}
variable {s : Observe.Shutter} {st : State G1 G2} {mc : MainChain} {hist : Nat → World} {log : List (MainChain × List (Action G1 G2))}

/-- **C39** In every life of a keyper (rounds, crashes, restarts, reorganizations above the block it follows): if in some round, with
the main chain seen up to block `mc'.currentBlock`, it decides to publish its share for batch `b`, then the batch has ended by
then, and in no continuation of the chain is a further transaction accepted for it. Missing: schedules whose start blocks go
back (see `C39_early_counterexample`), and schedules taken back by the owner. -/
theorem C39_closed_partial (l : Life cx codecs chain E fd s st mc hist log) {mc' : MainChain} {acts : List (Action G1 G2)}
    (hm : (mc', acts) ∈ log) {eon b : Nat} {share : G1} (ha : .epochSecretKeyShare eon b share ∈ acts)
    (ho : InOrder (hist mc'.currentBlock).config.scheduled) (hn : NoneTakenBack hist mc'.currentBlock) :
    ∃ j bc, Responsible (hist mc'.currentBlock).config j b ∧ (hist mc'.currentBlock).config.scheduled[j]? = some bc ∧
      0 < bc.batchSpan ∧ bc.nominalEnd b ≤ mc'.currentBlock ∧
      ∀ (hist' : Nat → World) (m : Nat), Main.Chain E hist' → (∀ n, n ≤ mc'.currentBlock → hist' n = hist n) →
        mc'.currentBlock ≤ m → m < two64 → ∀ ty, (hist' m).accepted b ty = (hist mc'.currentBlock).accepted b ty := by
  obtain ⟨sh, keys, st1, st2, hd⟩ := life_round l _ hm
  have o := ((life_observed l).2 _ hm).1
  have hb := mem_sharesOf ha
  rcases shares_round hd with ⟨_, h⟩ | ⟨i, c, current, h1, h2, h3, _, _, h4⟩
  · rw [h] at hb; simp at hb
  · obtain ⟨bc, hbc, _, hact, hcur⟩ := current_of o hn ho h1 h2 h3
    obtain ⟨j, bj, hr, hj, hspan, hend⟩ := closed_of o ho hact hbc (hcur ▸ (h4 b hb).2)
    refine ⟨j, bj, hr, hj, hspan, hend, fun hist' m hc hsame hle hm64 ty => ?_⟩
    rw [← hsame _ (le_refl _)] at hr hj ⊢
    exact no_more hc hle hm64 hr hj hspan hend ty

/-- **C39** Over its whole life a keyper publishes its shares in the order of the batches, each at most once. -/
theorem C39_in_order_partial (l : Life cx codecs chain E fd s st mc hist log)
    (hn : NoneTakenBack hist mc.currentBlock) (ho : InOrder (hist mc.currentBlock).config.scheduled) :
    (log.flatMap (fun e => sharesOf e.2)).Pairwise (· < ·) := (life_in_order l hn ho).1

/-- The schedule is in order as long as only its last config is inactive. -/
theorem C39_order_of_active {x : ConfigAt} (h : ConfigReach x)
    (ha : ∀ (i : Nat) (bc : BatchConfig), 0 < i → i + 1 < x.config.scheduled.length → x.config.scheduled[i]? = some bc → 0 < bc.batchSpan) :
    InOrder x.config.scheduled := by
  obtain ⟨h1, h2, _, _⟩ := Sol.Props.C43_schedule_partial h
  have step : ∀ (i : Nat) (a b : BatchConfig), x.config.scheduled[i]? = some a → x.config.scheduled[i + 1]? = some b →
      a.startBlockNumber ≤ b.startBlockNumber := by
    intro i a b ha' hb'
    rcases Nat.eq_zero_or_pos i with rfl | hi
    · rw [h1] at ha'; cases ha'; exact Nat.zero_le _
    · exact le_of_lt ((h2 i a b ha' hb').2 (ha i a hi (Sol.get_lt hb') ha'))
  have all : ∀ (d i : Nat) (a b : BatchConfig), x.config.scheduled[i]? = some a → x.config.scheduled[i + d]? = some b →
      a.startBlockNumber ≤ b.startBlockNumber := by
    intro d
    induction d with
    | zero => intro i a b h3 h4; rw [Nat.add_zero, h3] at h4; cases h4; exact le_refl _
    | succ d ih =>
      intro i a b h3 h4
      have h5 := List.getElem?_eq_getElem (show i + d < x.config.scheduled.length by have := Sol.get_lt h4; omega)
      exact le_trans (ih i a _ h3 h5) (step (i + d) _ b h5 h4)
  unfold InOrder
  rw [List.pairwise_iff_getElem]
  intro i j hi hj hij
  exact all (j - i) i _ _ (List.getElem?_eq_getElem hi) (by rw [show i + (j - i) = j by omega]; exact List.getElem?_eq_getElem hj)

/-! ### The hypotheses are met -/

section demo
open Shutter.Events Shutter.Events.Props
open Shutter.Sol (Op)

theorem noneTakenBack_of {hist : Nat → World} {n : Nat}
    (h : ∀ k, k < n → (hist k).config.scheduled.isPrefixOf (hist (k + 1)).config.scheduled = true) : NoneTakenBack hist n := by
  intro k m hkm hm
  induction m, hkm using Nat.le_induction with
  | base => exact List.prefix_refl _
  | succ m hkm ih => exact (ih (by omega)).trans (List.isPrefixOf_iff_prefix.mp (h m (by omega)))

/-- In the demo, keyper A publishes its share for batch 0 in its fourth round, at block 110. -/
theorem C39_example : ∃ r : Run Zq Zq, Life Demo.cxA demoCodecs Demo.shares Demo.env 3 r.s r.st r.mc Demo.hist r.log ∧
    (∃ mc' acts, (mc', acts) ∈ r.log ∧ mc'.currentBlock = 110 ∧ .epochSecretKeyShare 1 0 ((8 : Nat) • epochIDOf zEnv 0) ∈ acts) ∧
    r.mc.currentBlock = 117 ∧ InOrder (Demo.hist 110).config.scheduled ∧ InOrder (Demo.hist 117).config.scheduled ∧
    NoneTakenBack Demo.hist 117 := by
  have h := Demo.actionsA_eq
  unfold Demo.actionsA at h
  rw [Option.map_eq_some_iff] at h
  obtain ⟨r, hr, hl⟩ := h
  have hb : (Demo.runA 7).map (fun r => r.mc.currentBlock) = some 117 := by decide +kernel
  rw [hr] at hb
  simp only [Option.map_some, Option.some.injEq] at hb
  have h3 := congrArg (fun l => l[3]?) hl
  simp only [List.getElem?_map, List.getElem?_cons_succ, List.getElem?_cons_zero, Option.map_eq_some_iff] at h3
  obtain ⟨e, he, he'⟩ := h3
  simp only [Prod.mk.injEq] at he'
  refine ⟨r, Demo.runA_life hr, ⟨e.1, e.2, List.mem_of_getElem? he, he'.1, by rw [he'.2]; simp⟩, hb, ?_, ?_,
    noneTakenBack_of (by decide +kernel)⟩
  · unfold InOrder; decide +kernel
  · unfold InOrder; decide +kernel

/-! ### Start blocks that go back -/

/-- Three configs in a row: batches of ten blocks from block 100; from batch 20 on, at block 300, an inactive one; and then,
again for batch 20, one that starts at block 60. -/
def backConfig (startBatch startBlock span : Nat) : List (Nat × Op) :=
  [.startBatchIndex startBatch, .startBlockNumber startBlock, .batchSpan span, .addKeypers [1, 2], .threshold 1, .executionTimeout 30,
    .batchSizeLimit 1000, .transactionSizeLimit 500].map (fun o => (4, Op.config 9 (.set o))) ++ [(4, .config 9 .schedule)]

def backHist : Nat → World := chainOf Demo.env Demo.start
  (backConfig 0 100 10 ++ backConfig 20 300 0 ++ backConfig 20 60 10 ++ [(101, .addTransaction 20 0 .cipher Demo.cipherTx 3)])

def backShuttermint : Observe.Chain := fun h =>
  let enc := makeABCIEvent demoCodecs
  if h = 7 then [[enc (.batchConfig 20 1 [kA, kB] 2)], [enc (.batchConfig 20 1 [kA, kB] 3)]] else Demo.shuttermint h

/-- The life of keyper A with these chains. -/
def backRun : Option (Run Zq Zq) :=
  lifeRun Demo.cxA demoCodecs backShuttermint backHist 3 [([.sync 2 2 false], [50]), ([.sync 6 6 false], [60]), ([.sync 8 8 false], [68])]

/-- **C39** fails for start blocks that go back: here keyper A publishes its shares for the batches 0 to 19 at block 65, and a
transaction encrypted for batch 0 is accepted later, in block 101. -/
theorem C39_early_counterexample : ∃ r : Run Zq Zq, Life Demo.cxA demoCodecs backShuttermint Demo.env 3 r.s r.st r.mc backHist r.log ∧
    (∃ mc' acts, (mc', acts) ∈ r.log ∧ mc'.currentBlock = 65 ∧ sharesOf acts = List.range 20) ∧
    (backHist 65).accepted 0 .cipher = [] ∧ (backHist 101).accepted 0 .cipher = [Demo.cipherTx] := by
  have h : backRun.map (fun r => r.log.map (fun e => (e.1.currentBlock, sharesOf e.2))) =
    some [(47, []), (57, []), (65, List.range 20)] := by decide +kernel
  rw [Option.map_eq_some_iff] at h
  obtain ⟨r, hr, hl⟩ := h
  have h3 := congrArg (fun l => l[2]?) hl
  simp only [List.getElem?_map, List.getElem?_cons_succ, List.getElem?_cons_zero, Option.map_eq_some_iff] at h3
  obtain ⟨e, he, he'⟩ := h3
  simp only [Prod.mk.injEq] at he'
  exact ⟨r, lifeRun_life (chainOf_chain _ Demo.start_deployed rfl) hr, ⟨e.1, e.2, List.mem_of_getElem? he, he'.1, he'.2⟩,
    by decide +kernel, by decide +kernel⟩

/-! ### A config taken back -/

/-- The config of the demo is taken back in block 60 and scheduled again with a later start. -/
def takenHist : Nat → World := chainOf Demo.env Demo.start
  (Demo.setup ++ [(60, .config 9 (.unschedule 75))] ++
    ([.startBlockNumber 200, .batchSpan 10, .addKeypers [1, 2], .threshold 1, .executionTimeout 30, .batchSizeLimit 1000,
      .transactionSizeLimit 500].map (fun o => (60, Op.config 9 (.set o))) ++ [(60, .config 9 .schedule)]) ++
    [(201, .addTransaction 20 0 .cipher Demo.cipherTx 3)])

def takenRun : Option (Run Zq Zq) := lifeRun Demo.cxA demoCodecs Demo.shuttermint takenHist 3
  [([.sync 2 2 false], [50]), ([.sync 8 8 false], [60]), ([], [113])]

/-- **C39** fails for configs taken back: keyper A keeps the first config and publishes its share for batch 0 at block 110, but the batch
opens at block 200. -/
theorem C39_taken_back_counterexample : ∃ r : Run Zq Zq, Life Demo.cxA demoCodecs Demo.shuttermint Demo.env 3 r.s r.st r.mc takenHist r.log ∧
    (∃ mc' acts, (mc', acts) ∈ r.log ∧ mc'.currentBlock = 110 ∧ sharesOf acts = [0]) ∧
    InOrder (takenHist 110).config.scheduled ∧
    (takenHist 110).accepted 0 .cipher = [] ∧ (takenHist 201).accepted 0 .cipher = [Demo.cipherTx] := by
  have h : takenRun.map (fun r => r.log.map (fun e => (e.1.currentBlock, sharesOf e.2))) =
    some [(47, []), (57, []), (110, [0])] := by decide +kernel
  rw [Option.map_eq_some_iff] at h
  obtain ⟨r, hr, hl⟩ := h
  have h3 := congrArg (fun l => l[2]?) hl
  simp only [List.getElem?_map, List.getElem?_cons_succ, List.getElem?_cons_zero, Option.map_eq_some_iff] at h3
  obtain ⟨e, he, he'⟩ := h3
  simp only [Prod.mk.injEq] at he'
  refine ⟨r, lifeRun_life (chainOf_chain _ Demo.start_deployed rfl) hr, ⟨e.1, e.2, List.mem_of_getElem? he, he'.1, he'.2⟩,
    ?_, by decide +kernel, by decide +kernel⟩
  unfold InOrder
  decide +kernel

end demo

end Shutter.Decide.Props
