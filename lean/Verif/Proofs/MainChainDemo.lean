import Verif.Proofs.MainChainAcc
import Verif.Proofs.SolDemo

/-! # A concrete main chain -/

namespace Shutter.Main
open Shutter.Sol

/-- The transactions of a list made in a block. -/
def opsAt (ops : List (Nat × Op)) (n : Nat) : List Op := (ops.filter (fun x => x.1 == n)).map Prod.snd

/-- The chain in which these transactions are made. -/
def chainOf (E : Env) (w0 : World) (ops : List (Nat × Op)) : Nat → World
  | 0 => w0
  | n + 1 => World.runInner E { chainOf E w0 ops n with block := n + 1 } (opsAt ops (n + 1))

theorem runInner_later (E : Env) : ∀ (ops : List Op) (w : World), WorldLater E w (w.runInner E ops)
  | [], w => by rw [World.runInner]
  | op :: ops, w => by
    rw [World.runInner]
    split
    · exact runInner_later E ops w
    · next w' h => exact (Relation.ReflTransGen.single (WorldStep.tx h)).trans (runInner_later E ops w')

theorem step_block {E : Env} {w w' : World} {op : Op} (hi : w.config.Inv) (h : w.step E op = some w') : w'.block = w.block := by
  have := step_prims hi h
  clear h
  induction this with
  | refl => rfl
  | tail _ p ih => rw [← ih]; exact (prim_config p).1

theorem runInner_block (E : Env) : ∀ (ops : List Op) (w : World), w.config.Inv → (w.runInner E ops).block = w.block
  | [], w, _ => by rw [World.runInner]
  | op :: ops, w, hi => by
    rw [World.runInner]
    split
    · exact runInner_block E ops w hi
    · next w' h => rw [runInner_block E ops w' (prims_inv hi (step_prims hi h)), step_block hi h]

theorem chainOf_chain {E : Env} {w0 : World} (ops : List (Nat × Op)) (h : Deployed w0) (hb : w0.block = 0) :
    Chain E (chainOf E w0 ops) := by
  have hi : ∀ n, (chainOf E w0 ops n).config.Inv := by
    intro n
    induction n with
    | zero => exact deployed_inv h
    | succ n ih =>
      have h1 : ({ chainOf E w0 ops n with block := n + 1 } : World).config.Inv := ih
      exact plater_inv h1 (worldLater_plater h1 (runInner_later E _ _))
  exact ⟨h, hb, fun n _ => runInner_block E _ _ (hi n), fun n _ => runInner_later E _ _⟩

namespace Demo
open Shutter.Sol.Demo (env setup submissions)

/-- The contracts, deployed at block 0. -/
def start : World := World.deployed 0 10 20 1 100 101 102

theorem start_deployed : Deployed start := ⟨0, 10, 20, 1, 100, 101, 102, by decide, by decide, by decide, rfl⟩

/-- The config is scheduled, transactions are submitted; half step 0 is executed, accused and appealed; half step 1 is
executed; half step 2 is skipped. -/
def ops : List (Nat × Op) :=
  setup ++ submissions ++
  [(112, .sendTokens 6 500 50),
    (115, .executeCipherBatch 6 0 (World.chainHashes env [[1, 2], [4]]) [[7]] 1 []),
    (116, .executePlainBatch 99 0 [[3], [5]] []), (117, .accuse 5 0 0), (118, .appeal 6 ⟨0, [], [0, 2], [[5], [7]]⟩),
    (160, .skipCipherExecution 98 1)]

/-- The main chain. -/
def hist : Nat → World := chainOf env start ops

theorem chain : Chain env hist := chainOf_chain _ start_deployed rfl

/-- Syncs to the given heads. -/
def syncs (hist : Nat → World) (mc : MainChain) : List Nat → Option MainChain
  | [] => some mc
  | head :: heads => (syncToHead mc hist head true).bind (fun mc => syncs hist mc heads)

/-- The heads never go back. -/
def forward (hist : Nat → World) (mc : MainChain) : List Nat → Bool
  | [] => true
  | head :: heads => decide (mc.currentBlock ≤ syncUntil mc head) &&
      (syncToHead mc hist head true).all (fun mc => forward hist mc heads)

theorem syncs_observed {E fd back} {hist : Nat → World} {mc mc' : MainChain} {heads : List Nat}
    (o : Observed E fd back mc hist) (h64 : ∀ h ∈ heads, h < two64) (hf : back = false → forward hist mc heads = true)
    (h : syncs hist mc heads = some mc') : Observed E fd back mc' hist := by
  induction heads generalizing mc with
  | nil => simp [syncs] at h; subst h; exact o
  | cons head heads ih =>
    rw [syncs] at h
    obtain ⟨mc1, h1, h2⟩ := Option.bind_eq_some_iff.mp h
    refine ih (.sync o (h64 head (by simp)) (fun hb => ?_) h1) (fun x hx => h64 x (by simp [hx])) (fun hb => ?_) h2
    · have := hf hb; simp [forward] at this; exact this.1
    · have := hf hb; simp [forward, h1] at this; exact this.2

/-- A keyper with the given follow distance syncs to these heads. -/
def view (fd : Nat) (heads : List Nat) : MainChain := (syncs hist (MainChain.new fd) heads).getD (MainChain.new fd)

theorem view_observed (back : Bool) (fd : Nat) (heads : List Nat) (h64 : ∀ h ∈ heads, h < two64)
    (hs : (syncs hist (MainChain.new fd) heads).isSome = true)
    (hf : back = false → forward hist (MainChain.new fd) heads = true) : Observed env fd back (view fd heads) hist := by
  refine syncs_observed (.start chain) h64 hf ?_
  unfold view
  cases h : syncs hist (MainChain.new fd) heads <;> simp_all

/-- The owner schedules a config with keypers 5, 6, 7, takes it back, and schedules one with keyper 8 instead. -/
def swapOps : List (Nat × Op) :=
  setup ++ [(10, .config 1 (.unschedule 30))] ++
  [.startBlockNumber 100, .batchSpan 10, .addKeypers [8], .threshold 1, .executionTimeout 30, .batchSizeLimit 100,
    .transactionSizeLimit 20].map (fun o => (11, Op.config 1 (.set o))) ++ [(11, .config 1 .schedule)]

def swapped : Nat → World := chainOf env start swapOps

theorem swapped_chain : Chain env swapped := chainOf_chain _ start_deployed rfl

def swappedView (heads : List Nat) : MainChain := (syncs swapped (MainChain.new 0) heads).getD (MainChain.new 0)

theorem swapped_observed (heads : List Nat) (h64 : ∀ h ∈ heads, h < two64)
    (hs : (syncs swapped (MainChain.new 0) heads).isSome = true)
    (hf : forward swapped (MainChain.new 0) heads = true) : Observed env 0 false (swappedView heads) swapped := by
  refine syncs_observed (.start swapped_chain) h64 (fun _ => hf) ?_
  unfold swappedView
  cases h : syncs swapped (MainChain.new 0) heads <;> simp_all

end Demo
end Shutter.Main
