import Verif.Proofs.SolPrim

/-! # Concrete histories of the contracts -/

namespace Shutter.Sol.Demo
open Shutter.Sol

/-- A toy hash function with outputs of 32 bytes. -/
def keccak (x : Bytes) : Bytes := 1 :: (x ++ List.replicate 31 0).take 31

/-- The signature of a keyper is its address, as a byte. -/
def recover (_ sig : Bytes) : Option Address := sig.head?.map UInt8.toNat

def env : Env := ⟨keccak, recover⟩

/-- Transactions, each at a block. -/
def run (w : World) : List (Nat × Op) → Option World
  | [] => some w
  | (b, op) :: rest =>
    if w.block ≤ b ∧ b < two64 then
      match World.step env { w with block := b } op with
      | none => none
      | some w' => run w' rest
    else none

theorem run_later {w w' : World} {l} (h : run w l = some w') : WorldLater env w w' := by
  induction l generalizing w with
  | nil => simp [run] at h; subst h; exact .refl
  | cons x rest ih =>
    obtain ⟨b, op⟩ := x
    rw [run] at h
    split at h
    · next hb =>
      split at h
      · simp at h
      · next w1 h1 =>
        exact (Relation.ReflTransGen.single (WorldStep.mine hb.1 hb.2)).trans
          ((Relation.ReflTransGen.single (WorldStep.tx h1)).trans (ih h))
    · simp at h

theorem run_tame {w w' : World} {l} (h : run w l = some w') (ht : ∀ x ∈ l, x.2.Tame) :
    Relation.ReflTransGen (TameStep env) w w' := by
  induction l generalizing w with
  | nil => simp [run] at h; subst h; exact .refl
  | cons x rest ih =>
    obtain ⟨b, op⟩ := x
    rw [run] at h
    split at h
    · next hb =>
      split at h
      · simp at h
      · next w1 h1 =>
        exact (Relation.ReflTransGen.single (TameStep.mine hb.1 hb.2)).trans
          ((Relation.ReflTransGen.single (TameStep.tx (ht (b, op) (by simp)) h1)).trans
            (ih h (fun x hx => ht x (by simp [hx]))))
    · simp at h

/-- The contracts after deployment at block 3: heads up of ten blocks, appeals within twenty; the owner is 1. -/
def start : World := World.deployed 3 10 20 1 100 101 102

theorem start_deployed : Deployed start := ⟨3, 10, 20, 1, 100, 101, 102, by decide, by decide, by decide, rfl⟩

/-- Keypers 5, 6, 7; batches of ten blocks from block 100; fees go to account 50; the target is 60. -/
def setup : List (Nat × Op) :=
  [.startBlockNumber 100, .batchSpan 10, .addKeypers [5, 6, 7], .threshold 2, .executionTimeout 30, .batchSizeLimit 100,
    .transactionSizeLimit 20, .feeReceiver 50, .targetAddress 60].map (fun o => (4, Op.config 1 (.set o))) ++
  [(4, .config 1 .schedule), (5, .setMinFee 1 3)]

/-- The config so scheduled. -/
def config : BatchConfig := ⟨0, 100, [5, 6, 7], 2, 10, 100, 20, 0, 50, 60, [0, 0, 0, 0], 30⟩

/-- Two encrypted and two plain transactions for batch 0, one of each kind for batch 1. -/
def submissions : List (Nat × Op) :=
  [(100, .addTransaction 20 0 .cipher [1, 2] 3), (101, .addTransaction 21 0 .plain [3] 4),
    (104, .addTransaction 21 1 .plain [9, 9] 3), (109, .addTransaction 20 0 .cipher [4] 3),
    (109, .addTransaction 22 0 .plain [5] 3), (112, .addTransaction 20 1 .cipher [8] 5)]

def submitted : World := (run start (setup ++ submissions)).getD start

theorem submitted_run : run start (setup ++ submissions) = some submitted := by
  have : (run start (setup ++ submissions)).isSome = true := by decide +kernel
  unfold submitted
  cases h : run start (setup ++ submissions) <;> simp_all

theorem submitted_reach : WorldReach env submitted := ⟨start, start_deployed, run_later submitted_run⟩

end Shutter.Sol.Demo

namespace Shutter.Sol.Demo
open Shutter.Sol

theorem tame_flat {op : Op} (h : op.nested.isEmpty = true) : op.Tame := by
  have h : op.nested = [] := by simpa using h
  exact .mk (by rw [h]; simp) (by rw [h]; simp)

/-- Keyper 6 executes the encrypted part of batch 0 and anyone the plain part; then time runs out for the encrypted part
of batch 1, and its plain part is executed; batches 2 and 3 are empty. -/
def executionOps : List (Nat × Op) :=
  [(115, .executeCipherBatch 6 0 (World.chainHashes env [[1, 2], [4]]) [[7]] 1 []),
    (116, .executePlainBatch 99 0 [[3], [5]] []),
    (160, .skipCipherExecution 98 1),
    (160, .executePlainBatch 97 1 [[9, 9]] [[], []]),
    (161, .skipEmptyOrTimedOutBatches 96 2)]

def executed : World := (run submitted executionOps).getD submitted

theorem executed_run : run submitted executionOps = some executed := by
  have : (run submitted executionOps).isSome = true := by decide +kernel
  unfold executed
  cases h : run submitted executionOps <;> simp_all

theorem submitted_tame : TameReach env submitted :=
  ⟨start, start_deployed, run_tame submitted_run (fun x hx => tame_flat (by revert x; decide +kernel))⟩

theorem executed_tame : TameReach env executed := by
  obtain ⟨w0, h0, h1⟩ := submitted_tame
  exact ⟨w0, h0, h1.trans (run_tame executed_run (fun x hx => tame_flat (by revert x; decide +kernel)))⟩

/-- The target of the plain transaction `[3]` executes the plain part of batch 0 from within. -/
def hostileOps : List (Nat × Op) :=
  [(115, .executeCipherBatch 6 0 (World.chainHashes env [[1, 2], [4]]) [[7]] 1 []),
    (116, .executePlainBatch 99 0 [[3], [5]] [[.executePlainBatch 60 0 [[3], [5]] []]])]

def hostile : World := (run submitted hostileOps).getD submitted

theorem hostile_run : run submitted hostileOps = some hostile := by
  have : (run submitted hostileOps).isSome = true := by decide +kernel
  unfold hostile
  cases h : run submitted hostileOps <;> simp_all

theorem hostile_reach : WorldReach env hostile := by
  obtain ⟨w0, h0, h1⟩ := submitted_reach
  exact ⟨w0, h0, h1.trans (run_later hostile_run)⟩

end Shutter.Sol.Demo

namespace Shutter.Sol.Demo
open Shutter.Sol

/-- Keyper 6 deposits tokens and executes the encrypted part of batch 0 (`[[7]]`); keyper 5 accuses. -/
def accusedOps : List (Nat × Op) :=
  [(112, .sendTokens 6 500 50), (112, .setSlashingReceiver 1 77),
    (115, .executeCipherBatch 6 0 (World.chainHashes env [[1, 2], [4]]) [[7]] 1 []), (117, .accuse 5 0 0)]

def accusedW : World := (run submitted accusedOps).getD submitted

theorem accused_run : run submitted accusedOps = some accusedW := by
  have : (run submitted accusedOps).isSome = true := by decide +kernel
  unfold accusedW
  cases h : run submitted accusedOps <;> simp_all

theorem accused_tame : TameReach env accusedW := by
  obtain ⟨w0, h0, h1⟩ := submitted_tame
  exact ⟨w0, h0, h1.trans (run_tame accused_run (fun x hx => tame_flat (by revert x; decide +kernel)))⟩

/-- Nobody appeals in time; keyper 6 is slashed. -/
def slashedOps : List (Nat × Op) := [(137, .slash 98 0 [])]

def slashedW : World := (run accusedW slashedOps).getD submitted

theorem slashed_run : run accusedW slashedOps = some slashedW := by
  have : (run accusedW slashedOps).isSome = true := by decide +kernel
  unfold slashedW
  cases h : run accusedW slashedOps <;> simp_all

theorem slashed_tame : TameReach env slashedW := by
  obtain ⟨w0, h0, h1⟩ := accused_tame
  exact ⟨w0, h0, h1.trans (run_tame slashed_run (fun x hx => tame_flat (by revert x; decide +kernel)))⟩

/-- The receiver of slashed tokens calls `slash` again when it gets them. -/
def doubleOps : List (Nat × Op) := [(137, .slash 98 0 [.slash 77 0 []])]

def doubleW : World := (run accusedW doubleOps).getD submitted

theorem double_run : run accusedW doubleOps = some doubleW := by
  have : (run accusedW doubleOps).isSome = true := by decide +kernel
  unfold doubleW
  cases h : run accusedW doubleOps <;> simp_all

theorem double_reach : WorldReach env doubleW := by
  obtain ⟨w0, h0, h1⟩ := accused_tame.reach
  exact ⟨w0, h0, h1.trans (run_later double_run)⟩

/-- Keypers 5 and 7 authorized the decryption. -/
def authorization : Authorization := ⟨0, [], [0, 2], [[5], [7]]⟩

/-- Deposits, a withdrawal and fee withdrawals; votes of three keypers for two keys. -/
def moneyOps : List (Nat × Op) :=
  [(112, .sendTokens 6 500 50), (113, .sendTokens 9 70 10), (114, .requestWithdrawal 9), (124, .withdraw 9 99 []),
    (125, .feeWithdraw 50 (some (51, 4)) []), (125, .forceEther 1000),
    (126, .vote 5 0 3 [1, 1]), (127, .vote 6 1 3 [2, 2]), (128, .vote 7 2 3 [2, 2])]

def money : World := (run submitted moneyOps).getD submitted

theorem money_run : run submitted moneyOps = some money := by
  have : (run submitted moneyOps).isSome = true := by decide +kernel
  unfold money
  cases h : run submitted moneyOps <;> simp_all

theorem money_reach : WorldReach env money := by
  obtain ⟨w0, h0, h1⟩ := submitted_tame.reach
  exact ⟨w0, h0, h1.trans (run_later money_run)⟩

end Shutter.Sol.Demo
