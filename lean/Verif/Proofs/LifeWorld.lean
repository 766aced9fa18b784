import Verif.Proofs.LifeDemo
import Verif.Spec.Ecdsa

/-! # A concrete pair of chains: two keypers, a key generation, a batch, its execution and an appeal -/

namespace Shutter.Decide.Demo
open Shutter.Crypto Shutter.Dkg Shutter.Observe Shutter.Main Shutter.Decide.Props
open Shutter.Events Shutter.Events.Props
open Shutter.Sol (World Op)

/-- Toy signatures: `r` is the hash and `s` the address, or its mirror image. -/
def core : Ecdsa.Core := fun h r s _ =>
  if r = beNat h ∧ 0 < s ∧ s < Ecdsa.order then some (if s ≤ Ecdsa.halfOrder then s else Ecdsa.order - s) else none

theorem core_lawful : core.Lawful := by
  have ho : Ecdsa.order = 2 * Ecdsa.halfOrder + 1 := by decide
  refine ⟨fun h r s v => ?_, fun h r s v a ha => ?_, fun h r s v h0 h1 _ => ?_⟩
  · intro hs
    unfold core at hs
    by_cases hr : r = beNat h ∧ 0 < s ∧ s < Ecdsa.order
    · rw [if_pos hr, Option.some.injEq] at hs
      by_cases hl : s ≤ Ecdsa.halfOrder
      · rw [if_pos hl] at hs
        exact absurd hs (Nat.pos_iff_ne_zero.mp hr.2.1)
      · rw [if_neg hl] at hs
        exact absurd hs (Nat.sub_ne_zero_of_lt hr.2.2)
    · rw [if_neg hr] at hs; cases hs
  · unfold core at ha
    split at ha
    · next hs => exact hs.2
    · cases ha
  · unfold core
    by_cases hr : r = beNat h
    · have c1 : r = beNat h ∧ 0 < Ecdsa.order - s ∧ Ecdsa.order - s < Ecdsa.order := ⟨hr, by omega, by omega⟩
      have c2 : r = beNat h ∧ 0 < s ∧ s < Ecdsa.order := ⟨hr, h0, h1⟩
      rw [if_pos c1, if_pos c2]
      by_cases hl : s ≤ Ecdsa.halfOrder
      · have hl' : ¬ Ecdsa.order - s ≤ Ecdsa.halfOrder := by omega
        rw [if_pos hl, if_neg hl']
        have : Ecdsa.order - (Ecdsa.order - s) = s := by omega
        rw [this]
      · have hl' : Ecdsa.order - s ≤ Ecdsa.halfOrder := by omega
        rw [if_neg hl, if_pos hl']
    · rw [if_neg (fun x => hr x.1), if_neg (fun x => hr x.1)]

def signAs (i : UInt8) (h : Bytes) : Bytes := h ++ World.beBytes i.toNat 32 ++ [0]

/-- The contracts use the same hash function and signatures as the keyper. -/
def env : Sol.Env := ⟨fun x => (zEnv.keccak x).toBytes, Ecdsa.recover core⟩

/-- A toy encoding of points: 96 bytes. -/
def codec : PointCodec Zq := ⟨fun p => World.beBytes p.val 96, fun b => some (Zq.of (beNat b)), fun p _ => p, fun _ => true, 0⟩

/-- The keypers. -/
def cx (own : App.Addr) (i : UInt8) (poly : List Nat) : Cfg Zq Zq (Multiplicative Zq) Unit := { demoCfg own poly with
  codec := codec
  goRecover := Ecdsa.goRecover core
  sign := signAs i
  batcher := 101
  staggering := 2 }

def cxA := cx kA 1 [3]
def cxB := cx kB 2 [5]

def start : World := World.deployed 0 10 20 9 100 101 102

theorem start_deployed : Sol.Deployed start := ⟨0, 10, 20, 9, 100, 101, 102, by decide, by decide, by decide, rfl⟩

/-- Both keypers; batches of ten blocks from block 100; the execution timeout is 30. -/
def setup : List (Nat × Op) :=
  [.startBlockNumber 100, .batchSpan 10, .addKeypers [1, 2], .threshold 1, .executionTimeout 30, .batchSizeLimit 1000,
    .transactionSizeLimit 500, .feeReceiver 50, .targetAddress 60].map (fun o => (4, Op.config 9 (.set o))) ++
  [(4, .config 9 .schedule)]

/-- The key generated is 3 + 5 = 8 times the generator. A message encrypted for batch 0. -/
def message : Bytes := [1, 2, 3]
def sigma : Block := fun i => UInt8.ofNat i
def cipherTx : Bytes := marshalEncryptedMessage codec (encrypt zEnv message (Zq.of 8) (epochIDOf zEnv 0) sigma)

/-- Two transactions for batch 0, one of them encrypted. -/
def submissions : List (Nat × Op) :=
  [(101, .addTransaction 20 0 .cipher cipherTx 3), (102, .addTransaction 21 0 .plain [3] 4)]

/-- The main chain: keyper A executes the encrypted part and is accused by keyper B. -/
def ops : List (Nat × Op) := setup ++ submissions ++
  [(112, .sendTokens 1 500 50),
    (116, .executeCipherBatch 1 0 (World.chainHashes env [cipherTx]) [message] 0 []), (117, .accuse 2 0 1)]

def hist : Nat → World := chainOf env start ops

theorem chain : Main.Chain env hist := chainOf_chain _ start_deployed rfl

/-- Shuttermint: the config in block 1, eon 1 in block 2, both deal in block 3. -/
def shuttermint : Observe.Chain := fun h =>
  let enc := makeABCIEvent demoCodecs
  if h = 1 then [[enc (.batchConfig 0 1 [kA, kB] 1)]]
  else if h = 2 then [[enc (.eonStarted 1 0)]]
  else if h = 3 then [[enc (.polyCommitment kA 1 [[3]])], [enc (.polyEval kB 1 [kA] [[5]])], [enc (.polyCommitment kB 1 [[5]])],
    [enc (.polyEval kA 1 [kB] [[3]])]]
  else []

/-- The hash the decryption signatures for batch 0 sign. -/
def sigHash : Bytes :=
  (zEnv.keccak ([0x19, 0x64, 0x65, 0x63, 0x74, 0x78] ++ World.beBytes 101 20 ++ be8 0 ++ World.chainHashes env [cipherTx] ++ World.chainHashes env [message])).toBytes

/-- Later, the share of keyper A and the signature of keyper B for batch 0. -/
def shares : Observe.Chain := fun h =>
  let enc := makeABCIEvent demoCodecs
  if h = 9 then [[enc (.epochSecretKeyShare kA 1 0 (World.beBytes ((8 : Nat) • epochIDOf zEnv 0).val 32))]]
  else if h = 10 then [[enc (.decryptionSignature 0 kB (signAs 2 sigHash))]]
  else shuttermint h

/-- The rounds of keyper A: what it sees of shuttermint, and the head of the main chain, which it follows at a distance of three
blocks. -/
def rounds : List (List LoopStep × List Nat) :=
  [([.sync 2 2 false], [50]), ([.sync 8 8 false], [110]), ([], [112]), ([], [113]), ([.sync 9 9 false], [114]),
    ([.sync 10 10 false], [116]), ([], [120])]

/-- The life of keyper A in these rounds. -/
def runA (n : Nat) : Option (Run Zq Zq) := lifeRun cxA demoCodecs shares hist 3 (rounds.take n)

/-- What it decides on in each round. -/
def actionsA (n : Nat) : Option (List (Nat × List (Action Zq Zq))) := (runA n).map (fun r => r.log.map (fun e => (e.1.currentBlock, e.2)))

theorem runA_life {n : Nat} {r : Run Zq Zq} (h : runA n = some r) : Life cxA demoCodecs shares env 3 r.s r.st r.mc hist r.log :=
  lifeRun_life chain h

deriving instance DecidableEq for Sol.Authorization
deriving instance DecidableEq for Action

theorem actionsA_eq : actionsA 7 = some
    [(47, [.checkIn, .polyCommitment 1 [Zq.of 3]]), (107, [.eonKeyBroadcast 0 0 (Zq.of 8)]), (109, []),
      (110, [.epochSecretKeyShare 1 0 ((8 : Nat) • epochIDOf zEnv 0)]), (111, [.decryptionSignature 0 (signAs 1 sigHash)]),
      (113, [.executeCipherBatch 0 (World.chainHashes env [cipherTx]) [message] 0 0, .executePlainBatch 0 [[3]] 0]),
      (117, [.appeal ⟨0, World.chainHashes env [message], [1], [(signAs 2 sigHash).set 64 27]⟩])] := by
  decide +kernel

end Shutter.Decide.Demo
