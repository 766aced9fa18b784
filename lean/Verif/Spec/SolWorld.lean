import Verif.Model.SolWorld
import Verif.Spec.SolConfig

/-! # Vocabulary for the contracts -/

namespace Shutter.Sol

/-- Any number of steps. -/
abbrev WorldLater (E : Env) : World → World → Prop := Relation.ReflTransGen (WorldStep E)

/-- The situation after deployment. -/
def Deployed (w : World) : Prop :=
  ∃ block headsUp appealBlocks owner slasherAddr batcherAddr depositAddr, block < two64 ∧ headsUp < two64 ∧
    slasherAddr ≠ 0 ∧ w = World.deployed block headsUp appealBlocks owner slasherAddr batcherAddr depositAddr

/-- A history of the contracts from their deployment: arbitrary transactions of arbitrary accounts, in which called
foreign contracts may call back. -/
def WorldReach (E : Env) (w : World) : Prop := ∃ w0, Deployed w0 ∧ WorldLater E w0 w

/-- The number of half steps reported by the executor's events for an executed or skipped half step: half step `m - 1` is
done. -/
def Event.halfStepsReported : Event → Option Nat
  | .batchExecuted m _ => some m
  | .cipherSkipped m => some m
  | _ => none

/-- An event by which the deposit of `a` is paid in, requested back, paid out or slashed. -/
def Event.movesDeposit (a : Address) : Event → Bool
  | .depositChanged a' _ _ _ withdrawn _ _ => a' = a && !withdrawn
  | .tokensPaid a' _ _ => a' = a
  | _ => false

namespace World

/-- Batch `b` belongs to config `bc`, opens at `start`, ends at `stop`, and times out at `timeout`. -/
def HasBatch (w : World) (b : Nat) (bc : BatchConfig) (start stop timeout : Nat) : Prop :=
  ∃ i, w.config.configIndexForBatchIndex b = some i ∧ w.config.scheduledConfig i = some bc ∧
    w.config.batchBoundaryBlocks i b = some (start, stop, timeout)

/-- The batch belongs to an active config and has ended. -/
def BatchOver (w : World) (b : Nat) : Prop := ∃ bc st e t, w.HasBatch b bc st e t ∧ e ≤ w.block

/-- The time to execute the encrypted part of the batch is over. -/
def TimedOut (w : World) (b : Nat) : Prop := ∃ bc st e t, w.HasBatch b bc st e t ∧ t ≤ w.block

/-- `a` is keyper number `k` of the batch. -/
def KeyperOf (w : World) (b : Nat) (a : Address) (k : Nat) : Prop :=
  ∃ bc st e t, w.HasBatch b bc st e t ∧ bc.keypers[k]? = some a

/-- The target contract and function of a batch, according to its config. -/
def targetOf (w : World) (b : Nat) : Address × Bytes :=
  match w.config.configForBatchIndex b with
  | some bc => (bc.targetAddress, bc.targetFunctionSelector)
  | none => (0, [])

/-- The transactions accepted for a batch, in order. -/
def accepted (w : World) (b : Nat) (ty : TxType) : List Bytes :=
  w.log.filterMap (fun e => match e.2 with
    | .transactionAdded b' ty' tx _ _ => if b' = b ∧ ty' = ty then some tx else none
    | _ => none)

/-- The number of bytes accepted for a batch. -/
def acceptedSize (w : World) (b : Nat) : Nat :=
  ((w.accepted b .cipher).map List.length).sum + ((w.accepted b .plain).map List.length).sum

/-- The sum of a quantity over all events so far. -/
def total (w : World) (f : Event → Nat) : Nat := (w.log.map (fun e => f e.2)).sum

/-- The number of events so far with a property. -/
def count (w : World) (p : Event → Bool) : Nat := w.log.countP (fun e => p e.2)

/-- The transactions with which the executor called targets, in order. -/
def targetTxs (w : World) : List (Address × Bytes × Bytes) :=
  w.log.filterMap (fun e => match e.2 with
    | .targetCalled t sel tx => some (t, sel, tx)
    | _ => none)

/-- The lists of transactions passed to the successful execution calls, in order: batch index, kind, transactions. -/
def executions (w : World) : List (Nat × TxType × List Bytes) :=
  w.log.filterMap (fun e => match e.2 with
    | .cipherDone _ b _ txs => some (b, .cipher, txs)
    | .plainDone _ b txs => some (b, .plain, txs)
    | _ => none)

/-- The numbers of half steps reported by the executor, in order. -/
def halfStepsReported (w : World) : List Nat := w.log.filterMap (fun e => e.2.halfStepsReported)

/-- The tokens deposited by an account so far. -/
def tokensDeposited (w : World) (a : Address) : Nat :=
  w.total (fun e => match e with
    | .depositChanged a' _ _ _ false false moved => if a' = a then moved else 0
    | _ => 0)

/-- The tokens paid out on behalf of an account so far. -/
def tokensWithdrawn (w : World) (a : Address) : Nat :=
  w.total (fun e => match e with
    | .tokensPaid a' _ moved => if a' = a then moved else 0
    | _ => 0)

/-- The tokens taken from an account by slashing so far. -/
def tokensSlashed (w : World) (a : Address) : Nat :=
  w.total (fun e => match e with
    | .depositChanged a' _ _ _ false true moved => if a' = a then moved else 0
    | _ => 0)

/-- The fees deposited for an account so far. -/
def feesDeposited (w : World) (a : Address) : Nat :=
  w.total (fun e => match e with
    | .feeDeposited _ a' v _ => if a' = a then v else 0
    | _ => 0)

/-- The ether paid out by the fee bank on behalf of an account so far. -/
def feesWithdrawn (w : World) (a : Address) : Nat :=
  w.total (fun e => match e with
    | .etherPaid a' _ v => if a' = a then v else 0
    | _ => 0)

/-- The ether that arrived at the fee bank without a call. -/
def etherForced (w : World) : Nat :=
  w.total (fun e => match e with
    | .etherForced v => v
    | _ => 0)

/-- The keypers that voted for a key (by its hash) of a batch, with repetitions. -/
def votersFor (w : World) (E : Env) (b : Nat) (h : Bytes) : List Address :=
  w.log.filterMap (fun e => match e.2 with
    | .voted s b' key _ => if b' = b ∧ E.keccak key = h then some s else none
    | _ => none)

/-- The keypers that voted for any key of a batch, with repetitions. -/
def voters (w : World) (b : Nat) : List Address :=
  w.log.filterMap (fun e => match e.2 with
    | .voted s b' _ _ => if b' = b then some s else none
    | _ => none)

/-- The owner of the executor never moved the counter. -/
def NeverSet (w : World) : Prop := ∀ n m, (n, Event.halfStepsSet m) ∉ w.log

/-- `a` is an authorization by the keypers of a config for what receipt `r` says: at least threshold many signatures, by
keypers with increasing indices, on the domain separator, the batcher's address, the batch index, the hash over the
encrypted transactions, and the hash over the executed transactions. -/
def Authorized (w : World) (E : Env) (bc : BatchConfig) (r : Receipt) (a : Authorization) : Prop :=
  bc.threshold ≤ a.signatures.length ∧ a.signatures.length = a.signerIndices.length ∧ a.signerIndices.Pairwise (· < ·) ∧
    ∀ (j : Nat) i s, a.signerIndices[j]? = some i → a.signatures[j]? = some s → ∃ keyper, bc.keypers[i]? = some keyper ∧
      E.recover (E.keccak (signaturePreimage w.batcherAddr r)) s = some keyper

end World

/-- The strings hashed to compute the batch hash of a list of transactions. -/
def chainPreimages (E : Env) (l : List Bytes) : List Bytes :=
  l.mapIdx (fun i tx => tx ++ World.chainHashes E (l.take i))

/-- Calls that change the executor. -/
def Op.callsExecutor : Op → Bool
  | .setHalfSteps _ _ => true
  | .executeCipherBatch _ _ _ _ _ _ => true
  | .executePlainBatch _ _ _ _ => true
  | .skipEmptyOrTimedOutBatches _ _ => true
  | .skipCipherExecution _ _ => true
  | _ => false

/-- The calls directly made from within a call. -/
def Op.nested : Op → List Op
  | .feeWithdraw _ _ inner => inner
  | .executeCipherBatch _ _ _ _ _ inner => inner.flatten
  | .executePlainBatch _ _ _ inner => inner.flatten
  | .withdraw _ _ inner => inner
  | .slashDeposit _ _ inner => inner
  | .slash _ _ inner => inner
  | _ => []

/-- `p` holds for a call and all calls made from within, at any depth. -/
inductive Op.Throughout (p : Op → Prop) : Op → Prop
  | mk {op : Op} : p op → (∀ o ∈ op.nested, Op.Throughout p o) → Op.Throughout p op

/-- The contracts called by the executor do not call back into the executor (by whatever detour). -/
def Op.Tame : Op → Prop :=
  Op.Throughout (fun op => op.callsExecutor = true → ∀ o ∈ op.nested, Op.Throughout (fun o => o.callsExecutor = false) o)

/-- A step in which no target calls back into the executor. -/
inductive TameStep (E : Env) : World → World → Prop
  | mine {w : World} {b : Nat} : w.block ≤ b → b < two64 → TameStep E w { w with block := b }
  | tx {w w' : World} {op : Op} : op.Tame → w.step E op = some w' → TameStep E w w'

/-- A history in which no target calls back into the executor. -/
def TameReach (E : Env) (w : World) : Prop := ∃ w0, Deployed w0 ∧ Relation.ReflTransGen (TameStep E) w0 w

end Shutter.Sol
