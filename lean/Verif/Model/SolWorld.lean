import Verif.Model.SolContracts

/-!
# Transactions, calls and call backs

An `Op` is a call of one of the contracts' functions by some account. Functions that hand over control to foreign code
(the target contract called by the executor, the receiver of ether, the receiver of tokens) carry the calls which that
code makes in turn: `inner`. A nested call that reverts has no effect; its caller may go on. A foreign call that fails
as a whole is one that makes no calls (or, where the contract insists on success, a transaction that reverts).
Gas is not modelled: running out of gas is a revert.
-/

namespace Shutter.Sol

/-- The functions of the contracts that can be called from outside. -/
inductive Op
  /-- ConfigContract -/
  | config (sender : Address) (c : Config.Call)
  /-- BatcherContract -/
  | addTransaction (sender : Address) (batchIndex : Nat) (type : TxType) (tx : Bytes) (value : Nat)
  | setMinFee (sender : Address) (n : Nat)
  /-- FeeBankContract. `feeWithdraw … none` is `withdraw()`. -/
  | feeDeposit (sender receiver : Address) (value : Nat)
  | feeWithdraw (sender : Address) (args : Option (Address × Nat)) (inner : List Op)
  /-- ether that arrives at the fee bank without a call (`selfdestruct` of another contract, block rewards) -/
  | forceEther (value : Nat)
  /-- ExecutorContract; `inner` has the calls made by the target, for each transaction. -/
  | setHalfSteps (sender : Address) (n : Nat)
  | executeCipherBatch (sender : Address) (batchIndex : Nat) (hash : Bytes) (txs : List Bytes) (keyperIndex : Nat)
      (inner : List (List Op))
  | executePlainBatch (sender : Address) (batchIndex : Nat) (txs : List Bytes) (inner : List (List Op))
  | skipEmptyOrTimedOutBatches (sender : Address) (maxBatches : Nat)
  | skipCipherExecution (sender : Address) (batchIndex : Nat)
  /-- DepositContract; `sendTokens` is a transfer of tokens to the contract. -/
  | sendTokens (sender : Address) (amount delay : Nat)
  | requestWithdrawal (sender : Address)
  | withdraw (sender recipient : Address) (inner : List Op)
  | setSlasher (sender a : Address)
  | setSlashingReceiver (sender a : Address)
  | slashDeposit (sender account : Address) (inner : List Op)
  /-- KeyperSlasher -/
  | accuse (sender : Address) (halfStep keyperIndex : Nat)
  | appeal (sender : Address) (a : Authorization)
  | slash (sender : Address) (halfStep : Nat) (inner : List Op)
  /-- KeyBroadcastContract -/
  | vote (sender : Address) (keyperIndex startBatchIndex : Nat) (key : Bytes)

namespace World

/-- The calls without call backs. -/
def atomic (E : Env) (w : World) : Op → Option World
  | .config sender c => (w.config.call w.block sender c).map (fun c' => { w with config := c' })
  | .addTransaction _ b ty tx v => w.addTransaction E b ty tx v
  | .setMinFee s n => w.setMinFee s n
  | .feeDeposit s r v => w.feeDeposit s r v
  | .forceEther v =>
    some ({ w with feeBank := { w.feeBank with balance := w.feeBank.balance + v } }.emit (.etherForced v))
  | .setHalfSteps s n => w.setHalfSteps s n
  | .skipEmptyOrTimedOutBatches _ n => w.skipEmptyOrTimedOutBatches n
  | .skipCipherExecution _ b => w.skipCipherExecution b
  | .sendTokens s a d => w.tokensReceived s a d
  | .requestWithdrawal s => w.requestWithdrawal s
  | .setSlasher _ a => w.setSlasher a
  | .setSlashingReceiver s a => w.setSlashingReceiver s a
  | .accuse s h k => w.accuse s h k
  | .appeal _ a => w.appeal E a
  | .vote s k b key => w.vote E s k b key
  | _ => none

/-- The executor calls the target with a transaction. -/
def callTarget (w : World) (t : Address × Bytes) (tx : Bytes) : World := w.emit (.targetCalled t.1 t.2 tx)

/-- FeeBankContract.sol:55-62: the two `withdraw` functions call `_withdraw` with these arguments. -/
def withdrawArgs (w : World) (sender : Address) : Option (Address × Nat) → Option (Address × Nat)
  | none => some (sender, w.feeBank.deposits sender)
  | some (r, a) => (u64 a).map (fun a => (r, a))

mutual

/-- The effect of a call, `none` if it reverts. -/
def step (E : Env) (w : World) : Op → Option World
  | .feeWithdraw s args inner =>
    match w.withdrawArgs s args with
    | none => none
    | some (r, a) =>
      match w.feeWithdrawPre s r a with
      | none => none
      | some w1 => some ((runInner E w1 inner).feeWithdrawPost s r a)
  | .executeCipherBatch s b h txs k inner =>
    match w.cipherPre s b h txs k with
    | none => none
    | some .skip => w.skipCipherPost
    | some (.execute t sel) => (runTargets E w (t, sel) txs inner).cipherPost E s b h txs
  | .executePlainBatch s b txs inner =>
    match w.plainPre b with
    | none => none
    | some t => (runTargets E w t txs inner).plainPost E s b txs
  | .withdraw s r inner =>
    match w.withdrawPre s r with
    | none => none
    | some (w1, a) => some ((runInner E w1 inner).withdrawPost s a)
  | .slashDeposit s a inner =>
    -- DepositContract.sol:127; the KeyperSlasher contract itself only makes this call in its function `slash`
    if s = w.deposit.slasher ∧ s ≠ w.slasherAddr then
      match w.slashDeposit a with
      | none => none
      | some w1 => if w1.deposit.slashingReceiver = 0 then some w1 else some (runInner E w1 inner)
    else none
  | .slash _ h inner =>
    match w.slashPre h with
    | none => none
    | some acc =>
      if w.deposit.slasher = w.slasherAddr then
        match w.slashDeposit acc.executor with
        | none => none
        | some w1 =>
          if w1.deposit.slashingReceiver = 0 then some (w1.slashPost h acc)
          else some ((runInner E w1 inner).slashPost h acc)
      else none
  | .config s c => w.atomic E (.config s c)
  | .addTransaction s b ty tx v => w.atomic E (.addTransaction s b ty tx v)
  | .setMinFee s n => w.atomic E (.setMinFee s n)
  | .feeDeposit s r v => w.atomic E (.feeDeposit s r v)
  | .forceEther v => w.atomic E (.forceEther v)
  | .setHalfSteps s n => w.atomic E (.setHalfSteps s n)
  | .skipEmptyOrTimedOutBatches s n => w.atomic E (.skipEmptyOrTimedOutBatches s n)
  | .skipCipherExecution s b => w.atomic E (.skipCipherExecution s b)
  | .sendTokens s a d => w.atomic E (.sendTokens s a d)
  | .requestWithdrawal s => w.atomic E (.requestWithdrawal s)
  | .setSlasher s a => w.atomic E (.setSlasher s a)
  | .setSlashingReceiver s a => w.atomic E (.setSlashingReceiver s a)
  | .accuse s h k => w.atomic E (.accuse s h k)
  | .appeal s a => w.atomic E (.appeal s a)
  | .vote s k b key => w.atomic E (.vote s k b key)

/-- Foreign code makes these calls, one after the other. -/
def runInner (E : Env) (w : World) : List Op → World
  | [] => w
  | op :: ops =>
    match step E w op with
    | none => runInner E w ops
    | some w' => runInner E w' ops

/-- ExecutorContract.sol:348-376 `executeTransactions`: one call of the target per transaction. Targets for which no
behaviour is given make no calls. -/
def runTargets (E : Env) (w : World) (t : Address × Bytes) (txs : List Bytes) : List (List Op) → World
  | [] => txs.foldl (fun w tx => w.callTarget t tx) w
  | calls :: rest =>
    match txs with
    | [] => w
    | tx :: txs => runTargets E (runInner E (w.callTarget t tx) calls) t txs rest

end

end World

/-- Time passes, or a transaction succeeds. (Failed transactions change nothing.) Block numbers fit into 64 bits. -/
inductive WorldStep (E : Env) : World → World → Prop
  | mine {w : World} {b : Nat} : w.block ≤ b → b < two64 → WorldStep E w { w with block := b }
  | tx {w w' : World} {op : Op} : w.step E op = some w' → WorldStep E w w'

/-- The contracts after deployment. -/
def World.deployed (block headsUp appealBlocks : Nat) (owner slasherAddr batcherAddr depositAddr : Address) : World where
  block := block
  config := Config.init headsUp owner
  batcher := ⟨fun _ => 0, fun _ _ => zeroHash, 0, owner, 0⟩
  feeBank := ⟨fun _ => 0, 0⟩
  executor := ⟨0, fun _ => Receipt.zero, owner⟩
  deposit := ⟨fun _ => Deposit.zero, slasherAddr, 0, owner, 0⟩
  slasher := ⟨fun _ => Accusation.zero, appealBlocks⟩
  keyBroadcast := ⟨fun _ _ => false, fun _ _ => 0, fun _ => [], fun _ => zeroHash, fun _ => 0⟩
  slasherAddr := slasherAddr
  batcherAddr := batcherAddr
  depositAddr := depositAddr
  log := []

end Shutter.Sol
