import Verif.Model.SolConfig

/-!
# The storage of the contracts and their functions without external calls

contracts/contracts/{BatcherContract,FeeBankContract,ExecutorContract,DepositContract,KeyperSlasher,KeyBroadcastContract}.sol

A function returns `none` if it reverts. Ether and token balances of users are not modelled: a user can always pay.
The functions that hand over control to foreign code are split into the part before and the part after the foreign call;
they are put together in `Verif.Model.SolWorld`.
-/

namespace Shutter.Sol

/-- `bytes32(0)` -/
def zeroHash : Bytes := List.replicate 32 0

/-- The two cryptographic primitives of the EVM: keccak256, and OpenZeppelin's `ECDSA.recover` (hash, signature), which
reverts on invalid signatures. -/
structure Env where
  keccak : Bytes → Bytes
  recover : Bytes → Bytes → Option Address

/-- BatcherContract.sol:9-12 `enum TransactionType` -/
inductive TxType
  | cipher
  | plain
deriving DecidableEq, Repr

/-- BatcherContract.sol:32-41, and the ether held by the contract. -/
structure Batcher where
  sizes : Nat → Nat
  hashes : Nat → TxType → Bytes
  minFee : Nat
  owner : Address
  balance : Nat

/-- FeeBankContract.sol:29 `deposits`, and the ether held by the contract. -/
structure FeeBank where
  deposits : Address → Nat
  balance : Nat

/-- ExecutorContract.sol:10-16 `struct CipherExecutionReceipt` -/
structure Receipt where
  executed : Bool
  executor : Address
  halfStep : Nat
  cipherBatchHash : Bytes
  batchHash : Bytes
deriving DecidableEq, Repr

def Receipt.zero : Receipt := ⟨false, 0, 0, zeroHash, zeroHash⟩

/-- ExecutorContract.sol:40-41 -/
structure Executor where
  halfSteps : Nat
  receipts : Nat → Receipt
  owner : Address

/-- DepositContract.sol:10-15 `struct Deposit` -/
structure Deposit where
  amount : Nat
  delay : Nat
  requested : Nat
  slashed : Bool
deriving DecidableEq, Repr

def Deposit.zero : Deposit := ⟨0, 0, 0, false⟩

/-- DepositContract.sol:33-36, and the deposit contract's balance in the (ERC777) token contract. -/
structure Deposits where
  deposits : Address → Deposit
  slasher : Address
  slashingReceiver : Address
  owner : Address
  tokens : Nat

/-- KeyperSlasher.sol:11-18 `struct Accusation` -/
structure Accusation where
  accused : Bool
  appealed : Bool
  slashed : Bool
  executor : Address
  halfStep : Nat
  blockNumber : Nat
deriving DecidableEq, Repr

def Accusation.zero : Accusation := ⟨false, false, false, 0, 0, 0⟩

/-- KeyperSlasher.sol:20-25 `struct Authorization` -/
structure Authorization where
  halfStep : Nat
  batchHash : Bytes
  signerIndices : List Nat
  signatures : List Bytes
deriving DecidableEq, Repr

/-- KeyperSlasher.sol:40-42 -/
structure Slasher where
  accusations : Nat → Accusation
  appealBlocks : Nat

/-- KeyBroadcastContract.sol:26-31 -/
structure KeyBroadcast where
  voted : Nat → Address → Bool
  numVotes : Nat → Bytes → Nat
  keys : Bytes → Bytes
  bestHash : Nat → Bytes
  bestVotes : Nat → Nat

/-- The events of all contracts. Fields marked *ghost* are not part of the event in the contract. -/
inductive Event
  /-- BatcherContract.sol:21-26; ghost: the value sent along. -/
  | transactionAdded (batchIndex : Nat) (type : TxType) (tx : Bytes) (hash : Bytes) (value : Nat)
  /-- ExecutorContract.sol:28 -/
  | batchExecuted (numHalfSteps : Nat) (hash : Bytes)
  /-- ExecutorContract.sol:33 -/
  | cipherSkipped (numHalfSteps : Nat)
  /-- ghost: the executor calls the target contract with a transaction (ExecutorContract.sol:362-364). -/
  | targetCalled (target : Address) (selector : Bytes) (tx : Bytes)
  /-- ghost: `executeCipherBatch` succeeded (not by skipping). -/
  | cipherDone (sender : Address) (batchIndex : Nat) (hash : Bytes) (txs : List Bytes)
  /-- ghost: `executePlainBatch` succeeded. -/
  | plainDone (sender : Address) (batchIndex : Nat) (txs : List Bytes)
  /-- ghost: `setHalfSteps` succeeded. -/
  | halfStepsSet (n : Nat)
  /-- KeyperSlasher.sol:28-34 -/
  | accused (halfStep : Nat) (executor accuser : Address)
  | appealed (halfStep : Nat) (executor : Address)
  | slashed (halfStep : Nat) (executor : Address)
  /-- DepositContract.sol:18-25; ghost: the amount paid out or taken. -/
  | depositChanged (account : Address) (amount delay requested : Nat) (withdrawn isSlashed : Bool) (moved : Nat)
  /-- FeeBankContract.sol:12-28 -/
  | feeDeposited (depositor receiver : Address) (amount total : Nat)
  | feeWithdrawn (sender receiver : Address) (amount total : Nat)
  /-- ghost: the fee bank sends ether (FeeBankContract.sol:70). -/
  | etherPaid (sender receiver : Address) (amount : Nat)
  /-- ghost: the fee bank receives ether without a call. -/
  | etherForced (amount : Nat)
  /-- ghost: the deposit contract sends tokens to `recipient` on behalf of `account` (DepositContract.sol:114). -/
  | tokensPaid (account recipient : Address) (amount : Nat)
  /-- KeyBroadcastContract.sol:20-25; ghost: none. -/
  | voted (keyper : Address) (startBatchIndex : Nat) (key : Bytes) (numVotes : Nat)
deriving DecidableEq, Repr

/-- All contracts at a block, with the events emitted so far (oldest first). `slasherAddr` is the address of the
`KeyperSlasher`, `batcherAddr` the one of the batcher, `depositAddr` the one of the deposit contract. -/
structure World where
  block : Nat
  config : Config
  batcher : Batcher
  feeBank : FeeBank
  executor : Executor
  deposit : Deposits
  slasher : Slasher
  keyBroadcast : KeyBroadcast
  slasherAddr : Address
  batcherAddr : Address
  depositAddr : Address
  log : List (Nat × Event)

/-- Emit an event. -/
def World.emit (w : World) (e : Event) : World := { w with log := w.log ++ [(w.block, e)] }

/-- Change a mapping in one place. -/
def upd {α β : Type} [DecidableEq α] (f : α → β) (a : α) (b : β) : α → β := fun x => if x = a then b else f x

/-! ## FeeBankContract -/

namespace World

/-- FeeBankContract.sol:35-51 `deposit` (`sender`, `value` are `msg.sender` and `msg.value`). -/
def feeDeposit (w : World) (sender receiver : Address) (value : Nat) : Option World := do
  require (receiver ≠ 0)
  require (value > 0)
  require (value ≤ two64 - 1 - w.feeBank.deposits receiver)
  let total := w.feeBank.deposits receiver + value
  some ({ w with feeBank := ⟨upd w.feeBank.deposits receiver total, w.feeBank.balance + value⟩ }.emit
    (.feeDeposited sender receiver value total))

/-- FeeBankContract.sol:64-71: `_withdraw` up to and including the transfer of the ether, which fails if the contract does
not own enough. -/
def feeWithdrawPre (w : World) (sender receiver : Address) (amount : Nat) : Option World := do
  require (receiver ≠ 0)
  let before := w.feeBank.deposits sender
  require (before > 0)
  require (amount ≤ before)
  require (amount ≤ w.feeBank.balance)
  some ({ w with feeBank := ⟨upd w.feeBank.deposits sender (before - amount), w.feeBank.balance - amount⟩ }.emit
    (.etherPaid sender receiver amount))

/-- FeeBankContract.sol:72: the event after the transfer. -/
def feeWithdrawPost (w : World) (sender receiver : Address) (amount : Nat) : World :=
  w.emit (.feeWithdrawn sender receiver amount (w.feeBank.deposits sender))

/-! ## BatcherContract -/

/-- BatcherContract.sol:101-105: the new batch hash. -/
def chainHash (E : Env) (tx prev : Bytes) : Bytes := E.keccak (tx ++ prev)

/-- BatcherContract.sol:109-112: the fee goes to the fee bank, if there is a receiver. Otherwise the batcher keeps it. -/
def payFee (w : World) (feeReceiver : Address) (value : Nat) : Option World :=
  if value > 0 ∧ feeReceiver ≠ 0 then w.feeDeposit w.batcherAddr feeReceiver value
  else some { w with batcher := { w.batcher with balance := w.batcher.balance + value } }

/-- BatcherContract.sol:55-118 `addTransaction`. `batchSizes[batchIndex] += uint64(transaction.length)` is checked
arithmetic. -/
def addTransaction (E : Env) (w : World) (batchIndex : Nat) (type : TxType) (tx : Bytes) (value : Nat) : Option World := do
  let batchIndex ← u64 batchIndex
  let i ← w.config.configIndexForBatchIndex batchIndex
  let bc ← w.config.scheduledConfig i
  let active ← w.config.batchingActive i
  require (active = true)
  let bounds ← w.config.batchBoundaryBlocks i batchIndex
  require (w.block ≥ bounds.1)
  require (w.block < bounds.2.1)
  require (tx.length > 0)
  require (tx.length ≤ bc.transactionSizeLimit)
  require (w.batcher.sizes batchIndex + tx.length ≤ bc.batchSizeLimit)
  require (value ≥ w.batcher.minFee)
  let h := chainHash E tx (w.batcher.hashes batchIndex type)
  let size ← addU64 (w.batcher.sizes batchIndex) tx.length
  let w1 := { w with batcher :=
    { w.batcher with
      sizes := upd w.batcher.sizes batchIndex size
      hashes := upd w.batcher.hashes batchIndex (upd (w.batcher.hashes batchIndex) type h) } }
  let w2 ← w1.payFee bc.feeReceiver value
  some (w2.emit (.transactionAdded batchIndex type tx h value))

/-- BatcherContract.sol:123-125 `setMinFee` -/
def setMinFee (w : World) (sender : Address) (n : Nat) : Option World := do
  require (sender = w.batcher.owner)
  let n ← u64 n
  some { w with batcher := { w.batcher with minFee := n } }

/-! ## ExecutorContract -/

/-- ExecutorContract.sol:57-95 `setHalfSteps` -/
def setHalfSteps (w : World) (sender : Address) (n : Nat) : Option World := do
  require (sender = w.executor.owner)
  let n ← u64 n
  let batchIndex := w.executor.halfSteps / 2
  let i ← w.config.configIndexForBatchIndex batchIndex
  let bounds ← w.config.batchBoundaryBlocks i batchIndex
  require (w.block ≥ bounds.2.2)
  require (n > w.executor.halfSteps)
  let newBatch := n / 2
  let j ← w.config.configIndexForBatchIndex newBatch
  let bounds' ← w.config.batchBoundaryBlocks j newBatch
  require (bounds'.2.1 < w.block)
  some ({ w with executor := { w.executor with halfSteps := n } }.emit (.halfStepsSet n))

/-- What `executeCipherBatch` does after its checks. -/
inductive CipherTurn
  | skip
  | execute (target : Address) (selector : Bytes)
deriving DecidableEq, Repr

/-- ExecutorContract.sol:103-186: the checks of `executeCipherBatch`. -/
def cipherPre (w : World) (sender : Address) (batchIndex : Nat) (hash : Bytes) (txs : List Bytes) (keyperIndex : Nat) :
    Option CipherTurn := do
  let batchIndex ← u64 batchIndex
  let keyperIndex ← u64 keyperIndex
  require (w.executor.halfSteps / 2 = batchIndex)
  require (w.executor.halfSteps % 2 = 0)
  let i ← w.config.configIndexForBatchIndex batchIndex
  let bc ← w.config.scheduledConfig i
  let active ← w.config.batchingActive i
  require (active = true)
  let bounds ← w.config.batchBoundaryBlocks i batchIndex
  if w.block ≥ bounds.2.2 then some .skip
  else do
    require (w.block ≥ bounds.2.1)
    let keyper ← bc.keypers[keyperIndex]?
    require (sender = keyper)
    require ((w.deposit.deposits sender).slashed = false)
    require (hash = w.batcher.hashes batchIndex .cipher)
    require (hash ≠ zeroHash ∨ txs = [])
    some (.execute bc.targetAddress bc.targetFunctionSelector)

/-- `numExecutionHalfSteps++`, checked. -/
def incHalfSteps (w : World) : Option World := do
  let n ← addU64 w.executor.halfSteps 1
  some { w with executor := { w.executor with halfSteps := n } }

/-- ExecutorContract.sol:140-144 and 288-290: skipping the cipher part. -/
def skipCipherPost (w : World) : Option World := do
  let w1 ← w.incHalfSteps
  some (w1.emit (.cipherSkipped w1.executor.halfSteps))

/-- ExecutorContract.sol:354-375: the hash over the executed transactions (`batchHash` of `executeTransactions`). -/
def chainHashes (E : Env) (txs : List Bytes) : Bytes := txs.foldl (fun h tx => chainHash E tx h) zeroHash

/-- ExecutorContract.sol:195-205: the end of `executeCipherBatch`. -/
def cipherPost (E : Env) (w : World) (sender : Address) (batchIndex : Nat) (hash : Bytes) (txs : List Bytes) :
    Option World := do
  let h := w.executor.halfSteps
  let bh := chainHashes E txs
  let w1 := { w with executor := { w.executor with receipts := upd w.executor.receipts h ⟨true, sender, h, hash, bh⟩ } }
  let w2 ← w1.incHalfSteps
  some ((w2.emit (.batchExecuted w2.executor.halfSteps bh)).emit (.cipherDone sender batchIndex hash txs))

/-- ExecutorContract.sol:261-291 `skipCipherExecution` -/
def skipCipherExecution (w : World) (batchIndex : Nat) : Option World := do
  let batchIndex ← u64 batchIndex
  require (w.executor.halfSteps / 2 = batchIndex)
  require (w.executor.halfSteps % 2 = 0)
  let i ← w.config.configIndexForBatchIndex batchIndex
  let active ← w.config.batchingActive i
  require (active = true)
  let bounds ← w.config.batchBoundaryBlocks i batchIndex
  require (w.block ≥ bounds.2.2)
  w.skipCipherPost

/-- ExecutorContract.sol:298-328: the checks of `executePlainBatch` before the execution. -/
def plainPre (w : World) (batchIndex : Nat) : Option (Address × Bytes) := do
  let batchIndex ← u64 batchIndex
  require (w.executor.halfSteps / 2 = batchIndex)
  require (w.executor.halfSteps % 2 = 1)
  let i ← w.config.configIndexForBatchIndex batchIndex
  let bc ← w.config.scheduledConfig i
  let active ← w.config.batchingActive i
  require (active = true)
  let bounds ← w.config.batchBoundaryBlocks i batchIndex
  require (w.block ≥ bounds.2.1)
  some (bc.targetAddress, bc.targetFunctionSelector)

/-- ExecutorContract.sol:337-346: the check of the batch hash and the end of `executePlainBatch`. -/
def plainPost (E : Env) (w : World) (sender : Address) (batchIndex : Nat) (txs : List Bytes) : Option World := do
  let bh := chainHashes E txs
  require (bh = w.batcher.hashes batchIndex .plain)
  let w1 ← w.incHalfSteps
  some ((w1.emit (.batchExecuted w1.executor.halfSteps bh)).emit (.plainDone sender batchIndex txs))

/-- ExecutorContract.sol:214-237: whether the cipher part of `batchIndex` may be skipped now. `some false` is `break`. -/
def maySkipCipher (w : World) (batchIndex : Nat) : Option Bool := do
  let i ← w.config.configIndexForBatchIndex batchIndex
  let active ← w.config.batchingActive i
  if active = false then some false
  else do
    let bounds ← w.config.batchBoundaryBlocks i batchIndex
    some (decide (bounds.2.1 ≤ w.block ∧ (bounds.2.2 ≤ w.block ∨ w.batcher.hashes batchIndex .cipher = zeroHash)))

/-- ExecutorContract.sol:242-253: the plain part in the loop of `skipEmptyOrTimedOutBatches`; `none` is `break`. The
local variables `halfSteps` and `batchIndex` are `2 * batchIndex + 1` and `batchIndex` here. -/
def skipPlain (w : World) (halfSteps batchIndex : Nat) : Option World :=
  if w.batcher.hashes batchIndex .plain = zeroHash then
    some ({ w with executor := { w.executor with halfSteps := halfSteps + 1 } }.emit (.batchExecuted (halfSteps + 1) zeroHash))
  else none

/-- ExecutorContract.sol:208-256 `skipEmptyOrTimedOutBatches`: the loop. The contract writes the counter
`numExecutionHalfSteps` only at the end; nothing reads it in between, and here it is written with every increment of the
local variable `halfSteps`. `uint64` overflow of `halfSteps` is checked. -/
def skipLoop (w : World) : Nat → Option World
  | 0 => some w
  | n + 1 =>
    let halfSteps := w.executor.halfSteps
    let batchIndex := halfSteps / 2
    if halfSteps % 2 = 0 then
      match w.maySkipCipher batchIndex with
      | none => none
      | some false => some w
      | some true =>
        match w.skipCipherPost with
        | none => none
        | some w1 =>
          if w1.executor.halfSteps + 1 < two64 then
            match w1.skipPlain w1.executor.halfSteps batchIndex with
            | none => some w1
            | some w2 => skipLoop w2 n
          else if w1.batcher.hashes batchIndex .plain = zeroHash then none else some w1
    else
      if halfSteps + 1 < two64 then
        match w.skipPlain halfSteps batchIndex with
        | none => some w
        | some w2 => skipLoop w2 n
      else if w.batcher.hashes batchIndex .plain = zeroHash then none else some w

/-- ExecutorContract.sol:208-256 `skipEmptyOrTimedOutBatches` -/
def skipEmptyOrTimedOutBatches (w : World) (maxBatches : Nat) : Option World := do
  let maxBatches ← u64 maxBatches
  w.skipLoop maxBatches

/-! ## DepositContract -/

/-- DepositContract.sol:61-75, 180-207: tokens arrive (`tokensReceived`, `_deposit`). Called by the token contract only;
every transfer of tokens to the contract ends up here (ERC777 with a registered recipient). The `uint256` sum cannot
overflow, as the total supply of the token is a `uint256`. -/
def tokensReceived (w : World) (sender : Address) (amount delay : Nat) : Option World := do
  let delay ← u64 delay
  let d := w.deposit.deposits sender
  require (delay ≥ d.delay)
  require (d.requested = 0)
  require (d.slashed = false)
  some ({ w with deposit :=
    { w.deposit with
      deposits := upd w.deposit.deposits sender ⟨d.amount + amount, delay, d.requested, d.slashed⟩
      tokens := w.deposit.tokens + amount } }.emit
    (.depositChanged sender (d.amount + amount) delay 0 false false amount))

/-- DepositContract.sol:77-96 `requestWithdrawal` -/
def requestWithdrawal (w : World) (sender : Address) : Option World := do
  let d := w.deposit.deposits sender
  require (d.amount > 0)
  require (d.slashed = false)
  require (d.requested = 0)
  some ({ w with deposit :=
    { w.deposit with deposits := upd w.deposit.deposits sender { d with requested := w.block } } }.emit
    (.depositChanged sender d.amount d.delay w.block false false 0))

/-- DepositContract.sol:98-114: `withdraw` up to the transfer of the tokens. The transfer (OpenZeppelin's ERC777) fails
for the zero address, and for the deposit contract itself, whose `tokensReceived` cannot decode the empty data. -/
def withdrawPre (w : World) (sender recipient : Address) : Option (World × Nat) := do
  let d := w.deposit.deposits sender
  require (d.amount > 0)
  require (d.slashed = false)
  require (d.requested > 0)
  let due ← addU64 d.requested d.delay
  require (w.block ≥ due)
  require (recipient ≠ 0)
  require (recipient ≠ w.depositAddr)
  require (d.amount ≤ w.deposit.tokens)
  some ({ w with deposit :=
    { w.deposit with
      deposits := upd w.deposit.deposits sender Deposit.zero
      tokens := w.deposit.tokens - d.amount } }.emit (.tokensPaid sender recipient d.amount), d.amount)

/-- DepositContract.sol:116-123: the event after the transfer. -/
def withdrawPost (w : World) (sender : Address) (amount : Nat) : World :=
  w.emit (.depositChanged sender 0 0 0 true false amount)

/-- DepositContract.sol:126-154 `slash` (called by the slasher): the deposit is zeroed, the event is emitted, and the
tokens are burnt or sent. -/
def slashDeposit (w : World) (account : Address) : Option World := do
  let d := w.deposit.deposits account
  require (d.amount ≤ w.deposit.tokens)
  require (w.deposit.slashingReceiver ≠ w.depositAddr)
  some ({ w with deposit :=
    { w.deposit with
      deposits := upd w.deposit.deposits account ⟨0, 0, 0, true⟩
      tokens := w.deposit.tokens - d.amount } }.emit
    (.depositChanged account 0 0 0 false true d.amount))

/-- DepositContract.sol:48-54 `setSlasher` -/
def setSlasher (w : World) (a : Address) : Option World := do
  require (w.deposit.slasher = 0)
  some { w with deposit := { w.deposit with slasher := a } }

/-- DepositContract.sol:56-59 `setSlashingReceiver` -/
def setSlashingReceiver (w : World) (sender a : Address) : Option World := do
  require (sender = w.deposit.owner)
  some { w with deposit := { w.deposit with slashingReceiver := a } }

/-! ## KeyperSlasher -/

/-- KeyperSlasher.sol:59-103 `accuse` -/
def accuse (w : World) (sender : Address) (halfStep keyperIndex : Nat) : Option World := do
  let halfStep ← u64 halfStep
  let keyperIndex ← u64 keyperIndex
  require (halfStep % 2 = 0)
  require ((w.slasher.accusations halfStep).accused = false)
  let i ← w.config.configIndexForBatchIndex (halfStep / 2)
  let bc ← w.config.scheduledConfig i
  let keyper ← bc.keypers[keyperIndex]?
  require (sender = keyper)
  let r := w.executor.receipts halfStep
  require (r.executed = true)
  require (r.cipherBatchHash ≠ zeroHash)
  some ({ w with slasher :=
    { w.slasher with
      accusations := upd w.slasher.accusations halfStep ⟨true, false, false, r.executor, halfStep, w.block⟩ } }.emit
    (.accused halfStep r.executor sender))

/-- A number as `k` bytes, most significant first. -/
def beBytes (n k : Nat) : Bytes := (List.range k).reverse.map (fun i => UInt8.ofNat (n / 256 ^ i))

/-- KeyperSlasher.sol:191-203 `_decryptionSignaturePreimage`: "\x19dectx", the batcher's address, the batch index, the
cipher batch hash and the batch hash. -/
def signaturePreimage (batcher : Address) (r : Receipt) : Bytes :=
  [0x19, 0x64, 0x65, 0x63, 0x74, 0x78] ++ beBytes batcher 20 ++ beBytes (r.halfStep / 2) 8 ++ r.cipherBatchHash ++ r.batchHash

/-- KeyperSlasher.sol:168-188: the loop over the signatures; `prev` is the index before. -/
def verifySigners (E : Env) (bc : BatchConfig) (hash : Bytes) : Option Nat → List (Nat × Bytes) → Option Unit
  | _, [] => some ()
  | prev, (index, sig) :: rest => do
    let keyper ← bc.keypers[index]?
    require (∀ p, prev = some p → p < index)
    let signer ← E.recover hash sig
    require (signer = keyper)
    verifySigners E bc hash (some index) rest

/-- KeyperSlasher.sol:143-189 `_verifyAuthorization` -/
def verifyAuthorization (E : Env) (w : World) (a : Authorization) (r : Receipt) : Option Unit := do
  let i ← w.config.configIndexForBatchIndex (r.halfStep / 2)
  let bc ← w.config.scheduledConfig i
  require (a.signatures.length ≥ bc.threshold)
  require (a.signatures.length = a.signerIndices.length)
  verifySigners E bc (E.keccak (signaturePreimage w.batcherAddr r)) none (a.signerIndices.zip a.signatures)

/-- KeyperSlasher.sol:105-122 `appeal` -/
def appeal (E : Env) (w : World) (a : Authorization) : Option World := do
  let h ← u64 a.halfStep
  let acc := w.slasher.accusations h
  require (acc.accused = true)
  require (acc.appealed = false)
  let r := w.executor.receipts h
  verifyAuthorization E w a r
  some ({ w with slasher := { w.slasher with accusations := upd w.slasher.accusations h { acc with appealed := true } } }.emit
    (.appealed h r.executor))

/-- KeyperSlasher.sol:124-132: the checks of `slash`; the accused is returned. -/
def slashPre (w : World) (halfStep : Nat) : Option Accusation := do
  let halfStep ← u64 halfStep
  let acc := w.slasher.accusations halfStep
  require (acc.accused = true)
  require (acc.appealed = false)
  require (acc.slashed = false)
  require (w.block ≥ acc.blockNumber + w.slasher.appealBlocks)
  some acc

/-- KeyperSlasher.sol:135-140: after the deposit contract was called. -/
def slashPost (w : World) (halfStep : Nat) (acc : Accusation) : World :=
  { w with slasher :=
    { w.slasher with
      accusations := upd w.slasher.accusations halfStep { w.slasher.accusations halfStep with slashed := true } } }.emit
    (.slashed acc.halfStep acc.executor)

/-! ## KeyBroadcastContract -/

/-- KeyBroadcastContract.sol:43-92 `vote` -/
def vote (E : Env) (w : World) (sender : Address) (keyperIndex startBatchIndex : Nat) (key : Bytes) : Option World := do
  let keyperIndex ← u64 keyperIndex
  let b ← u64 startBatchIndex
  let i ← w.config.configIndexForBatchIndex b
  let bc ← w.config.scheduledConfig i
  require (bc.batchSpan > 0)
  let keyper ← bc.keypers[keyperIndex]?
  require (sender = keyper)
  require (w.keyBroadcast.voted b sender = false)
  let k := w.keyBroadcast
  let h := E.keccak key
  let n ← addU64 (k.numVotes b h) 1
  some ({ w with keyBroadcast :=
    { voted := upd k.voted b (upd (k.voted b) sender true)
      numVotes := upd k.numVotes b (upd (k.numVotes b) h n)
      keys := if (k.keys h).length = 0 then upd k.keys h key else k.keys
      bestHash := if n > k.bestVotes b then upd k.bestHash b h else k.bestHash
      bestVotes := if n > k.bestVotes b then upd k.bestVotes b n else k.bestVotes } }.emit
    (.voted sender b key n))

end World
end Shutter.Sol
