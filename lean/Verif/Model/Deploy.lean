import Verif.Model.SolWorld
import Verif.Model.Files
import Verif.Spec.SolWorld

/-!
# Deployment: shuttermint/cmd/deploy/deploy.go, medley/txbatch/txbatch.go and the constructors of the contracts

The command signs ten transactions with consecutive nonces, each of which creates a contract, sends them and waits for the receipts.
Meanwhile everybody else uses the chain.
-/

namespace Shutter.Deploy
open Shutter.Sol Shutter.Files
open Shutter.App (Addr)

/-- The contracts of a deployment. -/
inductive Kind
  | config | keyBroadcast | feeBank | batcher | token | deposit | executor | targetProxy | target | keyperSlasher
deriving DecidableEq, Repr

/-- A contract with the arguments of its constructor. -/
inductive Creation
  | config (headsUp : Nat)
  | keyBroadcast (config : Address)
  | feeBank
  | batcher (config feeBank : Address)
  | token
  | deposit (token : Address)
  | executor (config batcher deposit : Address)
  | targetProxy (executor : Address)
  | target (executor : Address)
  | keyperSlasher (appealBlocks : Nat) (config executor deposit : Address)
deriving DecidableEq, Repr

def Creation.kind : Creation → Kind
  | .config _ => .config
  | .keyBroadcast _ => .keyBroadcast
  | .feeBank => .feeBank
  | .batcher _ _ => .batcher
  | .token => .token
  | .deposit _ => .deposit
  | .executor _ _ _ => .executor
  | .targetProxy _ => .targetProxy
  | .target _ => .target
  | .keyperSlasher _ _ _ _ => .keyperSlasher

/-! ## The command -/

/-- A transaction of the deployer. -/
structure Tx where
  nonce : Nat
  creation : Creation
deriving DecidableEq, Repr

/-- txbatch.go:20-26 `TXBatch`: the next nonce, and the transactions so far. -/
structure Batch where
  nonce : Nat
  txs : List Tx

/-- An address as the contracts have it. -/
def sol (a : Addr) : Address := Crypto.beNat a

/-- go-ethereum `bind.DeployContract`, and txbatch.go:43-46 `Add`: the transaction has the nonce of the batch; `addr` is
`crypto.CreateAddress` of the deployer for a nonce. -/
def Batch.deploy (addr : Nat → Addr) (b : Batch) (c : Creation) : Addr × Batch :=
  (addr b.nonce, ⟨b.nonce + 1, b.txs ++ [⟨b.nonce, c⟩]⟩)

/-- deploy.go:27-28 -/
def defaultHeadsUp : Nat := 20
def defaultAppealBlocks : Nat := 20

/-- deploy.go:154-240 `batchContractDeployments`; txbatch.go:28-41, 74-95: the first nonce is the pending one of the account. -/
def deployBatch (addr : Nat → Addr) (pendingNonce : Nat) : Contracts × List Tx :=
  let b : Batch := ⟨pendingNonce, []⟩
  let (config, b) := b.deploy addr (.config defaultHeadsUp)
  let (broadcast, b) := b.deploy addr (.keyBroadcast (sol config))
  let (fee, b) := b.deploy addr .feeBank
  let (batcher, b) := b.deploy addr (.batcher (sol config) (sol fee))
  let (token, b) := b.deploy addr .token
  let (deposit, b) := b.deploy addr (.deposit (sol token))
  let (executor, b) := b.deploy addr (.executor (sol config) (sol batcher) (sol deposit))
  let (proxy, b) := b.deploy addr (.targetProxy (sol executor))
  let (target, b) := b.deploy addr (.target (sol proxy))
  let (slasher, b) := b.deploy addr (.keyperSlasher defaultAppealBlocks (sol config) (sol executor) (sol deposit))
  ({ config := config, keyBroadcast := broadcast, feeBank := fee, batcher := batcher, executor := executor, token := token,
     deposit := deposit, slasher := slasher, targetProxy := proxy, target := target }, b.txs)

/-- What the command says. -/
inductive Report
  | waiting
  | failed
  | done (file : Events.Text)
deriving DecidableEq, Repr

/-- txbatch.go:48-72 `WaitMined`, deploy.go:242-286: the command waits for the receipts of all transactions; only if all have status 1 it writes
the file. `receipts` gives the receipts of the node by nonce. -/
def report (cx : Events.Codecs) (addr : Nat → Addr) (pendingNonce : Nat) (receipts : Nat → Option Bool) : Report :=
  let (contracts, txs) := deployBatch addr pendingNonce
  if txs.any (fun t => receipts t.nonce = none) then .waiting
  else if txs.any (fun t => receipts t.nonce = some false) then .failed
  else .done (contracts.save cx)

/-! ## The chain -/

/-- The part of the chain that matters: the nonce of the deployer's account, whether the ERC1820 registry is there, the contracts that were
created by the deployer's transactions, with their addresses, the storage of these contracts, and the receipts. -/
structure Site where
  nonce : Nat
  registry : Bool
  created : List (Address × Creation)
  world : World
  receipts : Nat → Option Bool

/-- The storage of accounts without code is empty. -/
def blank (block : Nat) : World where
  block := block
  config := ⟨[], zeroConfig, 0, 0⟩
  batcher := ⟨fun _ => 0, fun _ _ => zeroHash, 0, 0, 0⟩
  feeBank := ⟨fun _ => 0, 0⟩
  executor := ⟨0, fun _ => Receipt.zero, 0⟩
  deposit := ⟨fun _ => Deposit.zero, 0, 0, 0, 0⟩
  slasher := ⟨fun _ => Accusation.zero, 0⟩
  keyBroadcast := ⟨fun _ _ => false, fun _ _ => 0, fun _ => [], fun _ => zeroHash, fun _ => 0⟩
  slasherAddr := 0
  batcherAddr := 0
  depositAddr := 0
  log := []

/-- The contract at an address. -/
def Site.codeAt (s : Site) (a : Address) : Option Creation := (s.created.find? (fun p => p.1 = a)).map Prod.snd

/-- Is there a contract of this kind? -/
def Site.has (s : Site) (k : Kind) : Bool := s.created.any (fun p => p.2.kind = k)

/-- The constructors: ConfigContract.sol:43-48, KeyBroadcastContract.sol:33-35, FeeBankContract.sol (none), BatcherContract.sol:42-48,
TestDepositTokenContract.sol:8-10, DepositContract.sol:38-46 (calls the registry), ExecutorContract.sol:43-51, TargetProxyContract.sol:10-12,
TestTargetContract.sol:11-13, KeyperSlasher.sol:44-57 (calls the deposit contract). `self` is the address of the new contract; `owner` the account that
creates it (OpenZeppelin Ownable.sol:25-29). `none`: the constructor reverts. Ether may be at an address before there is a contract. The token
contract and the targets are not part of `World`; the references to other contracts are kept in `Site.created`. -/
def Site.construct (s : Site) (owner self : Address) : Creation → Option World
  | .config headsUp => some { s.world with config := Config.init headsUp owner }
  | .keyBroadcast _ => some { s.world with keyBroadcast := ⟨fun _ _ => false, fun _ _ => 0, fun _ => [], fun _ => zeroHash, fun _ => 0⟩ }
  | .feeBank => some { s.world with feeBank := ⟨fun _ => 0, s.world.feeBank.balance⟩ }
  | .batcher _ _ => some { s.world with batcher := ⟨fun _ => 0, fun _ _ => zeroHash, 0, owner, 0⟩, batcherAddr := self }
  | .token => some s.world
  | .deposit _ =>
    if s.registry then some { s.world with deposit := ⟨fun _ => Deposit.zero, 0, 0, owner, 0⟩, depositAddr := self } else none
  | .executor _ _ _ => some { s.world with executor := ⟨0, fun _ => Receipt.zero, owner⟩ }
  | .targetProxy _ => some s.world
  | .target _ => some s.world
  | .keyperSlasher appealBlocks _ _ deposit =>
    match s.codeAt deposit with
    | some (.deposit _) =>
      (s.world.setSlasher self).map (fun w => { w with slasher := ⟨fun _ => Accusation.zero, appealBlocks⟩, slasherAddr := self })
    | _ => none

/-- A transaction of the deployer is included, with enough gas or not. -/
def Site.include (s : Site) (owner : Address) (addr : Nat → Addr) (t : Tx) (gas : Bool) : Site :=
  match (if gas then s.construct owner (sol (addr t.nonce)) t.creation else none) with
  | none => { s with nonce := s.nonce + 1, receipts := upd s.receipts t.nonce (some false) }
  | some w => { s with nonce := s.nonce + 1, created := s.created ++ [(sol (addr t.nonce), t.creation)], world := w,
                       receipts := upd s.receipts t.nonce (some true) }

/-- The contract that is called. -/
def contractOf : Op → Kind
  | .config _ _ => .config
  | .addTransaction _ _ _ _ _ | .setMinFee _ _ => .batcher
  | .feeDeposit _ _ _ | .feeWithdraw _ _ _ | .forceEther _ => .feeBank
  | .setHalfSteps _ _ | .executeCipherBatch _ _ _ _ _ _ | .executePlainBatch _ _ _ _ | .skipEmptyOrTimedOutBatches _ _
  | .skipCipherExecution _ _ => .executor
  | .sendTokens _ _ _ | .requestWithdrawal _ | .withdraw _ _ _ | .setSlasher _ _ | .setSlashingReceiver _ _ | .slashDeposit _ _ _ => .deposit
  | .accuse _ _ _ | .appeal _ _ | .slash _ _ _ => .keyperSlasher
  | .vote _ _ _ _ => .keyBroadcast

/-- The account that calls; ether that is forced upon the fee bank comes from nobody in particular. -/
def senderOf : Op → Option Address
  | .forceEther _ => none
  | .config s _ | .addTransaction s _ _ _ _ | .setMinFee s _ | .feeDeposit s _ _ | .feeWithdraw s _ _ | .setHalfSteps s _
  | .executeCipherBatch s _ _ _ _ _ | .executePlainBatch s _ _ _ | .skipEmptyOrTimedOutBatches s _ | .skipCipherExecution s _
  | .sendTokens s _ _ | .requestWithdrawal s | .withdraw s _ _ | .setSlasher s _ | .setSlashingReceiver s _ | .slashDeposit s _ _
  | .accuse s _ _ | .appeal s _ | .slash s _ _ | .vote s _ _ _ => some s

/-- Others can call contracts that are there; ether can be forced upon any address. Nobody has the zero address. -/
def Site.MayCall (s : Site) (owner : Address) (op : Op) : Prop :=
  (s.has (contractOf op) = true ∨ ∃ v, op = .forceEther v) ∧ senderOf op ≠ some owner ∧ senderOf op ≠ some 0

/-- What happens on the chain while the command runs: time passes; others make calls; older transactions of the deployer are included;
the transactions of the command are included. All transactions of the account come in the order of their nonces. -/
inductive SiteStep (E : Env) (owner : Address) (addr : Nat → Addr) (pendingNonce : Nat) : Site → Site → Prop
  | mine {s : Site} {b : Nat} : s.world.block ≤ b → b < two64 →
      SiteStep E owner addr pendingNonce s { s with world := { s.world with block := b } }
  | call {s : Site} {op : Op} {w : World} : op.Throughout (s.MayCall owner) → s.world.step E op = some w →
      SiteStep E owner addr pendingNonce s { s with world := w }
  | older {s : Site} : s.nonce < pendingNonce → SiteStep E owner addr pendingNonce s { s with nonce := s.nonce + 1 }
  | own {s : Site} {t : Tx} {gas : Bool} : t ∈ (deployBatch addr pendingNonce).2 → t.nonce = s.nonce →
      SiteStep E owner addr pendingNonce s (s.include owner addr t gas)

end Shutter.Deploy
