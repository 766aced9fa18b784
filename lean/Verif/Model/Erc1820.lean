/-!
# The ERC1820 registry: shuttermint/contract/erc1820/erc1820.go, cmd/deploy/deploy.go (before the contracts are deployed)

The registry is created by one fixed transaction of an account nobody has the key of (its signature was made up, EIP-1820). Everybody
can send that transaction once the account has got the money for it.

Simplifications: of the chain only what matters is kept; signatures, RLP and the bytecode are trusted; the node's mempool holds at most
one of the owner's transactions, since the owner's account is used by this command only, and others may only send it money. A request
may fail at any time (connection, the deadline of 300 seconds, a refusal), which the step `fails` stands for.
-/

namespace Shutter.Erc1820

/-- erc1820.go:25 `deployerAmountInt`: 0.08 ether -/
def deployerAmount : Nat := 80000000000000000

/-- bin.go:4 `deploymentTransactionHex`: the gas price and the gas limit of the transaction (its nonce is 0, it sends no money) -/
def deploymentGasPrice : Nat := 100000000000
def deploymentGas : Nat := 800000

/-- erc1820.go:82: the gas of the funding transaction -/
def fundingGas : Nat := 21000

/-- erc1820.go:64-85 `NewFundingTransaction`: a transaction of the owner to the registry's deployer -/
structure Funding where
  nonce : Nat
  value : Nat
  gasPrice : Nat
  deriving DecidableEq

/-- Where the command is: erc1820.go:88-134, deploy.go:144-155. -/
inductive Pc
  /-- deploy.go:145: is it there? -/
  | check
  /-- erc1820.go:73-82: nonce and price are asked for -/
  | nonce
  | price (nonce : Nat)
  /-- erc1820.go:103: the funding transaction is sent -/
  | sendFunding (f : Funding)
  /-- erc1820.go:107 -/
  | waitFunding (f : Funding)
  /-- erc1820.go:112 -/
  | sendDeployment
  /-- erc1820.go:116 -/
  | waitDeployment
  /-- nil is returned, deploy.go:152-154: the contracts are deployed next -/
  | done
  /-- an error is returned, and the program ends -/
  | failed
  deriving DecidableEq

/-- The chain with the node's mempool, and the command. `given` is what others have sent to the owner so far. -/
structure State where
  owner : Nat
  ownerNonce : Nat
  given : Nat
  deployer : Nat
  /-- whether the deployer's only transaction has been included -/
  deployerUsed : Bool
  /-- code at the registry's address -/
  code : Bool
  pooledFunding : Option Funding
  pooledDeployment : Bool
  /-- the receipts there are: of the owner's transaction with this nonce, and of the deployment -/
  fundingReceipt : Nat → Option Bool
  deploymentReceipt : Option Bool
  pc : Pc

/-- The node accepts the funding transaction: it is the owner's next, and the owner has the money. -/
def State.acceptsFunding (s : State) (f : Funding) : Bool :=
  decide (f.nonce = s.ownerNonce) && decide (f.value + fundingGas * f.gasPrice ≤ s.owner) && s.pooledFunding.isNone

/-- The node accepts the deployment: "nonce too low", "already known", "insufficient funds" otherwise. -/
def State.acceptsDeployment (s : State) : Bool :=
  !s.deployerUsed && !s.pooledDeployment && decide (deploymentGas * deploymentGasPrice ≤ s.deployer)

/-- What the owner and the deployer have, and which of their transactions are included, after the funding transaction is included. -/
def State.includeFunding (s : State) (f : Funding) : State :=
  { s with owner := s.owner - (f.value + fundingGas * f.gasPrice), ownerNonce := s.ownerNonce + 1, deployer := s.deployer + f.value,
           pooledFunding := none, fundingReceipt := fun n => if n = f.nonce then some true else s.fundingReceipt n }

/-- The deployment is included, with the gas it uses. If that is not enough it fails (it is on no known chain), and there is no second
transaction. -/
def State.includeDeployment (s : State) (gasUsed : Nat) (works : Bool) : State :=
  { s with deployer := s.deployer - deploymentGasPrice * gasUsed, deployerUsed := true, code := s.code || works,
           pooledDeployment := false, deploymentReceipt := some works }

/-- deploy.go:145-153 -/
def State.checked (s : State) : State := { s with pc := if s.code then .done else .nonce }

/-- erc1820.go:82: the funding transaction -/
def newFunding (nonce gasPrice : Nat) : Funding := ⟨nonce, deployerAmount, gasPrice⟩

/-- One step of the command, the chain, or others. -/
inductive Step : State → State → Prop
  /-- deploy.go:145-153, erc1820.go:88-94 -/
  | check {s} : s.pc = .check → Step s s.checked
  /-- erc1820.go:73-76 -/
  | nonce {s} : s.pc = .nonce → Step s { s with pc := .price s.ownerNonce }
  /-- erc1820.go:77-84: the node suggests any price. -/
  | price {s n} (p : Nat) : s.pc = .price n → Step s { s with pc := .sendFunding (newFunding n p) }
  /-- erc1820.go:103-106 -/
  | sendFunding {s f} : s.pc = .sendFunding f → s.acceptsFunding f = true →
      Step s { s with pooledFunding := some f, pc := .waitFunding f }
  | refuseFunding {s f} : s.pc = .sendFunding f → s.acceptsFunding f = false → Step s { s with pc := .failed }
  /-- erc1820.go:107-110, 124-134: the receipt is there. -/
  | funded {s f b} : s.pc = .waitFunding f → s.fundingReceipt f.nonce = some b →
      Step s { s with pc := if b then .sendDeployment else .failed }
  /-- erc1820.go:112-115 -/
  | sendDeployment {s} : s.pc = .sendDeployment → s.acceptsDeployment = true →
      Step s { s with pooledDeployment := true, pc := .waitDeployment }
  | refuseDeployment {s} : s.pc = .sendDeployment → s.acceptsDeployment = false → Step s { s with pc := .failed }
  /-- erc1820.go:116-121 -/
  | deployed {s b} : s.pc = .waitDeployment → s.deploymentReceipt = some b → Step s { s with pc := if b then .done else .failed }
  /-- a request fails -/
  | fails {s} : s.pc ≠ .done → Step s { s with pc := .failed }
  /-- blocks -/
  | includeFunding {s f} : s.pooledFunding = some f → Step s (s.includeFunding f)
  | includeDeployment {s} (gasUsed : Nat) (works : Bool) : s.pooledDeployment = true → gasUsed ≤ deploymentGas →
      Step s (s.includeDeployment gasUsed works)
  /-- others -/
  | give {s} (x : Nat) : Step s { s with owner := s.owner + x, given := s.given + x }
  | giveDeployer {s} (x : Nat) : Step s { s with deployer := s.deployer + x }
  | sendDeploymentToo {s} : s.acceptsDeployment = true → Step s { s with pooledDeployment := true }

/-- Steps of any number -/
inductive Run : State → State → Prop
  | refl {s} : Run s s
  | tail {s s' s''} : Run s s' → Step s' s'' → Run s s''

/-- How `deploy` begins, deploy.go:50-94: `none` is an error, `some none` a panic, else the gas price for the deployments. -/
def deployPrice (flag : Option (Option Int)) (suggested balance : Nat) : Option (Option Int) :=
  let go (price : Int) : Option (Option Int) :=
    -- deploy.go:94 new(big.Int).Quo(balance, gasPrice) panics for zero; the quotient is only printed
    if price = 0 then some none else
      let _available := (balance : Int).tdiv price
      some (some price)
  match flag with
  | none => go suggested
  -- deploy.go:52-55: not a number
  | some none => none
  -- deploy.go:56-59, 302-304 gweiToWei
  | some (some g) => if g < 0 then none else go (g * 1000000000)

end Shutter.Erc1820
