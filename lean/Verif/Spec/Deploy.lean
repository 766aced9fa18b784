import Verif.Model.Deploy
import Verif.Spec.SolOwner

/-! # Vocabulary for the deployment -/

namespace Shutter.Deploy
open Shutter.Sol Shutter.Files
open Shutter.App (Addr)

/-- Any number of steps. -/
abbrev SiteLater (E : Env) (owner : Address) (addr : Nat → Addr) (n : Nat) : Site → Site → Prop :=
  Relation.ReflTransGen (SiteStep E owner addr n)

/-- Before the command sends its transactions: none of the contracts is there. `n` is the pending nonce of the account, which is not below
the current one. -/
structure Start (n : Nat) (s : Site) : Prop where
  nonce : s.nonce ≤ n
  created : s.created = []
  world : ∃ block < two64, s.world = blank block
  receipts : ∀ m, n ≤ m → s.receipts m = none

/-- The addresses of the ten contracts: 20 bytes, different for different nonces, and none of them zero. -/
structure GoodAddresses (addr : Nat → Addr) (n : Nat) : Prop where
  length : ∀ i < 10, (addr (n + i)).length = 20
  inj : ∀ i < 10, ∀ j < 10, addr (n + i) = addr (n + j) → i = j
  nonzero : ∀ i < 10, sol (addr (n + i)) ≠ 0

/-- The contracts are there, and refer to each other. -/
structure Wired (s : Site) (c : Contracts) : Prop where
  config : s.codeAt (sol c.config) = some (.config 20)
  keyBroadcast : s.codeAt (sol c.keyBroadcast) = some (.keyBroadcast (sol c.config))
  feeBank : s.codeAt (sol c.feeBank) = some .feeBank
  batcher : s.codeAt (sol c.batcher) = some (.batcher (sol c.config) (sol c.feeBank))
  token : s.codeAt (sol c.token) = some .token
  deposit : s.codeAt (sol c.deposit) = some (.deposit (sol c.token))
  executor : s.codeAt (sol c.executor) = some (.executor (sol c.config) (sol c.batcher) (sol c.deposit))
  targetProxy : s.codeAt (sol c.targetProxy) = some (.targetProxy (sol c.executor))
  target : s.codeAt (sol c.target) = some (.target (sol c.targetProxy))
  slasher : s.codeAt (sol c.slasher) = some (.keyperSlasher 20 (sol c.config) (sol c.executor) (sol c.deposit))

/-- The state of the contracts has a history from a deployment at once, with the deployer as owner, in which only calls of the contracts
happened. -/
def FromDeployment (E : Env) (owner : Address) (c : Contracts) (w : World) : Prop :=
  ∃ block < two64, WorldLater E (World.deployed block 20 20 owner (sol c.slasher) (sol c.batcher) (sol c.deposit)) w

/-- The settings are as the constructors made them: no config but the empty one, the deployer owns all contracts, no fee, slashed tokens are burnt,
and the slasher is the contract made for this. -/
structure Untouched (owner slasher : Address) (w : World) : Prop where
  config : w.config = Config.init 20 owner
  owners : w.owners = ⟨owner, owner, owner, owner⟩
  minFee : w.batcher.minFee = 0
  receiver : w.deposit.slashingReceiver = 0
  slasher : w.deposit.slasher = slasher

/-- A step in a lucky run: the transactions of the command have enough gas, and nobody else becomes the slasher before the last of them is
included. -/
inductive LuckyStep (E : Env) (owner : Address) (addr : Nat → Addr) (n : Nat) : Site → Site → Prop
  | others {s s' : Site} : SiteStep E owner addr n s s' → s'.nonce = s.nonce ∨ s.nonce < n → s'.nonce < n + 10 → s'.world.deposit.slasher = 0 →
      LuckyStep E owner addr n s s'
  | later {s s' : Site} : SiteStep E owner addr n s s' → n + 10 ≤ s.nonce → LuckyStep E owner addr n s s'
  | own {s : Site} {t : Tx} : t ∈ (deployBatch addr n).2 → t.nonce = s.nonce → LuckyStep E owner addr n s (s.include owner addr t true)

end Shutter.Deploy
