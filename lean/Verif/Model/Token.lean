import Verif.Model.SolWorld
import Verif.Model.Crypto

/-!
# The deposit token: contracts/openzeppelin/contracts/token/ERC777/ERC777.sol, together with the other contracts

`Verif.Model.SolContracts` has only the deposit contract's own balance, and transfers to and from it as single steps. Here the token
contract is modelled with its hooks, and the registry of hooks (ERC1820, of which the repository has the interface
contracts/openzeppelin/contracts/utils/introspection/IERC1820Registry.sol and the bytecode). The events of the token contract are not modelled.
The token is one like contracts/contracts/TestDepositTokenContract.sol: after its deployment nothing is minted.
-/

namespace Shutter.Token
open Shutter.Sol

/-- `type(uint256).max + 1` -/
def two256 : Nat := 2 ^ 256

/-- ERC777.sol:33-54, the storage of the token contract. `operators`, `revoked` and `allowances` are indexed by the holder first. -/
structure Erc777 where
  balances : Address → Nat
  totalSupply : Nat
  defaultOperators : Address → Bool
  operators : Address → Address → Bool
  revoked : Address → Address → Bool
  allowances : Address → Address → Nat

/-- Change a two-dimensional mapping in one place. -/
def upd2 {β : Type} (f : Address → Address → β) (a b : Address) (v : β) : Address → Address → β := upd f a (upd (f a) b v)

namespace Erc777

/-- ERC777.sol:167-171 `isOperatorFor` -/
def isOperatorFor (t : Erc777) (operator holder : Address) : Bool :=
  decide (operator = holder) || (t.defaultOperators operator && !t.revoked holder operator) || t.operators holder operator

/-- The functions of the token contract that call nobody. -/
inductive Call
  | authorizeOperator (operator : Address)
  | revokeOperator (operator : Address)
  | approve (spender : Address) (value : Nat)

/-- ERC777.sol:176-201 `authorizeOperator`, `revokeOperator`, 256-260, 424-430 `approve` -/
def call (t : Erc777) (caller : Address) : Call → Option Erc777
  | .authorizeOperator o => do
    require (caller ≠ o)
    if t.defaultOperators o then some { t with revoked := upd2 t.revoked caller o false }
    else some { t with operators := upd2 t.operators caller o true }
  | .revokeOperator o => do
    require (o ≠ caller)
    if t.defaultOperators o then some { t with revoked := upd2 t.revoked caller o true }
    else some { t with operators := upd2 t.operators caller o false }
  | .approve s v => do
    require (caller ≠ 0)
    require (s ≠ 0)
    require (v < two256)
    some { t with allowances := upd2 t.allowances caller s v }

/-- ERC777.sol:398-417 `_move` -/
def move (t : Erc777) (src dst : Address) (amount : Nat) : Option Erc777 := do
  require (amount ≤ t.balances src)
  let b := upd t.balances src (t.balances src - amount)
  require (b dst + amount < two256)
  some { t with balances := upd b dst (b dst + amount) }

/-- ERC777.sol:389-392, of `_burn` -/
def burn (t : Erc777) (holder : Address) (amount : Nat) : Option Erc777 := do
  require (amount ≤ t.balances holder)
  require (amount ≤ t.totalSupply)
  some { t with balances := upd t.balances holder (t.balances holder - amount), totalSupply := t.totalSupply - amount }

end Erc777

/-- The registry of hooks, IERC1820Registry.sol:19-73, for the interfaces `ERC777TokensSender` and `ERC777TokensRecipient`. -/
structure Registry where
  manager : Address → Address
  sender : Address → Address
  recipient : Address → Address

inductive Registry.Call
  | setManager (account new : Address)
  | setSender (account implementer : Address)
  | setRecipient (account implementer : Address)

/-- IERC1820Registry.sol:42-62: may `caller` make `implementer` the implementer of `account`? It must be the manager of the account, and
the implementer must agree if it is not the caller. Any contract may agree but the deposit contract, which has no function
`canImplementInterfaceForAddress`. -/
def Registry.maySet (r : Registry) (deposit caller account implementer : Address) : Bool :=
  decide (r.manager account = caller) && decide (implementer = 0 ∨ implementer = caller ∨ implementer ≠ deposit)

/-- IERC1820Registry.sol:21-33 `setManager`, 42-62 `setInterfaceImplementer`; the zero address is an alias for the caller. -/
def Registry.call (r : Registry) (deposit caller : Address) : Registry.Call → Option Registry
  | .setManager account new => do
    require (r.manager account = caller)
    some { r with manager := upd r.manager account (if new = 0 then account else new) }
  | .setSender account implementer => do
    let account := if account = 0 then caller else account
    require (r.maySet deposit caller account implementer = true)
    some { r with sender := upd r.sender account implementer }
  | .setRecipient account implementer => do
    let account := if account = 0 then caller else account
    require (r.maySet deposit caller account implementer = true)
    some { r with recipient := upd r.recipient account implementer }

/-- All contracts, with the token, the registry, and the addresses that have code. -/
structure Chain where
  world : World
  token : Erc777
  registry : Registry
  isContract : Address → Bool

/-- The deposit contract. -/
abbrev Chain.dep (c : Chain) : Address := c.world.depositAddr

/-- The field `tokens` of Model/SolContracts is set to this balance. -/
def setTokens (w : World) (n : Nat) : World := { w with deposit := { w.deposit with tokens := n } }

/-- The storage of the token contract is changed; `tokens` is a copy of the deposit contract's balance, which no definition in this file
reads. -/
def Chain.withToken (c : Chain) (t : Erc777) : Chain := { c with token := t, world := setTokens c.world (t.balances c.dep) }

/-- The four functions that transfer tokens. -/
inductive Kind
  | send | transfer | operatorSend | transferFrom
deriving DecidableEq, Repr

/-- A call of such a function. -/
structure Sending where
  kind : Kind
  caller : Address
  src : Address
  dst : Address
  amount : Nat
  data : Sol.Bytes

/-- ERC777.sol:129-153, 215-228, 271-288: `transfer` and `transferFrom` have no data. -/
def Sending.userData (m : Sending) : Sol.Bytes :=
  match m.kind with
  | .send | .operatorSend => m.data
  | .transfer | .transferFrom => []

/-- ERC777.sol:130, 150, 227, 285, 482-484: must contracts acknowledge the reception? -/
def Sending.ack (m : Sending) : Bool :=
  match m.kind with
  | .send | .operatorSend => true
  | .transfer | .transferFrom => false

/-- ERC777.sol:130, 144, 226, 275: who may call. -/
def Sending.authorized (t : Erc777) (m : Sending) : Bool :=
  match m.kind with
  | .send | .transfer => decide (m.caller = m.src)
  | .operatorSend => t.isOperatorFor m.caller m.src
  | .transferFrom => true

/-- ERC777.sol:281-283, 424-430: `transferFrom` uses up the allowance. -/
def Sending.spend (m : Sending) (t : Erc777) : Option Erc777 :=
  match m.kind with
  | .transferFrom => do
    require (m.amount ≤ t.allowances m.src m.caller)
    require (m.caller ≠ 0)
    some { t with allowances := upd2 t.allowances m.src m.caller (t.allowances m.src m.caller - m.amount) }
  | _ => some t

/-- `abi.decode(data, (uint64))` -/
def decodeU64 (data : Sol.Bytes) : Option Nat :=
  if data.length < 32 then none
  else if Crypto.beNat (data.take 32) < two64 then some (Crypto.beNat (data.take 32)) else none

/-- DepositContract.sol:61-75, 180-207: `tokensReceived`, called by the token contract. -/
def credit (w : World) (src : Address) (amount delay : Nat) : Option World := do
  let d := w.deposit.deposits src
  require (delay ≥ d.delay)
  require (d.requested = 0)
  require (d.slashed = false)
  require (d.amount + amount < two256)
  some ({ w with deposit :=
    { w.deposit with deposits := upd w.deposit.deposits src ⟨d.amount + amount, delay, d.requested, d.slashed⟩ } }.emit
    (.depositChanged src (d.amount + amount) delay 0 false false amount))

/-- ERC777.sol:468-485 `_callTokensReceived`: the check, and the effect if the deposit contract is called. If another contract is called,
its effects are the calls it makes, see `Run`. -/
def received (c : Chain) (m : Sending) : Option Chain :=
  if c.registry.recipient m.dst = 0 then (if m.ack && c.isContract m.dst then none else some c)
  else if c.registry.recipient m.dst = c.dep then do
    let delay ← decodeU64 m.userData
    let w ← credit c.world m.src m.amount delay
    some { c with world := w }
  else some c

/-- DepositContract.sol:98-113: the checks of `withdraw`, and the deposit is deleted. The event is the ghost of Model/SolContracts. -/
def withdrawCheck (w : World) (sender recipient : Address) : Option (World × Nat) := do
  let d := w.deposit.deposits sender
  require (d.amount > 0)
  require (d.slashed = false)
  require (d.requested > 0)
  let due ← addU64 d.requested d.delay
  require (w.block ≥ due)
  some ({ w with deposit := { w.deposit with deposits := upd w.deposit.deposits sender Deposit.zero } }.emit
    (.tokensPaid sender recipient d.amount), d.amount)

/-- DepositContract.sol:129-147: `slash` up to the tokens. -/
def slashRecord (w : World) (account : Address) : World × Nat :=
  let d := w.deposit.deposits account
  ({ w with deposit := { w.deposit with deposits := upd w.deposit.deposits account ⟨0, 0, 0, true⟩ } }.emit
    (.depositChanged account 0 0 0 false true d.amount), d.amount)

/-- What is being executed: calls of anybody, one after the other; the calls of a target by the executor; a transfer; a burn. -/
inductive Job
  | calls
  | targets (t : Address × Sol.Bytes) (txs : List Sol.Bytes)
  | sending (m : Sending)
  | burning (holder : Address) (amount : Nat)

/-- The executions within a block. Foreign code (hooks, targets, receivers of ether) makes arbitrary calls in turn. A call that reverts has
no effect, and is not listed. `P` holds of all accounts, other than the contracts of this repository, that call the token contract or the registry. -/
inductive Run (E : Env) (P : Address → Prop) : Job → Chain → Chain → Prop
  /-- no calls -/
  | refl {c} : Run E P .calls c c
  /-- the functions without call backs of the contracts (Model/SolWorld), but the transfer of tokens -/
  | world {c c1 op w} : Run E P .calls c c1 → (∀ s a d, op ≠ .sendTokens s a d) → c1.world.atomic E op = some w →
      Run E P .calls c { c1 with world := w }
  /-- contracts are created and destroyed -/
  | code {c c1} {isContract : Address → Bool} : Run E P .calls c c1 → Run E P .calls c { c1 with isContract := isContract }
  /-- a call of the registry; the deposit contract makes none after its deployment -/
  | registry {c c1 caller call r} : Run E P .calls c c1 → P caller → caller ≠ c1.dep → c1.registry.call c1.dep caller call = some r →
      Run E P .calls c { c1 with registry := r }
  /-- a call of the token contract without call back -/
  | token {c c1 caller call t} : Run E P .calls c c1 → P caller → caller ≠ c1.dep → c1.token.call caller call = some t →
      Run E P .calls c { c1 with token := t }
  /-- ERC777.sol:129, 141, 215, 271: a transfer -/
  | send {c c1 c2} {m : Sending} : Run E P .calls c c1 → P m.caller → m.caller ≠ c1.dep → m.authorized c1.token = true →
      Run E P (.sending m) c1 c2 → Run E P .calls c c2
  /-- ERC777.sol:160, 235: `burn` and `operatorBurn` -/
  | burn {c c1 c2 caller holder amount} : Run E P .calls c c1 → P caller → caller ≠ c1.dep → c1.token.isOperatorFor caller holder = true →
      Run E P (.burning holder amount) c1 c2 → Run E P .calls c c2
  /-- ERC777.sol:341-362, 441-455 `_send`, and the same in `transfer`, `transferFrom`: the hook of the sender (if there is one), the transfer, the hook
  of the recipient (if there is one). The deposit contract has no function `tokensToSend`. -/
  | sending {c c1 c3 c4} {m : Sending} {t t' : Erc777} : m.src ≠ 0 → m.dst ≠ 0 → c.registry.sender m.src ≠ c.dep → Run E P .calls c c1 →
      (c.registry.sender m.src = 0 → c1 = c) → c1.token.move m.src m.dst m.amount = some t → m.spend t = some t' →
      received (c1.withToken t') m = some c3 → Run E P .calls c3 c4 → (c3.registry.recipient m.dst = 0 ∨ c3.registry.recipient m.dst = c3.dep → c4 = c3) →
      Run E P (.sending m) c c4
  /-- ERC777.sol:371-396 `_burn` -/
  | burning {c c1 holder amount} {t : Erc777} : holder ≠ 0 → c.registry.sender holder ≠ c.dep → Run E P .calls c c1 →
      (c.registry.sender holder = 0 → c1 = c) → c1.token.burn holder amount = some t → Run E P (.burning holder amount) c (c1.withToken t)
  /-- DepositContract.sol:98-124 `withdraw` -/
  | withdraw {c c1 c2 sender recipient w amount} : Run E P .calls c c1 → withdrawCheck c1.world sender recipient = some (w, amount) →
      Run E P (.sending ⟨.send, c1.dep, c1.dep, recipient, amount, []⟩) { c1 with world := w } c2 →
      Run E P .calls c { c2 with world := c2.world.withdrawPost sender amount }
  /-- DepositContract.sol:126-154 `slash`, called by a slasher that is not the contract KeyperSlasher: tokens are burnt -/
  | slashBurn {c c1 c2 sender account} : Run E P .calls c c1 → sender = c1.world.deposit.slasher → sender ≠ c1.world.slasherAddr →
      c1.world.deposit.slashingReceiver = 0 →
      Run E P (.burning c1.dep (slashRecord c1.world account).2) { c1 with world := (slashRecord c1.world account).1 } c2 → Run E P .calls c c2
  /-- the same: tokens are sent -/
  | slashSend {c c1 c2 sender account} : Run E P .calls c c1 → sender = c1.world.deposit.slasher → sender ≠ c1.world.slasherAddr →
      c1.world.deposit.slashingReceiver ≠ 0 →
      Run E P (.sending ⟨.send, c1.dep, c1.dep, c1.world.deposit.slashingReceiver, (slashRecord c1.world account).2, []⟩)
        { c1 with world := (slashRecord c1.world account).1 } c2 → Run E P .calls c c2
  /-- KeyperSlasher.sol:124-141 `slash`: tokens are burnt -/
  | slashedBurn {c c1 c2 halfStep acc} : Run E P .calls c c1 → c1.world.slashPre halfStep = some acc →
      c1.world.deposit.slasher = c1.world.slasherAddr → c1.world.deposit.slashingReceiver = 0 →
      Run E P (.burning c1.dep (slashRecord c1.world acc.executor).2) { c1 with world := (slashRecord c1.world acc.executor).1 } c2 →
      Run E P .calls c { c2 with world := c2.world.slashPost halfStep acc }
  /-- the same: tokens are sent -/
  | slashedSend {c c1 c2 halfStep acc} : Run E P .calls c c1 → c1.world.slashPre halfStep = some acc →
      c1.world.deposit.slasher = c1.world.slasherAddr → c1.world.deposit.slashingReceiver ≠ 0 →
      Run E P (.sending ⟨.send, c1.dep, c1.dep, c1.world.deposit.slashingReceiver, (slashRecord c1.world acc.executor).2, []⟩)
        { c1 with world := (slashRecord c1.world acc.executor).1 } c2 →
      Run E P .calls c { c2 with world := c2.world.slashPost halfStep acc }
  /-- FeeBankContract `withdraw`, see Model/SolWorld -/
  | feeWithdraw {c c1 c2 sender args receiver amount w} : Run E P .calls c c1 → c1.world.withdrawArgs sender args = some (receiver, amount) →
      c1.world.feeWithdrawPre sender receiver amount = some w → Run E P .calls { c1 with world := w } c2 →
      Run E P .calls c { c2 with world := c2.world.feeWithdrawPost sender receiver amount }
  /-- ExecutorContract `executeCipherBatch` -/
  | cipherSkip {c c1 sender batch hash txs keyper w} : Run E P .calls c c1 → c1.world.cipherPre sender batch hash txs keyper = some .skip →
      c1.world.skipCipherPost = some w → Run E P .calls c { c1 with world := w }
  | cipher {c c1 c2 sender batch hash txs keyper target selector w} : Run E P .calls c c1 →
      c1.world.cipherPre sender batch hash txs keyper = some (.execute target selector) → Run E P (.targets (target, selector) txs) c1 c2 →
      c2.world.cipherPost E sender batch hash txs = some w → Run E P .calls c { c2 with world := w }
  /-- ExecutorContract `executePlainBatch` -/
  | plain {c c1 c2 sender batch txs t w} : Run E P .calls c c1 → c1.world.plainPre batch = some t → Run E P (.targets t txs) c1 c2 →
      c2.world.plainPost E sender batch txs = some w → Run E P .calls c { c2 with world := w }
  /-- the executor has called the target for all transactions -/
  | targetsNil {c t} : Run E P (.targets t []) c c
  /-- the executor calls the target with the next transaction -/
  | targetsCons {c c1 c2 t tx txs} : Run E P .calls { c with world := c.world.callTarget t tx } c1 → Run E P (.targets t txs) c1 c2 →
      Run E P (.targets t (tx :: txs)) c c2

/-- Time passes, or calls are made. -/
inductive Step (E : Env) (P : Address → Prop) : Chain → Chain → Prop
  | mine {c b} : c.world.block ≤ b → b < two64 → Step E P c { c with world := { c.world with block := b } }
  | calls {c c'} : Run E P .calls c c' → Step E P c c'

end Shutter.Token
