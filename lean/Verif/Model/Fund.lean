import Verif.Model.Gas
import Verif.Model.SolContracts
import Mathlib.Logic.Relation

/-!
# Money for the keypers: shuttermint/cmd/prepare/fund.go and unfund.go, shuttermint/medley/txbatch/txbatch.go
-/

namespace Shutter.Fund
open Shutter.Sol (Address upd)

/-- Balances in wei, and nonces. -/
structure Net where
  balance : Address → Nat
  nonce : Address → Nat

/-- A transfer with 21000 gas. -/
structure Tx where
  src : Address
  dst : Address
  amount : Nat
  nonce : Nat
  gasPrice : Nat
deriving DecidableEq, Repr

def Tx.fee (t : Tx) : Nat := 21000 * t.gasPrice

/-- Ethereum: a transfer is included only with the next nonce and if the account can pay for it. It fails at accounts with code, for which the gas
is not enough (`plain`: the account has no code). The fee is paid in both cases. What miners get is among what others do. -/
def Net.transfer (plain : Address → Bool) (s : Net) (t : Tx) : Option (Net × Bool) :=
  if t.nonce = s.nonce t.src ∧ t.amount + t.fee ≤ s.balance t.src then
    let nonce := upd s.nonce t.src (s.nonce t.src + 1)
    if plain t.dst then
      let b := upd s.balance t.src (s.balance t.src - (t.amount + t.fee))
      some (⟨upd b t.dst (b t.dst + t.amount), nonce⟩, true)
    else some (⟨upd s.balance t.src (s.balance t.src - t.fee), nonce⟩, false)
  else none

/-- params.Ether, in wei; fund.go:172-173 -/
def ether : Nat := 10 ^ 18
def highAmount : Nat := ether
def lowAmount : Nat := ether / 2

/-- fund.go:131-153 `determineFundings`, for one account with the balance that the node has answered. -/
def lacking (balance : Nat) : Nat := if lowAmount > balance then highAmount - balance else 0

/-- fund.go:200-218: accounts that lack nothing are left out; the nonces are consecutive (txbatch.go:43-46). -/
def fundTxs (owner : Address) (gasPrice : Nat) : Nat → List (Address × Nat) → List Tx
  | _, [] => []
  | nonce, (k, balance) :: rest =>
    if lacking balance = 0 then fundTxs owner gasPrice nonce rest
    else ⟨owner, k, lacking balance, nonce, gasPrice⟩ :: fundTxs owner gasPrice (nonce + 1) rest

/-- The command `fund`, and the chain: the balances answered so far, the transactions once there are any, how many are sent, and the receipts of
the owner's transactions by nonce. -/
structure Funding where
  net : Net
  answers : List Nat
  txs : Option (List Tx)
  sent : Nat
  receipts : Nat → Option Bool

/-- unfund.go:45-76 `Drain`: `none`, nothing to drain. The nonce is that of the last block. -/
def drain (receiver : Address) (gasPrice : Nat) (account balance nonce : Nat) : Option Tx :=
  if balance ≤ 21000 * gasPrice then none else some ⟨account, receiver, balance - 21000 * gasPrice, nonce, gasPrice⟩

/-- What happens while `fund` runs. `Others` is what others can do to the balances and nonces (also those with the owner's key, with nonces below that
of the command). -/
inductive FundStep (plain : Address → Bool) (Others : Net → Net → Prop) (owner : Address) (keypers : List Address) : Funding → Funding → Prop
  | others {s : Funding} {net : Net} : Others s.net net → FundStep plain Others owner keypers s { s with net := net }
  | ask {s : Funding} {k : Address} : keypers[s.answers.length]? = some k →
      FundStep plain Others owner keypers s { s with answers := s.answers ++ [s.net.balance k] }
  | sign {s : Funding} {gasPrice nonce : Nat} : s.answers.length = keypers.length → s.txs = none →
      (∀ m, nonce ≤ m → s.receipts m = none) →
      FundStep plain Others owner keypers s { s with txs := some (fundTxs owner gasPrice nonce (keypers.zip s.answers)) }
  | send {s : Funding} {txs : List Tx} : s.txs = some txs → s.sent < txs.length →
      FundStep plain Others owner keypers s { s with sent := s.sent + 1 }
  | mined {s : Funding} {txs : List Tx} {t : Tx} {net : Net} {ok : Bool} : s.txs = some txs → t ∈ txs.take s.sent →
      s.net.transfer plain t = some (net, ok) →
      FundStep plain Others owner keypers s { s with net := net, receipts := upd s.receipts t.nonce (some ok) }

/-- txbatch.go:48-72: the command succeeds if all transactions have receipts with status 1. -/
def Funding.succeeded (s : Funding) : Prop := ∃ txs, s.txs = some txs ∧ s.sent = txs.length ∧ ∀ t ∈ txs, s.receipts t.nonce = some true

/-- The command `unfund`, and the chain: how many accounts are done with, the transactions sent, the
accounts whose transactions the node refused (which is only logged), and the receipts by account. -/
structure Draining where
  net : Net
  asked : Nat
  sent : List Tx
  refused : List Address
  receipts : Address → Option Bool

/-- What happens while `unfund` runs (unfund.go:111-127). The balance is asked for after the nonce; a transaction that the node refuses is logged and
forgotten (`accepted`). -/
inductive DrainStep (plain : Address → Bool) (Others : Net → Net → Prop) (receiver gasPrice : Nat) (accounts : List Address) :
    Draining → Draining → Prop
  | others {s : Draining} {net : Net} : Others s.net net → DrainStep plain Others receiver gasPrice accounts s { s with net := net }
  | ask {s : Draining} {a : Address} {nonce : Nat} {accepted : Bool} : accounts[s.asked]? = some a → nonce ≤ s.net.nonce a →
      DrainStep plain Others receiver gasPrice accounts s
        { s with asked := s.asked + 1
                 sent := if accepted then s.sent ++ (drain receiver gasPrice a (s.net.balance a) nonce).toList else s.sent
                 refused := if accepted then s.refused else s.refused ++ [a] }
  | mined {s : Draining} {t : Tx} {net : Net} {ok : Bool} : t ∈ s.sent → s.net.transfer plain t = some (net, ok) →
      DrainStep plain Others receiver gasPrice accounts s { s with net := net, receipts := upd s.receipts t.src (some ok) }

/-- medley.go:67-93 `WaitMinedMany`: the command succeeds if all transactions that were sent have receipts with status 1. -/
def Draining.succeeded (accounts : List Address) (s : Draining) : Prop :=
  s.asked = accounts.length ∧ ∀ t ∈ s.sent, s.receipts t.src = some true

end Shutter.Fund
