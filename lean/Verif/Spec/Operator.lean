import Verif.Model.Operator
import Mathlib.Logic.Relation

/-! # Vocabulary for the operator's commands: the main chain as an account sees it -/

namespace Shutter.Operator
open Shutter.Sol

/-- How a transaction ended. -/
inductive Outcome
  | ok
  | reverted
  | outOfGas
deriving DecidableEq, Repr

/-- The config contract at a block, with an account: its nonce, the transactions it has sent, and the receipts. -/
structure Node where
  block : Nat
  config : Config
  account : Address
  nonce : Nat
  sent : List Tx
  receipts : List (Tx × Outcome)
deriving DecidableEq

/-- The nonce of the account after its pending transactions. -/
def pendingFrom (sent : List Tx) : Nat → Nat → Nat
  | 0, k => k
  | m + 1, k => if sent.any (fun t => t.nonce == k) then pendingFrom sent m (k + 1) else k

/-- What the node answers when it is asked for the pending nonce of the account. -/
def Node.pendingNonce (n : Node) : Nat := pendingFrom n.sent n.sent.length n.nonce

/-- A step of the chain: time passes, somebody else makes a call, or a transaction of the account is executed, if it is its
turn by its nonce. It has no effect if the contract reverts, or if it runs out of gas. -/
inductive ChainStep : Node → Node → Prop
  | mine {n : Node} {b : Nat} : n.block ≤ b → b < two64 → ChainStep n { n with block := b }
  | other {n : Node} {sender : Address} {o : Config.Call} {c : Config} : sender ≠ n.account →
      n.config.call n.block sender o = some c → ChainStep n { n with config := c }
  | ok {n : Node} {t : Tx} {c : Config} : t ∈ n.sent → t.nonce = n.nonce → n.config.call n.block n.account t.call = some c →
      ChainStep n { n with config := c, nonce := n.nonce + 1, receipts := n.receipts ++ [(t, .ok)] }
  | reverted {n : Node} {t : Tx} : t ∈ n.sent → t.nonce = n.nonce → n.config.call n.block n.account t.call = none →
      ChainStep n { n with nonce := n.nonce + 1, receipts := n.receipts ++ [(t, .reverted)] }
  | outOfGas {n : Node} {t : Tx} : t ∈ n.sent → t.nonce = n.nonce →
      ChainStep n { n with nonce := n.nonce + 1, receipts := n.receipts ++ [(t, .outOfGas)] }

/-- A command that still has transactions to send, with the chain: the chain goes on, or the next one is sent. -/
inductive CommandStep : Node × List Tx → Node × List Tx → Prop
  | chain {n n' : Node} {todo : List Tx} : ChainStep n n' → CommandStep (n, todo) (n', todo)
  | send {n : Node} {t : Tx} {todo : List Tx} : CommandStep (n, t :: todo) ({ n with sent := n.sent ++ [t] }, todo)

/-- What can happen after a command has begun to send transactions; `todo` are those that it did not send, because it was
interrupted, or not yet. -/
abbrev Command (n : Node) (txs : List Tx) (n' : Node) (todo : List Tx) : Prop :=
  Relation.ReflTransGen CommandStep (n, txs) (n', todo)

/-- The command reports success: all its transactions were sent, and executed without an error. -/
def Success (txs : List Tx) (n' : Node) (todo : List Tx) : Prop :=
  todo = [] ∧ ∀ t ∈ txs, (t, Outcome.ok) ∈ n'.receipts

/-- Nothing sent by the account is pending. -/
def Settled (n : Node) : Prop :=
  (∀ t ∈ n.sent, t.nonce < n.nonce) ∧ ∀ r ∈ n.receipts, r.1.nonce < n.nonce

/-- No transaction of the account can be executed. -/
def Idle (n : Node) : Prop := ∀ t ∈ n.sent, t.nonce ≠ n.nonce

/-- The numbers in a config fit into 64 bits. -/
def Fits (bc : BatchConfig) : Prop :=
  bc.startBatchIndex < two64 ∧ bc.startBlockNumber < two64 ∧ bc.threshold < two64 ∧ bc.batchSpan < two64 ∧
  bc.batchSizeLimit < two64 ∧ bc.transactionSizeLimit < two64 ∧ bc.transactionGasLimit < two64 ∧
  bc.executionTimeout < two64 ∧ bc.keypers.length < two64

end Shutter.Operator
