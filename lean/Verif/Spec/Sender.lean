import Verif.Model.Sender

/-! # Vocabulary for the delivery of messages -/

namespace Shutter.Sender
open Shutter.App

/-- The call number `i` of the node to its application was made during the last attempt to send the message. -/
def Done.During (d : Done) (i : Nat) : Prop := d.last.start ≤ i ∧ i < d.finish

/-- The application has executed the message, in a block that was committed, and all that during the last attempt. -/
def Executed (own : Addr) (log : List Rec) (d : Done) : Prop :=
  ∃ (i k : Nat) (r c : Rec), log[i]? = some r ∧ log[k]? = some c ∧ d.last.start ≤ i ∧ i < k ∧ k < d.finish ∧ r.Accepts own d.msg ∧ c.op = .commit

/-- The application has returned an error when the message was delivered, during the last attempt. -/
def RefusedByApp (own : Addr) (chain : Bytes) (log : List Rec) (d : Done) : Prop :=
  ∃ (i : Nat) (r : Rec), log[i]? = some r ∧ d.During i ∧ r.Delivers own (d.last.tx chain) ∧ r.Rejected

/-- In call `i`, `CheckTx` has refused the message. -/
def TurnedAwayAt (own : Addr) (chain : Bytes) (log : List Rec) (d : Done) (i : Nat) : Prop :=
  d.During i ∧ ∃ r : Rec, log[i]? = some r ∧ r.op = .checkTx (some (own, d.last.tx chain)) ∧ r.resp = .checkTx false

def TurnedAway (own : Addr) (chain : Bytes) (log : List Rec) (d : Done) : Prop := ∃ i, TurnedAwayAt own chain log d i

/-- The calls since the last `Commit`. -/
def sinceCommit (log : List Rec) : List Rec :=
  (log.reverse.takeWhile (fun r => match r.op with | .commit => false | _ => true)).reverse

/-- `CheckTx` has let the transaction of the attempt in. -/
def LetIn (own : Addr) (chain : Bytes) (log : List Rec) (a : Attempt) : Prop :=
  ∃ r ∈ log, r.op = .checkTx (some (own, a.tx chain)) ∧ r.resp = .checkTx true

/-- How the node treats the transactions of `own`: they are for the right chain, they get into a block only after `CheckTx` has let them in, and those that are refused
at once are dropped. `own` is a keyper. -/
structure Treats (own : Addr) (chain : Bytes) (log : List Rec) : Prop where
  chainId : ∀ r ∈ log, ∀ tx, opTx r.op = some (own, tx) → r.before.chainID = chain
  keyper : ∀ r ∈ log, ∀ tx, opTx r.op = some (own, tx) → ∃ c ∈ r.before.configs, own ∈ c.keypers
  checked : ∀ (i : Nat) (r : Rec) tx, log[i]? = some r → r.op = .deliverTx (some (own, tx)) →
    ∃ (j : Nat) (r' : Rec), j < i ∧ log[j]? = some r' ∧ r'.op = .checkTx (some (own, tx)) ∧ r'.resp = .checkTx true
  dropped : ∀ (i j : Nat) (r r' : Rec) tx, log[i]? = some r → r.op = .checkTx (some (own, tx)) → r.resp = .checkTx false →
    (∀ (k : Nat) (x : Rec), k < i → log[k]? = some x → opTx x.op ≠ some (own, tx)) → i < j → log[j]? = some r' → opTx r'.op ≠ some (own, tx)

end Shutter.Sender
