import Verif.Proofs.Operator

/-! Runs of the operator's commands for the examples of C87. -/

namespace Shutter.Operator.Demo
open Shutter.Sol Operator

/-- Execute these transactions of the account, if it is their turn. -/
def finish (n : Node) : List Tx → Option Node
  | [] => some n
  | t :: ts =>
    if t ∈ n.sent ∧ t.nonce = n.nonce then
      match n.config.call n.block n.account t.call with
      | some c => finish { n with config := c, nonce := n.nonce + 1, receipts := n.receipts ++ [(t, .ok)] } ts
      | none => finish { n with nonce := n.nonce + 1, receipts := n.receipts ++ [(t, .reverted)] } ts
    else none

theorem finish_run {ts : List Tx} : ∀ {n n' : Node} {todo : List Tx}, finish n ts = some n' →
    Relation.ReflTransGen CommandStep (n, todo) (n', todo) := by
  induction ts with
  | nil => intro n n' todo h; cases h; exact .refl
  | cons t ts ih =>
    intro n n' todo h
    rw [finish] at h
    split at h
    · rename_i hc
      split at h
      · rename_i c hcall
        exact .head (.chain (.ok hc.1 hc.2 hcall)) (ih h)
      · rename_i hcall
        exact .head (.chain (.reverted hc.1 hc.2 hcall)) (ih h)
    · cases h

theorem send_run {ts : List Tx} : ∀ {n : Node}, Command n ts { n with sent := n.sent ++ ts } [] := by
  induction ts with
  | nil => intro n; simp only [List.append_nil]; exact .refl
  | cons t ts ih =>
    intro n
    have := ih (n := { n with sent := n.sent ++ [t] })
    simp only [List.append_assoc, List.cons_append, List.nil_append] at this
    exact .head .send this

/-- All transactions are sent, then executed. -/
def execute (n : Node) (txs : List Tx) : Option Node := finish { n with sent := n.sent ++ txs } txs

theorem execute_run {n n' : Node} {txs : List Tx} (h : execute n txs = some n') : Command n txs n' [] :=
  send_run.trans (finish_run h)

/-- `set-next` with a file, then waiting until all is executed. -/
def setNext (n : Node) (file : BatchConfig) : Option Node :=
  (setNextTxs n.config n.block n.pendingNonce file).bind (execute n)

/-- `schedule` -/
def schedule (n : Node) : Option Node := execute n (scheduleTxs n.pendingNonce)

/-- A file that leaves the start open. -/
def cfgFile (keypers : List Address) (threshold span : Nat) : BatchConfig :=
  ⟨0, 0, keypers, threshold, span, 100000, 1000, 10000, 17, 18, [1, 2, 3, 4], 15⟩

/-- A new contract of account 7 with a notice of ten blocks, at block 100. -/
def start : Node := ⟨100, Config.init 10 7, 7, 5, [], []⟩

/-- `set-next` and `schedule` for the first config, with a batch span; then block 140. -/
def first (span : Nat) : Option Node :=
  ((setNext start (cfgFile [1, 2, 3] 2 span)).bind schedule).map (fun n => { n with block := 140 })

end Shutter.Operator.Demo
