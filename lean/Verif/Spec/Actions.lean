import Verif.Model.Actions

/-! # Vocabulary for the keyper's actions: what an observer reads off the log -/

namespace Shutter.Fx
variable {α H σ : Type}

/-- All actions of the decisions that were saved, in order. -/
def savedActions (log : List (Entry α H σ)) : List α :=
  log.flatMap (fun e => match e with | .saved as => as | _ => [])

/-- The actions handed to the queue, in order, with their ids. -/
def queuedActions (log : List (Entry α H σ)) : List (α × Nat) :=
  log.filterMap (fun e => match e with | .queued id a => some (a, id) | _ => none)

/-- The ids of the sent actions with a property, in order. -/
def sentIDs (p : α → Bool) (log : List (Entry α H σ)) : List Nat :=
  log.filterMap (fun e => match e with | .sent id a => if p a then some id else none | _ => none)

/-- How often the process was started. -/
def starts (log : List (Entry α H σ)) : Nat := log.countP (fun e => match e with | .started => true | _ => false)

/-- How often action `id` was sent. -/
def timesSent (id : Nat) (log : List (Entry α H σ)) : Nat :=
  log.countP (fun e => match e with | .sent id' _ => id' == id | _ => false)

/-- What happened since the process was last started. -/
def lastRun (log : List (Entry α H σ)) : List (Entry α H σ) :=
  log.foldl (fun acc e => match e with | .started => [] | e => acc ++ [e]) []

/-- Every entry of the log satisfies `Q` together with the entries before it. -/
def Justified {ε : Type} (Q : List ε → ε → Prop) (log : List ε) : Prop :=
  ∀ pre e post, log = pre ++ e :: post → Q pre e

end Shutter.Fx

namespace Shutter.Fx
variable {α H σ : Type}

/-- The keyper goes on, possibly after a restart, without taking new decisions. -/
inductive GoesOn (isTx : α → Bool) (newRest : σ) : Sys α H σ → Sys α H σ → Prop
  | refl {s} : GoesOn isTx newRest s s
  | step {s s' s''} {e : Ev α H σ} : GoesOn isTx newRest s s' → (∀ as r, e ≠ .decide as r) → e ≠ .save →
      s'.step isTx newRest e = some s'' → GoesOn isTx newRest s s''

end Shutter.Fx
