import Verif.Spec.Actions
import Verif.Model.Channels

/-! # Vocabulary for keypers that go on -/

namespace Shutter.Fx
variable {α H σ W : Type}

/-- The keyper is about to look at both chains and decide. -/
def Box.Idle (b : Box α H σ W) : Prop := ∃ m, b.sys.mem = some m ∧ m.phase = .idle

/-- Something in the keyper other than a new decision, a start or an end of the process. -/
def BoxEv.Work : BoxEv α H σ W → Prop
  | .ev (.decide _ _) => False
  | .ev .start => False
  | .ev .stop => False
  | .ev _ => True
  | _ => False

/-- The same, or the main chain goes on. -/
def BoxEv.WorkOrChain : BoxEv α H σ W → Prop
  | .chain _ => True
  | e => e.Work

/-- The number of events of a run that are not the main chain's. -/
def workDone (es : List (BoxEv α H σ W)) : Nat := es.countP (fun e => match e with | .chain _ => false | _ => true)

/-- Nobody has to try again: the transaction the worker has to send next is expired in its view, or the node takes it, or refuses it for good. -/
def Box.Answered (S : Surroundings α W) (b : Box α H σ W) : Prop :=
  ∀ m a, b.sys.mem = some m → m.txHead = some a → S.expired b.view a = true ∨ S.answer b.now a ≠ .retry

/-- The ids of the transactions in the queue file that are not known to be sent, in order. -/
def unsent (isTx : α → Bool) (p : Pending α H) : List Nat :=
  p.sortedIDs.filter (fun id => (p.actionMap id).any isTx && (p.txHashes id).isNone)

/-- The later states of the main chain. -/
inductive Later (S : Surroundings α W) : W → W → Prop
  | refl {w} : Later S w w
  | step {w w' w''} : Later S w w' → S.next w' w'' → Later S w w''

/-- No decision was saved between the two states. -/
def NoDecision (b b' : Box α H σ W) : Prop := ∃ l, b'.sys.log = b.sys.log ++ l ∧ ∀ as, .saved as ∉ l

/-- No main chain transaction was sent between the two states. -/
def NoSend (isTx : α → Bool) (b b' : Box α H σ W) : Prop := ∃ l, b'.sys.log = b.sys.log ++ l ∧ ∀ id x, .sent id x ∈ l → isTx x = false

end Shutter.Fx
