import Verif.Model.Tasks

/-! # Vocabulary for a keyper's tasks -/

namespace Shutter.Tasks

/-- What can become of a keyper that starts with the stored views `m` and `s`. -/
def Reached {A B F M S : Type} (c : Code A B F M S) (m : M) (s : S) (t : State F M S) : Prop :=
  ∃ evs, steps c (State.start m s) evs = some t

/-- The views of the main chain the keyper got, in order. -/
def mains {M S : Type} (got : List (M ⊕ S)) : List M := got.filterMap Sum.getLeft?

/-- The views of shuttermint it got, in order. -/
def shutters {M S : Type} (got : List (M ⊕ S)) : List S := got.filterMap Sum.getRight?

/-- The newest views of both chains among those it got. -/
def newest {M S : Type} (got : List (M ⊕ S)) : Option (M × S) :=
  match (mains got).getLast?, (shutters got).getLast? with
  | some m, some s => some (m, s)
  | _, _ => none

/-- The newest views after it got the first one, the first two, and so on, from when it has got both kinds. -/
def worlds {M S : Type} (got : List (M ⊕ S)) : List (M × S) := got.inits.filterMap newest

/-- An event that nobody likes: the keyper is told to stop, a task fails, or a connection does. -/
def Ev.bad {A B F : Type} : Ev A B F → Bool
  | .cancel | .mainSubscribed false | .shutterSubscribed false | .header none | .block none | .mainLost | .shutterQuiet
  | .resumed false | .done false _ => true
  | _ => false

/-- An event for which no node is needed, nor anybody else. -/
def Ev.alone {A B F : Type} : Ev A B F → Bool
  | .mainSubscribed false | .mainGivesUp | .mainStops | .shutterSubscribed false | .shutterGivesUp | .shutterStops | .goOn
  | .resumed _ | .done _ _ | .keyperStops => true
  | _ => false

/-- All three tasks have ended, and none by a panic. -/
def State.Ended {F M S : Type} (s : State F M S) : Prop :=
  s.crashed = false ∧ s.main = .stopped ∧ s.shutter = .stopped ∧ s.keyper = .stopped

/-- The nodes can answer: for each view for which `P` (or `Q`) holds there is an answer that makes it a view that is
related to it by `NM` (or `NS`). What is kept by all answers and filters may be used for `P` and `Q`. -/
structure Answers {A B F M S : Type} (c : Code A B F M S) (P : M → Prop) (Q : S → Prop) (NM : M → M → Prop)
    (NS : S → S → Prop) : Prop where
  main : ∀ x, P x → ∃ a y, c.syncMain a x = some y ∧ NM x y
  shutter : ∀ x, Q x → ∃ b y, c.syncShutter b x = some y ∧ NS x y
  keepMain : ∀ a x y, P x → c.syncMain a x = some y → P y
  keepShutter : ∀ b x y, Q x → c.syncShutter b x = some y → Q y
  keepFilter : ∀ f x, Q x → Q (c.applyFilter f x)

end Shutter.Tasks
