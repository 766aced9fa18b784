import Verif.Model.Options
import Mathlib.Data.List.Forall2

/-!
# What the user may expect of the options of a command

Written without the model's functions: only the data types (`Flag`, `Command`, `Env`) are shared.
-/

namespace Shutter.Options.Spec

open Shutter.Options (Txt Env Flag Command)

/-- The texts given for an option on the command line, in order. -/
def given (args : List (Txt × Txt)) (n : Txt) : List Txt := (args.filter fun a => a.1 = n).map (·.2)

/-- The texts, one after the other, set in an option. -/
def setAll {V : Type} (set : V → Txt → Option V) : V → List Txt → Option V
  | v, [] => some v
  | v, s :: ss => match set v s with
    | none => none
    | some v' => setAll set v' ss

/-- The name of a variable: `SHUTTER`, the words in upper case, joined with underscores. -/
def envName (words : List Txt) : Txt :=
  words.foldl (fun acc w => acc ++ ['_'] ++ w.map fun c => if c = '-' then '_' else c.toUpper) ['S', 'H', 'U', 'T', 'T', 'E', 'R']

/-- The environment's word on an option: the variable for this command's option, else the one for all commands'. -/
def fromEnv {V : Type} (c : Command V) (env : Env) (n : Txt) : Option Txt :=
  if c.child then
    match env (envName [c.name, n]) with
    | some s => some s
    | none => env (envName [n])
  else env (envName [n])

/-- The texts that count for an option: those of the command line if there are any, else the environment's. -/
def counts {V : Type} (c : Command V) (env : Env) (args : List (Txt × Txt)) (n : Txt) : List Txt :=
  if given args n = [] then (fromEnv c env n).toList else given args n

/-- The value an option has when the command runs; `none`: a text that counts does not parse. -/
def valueOf {V : Type} (c : Command V) (env : Env) (args : List (Txt × Txt)) (f : Flag V) : Option V :=
  setAll f.set f.value (counts c env args f.name)

/-- An option is given by the command line or the environment. -/
def isGiven {V : Type} (c : Command V) (env : Env) (args : List (Txt × Txt)) (f : Flag V) : Prop :=
  counts c env args f.name ≠ []

/-- The options a command runs with: each as the texts that count make it (and otherwise as declared). -/
def Settled {V : Type} (c : Command V) (env : Env) (args : List (Txt × Txt)) (fs : List (Flag V)) : Prop :=
  List.Forall₂ (fun f f' => f'.name = f.name ∧ f'.required = f.required ∧ f'.set = f.set ∧ valueOf c env args f = some f'.value ∧ (f'.changed = true ↔ isGiven c env args f))
    c.flags fs

/-- As a command is declared: its options have different names and have not been given yet. -/
structure Declared {V : Type} (c : Command V) : Prop where
  names : (c.flags.map (·.name)).Nodup
  fresh : ∀ f ∈ c.flags, f.changed = false

end Shutter.Options.Spec
