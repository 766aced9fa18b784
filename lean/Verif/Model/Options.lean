/-!
# The options of a command: shuttermint/medley/medley.go `BindFlags`, the `init` functions of shuttermint/cmd

A command (cobra 1.1.3, pflag 1.0.5, trusted) parses the command line, runs the `PersistentPreRunE` (cmd/root.go, cmd/config/config.go),
then its `PreRunE`, then checks that the required options were given, then runs.

Simplifications: names are ASCII; the value of an option is a state `V` with the Go `Set` of its type (`string`, `int`, `bool`, `float64`,
`[]string`) as a partial function on it; positional arguments, shorthands (`-k`) and the text of messages are left out. An option
met on the command line is a pair of its long name and the text given.
-/

namespace Shutter.Options

/-- Text, as characters. -/
abbrev Txt := List Char

/-- The process's environment, os.LookupEnv. -/
abbrev Env := Txt → Option Txt

/-- pflag.Flag: `set` is the `Set` of the option's type (`none`: the text does not parse), `required` the annotation made by
`MarkFlagRequired` and `MarkPersistentFlagRequired`. -/
structure Flag (V : Type) where
  name : Txt
  value : V
  changed : Bool
  required : Bool
  set : V → Txt → Option V

/-- cobra.Command, as far as it matters: `child` is `cmd.Parent() != nil`; `flags` is `cmd.Flags()` after parsing, its own and the
persistent ones of its parents, ordered by name. -/
structure Command (V : Type) where
  name : Txt
  child : Bool
  flags : List (Flag V)

/-- pflag `FlagSet.Set` on the flag found -/
def Flag.setTo {V : Type} (f : Flag V) (s : Txt) : Option (Flag V) :=
  (f.set f.value s).map fun v => { f with value := v, changed := true }

/-- pflag `FlagSet.Set`: no such flag, or a text that does not parse, is an error. -/
def setFlag {V : Type} : List (Flag V) → Txt → Txt → Option (List (Flag V))
  | [], _, _ => none
  | f :: fs, n, s => if f.name = n then (f.setTo s).map (· :: fs) else (setFlag fs n s).map (f :: ·)

/-- cobra `Command.ParseFlags` -/
def parseFlags {V : Type} (fs : List (Flag V)) : List (Txt × Txt) → Option (List (Flag V))
  | [] => some fs
  | (n, s) :: rest => (setFlag fs n s).bind fun fs' => parseFlags fs' rest

/-- medley.go:134-136 `normName`: `-` becomes `_`, letters upper case. -/
def normName (s : Txt) : Txt := (s.map fun c => if c = '-' then '_' else c).map Char.toUpper

/-- "SHUTTER_" -/
def pfx : Txt := ['S', 'H', 'U', 'T', 'T', 'E', 'R', '_']

/-- medley.go:143-147: the variables read for a flag, in order -/
def candidates (cmdName : Txt) (child : Bool) (flagName : Txt) : List Txt :=
  (if child then [normName (pfx ++ cmdName ++ ['_'] ++ flagName)] else []) ++ [normName (pfx ++ flagName)]

/-- medley.go:149-159: the first variable that is there is used; an error in it is an error. -/
def fromEnvironment {V : Type} (env : Env) (f : Flag V) : List Txt → Option (Flag V)
  | [] => some f
  | v :: vs =>
    match env v with
    | none => fromEnvironment env f vs
    | some val => f.setTo val

/-- medley.go:138-161 `argumentFromEnvironmentVariable` -/
def argumentFromEnvironmentVariable {V : Type} (cmdName : Txt) (child : Bool) (env : Env) (f : Flag V) : Option (Flag V) :=
  if f.changed then some f else fromEnvironment env f (candidates cmdName child f.name)

/-- medley.go:164-173 `BindFlags`: all flags in order; after an error the others are left alone and the error is returned. -/
def bindFlags {V : Type} (cmdName : Txt) (child : Bool) (env : Env) : List (Flag V) → Option (List (Flag V))
  | [] => some []
  | f :: fs =>
    match argumentFromEnvironmentVariable cmdName child env f with
    | none => none
    | some f' => (bindFlags cmdName child env fs).map (f' :: ·)

/-- cobra `Command.validateRequiredFlags` -/
def requiredGiven {V : Type} (fs : List (Flag V)) : Bool := fs.all fun f => !f.required || f.changed

/-- cobra `Command.execute` with cmd/root.go:28-50 `PersistentPreRunE` (and cmd/config/config.go:23-29): parse, bind, `check` (the log
format of root.go:35-45, the owner's key of config.go:52-64 and the command's `PreRunE`, on the flags as they are by then), required
options. The result is the flags `Run` is called with; `none`: it is not called and the exit status is not 0. -/
def start {V : Type} (check : List (Flag V) → Bool) (env : Env) (args : List (Txt × Txt)) (c : Command V) : Option (List (Flag V)) :=
  match parseFlags c.flags args with
  | none => none
  | some fs =>
    match bindFlags c.name c.child env fs with
    | none => none
    | some fs' => if check fs' && requiredGiven fs' then some fs' else none

/-- root.go:35-45: the log formats there are -/
def logFormats : List Txt := [['m', 'i', 'n'], ['s', 'h', 'o', 'r', 't'], ['l', 'o', 'n', 'g'], ['m', 'a', 'x']]

/-- root.go:35-45: the switch on `logformat` -/
def logCheck {V : Type} (text : V → Txt) (fs : List (Flag V)) : Bool :=
  match fs.find? (fun f => f.name = ['l', 'o', 'g']) with
  | some f => logFormats.contains (text f.value)
  | none => false

/-- config.go:51-64 `parseOwnerKey`: the key is parsed if the command has the option and it was given (on the command line or by the
environment); the result is the error (`none`) or the key the commands sign with, if there is one. -/
def parseOwnerKey {V K : Type} (hexToECDSA : V → Option K) (fs : List (Flag V)) : Option (Option K) :=
  match fs.find? (fun f => f.name = "owner-key".toList) with
  | none => some none
  | some f => if f.changed then (hexToECDSA f.value).map some else some none

/-! ## The commands of shuttermint -/

/-- A runnable command of shuttermint with the names of its options and which are required. -/
structure Cmd where
  path : List String
  options : List (String × Bool)

/-- the name cobra gives a command: the first word of `Use` -/
def Cmd.name (c : Cmd) : String := c.path.getLastD "shuttermint"

/-- options all commands have: cobra's `--help` and root.go:66 `--log` -/
def everywhere : List (String × Bool) := [("help", false), ("log", false)]

/-- The commands: the `Use` and `init` of cmd/chain.go:26-40, keyper.go:21-34, show.go:19-45, txsearch.go:21-53, bootstrap.go:29-92,
init.go:40-54, completion.go:10, deploy/deploy.go:45-142, prepare/configs.go:30-87, fund.go:29-110, unfund.go:92-183,
config/config.go:66-111, query.go:25-75, setnext.go:16-45, schedule.go:14-47, list.go:16. -/
def commands : List Cmd := [
  ⟨["chain"], everywhere ++ [("config", true)]⟩,
  ⟨["keyper"], everywhere ++ [("config", false)]⟩,
  ⟨["show"], everywhere ++ [("height", false), ("shuttermint-url", false)]⟩,
  ⟨["txsearch"], everywhere ++ [("from-height", false), ("shuttermint-url", false), ("to-height", false)]⟩,
  ⟨["bootstrap"], everywhere ++ [("contracts", true), ("ethereum-url", true), ("index", false), ("shuttermint-url", false),
    ("signing-key", true)]⟩,
  ⟨["init"], everywhere ++ [("blocktime", false), ("dev", false), ("genesis-keyper", false), ("index", false), ("root", true)]⟩,
  ⟨["completion"], everywhere⟩,
  ⟨["deploy"], everywhere ++ [("ethereum-url", true), ("gas-price", false), ("no-erc1820", false), ("output", false),
    ("owner-key", true)]⟩,
  ⟨["prepare", "configs"], everywhere ++ [("contracts", true), ("dir", false), ("ethereum-url", false), ("num-keypers", false),
    ("shuttermint-url", false)]⟩,
  ⟨["prepare", "fund"], everywhere ++ [("config", true), ("ethereum-url", true), ("owner-key", true)]⟩,
  ⟨["prepare", "fund", "query"], everywhere ++ [("config", true), ("ethereum-url", true)]⟩,
  ⟨["prepare", "unfund"], everywhere ++ [("ethereum-url", true), ("to", true)]⟩,
  ⟨["config", "query"], everywhere ++ [("contracts", true), ("ethereum-url", false), ("gas-price", false), ("index", false)]⟩,
  ⟨["config", "list"], everywhere ++ [("contracts", true), ("ethereum-url", false), ("gas-price", false)]⟩,
  ⟨["config", "set-next"], everywhere ++ [("config", true), ("contracts", true), ("ethereum-url", false), ("gas-price", false),
    ("owner-key", true)]⟩,
  ⟨["config", "schedule"], everywhere ++ [("config", false), ("contracts", true), ("ethereum-url", false), ("gas-price", false),
    ("owner-key", true)]⟩]

end Shutter.Options
