import Verif.Model.Bootstrap
import Verif.Model.Events

/-!
# The files of a node of the shuttermint chain: shuttermint/cmd/init.go

Tendermint's parts are trusted: `cfg.EnsureRoot` writes the default config if there is none, `privval.GenFilePV`/`Save` write the key and
then the state, `LoadFilePV` ends the program if one of the two is missing, `LoadOrGenNodeKey`, `SaveAs` write their files. Each file
is written or not (half written ones are left out). A validator key stands for its public part. The scaled timeouts (floating point) are
a parameter, as is `ValidateBasic`.
-/

namespace Shutter.Init

open Shutter.App (Bytes Addr InitRequest)
open Shutter.Events (Text formatUint parseUint isHexAddress hexToAddress)

/-- `strconv.Itoa` -/
def itoa (i : Int) : Text := if i < 0 then '-' :: formatUint i.natAbs else formatUint i.natAbs

/-- `strconv.Atoi`, for numbers of less than 64 bits -/
def atoi : Text → Option Int
  | '-' :: s => (parseUint s).map fun (n : Nat) => -(n : Int)
  | '+' :: s => (parseUint s).map fun (n : Nat) => (n : Int)
  | s => (parseUint s).map fun (n : Nat) => (n : Int)

/-- init.go:118-122: what is before and after the last colon -/
def lastColon (s : Text) : Option (Text × Text) :=
  let r := s.reverse.takeWhile (· ≠ ':')
  if r.length = s.length then none else some (s.take (s.length - r.length - 1), r.reverse)

/-- init.go:117-130 `adjustPort` -/
def adjustPort (address : Text) (keyperIndex : Int) : Option Text :=
  match lastColon address with
  | none => none
  | some (host, port) => (atoi port).map fun p => host ++ [':'] ++ itoa (p + keyperIndex * 2)

/-- Tendermint's config.toml, as far as it matters: `others` are the settings that the program does not change. -/
structure TmConfig where
  rpc : Text
  p2p : Text
  timeouts : List Nat
  allowDuplicateIP : Bool
  others : Text
  deriving DecidableEq

/-- `cfg.DefaultConfig`: the addresses Tendermint listens at -/
def defaultConfig (timeouts : List Nat) : TmConfig :=
  ⟨"tcp://127.0.0.1:26657".toList, "tcp://0.0.0.0:26656".toList, timeouts, false, []⟩

/-- init.go:30-54: the options -/
structure Flags where
  index : Int
  dev : Bool
  genesisKeypers : List Text

/-- The files in the root directory -/
structure Dir where
  config : Option TmConfig
  key : Option Bytes
  signState : Bool
  nodeKey : Option Bytes
  genesis : Option InitRequest
  app : Option App.State

/-- What the program draws at random -/
structure Fresh where
  key : Bytes
  nodeKey : Bytes
  chainId : Bytes

/-- init.go:71-84: the genesis keypers; `ganache` is the last of the keys known from ganache. `none`: not an address. -/
def keypersOf (ganache : Addr) (fl : Flags) : Option (List Addr) :=
  (fl.genesisKeypers.mapM fun a => if isHexAddress a then some (hexToAddress a) else none).map fun ks =>
    if fl.genesisKeypers.length = 0 then ks ++ [ganache] else ks

/-- init.go:86-102: the config; `std` and `scaled` are the timeouts before and after `scaleToBlockTime`. -/
def configOf (scaled : List Nat) (fl : Flags) : Option TmConfig := do
  let c := defaultConfig scaled
  let rpc ← adjustPort c.rpc fl.index
  let p2p ← adjustPort c.p2p fl.index
  some { c with rpc := rpc, p2p := p2p, allowDuplicateIP := true }

/-- A run of the program in the directory: the directory so far, and whether the validator key was made by this run. -/
abbrev Stage := Dir × Bool → Option (Dir × Bool)

/-- init.go:107: the default config if there is none -/
def ensureRoot (std : List Nat) : Stage := fun (d, g) => some ({ d with config := d.config.or (some (defaultConfig std)) }, g)

/-- init.go:111: our own config -/
def writeConfig (c : TmConfig) : Stage := fun (d, g) => some ({ d with config := some c }, g)

/-- init.go:137-147: the validator key found (it needs its state), or a new one -/
def writeKey (f : Fresh) : Stage := fun (d, _) =>
  match d.key with
  | some _ => if d.signState then some (d, false) else none
  | none => some ({ d with key := some f.key }, true)

/-- init.go:144: the second file of a new validator key -/
def writeSignState : Stage := fun (d, g) => some ({ d with signState := d.signState || g }, g)

/-- init.go:149-158 -/
def writeNodeKey (f : Fresh) : Stage := fun (d, g) => some ({ d with nodeKey := d.nodeKey.or (some f.nodeKey) }, g)

/-- init.go:160-187: the genesis found, or a new one with the validator key -/
def writeGenesis (keypers : List Addr) (f : Fresh) : Stage := fun (d, g) =>
  match d.genesis with
  | some _ => some (d, g)
  | none => d.key.map fun k => ({ d with genesis := some (Bootstrap.genesisRequest keypers k f.chainId) }, g)

/-- init.go:188-194: a new application -/
def writeApp (dev : Bool) : Stage := fun (d, g) => some ({ d with app := some (App.newApp dev) }, g)

/-- init.go:107-194, in the order in which files are written -/
def stages (std : List Nat) (c : TmConfig) (keypers : List Addr) (fl : Flags) (f : Fresh) : List Stage :=
  [ensureRoot std, writeConfig c, writeKey f, writeSignState, writeNodeKey f, writeGenesis keypers f, writeApp fl.dev]

/-- Stages one after the other -/
def runStages : List Stage → Dir × Bool → Option (Dir × Bool)
  | [], x => some x
  | st :: sts, x => (st x).bind (runStages sts)

/-- init.go:70-195 `initFiles`, `initFilesWithConfig`, until it has written the first `n` files (all of them, if it does not crash).
`none`: the command fails. -/
def initFiles (ganache : Addr) (std scaled : List Nat) (valid : TmConfig → Bool) (fl : Flags) (f : Fresh) (n : Nat) (d : Dir) :
    Option Dir := do
  let keypers ← keypersOf ganache fl
  let c ← configOf scaled fl
  if valid c then (runStages ((stages std c keypers fl f).take n) (d, false)).map (·.1) else none

end Shutter.Init
