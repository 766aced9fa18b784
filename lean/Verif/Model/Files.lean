import Verif.Model.Events
import Verif.Model.Operator
import Verif.Model.Ecdsa
import Verif.Model.SolContracts

/-!
# The files of the operator and of the keypers

* shuttermint/medley/checksum.go, shuttermint/cmd/deploy/contracts.go: contracts.json
* shuttermint/contract/config.go:85-155: config.json
* shuttermint/keyper/config.go, shuttermint/cmd/keyper.go: config.toml of a keyper
* shuttermint/cmd/prepare/configs.go: the command that makes config.json and the files of the keypers

Files are texts. The libraries that write and read them are modelled as far as these files need it: of JSON, objects whose
members are strings without escapes, numbers, and lists of such strings (encoding/json); of TOML, lines with a key and a string
or a number (pelletier/go-toml 1.8.1). Other contents make the readers of the model fail (`none`); no claim is made about them.
-/

namespace Shutter.Files
open Shutter.App Shutter.Events

/-! ## Addresses and keys -/

/-- medley/checksum.go:14-16 `MarshalJSON`: the string -/
def checksumText (cx : Codecs) (a : Addr) : Text := addressHex cx a

/-- medley/checksum.go:18-33 `UnmarshalJSON`: the string -/
def readChecksum (cx : Codecs) (s : Text) : Option Addr :=
  if isHexAddress s then
    let a := hexToAddress s
    if addressHex cx a = s then some a else none
  else none

/-- keyper/config.go:109-120 `stringToAddress` -/
def stringToAddress (cx : Codecs) (s : Text) : Option Addr :=
  let a := hexToAddress s
  if addressHex cx a = s then some a else none

/-- go-ethereum `crypto.FromECDSA` and `printf "%x"` (keyper/config.go:58-59): a private key is its number. -/
def keyText (d : Nat) : Text := hexEncode (Sol.World.beBytes d 32)

/-- go-ethereum `crypto.HexToECDSA`: 32 bytes, the number below the order of the group and not zero. -/
def hexToECDSA (s : Text) : Option Nat :=
  match hexDecode s with
  | none => none
  | some b =>
    if b.length = 32 then
      let d := Crypto.beNat b
      if d ≥ Ecdsa.order then none else if d = 0 then none else some d
    else none

/-- keyper/config.go:60: a validator key is made of its seed (crypto/ed25519) and written as its seed. -/
def seedText (seed : Bytes) : Text := hexEncode seed

/-- keyper/config.go:78-89 `stringToEd25519PrivateKey` -/
def stringToSeed (s : Text) : Option Bytes :=
  match hexDecode s with
  | none => none
  | some b => if b.length = 32 then some b else none

/-! ## JSON -/

/-- The values in the files. -/
inductive Json
  | str (s : Text)
  | num (s : Text)
  | strs (l : List Text)
deriving DecidableEq, Repr

inductive Tok
  | lbrace | rbrace | lbrack | rbrack | colon | comma
  | str (s : Text)
  | num (s : Text)
deriving DecidableEq, Repr

/-- Where the reader is: between tokens, in a string or in a number (the characters so far, the last first). -/
inductive Mode
  | idle
  | inStr (acc : Text)
  | inNum (acc : Text)
deriving DecidableEq

/-- The characters of numbers. -/
def numChar (c : Char) : Bool := c.isDigit || c = '-' || c = '+' || c = '.' || c = 'e' || c = 'E'

def jsonSpace (c : Char) : Bool := c = ' ' || c = '\n' || c = '\t' || c = '\r'

/-- A character between tokens. -/
def jsonStart (c : Char) : Option (List Tok × Mode) :=
  if jsonSpace c then some ([], .idle)
  else if c = '{' then some ([.lbrace], .idle)
  else if c = '}' then some ([.rbrace], .idle)
  else if c = '[' then some ([.lbrack], .idle)
  else if c = ']' then some ([.rbrack], .idle)
  else if c = ':' then some ([.colon], .idle)
  else if c = ',' then some ([.comma], .idle)
  else if c = '"' then some ([], .inStr [])
  else if numChar c then some ([], .inNum [c])
  else none

/-- encoding/json: the tokens of a text. `none`: escapes in strings, control characters, `true`, `false`, `null` and errors. -/
def lex : Mode → Text → Option (List Tok)
  | .idle, [] => some []
  | .inStr _, [] => none
  | .inNum acc, [] => some [.num acc.reverse]
  | .idle, c :: cs => match jsonStart c with
    | none => none
    | some (ts, m) => (lex m cs).map (ts ++ ·)
  | .inStr acc, c :: cs =>
    if c = '"' then (lex .idle cs).map (Tok.str acc.reverse :: ·)
    else if c = '\\' then none
    else if c.toNat < 32 then none
    else lex (.inStr (c :: acc)) cs
  | .inNum acc, c :: cs =>
    if numChar c then lex (.inNum (c :: acc)) cs
    else match jsonStart c with
      | none => none
      | some (ts, m) => (lex m cs).map (fun r => Tok.num acc.reverse :: (ts ++ r))

/-- The elements of a list of strings, up to its end. -/
def elems : List Tok → Option (List Text × List Tok)
  | .str s :: .comma :: rest => (elems rest).map (fun r => (s :: r.1, r.2))
  | .str s :: .rbrack :: rest => some ([s], rest)
  | _ => none

/-- A value. -/
def value : List Tok → Option (Json × List Tok)
  | .str s :: rest => some (.str s, rest)
  | .num s :: rest => some (.num s, rest)
  | .lbrack :: .rbrack :: rest => some (.strs [], rest)
  | .lbrack :: rest => (elems rest).map (fun r => (.strs r.1, r.2))
  | _ => none

/-- The members of an object, up to its end; the first argument bounds their number. -/
def members : Nat → List Tok → Option (List (Text × Json))
  | 0, _ => none
  | n + 1, .str k :: .colon :: rest => match value rest with
    | some (v, .comma :: rest) => (members n rest).map ((k, v) :: ·)
    | some (v, [.rbrace]) => some [(k, v)]
    | _ => none
  | _, _ => none

/-- encoding/json: the members of the object in a text, in their order. -/
def parseObject (t : Text) : Option (List (Text × Json)) :=
  match lex .idle t with
  | some [.lbrace, .rbrace] => some []
  | some (.lbrace :: rest) => members rest.length rest
  | _ => none

/-- encoding/json and viper take names of fields without regard to case. -/
def sameName (a b : Text) : Bool := a.map Char.toLower = b.map Char.toLower

/-- encoding/json `Unmarshal` for one field of a struct: the values of all members with its name are read, the last remains;
without such a member the field keeps its value. -/
def readField {α : Type} (o : List (Text × Json)) (name : String) (dec : Json → Option α) (old : α) : Option α :=
  (o.filter (fun kv => sameName kv.1 name.toList)).foldlM (fun _ kv => dec kv.2) old

def jsonAddr (cx : Codecs) : Json → Option Addr
  | .str s => readChecksum cx s
  | _ => none

def jsonAddrs (cx : Codecs) : Json → Option (List Addr)
  | .strs l => l.mapM (readChecksum cx)
  | _ => none

def jsonText : Json → Option Text
  | .str s => some s
  | _ => none

def jsonUint : Json → Option Nat
  | .num s => parseUint s
  | _ => none

def quote (s : Text) : Text := '"' :: (s ++ ['"'])

/-- A new line and blanks. -/
def indent (n : Nat) : Text := '\n' :: List.replicate n ' '

/-- encoding/json `MarshalIndent` with four spaces: the elements of a list within an object, after the first line -/
def printElems : List Text → Text
  | [] => []
  | [s] => indent 8 ++ quote s
  | s :: t :: l => indent 8 ++ (quote s ++ (',' :: printElems (t :: l)))

def printValue : Json → Text
  | .str s => quote s
  | .num s => s
  | .strs [] => ['[', ']']
  | .strs (s :: l) => '[' :: (printElems (s :: l) ++ (indent 4 ++ [']']))

def printMember (kv : Text × Json) : Text := indent 4 ++ (quote kv.1 ++ (':' :: ' ' :: printValue kv.2))

def printMembers : List (Text × Json) → Text
  | [] => []
  | [kv] => printMember kv
  | kv :: kv' :: l => printMember kv ++ (',' :: printMembers (kv' :: l))

/-- encoding/json `MarshalIndent` of an object with at least one member -/
def printObject (o : List (Text × Json)) : Text := '{' :: (printMembers o ++ ['\n', '}'])

/-! ## contracts.json -/

/-- deploy/contracts.go:15-26 `Contracts` -/
structure Contracts where
  config : Addr
  keyBroadcast : Addr
  feeBank : Addr
  batcher : Addr
  executor : Addr
  token : Addr
  deposit : Addr
  slasher : Addr
  targetProxy : Addr
  target : Addr
deriving DecidableEq, Repr

def zeroAddr : Addr := List.replicate 20 0

/-- deploy/contracts.go:42-57 `MarshalJSON` -/
def Contracts.members (cx : Codecs) (c : Contracts) : List (Text × Json) :=
  [ ("ConfigContract".toList, .str (checksumText cx c.config)),
    ("KeyBroadcastContract".toList, .str (checksumText cx c.keyBroadcast)),
    ("FeeBankContract".toList, .str (checksumText cx c.feeBank)),
    ("BatcherContract".toList, .str (checksumText cx c.batcher)),
    ("ExecutorContract".toList, .str (checksumText cx c.executor)),
    ("TokenContract".toList, .str (checksumText cx c.token)),
    ("DepositContract".toList, .str (checksumText cx c.deposit)),
    ("KeyperSlasherContract".toList, .str (checksumText cx c.slasher)),
    ("TargetProxyContract".toList, .str (checksumText cx c.targetProxy)),
    ("TargetContract".toList, .str (checksumText cx c.target)) ]

/-- deploy/contracts.go:104-115 `SaveJSON` -/
def Contracts.save (cx : Codecs) (c : Contracts) : Text := printObject (c.members cx)

/-- deploy/contracts.go:59-78 `UnmarshalJSON`, 80-101 `LoadContractsJSON`; prepare/configs.go:193-205 -/
def Contracts.load (cx : Codecs) (t : Text) : Option Contracts := do
  let o ← parseObject t
  let config ← readField o "ConfigContract" (jsonAddr cx) zeroAddr
  let keyBroadcast ← readField o "KeyBroadcastContract" (jsonAddr cx) zeroAddr
  let feeBank ← readField o "FeeBankContract" (jsonAddr cx) zeroAddr
  let batcher ← readField o "BatcherContract" (jsonAddr cx) zeroAddr
  let executor ← readField o "ExecutorContract" (jsonAddr cx) zeroAddr
  let token ← readField o "TokenContract" (jsonAddr cx) zeroAddr
  let deposit ← readField o "DepositContract" (jsonAddr cx) zeroAddr
  let slasher ← readField o "KeyperSlasherContract" (jsonAddr cx) zeroAddr
  let targetProxy ← readField o "TargetProxyContract" (jsonAddr cx) zeroAddr
  let target ← readField o "TargetContract" (jsonAddr cx) zeroAddr
  return ⟨config, keyBroadcast, feeBank, batcher, executor, token, deposit, slasher, targetProxy, target⟩

/-! ## config.json -/

/-- contract/binding.go:40-53 `BatchConfig`, with addresses as bytes -/
structure FileConfig where
  startBatchIndex : Nat
  startBlockNumber : Nat
  keypers : List Addr
  threshold : Nat
  batchSpan : Nat
  batchSizeLimit : Nat
  transactionSizeLimit : Nat
  transactionGasLimit : Nat
  feeReceiver : Addr
  targetAddress : Addr
  targetFunctionSelector : Bytes
  executionTimeout : Nat
deriving DecidableEq, Repr

/-- The config as the contract has it (`Sol.BatchConfig`), where addresses are numbers. -/
def FileConfig.toSol (c : FileConfig) : Sol.BatchConfig :=
  ⟨c.startBatchIndex, c.startBlockNumber, c.keypers.map Crypto.beNat, c.threshold, c.batchSpan, c.batchSizeLimit,
    c.transactionSizeLimit, c.transactionGasLimit, Crypto.beNat c.feeReceiver, Crypto.beNat c.targetAddress,
    c.targetFunctionSelector, c.executionTimeout⟩

/-- contract/config.go:85-104 `MarshalJSON`: the members replaced come first, then the other fields of the struct. -/
def FileConfig.members (cx : Codecs) (c : FileConfig) : List (Text × Json) :=
  [ ("TargetFunctionSelector".toList, .str (hexutilEncode c.targetFunctionSelector)),
    ("TargetAddress".toList, .str (checksumText cx c.targetAddress)),
    ("FeeReceiver".toList, .str (checksumText cx c.feeReceiver)),
    ("Keypers".toList, .strs (c.keypers.map (checksumText cx))),
    ("StartBatchIndex".toList, .num (formatUint c.startBatchIndex)),
    ("StartBlockNumber".toList, .num (formatUint c.startBlockNumber)),
    ("Threshold".toList, .num (formatUint c.threshold)),
    ("BatchSpan".toList, .num (formatUint c.batchSpan)),
    ("BatchSizeLimit".toList, .num (formatUint c.batchSizeLimit)),
    ("TransactionSizeLimit".toList, .num (formatUint c.transactionSizeLimit)),
    ("TransactionGasLimit".toList, .num (formatUint c.transactionGasLimit)),
    ("ExecutionTimeout".toList, .num (formatUint c.executionTimeout)) ]

/-- prepare/configs.go:114: `json.MarshalIndent`; also query.go:71-79 `printjson` -/
def FileConfig.save (cx : Codecs) (c : FileConfig) : Text := printObject (c.members cx)

/-- contract/config.go:106-155 `UnmarshalJSON`, `ReadJSONFile`. `hexutil.Decode` of the empty string is an error as well. -/
def FileConfig.load (cx : Codecs) (t : Text) : Option FileConfig := do
  let o ← parseObject t
  let selector ← readField o "TargetFunctionSelector" jsonText []
  let target ← readField o "TargetAddress" (jsonAddr cx) zeroAddr
  let fee ← readField o "FeeReceiver" (jsonAddr cx) zeroAddr
  let keypers ← readField o "Keypers" (jsonAddrs cx) []
  let startBatchIndex ← readField o "StartBatchIndex" jsonUint 0
  let startBlockNumber ← readField o "StartBlockNumber" jsonUint 0
  let threshold ← readField o "Threshold" jsonUint 0
  let batchSpan ← readField o "BatchSpan" jsonUint 0
  let batchSizeLimit ← readField o "BatchSizeLimit" jsonUint 0
  let transactionSizeLimit ← readField o "TransactionSizeLimit" jsonUint 0
  let transactionGasLimit ← readField o "TransactionGasLimit" jsonUint 0
  let executionTimeout ← readField o "ExecutionTimeout" jsonUint 0
  let sel ← hexutilDecode selector
  if sel.length ≠ 4 then none
  else if Operator.validateThreshold threshold keypers.length then
    some ⟨startBatchIndex, startBlockNumber, keypers, threshold, batchSpan, batchSizeLimit, transactionSizeLimit,
      transactionGasLimit, fee, target, sel, executionTimeout⟩
  else none

/-! ## TOML -/

inductive TVal
  | str (s : Text)
  | num (s : Text)
deriving DecidableEq, Repr

def tomlSpace (c : Char) : Bool := c = ' ' || c = '\t'

/-- The characters of keys without quotes. -/
def keyChar (c : Char) : Bool := c.isAlphanum || c = '_' || c = '-'

/-- The escapes in strings; those for code points are not modelled. -/
def escape (c : Char) : Option Char :=
  if c = 'b' then some (Char.ofNat 8)
  else if c = 't' then some '\t'
  else if c = 'n' then some '\n'
  else if c = 'f' then some (Char.ofNat 12)
  else if c = 'r' then some '\r'
  else if c = '"' then some '"'
  else if c = '\\' then some '\\'
  else none

/-- The string up to the closing quote, and what follows. -/
def strBody : Text → Option (Text × Text)
  | [] => none
  | c :: r =>
    if c = '"' then some ([], r)
    else if c = '\\' then match r with
      | [] => none
      | e :: r' => match escape e with
        | none => none
        | some x => (strBody r').map (fun p => (x :: p.1, p.2))
    else if c.toNat < 32 then none
    else (strBody r).map (fun p => (c :: p.1, p.2))

/-- After a value: nothing but a comment. -/
def lineEnd (t : Text) : Bool :=
  match t.dropWhile tomlSpace with
  | [] => true
  | c :: _ => c = '#'

/-- The value after the equals sign. Strings over several lines are not modelled. -/
def lineValue (t : Text) : Option TVal :=
  match t with
  | '"' :: '"' :: '"' :: _ => none
  | '"' :: s => match strBody s with
    | some (v, rest) => if lineEnd rest then some (.str v) else none
    | none => none
  | _ =>
    let v := t.takeWhile numChar
    if v = [] then none
    else if lineEnd (t.dropWhile numChar) then some (.num v) else none

/-- A line: nothing (`some none`), or a key and its value. Tables are not modelled. -/
def parseLine (l : Text) : Option (Option (Text × TVal)) :=
  match l.dropWhile tomlSpace with
  | [] => some none
  | c :: cs =>
    if c = '#' then some none
    else
      let key := (c :: cs).takeWhile keyChar
      if key = [] then none
      else match ((c :: cs).dropWhile keyChar).dropWhile tomlSpace with
        | '=' :: r => (lineValue (r.dropWhile tomlSpace)).map (fun v => some (key, v))
        | _ => none

def splitLines : Text → List Text
  | [] => [[]]
  | c :: cs => if c = '\n' then [] :: splitLines cs else match splitLines cs with
    | [] => [[c]]
    | p :: ps => (c :: p) :: ps

/-- go-toml: the keys with their values; a key must not be defined twice. -/
def parseToml (t : Text) : Option (List (Text × TVal)) :=
  match (splitLines t).mapM parseLine with
  | none => none
  | some ls =>
    let kvs := ls.filterMap id
    if (kvs.map Prod.fst).Nodup then some kvs else none

/-! ## The config of a keyper -/

/-- keyper/config.go:20-37 `Config`. Keys that are missing in the file are nil. `F`: the numbers of type float64. -/
structure KConfig (F : Type) where
  shuttermintURL : Text
  ethereumURL : Text
  dbDir : Text
  signingKey : Option Nat
  validatorSeed : Option Bytes
  encryptionKey : Option Nat
  configContract : Addr
  batcherContract : Addr
  keyBroadcastContract : Addr
  executorContract : Addr
  depositContract : Addr
  keyperSlasher : Addr
  mainChainFollowDistance : Nat
  executionStaggering : Nat
  dkgPhaseLength : Nat
  gasPriceMultiplier : F
deriving DecidableEq, Repr

/-- Parameters: float64 numbers as fmt writes them and go-toml reads them, the address of a key. -/
structure Lib (F : Type) where
  cx : Codecs
  showFloat : F → Text
  readFloat : Text → Option F
  zero : F
  /-- `gaspricer.SetMultiplier` refuses it -/
  negative : F → Bool
  /-- go-ethereum `crypto.PubkeyToAddress` -/
  addressOf : Nat → Addr
  /-- `filepath.Join` of the directory of a file and a path, made absolute -/
  inDirOf : Text → Text → Text

variable {F : Type}

/-- What the template has for a string: the key, some space, and the string in quotes. -/
def strLine (key space : String) (v : Text) : Text := key.toList ++ (space.toList ++ ('=' :: ' ' :: quote v))

/-- What the template has for a number. -/
def numLine (key space : String) (v : Text) : Text := key.toList ++ (space.toList ++ ('=' :: ' ' :: v))

/-- keyper/config.go:39-61 `configTemplate`, 187-189 `WriteTOML`: the lines. -/
def KConfig.lines (lib : Lib F) (c : KConfig F) (signing encryption : Nat) (seed : Bytes) : List Text :=
  [ "# Shutter keyper configuration for ".toList ++ addressHex lib.cx (lib.addressOf signing),
    [],
    "# Contract addresses".toList,
    strLine "BatcherContract" "\t\t" (addressHex lib.cx c.batcherContract),
    strLine "ConfigContract" "\t\t" (addressHex lib.cx c.configContract),
    strLine "DepositContract" "\t\t" (addressHex lib.cx c.depositContract),
    strLine "ExecutorContract" "\t" (addressHex lib.cx c.executorContract),
    strLine "KeyBroadcastContract" "\t" (addressHex lib.cx c.keyBroadcastContract),
    strLine "KeyperSlasher" "\t\t" (addressHex lib.cx c.keyperSlasher),
    [],
    strLine "EthereumURL" "\t\t" c.ethereumURL,
    strLine "ShuttermintURL" "\t\t" c.shuttermintURL,
    strLine "DBDir" "\t\t\t" c.dbDir,
    numLine "DKGPhaseLength" "\t\t" (formatUint c.dkgPhaseLength),
    numLine "ExecutionStaggering" "\t" (formatUint c.executionStaggering),
    numLine "MainChainFollowDistance" " " (formatUint c.mainChainFollowDistance),
    numLine "GasPriceMultiplier" "      " (lib.showFloat c.gasPriceMultiplier),
    [],
    "# Secret Keys".toList,
    strLine "EncryptionKey" "\t" (keyText encryption),
    strLine "SigningKey" "\t" (keyText signing),
    strLine "ValidatorSeed" "\t" (seedText seed) ]

/-- keyper/config.go:187-189 `WriteTOML`; `none`: a key is missing -/
def KConfig.write (lib : Lib F) (c : KConfig F) : Option Text :=
  match c.signingKey, c.encryptionKey, c.validatorSeed with
  | some s, some e, some v => some ((c.lines lib s e v).flatMap (fun l => l ++ ['\n']))
  | _, _, _ => none

/-- mapstructure: a field of type string -/
def decText : Option TVal → Option Text
  | none => some []
  | some (.str s) => some s
  | some (.num _) => none

/-- mapstructure with the hook of the type of the field: addresses -/
def decAddr (cx : Codecs) : Option TVal → Option Addr
  | none => some zeroAddr
  | some (.str s) => stringToAddress cx s
  | some (.num _) => none

/-- the hooks keyper/config.go:91-107 `stringToEcdsaPrivateKey`, `stringToEciesPrivateKey` -/
def decKey : Option TVal → Option (Option Nat)
  | none => some none
  | some (.str s) => (hexToECDSA s).map some
  | some (.num _) => none

/-- the hook keyper/config.go:78-89 `stringToEd25519PrivateKey` -/
def decSeed : Option TVal → Option (Option Bytes)
  | none => some none
  | some (.str s) => (stringToSeed s).map some
  | some (.num _) => none

/-- Numbers of 64 bits: TOML has signed ones; from the environment they come as strings, which mapstructure converts. Only decimal
numbers without a leading zero are modelled. -/
def decUint : Option TVal → Option Nat
  | none => some 0
  | some (.num s) => if s.head? = some '0' ∧ s ≠ ['0'] then none
    else (parseUint s).bind (fun n => if n < 2 ^ 63 then some n else none)
  | some (.str s) => if s.head? = some '0' ∧ s ≠ ['0'] then none else parseUint s

def decFloat (lib : Lib F) : Option TVal → Option F
  | none => some lib.zero
  | some (.num s) => lib.readFloat s
  | some (.str s) => lib.readFloat s

/-- keyper/config.go:165-179 `Unmarshal`: from the value of each key -/
def unmarshal (lib : Lib F) (src : String → Option TVal) : Option (KConfig F) := do
  let shuttermintURL ← decText (src "ShuttermintURL")
  let ethereumURL ← decText (src "EthereumURL")
  let dbDir ← decText (src "DBDir")
  let signingKey ← decKey (src "SigningKey")
  let validatorSeed ← decSeed (src "ValidatorSeed")
  let encryptionKey ← decKey (src "EncryptionKey")
  let configContract ← decAddr lib.cx (src "ConfigContract")
  let batcherContract ← decAddr lib.cx (src "BatcherContract")
  let keyBroadcastContract ← decAddr lib.cx (src "KeyBroadcastContract")
  let executorContract ← decAddr lib.cx (src "ExecutorContract")
  let depositContract ← decAddr lib.cx (src "DepositContract")
  let keyperSlasher ← decAddr lib.cx (src "KeyperSlasher")
  let mainChainFollowDistance ← decUint (src "MainChainFollowDistance")
  let executionStaggering ← decUint (src "ExecutionStaggering")
  let dkgPhaseLength ← decUint (src "DKGPhaseLength")
  let gasPriceMultiplier ← decFloat lib (src "GasPriceMultiplier")
  return ⟨shuttermintURL, ethereumURL, dbDir, signingKey, validatorSeed, encryptionKey, configContract, batcherContract,
    keyBroadcastContract, executorContract, depositContract, keyperSlasher, mainChainFollowDistance, executionStaggering,
    dkgPhaseLength, gasPriceMultiplier⟩

/-- viper: the value of a key in the file -/
def fromFile (kvs : List (Text × TVal)) (name : String) : Option TVal :=
  (kvs.find? (fun kv => sameName kv.1 name.toList)).map (·.2)

/-- cmd/keyper.go:37-50: the keys that can be set in the environment -/
def bound : List String :=
  ["ShuttermintURL", "EthereumURL", "SigningKey", "ValidatorSeed", "EncryptionKey", "ConfigContract", "BatcherContract",
    "KeyBroadcastContract", "ExecutorContract", "DepositContract", "KeyperSlasher", "MainChainFollowDistance",
    "ExecutionStaggering", "DKGPhaseLength"]

/-- cmd/keyper.go:36-52, viper: a variable that is set and not empty comes first (`env` takes the key; the variable is called
`KEYPER_` and the key in upper case), then the file, then the default. -/
def source (env : String → Text) (kvs : List (Text × TVal)) (name : String) : Option TVal :=
  if name ∈ bound ∧ env name ≠ [] then some (.str (env name))
  else match fromFile kvs name with
    | some v => some v
    | none => if name = "ShuttermintURL" then some (.str "http://localhost:26657".toList) else none

/-- keyper/keyper.go:29-33 `IsWebsocketURL` -/
def isWebsocketURL (url : Text) : Bool := "ws://".toList.isPrefixOf url || "wss://".toList.isPrefixOf url

/-- cmd/keyper.go:35-98 `readKeyperConfig` with the file at `path` -/
def readKeyper (lib : Lib F) (env : String → Text) (path file : Text) : Option (KConfig F) := do
  let kvs ← parseToml file
  let c ← unmarshal lib (source env kvs)
  let c := if c.dbDir.head? = some '/' then c else { c with dbDir := lib.inDirOf path c.dbDir }
  if isWebsocketURL c.ethereumURL then some c else none

/-- prepare/unfund.go:134-152 `readKeyFromConfig` -/
def readKeyFromConfig (lib : Lib F) (file : Text) : Option (Option Nat) := do
  let kvs ← parseToml file
  let c ← unmarshal lib (fromFile kvs)
  return c.signingKey

/-- cmd/keyper.go:100-117: how the keyper begins. The address of a key that is missing is a panic. -/
inductive Start (F : Type)
  | refused
  | panics
  | runs (c : KConfig F) (address : Addr)
deriving DecidableEq, Repr

def keyperMain (lib : Lib F) (env : String → Text) (path file : Text) : Start F :=
  match readKeyper lib env path file with
  | none => .refused
  | some c =>
    if lib.negative c.gasPriceMultiplier then .refused
    else match c.signingKey with
      | none => .panics
      | some k => .runs c (lib.addressOf k)

/-! ## prepare configs -/

/-- keyper/config.go:145-163 `GenerateNewKeys`: random keys -/
structure Keys where
  signing : Nat
  encryption : Nat
  seed : Bytes
deriving DecidableEq, Repr

/-- prepare/configs.go:152-175 `newConfig`; `multiplier` is the number 1.5. -/
def newConfig (ethereumURL shuttermintURL : Text) (multiplier : F) (cs : Contracts) (k : Keys) : KConfig F :=
  ⟨shuttermintURL, ethereumURL, [], some k.signing, some k.seed, some k.encryption, cs.config, cs.batcher, cs.keyBroadcast,
    cs.executor, cs.deposit, cs.slasher, 0, 5, 30, multiplier⟩

/-- prepare/configs.go:207-209 `twothirds` -/
def twothirds (n : Nat) : Nat := (2 * n + 2) / 3

/-- prepare/configs.go:96-112 `generateConfigJSON`: the config -/
def generatedConfig (cs : Contracts) (keypers : List Addr) : FileConfig :=
  ⟨0, 0, keypers, twothirds keypers.length, 10, 100000, 1000, 10000, List.replicate 20 0x11, cs.target,
    [0x94, 0x3d, 0x72, 0x09], 15⟩

/-- prepare/configs.go:31-43, 86-91, 135-150: the command: for each keyper its file, and config.json. `keys`: the keys that were made,
one entry for each keyper. Directories are not modelled: none of the files is there before. -/
def prepare (lib : Lib F) (ethereumURL shuttermintURL : Text) (multiplier : F) (contractsFile : Text) (keys : List Keys) :
    Option (List Text × Text) := do
  if keys = [] then none
  else
    let cs ← Contracts.load lib.cx contractsFile
    let files ← keys.mapM (fun k => (newConfig ethereumURL shuttermintURL multiplier cs k).write lib)
    return (files, (generatedConfig cs (keys.map (fun k => lib.addressOf k.signing))).save lib.cx)

end Shutter.Files
