import Verif.Model.Files
import Verif.Spec.Events

/-! # Vocabulary for the files of the operator and of the keypers -/

namespace Shutter.Files
open Shutter.App Shutter.Events

/-- Text that can stand between quotes as it is: no quotes, backslashes and control characters. -/
def Plain (s : Text) : Prop := ∀ c ∈ s, c ≠ '"' ∧ c ≠ '\\' ∧ 32 ≤ c.toNat

instance (s : Text) : Decidable (Plain s) := inferInstanceAs (Decidable (∀ c ∈ s, _))

/-- A private key on the curve secp256k1. -/
def IsKey (d : Nat) : Prop := 0 < d ∧ d < Ecdsa.order

def Keys.Valid (k : Keys) : Prop := IsKey k.signing ∧ IsKey k.encryption ∧ k.seed.length = 32

def Contracts.Valid (c : Contracts) : Prop :=
  IsAddress c.config ∧ IsAddress c.keyBroadcast ∧ IsAddress c.feeBank ∧ IsAddress c.batcher ∧ IsAddress c.executor ∧
  IsAddress c.token ∧ IsAddress c.deposit ∧ IsAddress c.slasher ∧ IsAddress c.targetProxy ∧ IsAddress c.target

/-- What the Go type can hold: addresses of 20 bytes, four bytes of selector, 64 bit numbers. -/
def FileConfig.Typed (c : FileConfig) : Prop :=
  Uint64 c.startBatchIndex ∧ Uint64 c.startBlockNumber ∧ (∀ k ∈ c.keypers, IsAddress k) ∧ Uint64 c.threshold ∧
  Uint64 c.batchSpan ∧ Uint64 c.batchSizeLimit ∧ Uint64 c.transactionSizeLimit ∧ Uint64 c.transactionGasLimit ∧
  IsAddress c.feeReceiver ∧ IsAddress c.targetAddress ∧ c.targetFunctionSelector.length = 4 ∧ Uint64 c.executionTimeout

/-- A threshold between one and the number of keypers. -/
def FileConfig.Sensible (c : FileConfig) : Prop := 1 ≤ c.threshold ∧ c.threshold ≤ c.keypers.length

variable {F : Type}

/-- Numbers are read as they were written, and written with the characters of numbers. Addresses have 20 bytes. -/
structure Lib.Lawful (lib : Lib F) : Prop where
  float : ∀ f, lib.readFloat (lib.showFloat f) = some f
  chars : ∀ f, lib.showFloat f ≠ [] ∧ ∀ c ∈ lib.showFloat f, numChar c = true
  address : ∀ k, IsAddress (lib.addressOf k)

/-- A complete config whose texts can stand between quotes, with numbers that TOML has. -/
structure KConfig.Valid (c : KConfig F) : Prop where
  shuttermintURL : Plain c.shuttermintURL
  ethereumURL : Plain c.ethereumURL
  dbDir : Plain c.dbDir
  signingKey : ∃ k, c.signingKey = some k ∧ IsKey k
  encryptionKey : ∃ k, c.encryptionKey = some k ∧ IsKey k
  validatorSeed : ∃ s, c.validatorSeed = some s ∧ s.length = 32
  configContract : IsAddress c.configContract
  batcherContract : IsAddress c.batcherContract
  keyBroadcastContract : IsAddress c.keyBroadcastContract
  executorContract : IsAddress c.executorContract
  depositContract : IsAddress c.depositContract
  keyperSlasher : IsAddress c.keyperSlasher
  mainChainFollowDistance : c.mainChainFollowDistance < 2 ^ 63
  executionStaggering : c.executionStaggering < 2 ^ 63
  dkgPhaseLength : c.dkgPhaseLength < 2 ^ 63

/-- No variable of the keyper is set. -/
def noEnv : String → Text := fun _ => []

/-- The environment in which the variables chosen by `S` have the values of the config `c`: addresses with their checksum, keys and
seeds in hexadecimal, decimal numbers. The multiplier of the gas price and the directory have values as well. -/
def envOf (lib : Lib F) (c : KConfig F) (S : String → Bool) : String → Text := fun n =>
  if S n then
    if n = "ShuttermintURL" then c.shuttermintURL
    else if n = "EthereumURL" then c.ethereumURL
    else if n = "DBDir" then c.dbDir
    else if n = "SigningKey" then keyText (c.signingKey.getD 0)
    else if n = "ValidatorSeed" then seedText (c.validatorSeed.getD [])
    else if n = "EncryptionKey" then keyText (c.encryptionKey.getD 0)
    else if n = "ConfigContract" then addressHex lib.cx c.configContract
    else if n = "BatcherContract" then addressHex lib.cx c.batcherContract
    else if n = "KeyBroadcastContract" then addressHex lib.cx c.keyBroadcastContract
    else if n = "ExecutorContract" then addressHex lib.cx c.executorContract
    else if n = "DepositContract" then addressHex lib.cx c.depositContract
    else if n = "KeyperSlasher" then addressHex lib.cx c.keyperSlasher
    else if n = "MainChainFollowDistance" then formatUint c.mainChainFollowDistance
    else if n = "ExecutionStaggering" then formatUint c.executionStaggering
    else if n = "DKGPhaseLength" then formatUint c.dkgPhaseLength
    else if n = "GasPriceMultiplier" then lib.showFloat c.gasPriceMultiplier
    else []
  else []

/-- The config `c`, but for the fields chosen by `S`, which are those of `c'`. The directory and the multiplier of the gas price
are always those of `c`. -/
def overridden (S : String → Bool) (c c' : KConfig F) : KConfig F :=
  { shuttermintURL := if S "ShuttermintURL" then c'.shuttermintURL else c.shuttermintURL
    ethereumURL := if S "EthereumURL" then c'.ethereumURL else c.ethereumURL
    dbDir := c.dbDir
    signingKey := if S "SigningKey" then c'.signingKey else c.signingKey
    validatorSeed := if S "ValidatorSeed" then c'.validatorSeed else c.validatorSeed
    encryptionKey := if S "EncryptionKey" then c'.encryptionKey else c.encryptionKey
    configContract := if S "ConfigContract" then c'.configContract else c.configContract
    batcherContract := if S "BatcherContract" then c'.batcherContract else c.batcherContract
    keyBroadcastContract := if S "KeyBroadcastContract" then c'.keyBroadcastContract else c.keyBroadcastContract
    executorContract := if S "ExecutorContract" then c'.executorContract else c.executorContract
    depositContract := if S "DepositContract" then c'.depositContract else c.depositContract
    keyperSlasher := if S "KeyperSlasher" then c'.keyperSlasher else c.keyperSlasher
    mainChainFollowDistance := if S "MainChainFollowDistance" then c'.mainChainFollowDistance else c.mainChainFollowDistance
    executionStaggering := if S "ExecutionStaggering" then c'.executionStaggering else c.executionStaggering
    dkgPhaseLength := if S "DKGPhaseLength" then c'.dkgPhaseLength else c.dkgPhaseLength
    gasPriceMultiplier := c.gasPriceMultiplier }

/-- The config with a directory that does not depend on where the keyper is started. -/
def located (lib : Lib F) (path : Text) (c : KConfig F) : KConfig F :=
  if c.dbDir.head? = some '/' then c else { c with dbDir := lib.inDirOf path c.dbDir }

end Shutter.Files
