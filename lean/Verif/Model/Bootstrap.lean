import Verif.Model.Tx
import Verif.Model.GoConfig

/-!
# shuttermint/cmd/bootstrap.go, and the genesis made by shuttermint/cmd/init.go

Flags, files and connections are not modelled. `fx.RPCMessageSender.SendMessage` (fx/messagesender.go:106-125) adds the chain id and a
nonce, waits until the message is in a block and fails if its response is an error: the two messages are sent one after the other, and
the command reports success if both are accepted.
-/

namespace Shutter.Bootstrap
open Shutter.App (Addr Bytes BatchConfigMsg InitRequest)

/-- bootstrap.go:116-130: the index of the config; `flag` is the flag `index` of the command. `none`: the command fails. -/
def chooseIndex (c : Sol.Config) (flag : Int) : Option Nat :=
  if flag < 0 then (if c.numConfigs = 0 then none else some (c.numConfigs - 1)) else some flag.toNat

/-- bootstrap.go:116-160: the config message, and the index in the message that the config has started. `none`: the command fails
before anything is sent. -/
def bootstrapMessages (c : Sol.Config) (contract : Addr) (flag : Int) : Option (BatchConfigMsg × Nat) := do
  let index ← chooseIndex c flag
  let bc ← GoConfig.getConfigByIndex c index
  some (⟨bc.startBatchIndex, bc.keypers.map Tx.addrBytes, bc.threshold, contract, index, false, false⟩, index)

/-- init.go:112, 163-181: the genesis document for the keypers; `key` is the validator key of the node. The chain id is random. -/
def genesisRequest (keypers : List Addr) (key chainId : Bytes) : InitRequest :=
  ⟨some (keypers, (2 * keypers.length + 2) / 3), [(some key, 10)], chainId⟩

end Shutter.Bootstrap
