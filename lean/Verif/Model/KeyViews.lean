import Verif.Model.SolContracts

/-! # What users read from the key broadcast contract (contracts/contracts/KeyBroadcastContract.sol) -/

namespace Shutter.Sol.World

/-- KeyBroadcastContract.sol:102-108 `getNumVotes` -/
def getNumVotes (E : Env) (w : World) (startBatchIndex : Nat) (key : Bytes) : Nat := w.keyBroadcast.numVotes startBatchIndex (E.keccak key)

/-- KeyBroadcastContract.sol:118-124 `getBestKey` -/
def getBestKey (w : World) (startBatchIndex : Nat) : Bytes := w.keyBroadcast.keys (w.keyBroadcast.bestHash startBatchIndex)

/-- KeyBroadcastContract.sol:126-132 `getBestKeyNumVotes` -/
def getBestKeyNumVotes (w : World) (startBatchIndex : Nat) : Nat := w.keyBroadcast.bestVotes startBatchIndex

end Shutter.Sol.World
