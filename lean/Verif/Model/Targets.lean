import Verif.Model.Ecdsa

/-!
# Target contracts (contracts/contracts/TargetProxyContract.sol, TestTargetContract.sol) and the web page that writes transactions for
them (example/src/utils.js)

Transactions are byte strings, which the executor contract hands to the proxy; the proxy calls any contract with any data on behalf of
whoever wrote the transaction; the test target contract checks a signature and a nonce, and publishes a message.

The encoding of arguments is that of the contract ABI: words of 32 bytes; byte strings are written behind the other arguments, in whose
place is the position of the byte string.
-/

namespace Shutter.Target
open Shutter.Crypto

/-! ### Encoding (ethers, defaultAbiCoder.encode; Solidity, abi.encodeWithSelector) -/

/-- A number as a word. -/
def word (n : Nat) : Bytes := Sol.World.beBytes n 32

/-- A byte string: its length, its bytes, and zeros up to the next word. -/
def bytesTail (b : Bytes) : Bytes := word b.length ++ b ++ List.replicate ((32 - b.length % 32) % 32) 0

/-- `(bytes)` -/
def encodeBytes (b : Bytes) : Bytes := word 32 ++ bytesTail b

/-- `(address, bytes)` and `(uint64, bytes)` -/
def encodeNatBytes (n : Nat) (b : Bytes) : Bytes := word n ++ word 64 ++ bytesTail b

/-- `(bytes, uint8, bytes32, bytes32)` -/
def encodeSigned (b : Bytes) (v r s : Nat) : Bytes := word 128 ++ word v ++ word r ++ word s ++ bytesTail b

/-! ### Decoding (Solidity 0.8.4, `abi.decode` and the arguments of external functions; `none`: the call reverts) -/

/-- The word at a position that is inside the data. -/
def wordAt (b : Bytes) (i : Nat) : Nat := beNat ((b.drop i).take 32)

/-- The byte string whose position is in the word at `i`: positions and lengths are at most `type(uint64).max`, and all of it is inside the
data. -/
def bytesAt (b : Bytes) (i : Nat) : Option Bytes :=
  let o := wordAt b i
  if Sol.two64 ≤ o then none
  else if b.length < o + 32 then none
  else
    let n := wordAt b o
    if Sol.two64 ≤ n then none
    else if b.length < o + 32 + n then none
    else some ((b.drop (o + 32)).take n)

/-- `(bytes)` -/
def decodeBytes (b : Bytes) : Option Bytes := if b.length < 32 then none else bytesAt b 0

/-- `(address, bytes)` for the bound `2 ^ 160`, `(uint64, bytes)` for the bound `2 ^ 64` -/
def decodeNatBytes (bound : Nat) (b : Bytes) : Option (Nat × Bytes) :=
  if b.length < 64 then none
  else if bound ≤ wordAt b 0 then none
  else (bytesAt b 32).map (fun d => (wordAt b 0, d))

/-- `(bytes, uint8, bytes32, bytes32)` -/
def decodeSigned (b : Bytes) : Option (Bytes × Nat × Nat × Nat) :=
  if b.length < 128 then none
  else
    match bytesAt b 0 with
    | none => none
    | some d => if 256 ≤ wordAt b 32 then none else some (d, wordAt b 32, wordAt b 64, wordAt b 96)

/-! ### The contracts -/

/-- The first four bytes of the hash of `executeTransaction(bytes)` (example/src/utils.js:3) -/
def selector : Bytes := [0x94, 0x3d, 0x72, 0x09]

/-- The hash function, and the mathematics of recovering signers. -/
structure Lib where
  keccak : Bytes → Bytes
  core : Ecdsa.Core

/-- The precompiled contract `ecrecover`: the zero address if there is no signer. -/
def Lib.ecrecover (lib : Lib) (hash : Bytes) (v r s : Nat) : Sol.Address :=
  if v = 27 ∨ v = 28 then (lib.core hash r s (v - 27)).getD 0 else 0

/-- The hash that is signed for a hash: TestTargetContract.sol:25-28; `signMessage` of ethers' wallets. -/
def Lib.signedHash (lib : Lib) (payloadHash : Bytes) : Bytes :=
  lib.keccak ("\x19Ethereum Signed Message:\n32".toUTF8.toList ++ payloadHash)

/-- TestTargetContract: its storage and the events it has emitted. -/
structure Board where
  /-- line 9 -/
  nonces : Sol.Address → Nat → Bool
  /-- `ExecutedTransaction(sender, data, nonce)` -/
  executed : List (Sol.Address × Bytes × Nat)

/-- TestTargetContract.sol:15-42 -/
def Board.executeTransaction (lib : Lib) (executor : Sol.Address) (b : Board) (sender : Sol.Address) (txData : Bytes) : Option Board :=
  if sender ≠ executor then none
  else
    match decodeSigned txData with
    | none => none
    | some (payload, v, r, s) =>
      let signer := lib.ecrecover (lib.signedHash (lib.keccak payload)) v r s
      match decodeNatBytes Sol.two64 payload with
      | none => none
      | some (nonce, data) =>
        if b.nonces signer nonce = true then none
        else some { nonces := fun a n => if a = signer ∧ n = nonce then true else b.nonces a n,
                    executed := b.executed ++ [(signer, data, nonce)] }

/-- The argument of `executeTransaction` in the data of a call. (The other functions change nothing; calls of them are not told from calls
that revert.) -/
def argument (data : Bytes) : Option Bytes := if data.take 4 = selector then decodeBytes (data.drop 4) else none

/-- A call of the test target contract. -/
def Board.call (lib : Lib) (executor : Sol.Address) (b : Board) (sender : Sol.Address) (data : Bytes) : Option Board :=
  match argument data with
  | none => none
  | some txData => b.executeTransaction lib executor sender txData

/-- Two contracts: where they are, and the executors they were deployed with. -/
structure Deployment where
  proxyAddr : Sol.Address
  /-- TargetProxyContract.sol:10-12 -/
  proxyExecutor : Sol.Address
  boardAddr : Sol.Address
  /-- TestTargetContract.sol:11-13 -/
  boardExecutor : Sol.Address

/-- shuttermint/cmd/deploy/deploy.go:206-215: the executor of the proxy is the executor contract, that of the test target is the proxy. -/
def deploy (executor proxyAddr boardAddr : Sol.Address) : Deployment := ⟨proxyAddr, executor, boardAddr, proxyAddr⟩

/-- shuttermint/cmd/prepare/configs.go:107: the target in the batch config that is written for a deployment. -/
def preparedTarget (d : Deployment) : Sol.Address := d.boardAddr

/-- What the contracts have stored and published. -/
structure State where
  board : Board
  /-- `TransactionForwarded(receiver, data)` of the proxy -/
  forwarded : List (Sol.Address × Bytes)

/-- A call of one of the contracts. The data of a call that runs out of gas is as good as any other; whether it does is said by `gas`. Of
receivers of forwarded calls other than the test target, nothing is known but whether the call succeeds. -/
structure Call where
  sender : Sol.Address
  callee : Sol.Address
  data : Bytes
  gas : Bool
  receiverOk : Bool

/-- TargetProxyContract.sol:14-29; the proxy calls the receiver with the data. The calls which other receivers make in turn are calls of
their own. -/
def proxyExecute (lib : Lib) (d : Deployment) (s : State) (sender : Sol.Address) (txData : Bytes) (receiverOk : Bool) : Option State :=
  if sender ≠ d.proxyExecutor then none
  else
    match decodeNatBytes (2 ^ 160) txData with
    | none => none
    | some (receiver, data) =>
      if receiver = d.boardAddr then
        match s.board.call lib d.boardExecutor d.proxyAddr data with
        | none => none
        | some b => some { board := b, forwarded := s.forwarded ++ [(receiver, data)] }
      else if receiverOk then some { s with forwarded := s.forwarded ++ [(receiver, data)] }
      else none

/-- A call; `none`: it reverts. -/
def State.call (lib : Lib) (d : Deployment) (s : State) (c : Call) : Option State :=
  if c.gas = false then none
  else if c.callee = d.proxyAddr then
    match argument c.data with
    | none => none
    | some txData => proxyExecute lib d s c.sender txData c.receiverOk
  else if c.callee = d.boardAddr then
    (s.board.call lib d.boardExecutor c.sender c.data).map (fun b => { s with board := b })
  else none

/-- The contracts when deployed. -/
def State.init : State := ⟨⟨fun _ _ => false, []⟩, []⟩

/-- All the calls so far; those that revert change nothing. -/
def State.run (lib : Lib) (d : Deployment) (s : State) (cs : List Call) : State := cs.foldl (fun s c => (s.call lib d c).getD s) s

/-- ExecutorContract.sol:356-364: what the executor calls a target with, for a function and a transaction. -/
def callData (sel tx : Bytes) : Bytes := sel ++ encodeBytes tx

/-! ### The web page -/

/-- A wallet: `signMessage`, split into `v`, `r` and `s`. -/
structure Wallet where
  address : Sol.Address
  sign : Bytes → Nat × Nat × Nat

/-- utils.js:53-72 `encodeTargetContractData`; the message is given as its UTF-8 bytes. -/
def encodeTargetContractData (lib : Lib) (message : Bytes) (nonce : Nat) (w : Wallet) : Bytes :=
  let data := encodeNatBytes nonce message
  let sig := w.sign (lib.signedHash (lib.keccak data))
  encodeSigned data sig.1 sig.2.1 sig.2.2

/-- utils.js:74-79 -/
def encodeTargetContractCall (data : Bytes) : Bytes := selector ++ encodeBytes data

/-- utils.js:81-86 -/
def encodeProxyContractData (receiver : Sol.Address) (data : Bytes) : Bytes := encodeNatBytes receiver data

/-- utils.js:88-101 -/
def encodeMessage (lib : Lib) (receiver : Sol.Address) (message : Bytes) (nonce : Nat) (w : Wallet) : Bytes :=
  encodeProxyContractData receiver (encodeTargetContractCall (encodeTargetContractData lib message nonce w))

end Shutter.Target
