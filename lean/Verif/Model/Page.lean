import Verif.Model.GoConfig
import Verif.Model.KeyViews
import Verif.Model.SolWorld
import Verif.Model.Targets

/-!
# The example web page (example/src/utils.js, App.vue, components/SubmitForm.vue, StatusPanel.vue, TargetSection.vue)

The page reads the config contract and the key broadcast contract once, when it is opened. It writes transactions for the batcher contract and
shows how far the executor contract is and which messages the test target contract has published.

Block numbers are JavaScript numbers, taken as exact here. All that a function reads from the contracts is read at the same time here. `none`:
an exception.
-/

namespace Shutter.Page
open Shutter.Sol

/-- utils.js:7-12: the loop `for (let i = numConfigs - 1; i >= 0; i--)`, for `n` configs to go. -/
def indexLoop (c : Config) (blockNumber : Nat) : Nat → Option Nat
  | 0 => none
  | n + 1 =>
    match c.configForConfigIndex n with
    | none => none
    | some bc => if bc.startBlockNumber ≤ blockNumber then some n else indexLoop c blockNumber n

/-- utils.js:5-14 `getConfigIndexAtBlock` -/
def configIndexAtBlock (c : Config) (blockNumber : Nat) : Option Nat := indexLoop c blockNumber c.numConfigs

/-- utils.js:16-20 `getConfigAtBlock`; calling the contract with index `null` is an exception. -/
def configAtBlock (c : Config) (blockNumber : Nat) : Option BatchConfig :=
  (configIndexAtBlock c blockNumber).bind (fun i => c.configForConfigIndex i)

/-- utils.js:39-46 `getBatchIndexAtBlock`: `BigNumber`s are integers, their division rounds towards zero and refuses to divide by zero. The
assertion of line 41 does nothing but log. -/
def batchIndexAtBlock (blockNumber : Nat) (bc : BatchConfig) : Option Int :=
  if bc.batchSpan = 0 then none
  else some (bc.startBatchIndex + Int.tdiv ((blockNumber : Int) - bc.startBlockNumber) bc.batchSpan)

/-- The decimal digits of a number, the first one first: `BigNumber.toString`. -/
def decimal (n : Nat) : List Nat := if n = 0 then [0] else (Nat.digits 10 n).reverse

/-- JavaScript's `<` of two strings: the first difference counts, and a string is less than its continuations. -/
def stringLess : List Nat → List Nat → Bool
  | _, [] => false
  | [], _ :: _ => true
  | a :: as, b :: bs => decide (a < b) || (decide (a = b) && stringLess as bs)

/-- JavaScript's `a >= b` for two `BigNumber`s (of ethers 5, which do not define `valueOf`): both are objects, hence both are turned into
strings, and the strings are compared. -/
def bigNumberGe (a b : Nat) : Bool := !(stringLess (decimal a) (decimal b))

/-- App.vue:62-68 `data` -/
structure Page where
  config : BatchConfig
  eonKey : Option Bytes
deriving DecidableEq

/-- App.vue:77-92 `getKeyAndConfig`: done once, when the page is opened. -/
def Page.load (w : World) (blockNumber : Nat) : Option Page :=
  match configAtBlock w.config blockNumber with
  | none => none
  | some config =>
    some { config := config,
           eonKey := if bigNumberGe (w.getBestKeyNumVotes 0) config.threshold then some (w.getBestKey 0) else none }

/-- SubmitForm.vue:86 -/
def expectedInclusionDelay : Nat := 3

/-- SubmitForm.vue:143-193 `onSend` and `sendTransaction`: the transaction for a payload (the message as written by `encodeMessage`, or its
encryption) if the block number is estimated to be `blockNumber`. Nothing happens without a key (lines 105-113); an index that is no `uint64` is
an exception in ethers. No ether is sent along. -/
def Page.send (p : Page) (blockNumber : Nat) (sender : Address) (ty : TxType) (payload : Bytes) : Option Op :=
  if p.eonKey = none then none
  else
    match batchIndexAtBlock (blockNumber + expectedInclusionDelay) p.config with
    | none => none
    | some i => if 0 ≤ i ∧ i < two64 then some (.addTransaction sender i.toNat ty payload 0) else none

/-- StatusPanel.vue:52-58 `lastExecutedBatch` -/
def lastExecutedBatch (w : World) : Int := (w.executor.halfSteps / 2 : Nat) - 1

/-- TargetSection.vue: the list of messages, and whether the page is notified of further ones. -/
structure TargetSection where
  shown : List (Address × String × Nat)
  listening : Bool

/-- TargetSection.vue:57-63 `handleExecutedTransaction`; `toUtf8String` is the function of ethers, which throws exceptions on what is not UTF-8. -/
def TargetSection.handle (toUtf8String : Bytes → Option String) (s : TargetSection) (e : Address × Bytes × Nat) : Option TargetSection :=
  match toUtf8String e.2.1 with
  | none => none
  | some text => some { s with shown := s.shown ++ [(e.1, text, e.2.2)] }

/-- TargetSection.vue:46-53, the loop of `mounted`: an exception ends it, and the function. -/
def TargetSection.mountLoop (toUtf8String : Bytes → Option String) (s : TargetSection) : List (Address × Bytes × Nat) → TargetSection
  | [] => { s with listening := true }
  | e :: es =>
    match s.handle toUtf8String e with
    | none => s
    | some s' => s'.mountLoop toUtf8String es

/-- TargetSection.vue:39-54 `mounted`, for the recent events. -/
def TargetSection.mount (toUtf8String : Bytes → Option String) (recent : List (Address × Bytes × Nat)) : TargetSection :=
  TargetSection.mountLoop toUtf8String ⟨[], false⟩ recent

/-- A new event: exceptions of the handler concern nothing else. -/
def TargetSection.notify (toUtf8String : Bytes → Option String) (s : TargetSection) (e : Address × Bytes × Nat) : TargetSection :=
  if s.listening then (s.handle toUtf8String e).getD s else s

end Shutter.Page
