import Mathlib.Tactic.Common
import Verif.Model.Events

/-!
# shuttermint/keyper/observe/shutter.go: what a keyper knows about the shuttermint chain

The chain is a function from heights to the transactions of the block, each with the ABCI events it emitted. Go's clones
(`Clone` by gob, `ShallowClone`) are value copies here: events are applied only to a deep clone (shutter.go:392-398), so
nothing that was handed out is changed.
-/

namespace Shutter.Observe
open Shutter.App
open Shutter.Events (Codecs AbciEvent makeEvent)

/-- An event together with its field `Height` (events.go: all the event types have one, set by `MakeEvent`). -/
structure Stamped where
  height : Int
  ev : Event
deriving DecidableEq

/-- shutter.go:63-66 `ShutterFilter` -/
structure Filter where
  syncHeight : Int
  batchIndex : Nat
deriving DecidableEq

/-- shutter.go:68-70 `NeedsUpdate` -/
def Filter.needsUpdate (f new : Filter) : Bool := decide (new.syncHeight > f.syncHeight) || decide (new.batchIndex > f.batchIndex)

/-- shutter.go:95-104 `Eon`; of the start event only the batch index is kept, the other fields are repeated in the struct. -/
structure Eon where
  eon : Nat
  startHeight : Int
  startBatchIndex : Nat
  commitments : List Stamped
  polyEvals : List Stamped
  accusations : List Stamped
  apologies : List Stamped
  epochSecretKeyShares : List Stamped
deriving DecidableEq

/-- shutter.go:75-84 `Shutter`; `NodeStatus` is reduced to whether there is one and its `CatchingUp` flag. -/
structure Shutter where
  currentBlock : Int
  lastCommittedHeight : Int
  nodeStatus : Option Bool
  keyperEncryptionKeys : Addr → Option Bytes
  batchConfigs : List Stamped
  batches : Nat → Option (List Stamped)
  eons : List Eon
  filter : Filter

/-- shutter.go:87-93 `NewShutter` -/
def newShutter : Shutter where
  currentBlock := -1
  lastCommittedHeight := 0
  nodeStatus := none
  keyperEncryptionKeys := fun _ => none
  batchConfigs := []
  batches := fun _ => none
  eons := []
  filter := ⟨0, 0⟩

/-- The loop of Go's `sort.Search`: `for i < j { h := (i+j)/2; if !f(h) { i = h+1 } else { j = h } }; return i`. -/
def searchLoop (f : Nat → Bool) (i j : Nat) : Nat :=
  if i < j then
    if f ((i + j) / 2) then searchLoop f i ((i + j) / 2) else searchLoop f ((i + j) / 2 + 1) j
  else i
termination_by j - i
decreasing_by all_goals omega

/-- Go's `sort.Search` -/
def goSearch (n : Nat) (f : Nat → Bool) : Nat := searchLoop f 0 n

/-- The body shared by `GetPolyCommitments`, `GetPolyEvals`, `GetAccusations`, `GetApologies` and
`GetEpochSecretKeyShares`, shutter.go:119-177. -/
def getFrom (slice : List Stamped) (syncHeight : Int) : List Stamped :=
  let idx := goSearch slice.length (fun (i : Nat) => slice[i]?.any (fun x => decide (x.height ≥ syncHeight)))
  if idx = slice.length then [] else slice.drop idx

/-- shutter.go:119-129 -/
def Eon.getPolyCommitments (e : Eon) (h : Int) : List Stamped := getFrom e.commitments h
/-- shutter.go:131-141 -/
def Eon.getPolyEvals (e : Eon) (h : Int) : List Stamped := getFrom e.polyEvals h
/-- shutter.go:143-153 -/
def Eon.getAccusations (e : Eon) (h : Int) : List Stamped := getFrom e.accusations h
/-- shutter.go:155-165 -/
def Eon.getApologies (e : Eon) (h : Int) : List Stamped := getFrom e.apologies h
/-- shutter.go:167-177 -/
def Eon.getEpochSecretKeyShares (e : Eon) (h : Int) : List Stamped := getFrom e.epochSecretKeyShares h

/-- shutter.go:106-117 `Eon.ApplyFilter`. The clone gets no epoch secret key shares. -/
def Eon.applyFilter (e : Eon) (syncHeight : Int) : Eon where
  eon := e.eon
  startHeight := e.startHeight
  startBatchIndex := e.startBatchIndex
  commitments := [] ++ e.getPolyCommitments syncHeight
  polyEvals := [] ++ e.getPolyEvals syncHeight
  accusations := [] ++ e.getAccusations syncHeight
  apologies := [] ++ e.getApologies syncHeight
  epochSecretKeyShares := []

/-- shutter.go:186-193 `filterSyncHeight` -/
def filterSyncHeight (s : Shutter) : Shutter :=
  { s with eons := s.eons.map (fun e => e.applyFilter s.filter.syncHeight) }

/-- shutter.go:195-204 `filterBatchIndex` -/
def filterBatchIndex (s : Shutter) : Shutter :=
  { s with batches := fun b => if b ≥ s.filter.batchIndex then s.batches b else none }

/-- shutter.go:207-216 `ApplyFilter` -/
def applyFilter (s : Shutter) (f : Filter) : Shutter :=
  if !s.filter.needsUpdate f then s
  else filterBatchIndex (filterSyncHeight { s with filter := f })

/-- shutter.go:238-245 `searchEon` -/
def searchEon (s : Shutter) (eon : Nat) : Nat :=
  goSearch s.eons.length (fun (i : Nat) => s.eons[i]?.any (fun x => decide (eon ≤ x.eon)))

/-- shutter.go:256-262 `FindEon`; the position of the eon in the list, `none` is the error. -/
def findEonIdx (s : Shutter) (eon : Nat) : Option Nat :=
  let idx := searchEon s eon
  match s.eons[idx]? with
  | none => none
  | some e => if eon < e.eon then none else some idx

/-- shutter.go:256-262 `FindEon` -/
def findEon (s : Shutter) (eon : Nat) : Option Eon := (findEonIdx s eon).bind (fun i => s.eons[i]?)

/-- shutter.go:247-254 `FindEonByBatchIndex` -/
def findEonByBatchIndex (s : Shutter) (batchIndex : Nat) : Option Eon :=
  s.eons.reverse.find? (fun e => decide (e.startBatchIndex ≤ batchIndex))

/-- shutter.go:229-236 `getBatchData`, the signatures found -/
def getBatchData (s : Shutter) (b : Nat) : List Stamped := (s.batches b).getD []

/-- `FindEon` followed by an update in place; the error is only logged (shutter.go:288-332, 358-360). -/
def updateEon (s : Shutter) (eon : Nat) (f : Eon → Eon) : Shutter :=
  match findEonIdx s eon with
  | none => s
  | some i => { s with eons := s.eons.modify i f }

/-- shutter.go:334-361 `applyEvent` with the `apply…` functions 264-332 -/
def applyEvent (s : Shutter) (x : Stamped) : Shutter :=
  match x.ev with
  | .checkIn sender key => { s with
      keyperEncryptionKeys := fun a => if a = sender then some key else s.keyperEncryptionKeys a }
  | .batchConfig _ _ _ _ => { s with
      batchConfigs := s.batchConfigs ++ [x] }
  | .decryptionSignature b _ _ => { s with
      batches := fun b' => if b' = b then some (getBatchData s b ++ [x]) else s.batches b' }
  | .eonStarted eon batchIndex =>
      if searchEon s eon < s.eons.length then s
      else { s with
        eons := s.eons ++ [⟨eon, x.height, batchIndex, [], [], [], [], []⟩] }
  | .polyCommitment _ eon _ => updateEon s eon (fun e => { e with
      commitments := e.commitments ++ [x] })
  | .polyEval _ eon _ _ => updateEon s eon (fun e => { e with
      polyEvals := e.polyEvals ++ [x] })
  | .accusation _ eon _ => updateEon s eon (fun e => { e with
      accusations := e.accusations ++ [x] })
  | .apology _ eon _ _ => updateEon s eon (fun e => { e with
      apologies := e.apologies ++ [x] })
  | .epochSecretKeyShare _ eon _ _ => updateEon s eon (fun e => { e with
      epochSecretKeyShares := e.epochSecretKeyShares ++ [x] })

/-- shutter.go:218-227 `applyTxEvents`: malformed events are logged and ignored. -/
def applyTxEvents (cx : Codecs) (s : Shutter) (height : Int) (events : List AbciEvent) : Shutter :=
  events.foldl (fun s ev => match makeEvent cx ev with
    | none => s
    | some x => applyEvent s ⟨height, x⟩) s

/-! ## The node -/

/-- The transactions of every block, with their events. -/
abbrev Chain := Int → List (List AbciEvent)

/-- The transactions of the heights `lo ≤ … ≤ hi` in the order of the chain. -/
def txsBetween (chain : Chain) (lo hi : Int) : List (Int × List AbciEvent) :=
  (List.range (hi + 1 - lo).toNat).flatMap (fun (i : Nat) => (chain (lo + i)).map (fun tx => (lo + (i : Int), tx)))

/-- Tendermint's `TxSearch` with the query `tx.height >= lo and tx.height <= hi`: the number of all matches and the
requested page of them (at most 100 per page), in ascending order of height and index; a page that does not exist is an
error. -/
def txSearch (chain : Chain) (lo hi : Int) (page perPage : Nat) : Option (Nat × List (Int × List AbciEvent)) :=
  let all := txsBetween chain lo hi
  let per := min perPage 100
  let pages := max 1 ((all.length + per - 1) / per)
  if page < 1 ∨ page > pages then none
  else some (all.length, (all.drop ((page - 1) * per)).take per)

/-! ## Fetching -/

def perQuery : Int := 500
def perPage : Nat := 100

/-- shutter.go:386-421, the loop over the pages of a window of heights. `none` is the `log.Fatalf` or an error of the
node. The third component records the pages asked for. (`res.TotalCount` of the exit condition is written out as the number
of matching transactions. Returning a shallow clone when there are none, 393-395, is the same as going on.) -/
def pageLoop (cx : Codecs) (chain : Chain) (lo hi : Int) (page total : Nat) (s : Shutter) :
    Option (Shutter × List (Int × Int × Nat)) :=
  match txSearch chain lo hi page perPage with
  | none => none
  | some (totalCount, txs) =>
    let total := total + txs.length
    let s := txs.foldl (fun s tx => applyTxEvents cx s tx.1 tx.2) s
    if page * perPage ≥ (txsBetween chain lo hi).length then
      if total ≠ totalCount then none else some (s, [(lo, hi, page)])
    else (pageLoop cx chain lo hi (page + 1) total s).map (fun r => (r.1, (lo, hi, page) :: r.2))
termination_by (txsBetween chain lo hi).length - page * perPage
decreasing_by simp only [perPage] at *; omega

/-- shutter.go:373-376, the last height of a window -/
def windowEnd (currentBlock target : Int) : Int :=
  if currentBlock + perQuery > target then target else currentBlock + perQuery

theorem windowEnd_lt {c t : Int} (h : ¬ windowEnd c t = t) : windowEnd c t = c + perQuery ∧ c + perQuery ≤ t := by
  unfold windowEnd at *
  split at h
  · exact absurd rfl h
  · rename_i hc
    rw [if_neg hc]
    exact ⟨rfl, by omega⟩

/-- shutter.go:372-425, the loop over the windows of heights -/
def windowLoop (cx : Codecs) (chain : Chain) (currentBlock target : Int) (s : Shutter) :
    Option (Shutter × List (Int × Int × Nat)) :=
  match pageLoop cx chain (currentBlock + 1) (windowEnd currentBlock target) 1 0 s with
  | none => none
  | some (s, qs) =>
    if windowEnd currentBlock target = target then some (s, qs)
    else (windowLoop cx chain (windowEnd currentBlock target) target s).map (fun r => (r.1, qs ++ r.2))
termination_by (target - currentBlock).toNat
decreasing_by
  rename_i hne
  have := windowEnd_lt hne
  simp only [perQuery] at *
  omega

/-- shutter.go:363-428 `fetchAndApplyEvents`; `none` is a panic, a fatal error or an error of the node -/
def fetchAndApplyEvents (cx : Codecs) (chain : Chain) (s : Shutter) (target : Int) :
    Option (Shutter × List (Int × Int × Nat)) :=
  if target < s.currentBlock then none
  else windowLoop cx chain s.currentBlock target s

/-- shutter.go:501-522 `SyncToHeight`; `committed` and `status` are the node's answers. -/
def syncToHeight (cx : Codecs) (chain : Chain) (s : Shutter) (height committed : Int) (catchingUp : Bool) : Option Shutter :=
  (fetchAndApplyEvents cx chain s height).map (fun r => { r.1 with
    currentBlock := height
    lastCommittedHeight := committed
    nodeStatus := some catchingUp })

/-- shutter.go:489-498 `SyncToHead`; `height` and `committed` are the node's answers to the two calls of
`GetLastCommittedHeight` (473-484). -/
def syncToHead (cx : Codecs) (chain : Chain) (s : Shutter) (height committed : Int) (catchingUp : Bool) : Option Shutter :=
  if height = s.currentBlock then some s else syncToHeight cx chain s height committed catchingUp

/-! ## Reading -/

/-- shutter.go:431-434 `IsCheckedIn` -/
def isCheckedIn (s : Shutter) (a : Addr) : Bool := (s.keyperEncryptionKeys a).isSome

/-- The fields of a batch config event; `BatchConfig{}` for the zero value. -/
structure Config where
  startBatchIndex : Nat
  threshold : Nat
  keypers : List Addr
  configIndex : Nat
deriving DecidableEq

def Stamped.config (x : Stamped) : Option Config :=
  match x.ev with
  | .batchConfig s t k c => some ⟨s, t, k, c⟩
  | _ => none

def configs (s : Shutter) : List Config := s.batchConfigs.filterMap Stamped.config

/-- shutter.go:437-444 `IsKeyper` with events.go:186-194 -/
def isKeyper (s : Shutter) (a : Addr) : Bool := (configs s).any (fun c => c.keypers.any (fun k => k == a))

/-- shutter.go:446-453 -/
def findBatchConfigByConfigIndex (s : Shutter) (i : Nat) : Option Config := (configs s).find? (fun c => c.configIndex == i)

/-- shutter.go:455-462 -/
def findBatchConfigByBatchIndex (s : Shutter) (b : Nat) : Config :=
  ((configs s).reverse.find? (fun c => decide (c.startBatchIndex ≤ b))).getD ⟨0, 0, [], 0⟩

/-- shutter.go:525-527 -/
def isSynced (s : Shutter) : Bool :=
  match s.nodeStatus with
  | none => true
  | some catchingUp => !catchingUp

/-! ## The loop `SyncShutter`, shutter.go:532-588 -/

/-- What happens in an iteration: a filter arrives, or a new block (the node answers, or a call fails). -/
inductive LoopStep where
  | filter (f : Filter)
  | sync (height committed : Int) (catchingUp : Bool)
  | syncFailed

/-- One iteration; `none` is a panic. -/
def loopStep (cx : Codecs) (chain : Chain) (s : Shutter) : LoopStep → Option Shutter
  | .filter f => some (applyFilter s f)
  | .sync h c u => syncToHead cx chain s h c u
  | .syncFailed => some s

def runLoop (cx : Codecs) (chain : Chain) : Shutter → List LoopStep → Option Shutter
  | s, [] => some s
  | s, x :: xs => (loopStep cx chain s x).bind (fun s' => runLoop cx chain s' xs)

end Shutter.Observe
