import Verif.Proofs.ObserveInv
import Verif.Props.Events
import Verif.Props.App
import Mathlib.Data.List.TakeWhile

/-! Property theorems C35 and C36: what a keyper sees of the shuttermint chain.

Runs are arbitrary lists of iterations of the loop `SyncShutter`: new heads, failed syncs, filters. -/

namespace Shutter.Observe.Props
open Shutter.App
open Shutter.Events (Codecs AbciEvent makeEvent makeABCIEvent)
open Shutter.Events.Props (demoCodecs)
variable {cx : Codecs} {chain : Chain}

/-- The events up to the height of the view. -/
def seenEvents (cx : Codecs) (chain : Chain) (s : Shutter) : List Stamped := chainEvents cx chain 0 s.currentBlock

/-! ## Runs -/

theorem currentBlock_applyEvent (s : Shutter) (x : Stamped) : (applyEvent s x).currentBlock = s.currentBlock := by
  unfold applyEvent updateEon
  split <;> (try split) <;> rfl

theorem applyFilter_currentBlock (s : Shutter) (f : Filter) : (applyFilter s f).currentBlock = s.currentBlock := by
  unfold applyFilter
  split <;> rfl

theorem inv_meta {evs thr b0 s} (h : Inv evs thr b0 s) (c l : Int) (n : Option Bool) :
    Inv evs thr b0 { s with currentBlock := c, lastCommittedHeight := l, nodeStatus := n } := by
  obtain ⟨h1, h2, h3, h4, h5, h6, h7, h8⟩ := h
  exact ⟨h1, h2, h3, h4, h5, h6, h7, h8⟩

theorem syncToHead_inv {thr b0 s s'} {h c : Int} {u : Bool} (hlo : -1 ≤ s.currentBlock) (inv : Inv (seenEvents cx chain s) thr b0 s)
    (hr : syncToHead cx chain s h c u = some s') :
    s'.currentBlock = h ∧ -1 ≤ s'.currentBlock ∧ s.currentBlock ≤ s'.currentBlock ∧ Inv (seenEvents cx chain s') thr b0 s' := by
  unfold syncToHead at hr
  split at hr
  · rename_i he
    cases hr
    exact ⟨he.symm, hlo, le_refl _, inv⟩
  · unfold syncToHeight at hr
    rw [Option.map_eq_some_iff] at hr
    obtain ⟨r, hr, rfl⟩ := hr
    have hle : s.currentBlock ≤ h := by
      by_contra hlt
      unfold fetchAndApplyEvents at hr
      rw [if_pos (by omega)] at hr
      cases hr
    obtain ⟨qs, hq, _⟩ := fetch_spec cx chain s hle
    rw [hq] at hr
    cases hr
    refine ⟨rfl, by simp only; omega, hle, ?_⟩
    apply inv_meta
    unfold seenEvents at inv ⊢
    simp only
    rw [← chainEvents_append cx chain (lo := 0) (m := s.currentBlock) (by omega) hle]
    refine inv_applyAll inv ?_
    rw [chainEvents_append cx chain (by omega) hle]
    exact chainEvents_sorted _ _ _ _

theorem loopStep_inv {thr b0 s s' x} (hlo : -1 ≤ s.currentBlock) (inv : Inv (seenEvents cx chain s) thr b0 s)
    (hr : loopStep cx chain s x = some s') (hx : ∀ f, x = .filter f → f.batchIndex ≤ b0 ∧ ∀ k, raise thr f s.currentBlock k ≤ thr k) :
    -1 ≤ s'.currentBlock ∧ s.currentBlock ≤ s'.currentBlock ∧ Inv (seenEvents cx chain s') thr b0 s' := by
  cases x with
  | filter f =>
    cases hr
    have := inv_applyFilter inv (fun y hy => (chainEvents_heights _ _ hy).2) f
    rw [applyFilter_currentBlock]
    refine ⟨hlo, le_refl _, ?_⟩
    unfold seenEvents
    rw [applyFilter_currentBlock]
    exact this.weaken (hx f rfl).2 (max_le (le_refl _) (hx f rfl).1)
  | sync h c u => exact (syncToHead_inv hlo inv hr).2
  | syncFailed =>
    cases hr
    exact ⟨hlo, le_refl _, inv⟩

theorem runLoop_inv {thr b0} : ∀ {xs s s'}, -1 ≤ s.currentBlock → Inv (seenEvents cx chain s) thr b0 s →
    runLoop cx chain s xs = some s' →
    FiltersAt cx chain (fun f c => f.batchIndex ≤ b0 ∧ ∀ k, raise thr f c k ≤ thr k) s xs →
    Inv (seenEvents cx chain s') thr b0 s' := by
  intro xs
  induction xs with
  | nil =>
    intro s s' _ inv hr _
    cases hr
    exact inv
  | cons x xs ih =>
    intro s s' hlo inv hr hf
    unfold runLoop at hr
    rw [Option.bind_eq_some_iff] at hr
    obtain ⟨s1, h1, h2⟩ := hr
    obtain ⟨g1, _, g2⟩ := loopStep_inv hlo inv h1 hf.1
    exact ih g1 g2 h2 (hf.2 s1 h1)

theorem inv_start (thr : Kind → Int) (b0 : Nat) : Inv (seenEvents cx chain newShutter) thr b0 newShutter := by
  have : seenEvents cx chain newShutter = [] := chainEvents_empty _ _ (by simp [newShutter])
  rw [this]
  exact inv_new thr b0

theorem filtersAt_of_mem {P : Filter → Int → Prop} : ∀ {xs : List LoopStep} {s : Shutter}, (∀ f ∈ filtersOf xs, ∀ c, P f c) →
    FiltersAt cx chain P s xs := by
  intro xs
  induction xs with
  | nil => intro s _; trivial
  | cons x xs ih =>
    intro s h
    refine ⟨?_, fun s' _ => ih ?_⟩
    · rintro f rfl
      exact h f (by simp [filtersOf]) _
    · intro f hf
      apply h
      cases x <;> simp [filtersOf, hf]

theorem filtersAt_imp {P Q : Filter → Int → Prop} : ∀ {xs : List LoopStep} {s : Shutter}, FiltersAt cx chain P s xs →
    (∀ f ∈ filtersOf xs, ∀ c, P f c → Q f c) → FiltersAt cx chain Q s xs := by
  intro xs
  induction xs with
  | nil => intro s _ _; trivial
  | cons x xs ih =>
    intro s h hq
    refine ⟨?_, fun s' h1 => ih (h.2 s' h1) ?_⟩
    · rintro f rfl
      exact hq f (by simp [filtersOf]) _ (h.1 f rfl)
    · intro f hf
      apply hq
      cases x <;> simp [filtersOf, hf]

theorem filtersAt_bound (xs : List LoopStep) (s : Shutter) : ∃ m : Int, FiltersAt cx chain (fun _ c => c + 1 ≤ m) s xs := by
  induction xs generalizing s with
  | nil => exact ⟨0, trivial⟩
  | cons x xs ih =>
    cases h : loopStep cx chain s x with
    | none => exact ⟨s.currentBlock + 1, fun _ _ => le_refl _, fun s' hs' => by rw [h] at hs'; cases hs'⟩
    | some s1 =>
      obtain ⟨m, hm⟩ := ih s1
      refine ⟨max m (s.currentBlock + 1), fun _ _ => le_max_right _ _, fun s' hs' => ?_⟩
      rw [h] at hs'
      cases hs'
      exact filtersAt_imp hm (fun _ _ c hc => le_trans hc (le_max_left _ _))

/-! ## C35 -/

/-- **C35** A sync to a height not below the current one succeeds; it asks the node for consecutive windows of at most 500
blocks which cover the missing blocks exactly. -/
theorem C35_windows_tile (s : Shutter) {target : Int} (h : s.currentBlock ≤ target) :
    ∃ s' qs, fetchAndApplyEvents cx chain s target = some (s', qs) ∧ Tiles 500 target (s.currentBlock + 1) (windows qs) := by
  obtain ⟨qs, h1, h2⟩ := fetch_spec cx chain s h
  exact ⟨_, qs, h1, h2⟩

theorem tiles_none {n hi lo : Int} {ws : List (Int × Int)} (h : Tiles n hi lo ws) {x : Int} (hx : x < lo) :
    ws.filter (fun w => decide (w.1 ≤ x ∧ x ≤ w.2)) = [] := by
  induction ws generalizing lo with
  | nil => rfl
  | cons w ws ih =>
    obtain ⟨a, b⟩ := w
    obtain ⟨rfl, h1, h2, h3, h4⟩ := h
    rw [List.filter_cons, if_neg (by simp; omega)]
    exact ih h4 (by omega)

/-- `Tiles` says what it should: every height from `lo` to `hi` is in exactly one window, other heights are in none. -/
theorem C35_tiles_cover {n hi lo : Int} {ws : List (Int × Int)} (h : Tiles n hi lo ws) (x : Int) :
    (ws.filter (fun w => decide (w.1 ≤ x ∧ x ≤ w.2))).length = if lo ≤ x ∧ x ≤ hi then 1 else 0 := by
  induction ws generalizing lo with
  | nil =>
    simp only [Tiles] at h
    rw [if_neg (by omega)]
    rfl
  | cons w ws ih =>
    obtain ⟨a, b⟩ := w
    obtain ⟨rfl, h1, h2, h3, h4⟩ := h
    rw [List.filter_cons]
    by_cases hx : a ≤ x ∧ x ≤ b
    · rw [if_pos (by simpa using hx), if_pos (by omega), tiles_none h4 (by omega)]
      rfl
    · rw [if_neg (by simpa using hx), ih h4]
      by_cases hy : b + 1 ≤ x ∧ x ≤ hi
      · rw [if_pos hy, if_pos (by omega)]
      · rw [if_neg hy, if_neg (by omega)]

/-- … and no window is longer than `n` blocks. -/
theorem C35_tiles_bounded {n hi lo : Int} {ws : List (Int × Int)} (h : Tiles n hi lo ws) : ∀ w ∈ ws, w.2 + 1 - w.1 ≤ n := by
  induction ws generalizing lo with
  | nil => simp
  | cons w ws ih =>
    obtain ⟨a, b⟩ := w
    obtain ⟨rfl, h1, h2, h3, h4⟩ := h
    intro w hw
    rcases List.mem_cons.1 hw with rfl | hw
    · simp only; omega
    · exact ih h4 w hw

/-- **C35** The view is exact: after any run of the loop without filters (any heads, any failures) the keyper knows exactly
the eons started up to its height; asking for the messages of an eon since any height gives all of them, each once and in
order, and nothing else; the same for signatures, batch configs and check-ins. -/
theorem C35_view_exact {xs : List LoopStep} {s : Shutter} (hr : runLoop cx chain newShutter xs = some s)
    (nofilter : filtersOf xs = []) (h0 : Int) : Sees (seenEvents cx chain s) (fun _ => h0) 0 s := by
  apply Inv.sees
  refine runLoop_inv (by simp [newShutter]) (inv_start _ _) hr (filtersAt_of_mem ?_)
  rw [nofilter]
  simp

/-- **C35** The loop never stops with an internal error as long as the node's head never goes back. -/
theorem C35_no_panic (xs : List LoopStep) (s : Shutter)
    (mono : (s.currentBlock :: xs.filterMap (fun x => match x with
      | .sync h _ _ => some h
      | _ => none)).Pairwise (· ≤ ·)) : ∃ s', runLoop cx chain s xs = some s' := by
  induction xs generalizing s with
  | nil => exact ⟨s, rfl⟩
  | cons x xs ih =>
    cases x with
    | filter f =>
      simp only [runLoop, loopStep, Option.bind_some]
      exact ih _ (by rw [applyFilter_currentBlock]; exact mono)
    | syncFailed =>
      simp only [runLoop, loopStep, Option.bind_some]
      exact ih _ mono
    | sync h c u =>
      simp only [List.filterMap_cons] at mono
      have hle : s.currentBlock ≤ h := (List.pairwise_cons.1 mono).1 h (by simp)
      have : ∃ s1, loopStep cx chain s (.sync h c u) = some s1 ∧ s1.currentBlock = h := by
        simp only [loopStep, syncToHead]
        split
        · rename_i he
          exact ⟨s, rfl, he.symm⟩
        · obtain ⟨qs, hq, _⟩ := fetch_spec cx chain s hle
          simp only [syncToHeight, hq, Option.map_some]
          exact ⟨_, rfl, rfl⟩
      obtain ⟨s1, h1, h2⟩ := this
      simp only [runLoop, h1, Option.bind_some]
      apply ih
      rw [h2]
      exact (List.pairwise_cons.1 mono).2

/-- The finding behind the hypothesis: if the node reports an older head (say, after a reconnect), the keyper panics. -/
theorem C35_head_back_panics (s : Shutter) (h c : Int) (u : Bool) (hlt : h < s.currentBlock) : loopStep cx chain s (.sync h c u) = none := by
  simp only [loopStep, syncToHead]
  rw [if_neg (by omega)]
  simp only [syncToHeight, fetchAndApplyEvents, if_pos hlt, Option.map_none]

theorem applyEvent_meta (s : Shutter) (c l : Int) (n : Option Bool) (x : Stamped) :
    applyEvent { s with currentBlock := c, lastCommittedHeight := l, nodeStatus := n } x =
      { applyEvent s x with currentBlock := c, lastCommittedHeight := l, nodeStatus := n } := by
  have hu : ∀ e f, updateEon { s with currentBlock := c, lastCommittedHeight := l, nodeStatus := n } e f =
      { updateEon s e f with currentBlock := c, lastCommittedHeight := l, nodeStatus := n } := by
    intro e f
    have : findEonIdx { s with currentBlock := c, lastCommittedHeight := l, nodeStatus := n } e = findEonIdx s e := rfl
    unfold updateEon
    rw [this]
    cases findEonIdx s e <;> rfl
  unfold applyEvent
  cases x.ev <;> simp only [hu] <;> try rfl
  rename_i e b
  have : searchEon { s with currentBlock := c, lastCommittedHeight := l, nodeStatus := n } e = searchEon s e := rfl
  rw [this]
  split <;> rfl

theorem applyAll_meta {s t : Shutter} {evs : List Stamped} {c l : Int} {n : Option Bool}
    (h : s = { t with currentBlock := c, lastCommittedHeight := l, nodeStatus := n }) :
    applyAll s evs = { applyAll t evs with currentBlock := c, lastCommittedHeight := l, nodeStatus := n } := by
  unfold applyAll
  induction evs generalizing s t with
  | nil => exact h
  | cons x evs ih =>
    rw [List.foldl_cons, List.foldl_cons]
    apply ih
    rw [h, applyEvent_meta]

theorem run_eq {xs : List LoopStep} {s s' : Shutter} (hlo : -1 ≤ s.currentBlock) (nofilter : filtersOf xs = [])
    (hr : runLoop cx chain s xs = some s') (hb : s = { applyAll newShutter (seenEvents cx chain s) with
      currentBlock := s.currentBlock, lastCommittedHeight := s.lastCommittedHeight, nodeStatus := s.nodeStatus }) :
    s' = { applyAll newShutter (seenEvents cx chain s') with
      currentBlock := s'.currentBlock, lastCommittedHeight := s'.lastCommittedHeight, nodeStatus := s'.nodeStatus } := by
  induction xs generalizing s with
  | nil => cases hr; exact hb
  | cons x xs ih =>
    unfold runLoop at hr
    rw [Option.bind_eq_some_iff] at hr
    obtain ⟨s1, h1, h2⟩ := hr
    cases x with
    | filter f => simp [filtersOf] at nofilter
    | syncFailed =>
      cases h1
      exact ih hlo nofilter h2 hb
    | sync h c u =>
      simp only [loopStep, syncToHead] at h1
      split at h1
      · cases h1
        exact ih hlo nofilter h2 hb
      · unfold syncToHeight at h1
        rw [Option.map_eq_some_iff] at h1
        obtain ⟨r, hr', rfl⟩ := h1
        have hle : s.currentBlock ≤ h := by
          by_contra hlt
          unfold fetchAndApplyEvents at hr'
          rw [if_pos (by omega)] at hr'
          cases hr'
        obtain ⟨qs, hq, _⟩ := fetch_spec cx chain s hle
        rw [hq] at hr'
        cases hr'
        refine ih ?_ nofilter h2 ?_
        · simp only; omega
        · simp only [seenEvents]
          rw [← chainEvents_append cx chain (lo := 0) (m := s.currentBlock) (by omega) hle, applyAll_append]
          rw [applyAll_meta hb]
          rfl

/-- **C35** How the syncs are batched does not matter: two runs that have reached the same height have the same view. -/
theorem C35_schedule_irrelevant {xs ys : List LoopStep} {s t : Shutter} (hs : runLoop cx chain newShutter xs = some s)
    (ht : runLoop cx chain newShutter ys = some t) (fx : filtersOf xs = []) (fy : filtersOf ys = [])
    (height : s.currentBlock = t.currentBlock) :
    s.eons = t.eons ∧ s.batches = t.batches ∧ s.batchConfigs = t.batchConfigs ∧ s.keyperEncryptionKeys = t.keyperEncryptionKeys := by
  have h0 : newShutter = { applyAll newShutter (seenEvents cx chain newShutter) with
      currentBlock := newShutter.currentBlock, lastCommittedHeight := newShutter.lastCommittedHeight, nodeStatus := newShutter.nodeStatus } := by
    have : seenEvents cx chain newShutter = [] := chainEvents_empty _ _ (by simp [newShutter])
    rw [this]
    rfl
  have h1 := run_eq (by simp [newShutter]) fx hs h0
  have h2 := run_eq (by simp [newShutter]) fy ht h0
  have he : seenEvents cx chain s = seenEvents cx chain t := by unfold seenEvents; rw [height]
  rw [he] at h1
  rw [h1, h2]
  exact ⟨rfl, rfl, rfl, rfl⟩

/-! ## C36 -/

/-- **C36** (all but the epoch secret key shares) However syncs, failures and filters are interleaved: queries with a height
not below the filters' sync heights, and for batches not below the filters' batch indexes, give all and only the events of the
chain, in order; eons, configs and check-ins are never affected. Missing: epoch secret key shares, for which this is false
(`C36_shares_lost_counterexample`). -/
theorem C36_filter_loses_nothing_partial {xs : List LoopStep} {s : Shutter} (hr : runLoop cx chain newShutter xs = some s)
    {h0 : Int} {b0 : Nat} (hh : ∀ f ∈ filtersOf xs, f.syncHeight ≤ h0) (hb : ∀ f ∈ filtersOf xs, f.batchIndex ≤ b0) :
    (∀ e b h, (∃ x, findEon s e = some x ∧ x.startBatchIndex = b ∧ x.startHeight = h) ↔ Started (seenEvents cx chain s) e b h) ∧
    (∀ e x, findEon s e = some x → ∀ k, k ≠ .share → ∀ h ≥ h0,
      x.query k h = (messages k e (seenEvents cx chain s)).filter (fun y => decide (y.height ≥ h))) ∧
    (∀ b ≥ b0, getBatchData s b = signaturesFor b (seenEvents cx chain s)) ∧
    s.batchConfigs = configEvents (seenEvents cx chain s) ∧
    ∀ a, s.keyperEncryptionKeys a = lastCheckIn a (seenEvents cx chain s) := by
  -- the shares are only claimed from the height after the last on
  have hbound : ∃ m : Int, FiltersAt cx chain (fun _ c => c + 1 ≤ m) newShutter xs := filtersAt_bound xs newShutter
  obtain ⟨m, hm⟩ := hbound
  have inv := runLoop_inv (thr := fun k => if k = .share then m else h0) (b0 := b0) (by simp [newShutter]) (inv_start _ _) hr
    (filtersAt_imp hm (fun f hf c hc => ⟨hb f hf, fun k => ?_⟩))
  swap
  · have := hh f hf
    cases k <;> simp [raise, hc, this]
  have sees := inv.sees
  refine ⟨sees.eons, ?_, sees.sigs, sees.configs, sees.keys⟩
  intro e x hx k hk h hh'
  exact sees.msgs e x hx k h (by simpa [hk] using hh')

/-- **C36** If the filters only ask to drop what lies behind the view they are applied to (the height to keep is above the
last block seen, as when every view was acted upon), shares are not affected either: the view is exact for all queries from
the filters' heights on. -/
theorem C36_processed_filter_exact {xs : List LoopStep} {s : Shutter} (hr : runLoop cx chain newShutter xs = some s)
    {h0 : Int} {b0 : Nat} (hh : ∀ f ∈ filtersOf xs, f.syncHeight ≤ h0) (hb : ∀ f ∈ filtersOf xs, f.batchIndex ≤ b0)
    (processed : FiltersAt cx chain (fun f c => c < f.syncHeight) newShutter xs) :
    Sees (seenEvents cx chain s) (fun _ => h0) b0 s := by
  apply Inv.sees
  refine runLoop_inv (by simp [newShutter]) (inv_start _ _) hr ?_
  refine filtersAt_imp processed (fun f hf c hc => ⟨hb f hf, fun k => ?_⟩)
  have := hh f hf
  cases k <;> simp only [raise, max_le_iff, le_refl, true_and, this]
  omega

/-! ## The whole way: from the shuttermint app to the keyper -/

theorem flatMap_split {α β : Type} (f : α → List β) : ∀ {l : List α} {a b : List β} {y : β}, l.flatMap f = a ++ y :: b →
    ∃ l1 r l2 c, l = l1 ++ r :: l2 ∧ y ∈ f r ∧ a = l1.flatMap f ++ c := by
  intro l
  induction l with
  | nil => intro a b y h; simp at h
  | cons x l ih =>
    intro a b y h
    rw [List.flatMap_cons, List.append_eq_append_iff] at h
    rcases h with ⟨c, h1, h2⟩ | ⟨c, h1, h2⟩
    · obtain ⟨l1, r, l2, d, rfl, h3, rfl⟩ := ih h2
      exact ⟨x :: l1, r, l2, d, rfl, h3, by simp [h1]⟩
    · cases c with
      | nil =>
        simp only [List.nil_append] at h2
        obtain ⟨l1, r, l2, d, rfl, h3, h4⟩ := ih (a := []) h2.symm
        refine ⟨x :: l1, r, l2, d, rfl, h3, ?_⟩
        rw [List.flatMap_cons, List.append_assoc, ← h4, h1]
        simp
      | cons z c =>
        simp only [List.cons_append, List.cons.injEq] at h2
        obtain ⟨rfl, _⟩ := h2
        exact ⟨[], x, l, a, rfl, by rw [h1]; simp, rfl⟩

theorem messages_published {ps : Parsers} {dev : Bool} {log : List Rec} {st : State} (h : Exec ps dev log st) {evs : List Stamped}
    (pub : evs.map Stamped.ev = allEvents log) {k : Kind} (hk : k ≠ .share) (e : Nat) :
    messages k e evs = evs.filter (fun x => decide (eonMessage x.ev = some (k, e))) := by
  unfold messages sinceStart
  generalize hp : (fun x : Stamped => match x.ev with
    | .eonStarted e' _ => decide (e' ≠ e)
    | _ => true) = p
  conv_rhs => rw [← List.takeWhile_append_dropWhile (p := p) (l := evs)]
  rw [List.filter_append]
  symm
  convert List.nil_append _
  rw [List.filter_eq_nil_iff]
  intro y hy hm
  rw [decide_eq_true_eq] at hm
  obtain ⟨pre, post, hpre⟩ := List.append_of_mem hy
  have hall : allEvents log = pre.map Stamped.ev ++ y.ev :: (post ++ evs.dropWhile p).map Stamped.ev := by
    rw [← pub]
    conv_lhs => rw [← List.takeWhile_append_dropWhile (p := p) (l := evs), hpre]
    simp
  obtain ⟨l1, r, l2, c, hl, hyr, hpre2⟩ := flatMap_split Rec.events hall
  have hparties : ∃ a tos, Shutter.App.Props.dkgParties y.ev = some (e, a, tos) := by
    revert hm
    cases y.ev <;> simp only [eonMessage, Option.some.injEq, Prod.mk.injEq, reduceCtorEq, false_implies]
    all_goals first
      | (rintro ⟨rfl, rfl⟩; exact ⟨_, _, rfl⟩)
      | (rintro ⟨rfl, rfl⟩; exact absurd rfl hk)
  obtain ⟨a, tos, hpt⟩ := hparties
  obtain ⟨r', hr', cfg, ⟨⟨b, hb⟩, _⟩, _⟩ := Shutter.App.Props.C29_parties h hl hyr hpt
  have : Event.eonStarted e b ∈ pre.map Stamped.ev := by
    rw [hpre2]
    exact List.mem_append_left _ (List.mem_flatMap.2 ⟨r', hr', hb⟩)
  obtain ⟨z, hz, hze⟩ := List.mem_map.1 this
  have hzp := List.mem_takeWhile_imp (p := p) (l := evs) (x := z) (by rw [hpre]; exact List.mem_append_left _ hz)
  rw [← hp] at hzp
  simp [hze] at hzp

/-- **C35** From the app to the keyper: if the events of the chain are those published by the shuttermint app in some
execution, a keyper that has synced (any schedule) knows every eon the app started, and for each eon it gets all DKG messages
the app accepted, once and in the order the app published them — the same for every keyper. -/
theorem C35_app_to_keyper {ps : Parsers} {dev : Bool} {log : List Rec} {st : State} (h : Exec ps dev log st)
    {xs : List LoopStep} {s : Shutter} (hr : runLoop cx chain newShutter xs = some s) (nofilter : filtersOf xs = [])
    (pub : (seenEvents cx chain s).map Stamped.ev = allEvents log) :
    (∀ e b, .eonStarted e b ∈ allEvents log → ∃ x, findEon s e = some x ∧ x.startBatchIndex = b) ∧
    ∀ e x, findEon s e = some x → ∀ k, k ≠ .share →
      (x.query k 0).map Stamped.ev = (allEvents log).filter (fun ev => decide (eonMessage ev = some (k, e))) := by
  have sees := C35_view_exact hr nofilter 0
  constructor
  · intro e b he
    rw [← pub] at he
    obtain ⟨y, hy, hye⟩ := List.mem_map.1 he
    obtain ⟨pre, post, hs⟩ := List.append_of_mem hy
    have hinc : (startedEons (allEvents log)).Pairwise (· < ·) := (Shutter.App.Props.C26_eons_increasing h).1
    have hst : Started (seenEvents cx chain s) e b y.height := by
      refine ⟨pre, post, ?_, ?_⟩
      · rw [hs, ← hye]
      · intro z hz e' b' hze
        rw [← pub, hs] at hinc
        unfold startedEons at hinc
        rw [List.map_append, List.filterMap_append, List.pairwise_append] at hinc
        refine hinc.2.2 e' ?_ e ?_
        · exact List.mem_filterMap.2 ⟨_, List.mem_map.2 ⟨z, hz, rfl⟩, by rw [hze]⟩
        · simp [hye]
    obtain ⟨x, hx, hb, _⟩ := (sees.eons e b y.height).2 hst
    exact ⟨x, hx, hb⟩
  · intro e x hx k hk
    rw [sees.msgs e x hx k 0 (le_refl _), messages_published h pub hk]
    have hall : ∀ y ∈ seenEvents cx chain s, 0 ≤ y.height := fun y hy => (chainEvents_heights _ _ hy).1
    rw [List.filter_eq_self.2, ← pub, List.filter_map]
    · rfl
    · intro y hy
      simpa using hall y (List.mem_of_mem_filter hy)

/-! ## A small chain -/

def demoKeyper : Addr := Demo.k 2

/-- Eon 1 starts in block 3; block 4 has a commitment, block 5 an epoch secret key share and a signature for batch 7. -/
def demoChain : Chain := fun h =>
  if h = 3 then [[makeABCIEvent demoCodecs (.eonStarted 1 0)]]
  else if h = 4 then [[makeABCIEvent demoCodecs (.polyCommitment demoKeyper 1 [[1], [2]])]]
  else if h = 5 then [[makeABCIEvent demoCodecs (.epochSecretKeyShare demoKeyper 1 0 [9])],
    [makeABCIEvent demoCodecs (.decryptionSignature 7 demoKeyper [8])]]
  else []

def demoEvents : List Stamped :=
  [⟨3, .eonStarted 1 0⟩, ⟨4, .polyCommitment demoKeyper 1 [[1], [2]]⟩, ⟨5, .epochSecretKeyShare demoKeyper 1 0 [9]⟩,
    ⟨5, .decryptionSignature 7 demoKeyper [8]⟩]

theorem demo_events : chainEvents demoCodecs demoChain 0 600 = demoEvents := by decide +kernel

/-- The view after syncing to block 600. -/
theorem demo_view : ∃ s, runLoop demoCodecs demoChain newShutter [.sync 600 600 false] = some s ∧ s.currentBlock = 600 ∧
    s.filter = ⟨0, 0⟩ ∧ s.eons = [⟨1, 3, 0, [⟨4, .polyCommitment demoKeyper 1 [[1], [2]]⟩], [], [], [],
      [⟨5, .epochSecretKeyShare demoKeyper 1 0 [9]⟩]⟩] := by
  obtain ⟨s, hs⟩ := C35_no_panic (cx := demoCodecs) (chain := demoChain) [.sync 600 600 false] newShutter (by simp [newShutter])
  have h1 := run_eq (by simp [newShutter]) rfl hs (by
    have : seenEvents demoCodecs demoChain newShutter = [] := chainEvents_empty _ _ (by simp [newShutter])
    rw [this]
    rfl)
  have hc : s.currentBlock = 600 := by
    simp only [runLoop, Option.bind_eq_some_iff] at hs
    obtain ⟨s1, h2, h3⟩ := hs
    cases h3
    exact (syncToHead_inv (by simp [newShutter]) (inv_start (fun _ => 0) 0) h2).1
  have he : seenEvents demoCodecs demoChain s = demoEvents := by
    unfold seenEvents
    rw [hc]
    exact demo_events
  rw [he] at h1
  refine ⟨s, hs, hc, ?_, ?_⟩
  · rw [h1]
    simp [applyAll, demoEvents, applyEvent, newShutter, searchEon, goSearch, searchLoop, updateEon, findEonIdx]
  · rw [h1]
    simp [applyAll, demoEvents, applyEvent, newShutter, searchEon, goSearch, searchLoop, updateEon, findEonIdx]

theorem getFrom_nil (h : Int) : getFrom [] h = [] := getFrom_eq_filter List.Pairwise.nil h

theorem getFrom_one (x : Stamped) (h : Int) : getFrom [x] h = [x].filter (fun x => decide (x.height ≥ h)) :=
  getFrom_eq_filter (List.pairwise_singleton _ _) h

/-- **C36 is false for epoch secret key shares**: `Eon.ApplyFilter` does not copy them. Here the keyper has not yet acted on
anything (sync height 0), only the execution of batches has gone on (batch index 1); the share in block 5 is on the chain but a
later query from height 0 on does not return it any more. -/
theorem C36_shares_lost_counterexample : ∃ s x, runLoop demoCodecs demoChain newShutter [.sync 600 600 false, .filter ⟨0, 1⟩] = some s ∧
    findEon s 1 = some x ∧ x.getEpochSecretKeyShares 0 = [] ∧
    messages .share 1 (seenEvents demoCodecs demoChain s) = [⟨5, .epochSecretKeyShare demoKeyper 1 0 [9]⟩] := by
  obtain ⟨s, hs, hc, hf, he⟩ := demo_view
  have hrun : runLoop demoCodecs demoChain newShutter [.sync 600 600 false, .filter ⟨0, 1⟩] = some (applyFilter s ⟨0, 1⟩) := by
    simp only [runLoop, Option.bind_eq_some_iff] at hs ⊢
    obtain ⟨s1, h2, h3⟩ := hs
    cases h3
    exact ⟨s, h2, _, rfl, rfl⟩
  have he' : (applyFilter s ⟨0, 1⟩).eons = [⟨1, 3, 0, [⟨4, .polyCommitment demoKeyper 1 [[1], [2]]⟩], [], [], [], []⟩] := by
    simp [applyFilter, hf, Filter.needsUpdate, filterBatchIndex, filterSyncHeight, he, Eon.applyFilter, Eon.getPolyCommitments,
      Eon.getPolyEvals, Eon.getAccusations, Eon.getApologies, getFrom_nil, getFrom_one]
  refine ⟨_, ⟨1, 3, 0, [⟨4, .polyCommitment demoKeyper 1 [[1], [2]]⟩], [], [], [], []⟩, hrun,
    (findEon_eq_some ?_).2 ⟨?_, rfl⟩, ?_, ?_⟩
  · rw [he']; exact List.pairwise_singleton _ _
  · rw [he']; simp
  · exact getFrom_nil 0
  · unfold seenEvents
    rw [applyFilter_currentBlock, hc, demo_events]
    decide +kernel

/-- A run with a filter meeting the hypotheses of `C36_processed_filter_exact` and `C36_filter_loses_nothing_partial`. -/
example : ∃ xs s, runLoop demoCodecs demoChain newShutter xs = some s ∧ filtersOf xs = [⟨601, 1⟩] ∧
    FiltersAt demoCodecs demoChain (fun f c => c < f.syncHeight) newShutter xs := by
  obtain ⟨s, hs, hc, hf, he⟩ := demo_view
  refine ⟨[.sync 600 600 false, .filter ⟨601, 1⟩], applyFilter s ⟨601, 1⟩, ?_, rfl, ?_⟩
  · simp only [runLoop, Option.bind_eq_some_iff] at hs ⊢
    obtain ⟨s1, h2, h3⟩ := hs
    cases h3
    exact ⟨s, h2, _, rfl, rfl⟩
  · refine ⟨by simp, fun s1 h1 => ⟨?_, fun _ _ => trivial⟩⟩
    rintro f hf
    cases hf
    simp only [runLoop, Option.bind_eq_some_iff] at hs
    obtain ⟨s2, h2, h3⟩ := hs
    cases h3
    rw [h1] at h2
    cases h2
    rw [hc]
    simp

/-- The demo execution of the app, one call per block. -/
def appChain : Chain := fun h =>
  match (Demo.logOf false Demo.ops)[h.toNat]? with
  | some r => [r.events.map (makeABCIEvent demoCodecs)]
  | none => []

/-- The demo execution of the app (12 events, a DKG message of each kind) meets the hypotheses of `C35_app_to_keyper`. -/
example : ∃ xs s, runLoop demoCodecs appChain newShutter xs = some s ∧ filtersOf xs = [] ∧
    (seenEvents demoCodecs appChain s).map Stamped.ev = allEvents (Demo.logOf false Demo.ops) := by
  obtain ⟨s, hs⟩ := C35_no_panic (cx := demoCodecs) (chain := appChain) [.sync 40 40 false] newShutter (by simp [newShutter])
  have hc : s.currentBlock = 40 := by
    simp only [runLoop, Option.bind_eq_some_iff] at hs
    obtain ⟨s1, h2, h3⟩ := hs
    cases h3
    exact (syncToHead_inv (by simp [newShutter]) (inv_start (fun _ => 0) 0) h2).1
  refine ⟨_, s, hs, rfl, ?_⟩
  unfold seenEvents
  rw [hc]
  decide +kernel

/-- The view after any run of the loop, with any filters. -/
theorem runLoop_inv_some {xs : List LoopStep} {s : Shutter} (h : runLoop cx chain newShutter xs = some s) :
    ∃ thr b0, Inv (seenEvents cx chain s) thr b0 s := by
  obtain ⟨m, hm⟩ : ∃ m : Int, FiltersAt cx chain (fun _ c => c + 1 ≤ m) newShutter xs := filtersAt_bound xs newShutter
  obtain ⟨h0, hh⟩ : ∃ h0 : Int, ∀ f ∈ filtersOf xs, f.syncHeight ≤ h0 := by
    generalize filtersOf xs = l
    induction l with
    | nil => exact ⟨0, by simp⟩
    | cons a l ih =>
      obtain ⟨h0, hh⟩ := ih
      refine ⟨max h0 a.syncHeight, ?_⟩
      intro f hf
      rcases List.mem_cons.1 hf with rfl | hf
      · exact le_max_right _ _
      · exact le_trans (hh f hf) (le_max_left _ _)
  obtain ⟨b0, hb⟩ : ∃ b0 : Nat, ∀ f ∈ filtersOf xs, f.batchIndex ≤ b0 := by
    generalize filtersOf xs = l
    induction l with
    | nil => exact ⟨0, by simp⟩
    | cons a l ih =>
      obtain ⟨h0, hh⟩ := ih
      refine ⟨max h0 a.batchIndex, ?_⟩
      intro f hf
      rcases List.mem_cons.1 hf with rfl | hf
      · exact le_max_right _ _
      · exact le_trans (hh f hf) (le_max_left _ _)
  have inv := runLoop_inv (thr := fun k => if k = .share then m else h0) (b0 := b0) (by simp [newShutter]) (inv_start _ _) h
    (filtersAt_imp hm (fun f hf c hc => ⟨hb f hf, fun k => by
      have := hh f hf
      cases k <;> simp only [raise] <;> simp <;> omega⟩))
  exact ⟨_, _, inv⟩

/-- **C35** The keyper takes an address for a keyper exactly if some batch config announced up to its height lists it. -/
theorem C35_is_keyper {xs : List LoopStep} {s : Shutter} (hr : runLoop cx chain newShutter xs = some s) (a : Addr) :
    isKeyper s a = true ↔ ∃ x ∈ seenEvents cx chain s, ∃ b t ks i, x.ev = .batchConfig b t ks i ∧ a ∈ ks := by
  obtain ⟨_, _, inv⟩ := runLoop_inv_some hr
  have hc := inv.configs
  unfold isKeyper configs
  rw [hc]
  simp only [configEvents, List.any_eq_true, List.mem_filterMap, List.mem_filter, beq_iff_eq]
  constructor
  · rintro ⟨c, ⟨x, ⟨hx, _⟩, hxc⟩, k, hk, rfl⟩
    refine ⟨x, hx, ?_⟩
    unfold Stamped.config at hxc
    split at hxc
    · next b t ks i he => cases hxc; exact ⟨b, t, ks, i, he, hk⟩
    · cases hxc
  · rintro ⟨x, hx, b, t, ks, i, he, hk⟩
    exact ⟨_, ⟨x, ⟨hx, by rw [he]⟩, by unfold Stamped.config; rw [he]⟩, a, hk, rfl⟩

/-- **C35** The eon the keyper takes for a batch is the newest of the announced eons that start at this batch or before. -/
theorem C35_eon_for_batch {xs : List LoopStep} {s : Shutter} (hr : runLoop cx chain newShutter xs = some s) (batch : Nat) :
    (∀ x, findEonByBatchIndex s batch = some x → x.startBatchIndex ≤ batch ∧
      Started (seenEvents cx chain s) x.eon x.startBatchIndex x.startHeight ∧
      ∀ e b h, Started (seenEvents cx chain s) e b h → b ≤ batch → e ≤ x.eon) ∧
    (findEonByBatchIndex s batch = none → ∀ e b h, Started (seenEvents cx chain s) e b h → batch < b) := by
  obtain ⟨_, _, inv⟩ := runLoop_inv_some hr
  unfold findEonByBatchIndex
  constructor
  · intro x hx
    rw [List.find?_eq_some_iff_append] at hx
    obtain ⟨h1, as, bs, h2, h3⟩ := hx
    have hs : s.eons = bs.reverse ++ x :: as.reverse := by
      have := congrArg List.reverse h2
      simpa using this
    refine ⟨by simpa using h1, (inv.started _ _ _).1 ⟨x, by simp [hs], rfl, rfl, rfl⟩, ?_⟩
    intro e b h hst hb
    obtain ⟨y, hy, rfl, rfl, rfl⟩ := (inv.started _ _ _).2 hst
    have inc := inv.inc
    rw [hs] at hy inc
    unfold EonsInc at inc
    rw [List.pairwise_append] at inc
    simp only [List.mem_append, List.mem_cons, List.mem_reverse] at hy
    rcases hy with hy | rfl | hy
    · exact (inc.2.2 y (by simpa using hy) x (by simp)).le
    · exact le_refl _
    · have := h3 y hy
      simp at this
      omega
  · intro hn e b h hst
    obtain ⟨y, hy, rfl, rfl, rfl⟩ := (inv.started _ _ _).2 hst
    rw [List.find?_eq_none] at hn
    have := hn y (by simpa using hy)
    simpa using this

end Shutter.Observe.Props
