import Verif.Proofs.Bootstrap
import Verif.Proofs.DemoNet
import Verif.Props.Validators

/-! # A chain that is bootstrapped -/

namespace Shutter.Bootstrap.Demo
open Shutter.App Shutter.Bootstrap
open Shutter.App.Demo (ps tx k pk logOf stateOf chain)
open Shutter.Net.Demo (splits mem_splits)

def first : Sol.BatchConfig := { Sol.zeroConfig with startBatchIndex := 10, startBlockNumber := 200, keypers := [5, 6, 7], threshold := 2, batchSpan := 10 }
def contractState : Sol.Config := ⟨[Sol.zeroConfig, first], Sol.zeroConfig, 10, 1⟩

def bootReq : InitRequest := genesisRequest [k 9] (pk 9) chain
def m1 : BatchConfigMsg := ⟨10, [k 5, k 6, k 7], 2, k 99, 1, false, false⟩
def m2 : BatchConfigMsg := ⟨20, [k 6, k 8], 1, k 99, 2, false, false⟩

/-- The chain has one genesis keyper, 9, who bootstraps it with config number 1; two of its keypers check in. Then config number 2, with the
keyper 8, is accepted, who checks in. -/
def bootOps : List Op :=
  [ .initChain bootReq, .endBlock 1, .commit, tx (k 9) 1 (.batchConfig m1), .endBlock 2, .commit,
    tx (k 9) 2 (.batchConfigStarted 1), tx (k 5) 1 (.checkIn (pk 5) [5]), tx (k 6) 1 (.checkIn (pk 6) [6]), .endBlock 3, .commit,
    tx (k 5) 2 (.batchConfig m2), tx (k 6) 2 (.batchConfig m2), tx (k 8) 1 (.checkIn (pk 8) [8]), .endBlock 4, .commit ]

/-- The same, but config number 2 is accepted before enough keypers of config number 1 have checked in. -/
def opsEarly : List Op :=
  [ .initChain bootReq, .endBlock 1, .commit, tx (k 9) 1 (.batchConfig m1), .endBlock 2, .commit,
    tx (k 9) 2 (.batchConfigStarted 1), tx (k 5) 1 (.checkIn (pk 5) [5]), .endBlock 3, .commit,
    tx (k 5) 2 (.batchConfig m2), tx (k 6) 2 (.batchConfig m2), tx (k 6) 1 (.checkIn (pk 6) [6]), tx (k 8) 1 (.checkIn (pk 8) [8]), .endBlock 4,
    .commit ]

def log : List Rec := logOf false bootOps
def logEarly : List Rec := logOf false opsEarly

def isReport (r : Rec) : Bool :=
  match r.op with
  | .deliverTx (some (_, m)) => (match m.msg with | .batchConfigStarted _ => true | _ => false)
  | _ => false

def starts (r : Rec) : Bool :=
  match r.op with
  | .endBlock _ => decide ((r.before.configs.getLast?.map (·.started)) = some false) && decide ((r.after.configs.getLast?.map (·.started)) = some true)
  | _ => false

theorem starts_of {r : Rec} (h : starts r = true) : r.Starts := by
  unfold starts at h
  split at h
  · next ht hop =>
    simp only [Bool.and_eq_true, decide_eq_true_eq, Option.map_eq_some_iff] at h
    obtain ⟨⟨c, h1, h2⟩, c', h3, h4⟩ := h
    exact ⟨⟨ht, hop⟩, c, c', h1, h3, h2, h4⟩
  · cases h

theorem quiet_of {log : List Rec} (h : (splits log).all (fun p => !isReport p.2.1 || p.2.2.any starts) = true) : NoReportPending log := by
  intro pre r post a ci hl hr
  have h1 := List.all_eq_true.1 h _ (mem_splits.2 hl)
  obtain ⟨mw, hm, hop, _⟩ := hr
  have h2 : isReport r = true := by simp [isReport, hop, hm]
  simp only [h2, Bool.not_true, Bool.false_or, List.any_eq_true] at h1
  obtain ⟨x, hx, hs⟩ := h1
  exact ⟨x, hx, starts_of hs⟩

def program (r : Rec) : Bool :=
  match r.op with
  | .deliverTx (some (_, m)) =>
    (match m.msg with
      | .checkIn _ _ => true
      | .batchConfig x => !x.started && !x.validatorsUpdated
      | _ => false)
  | _ => true

theorem programs_of {log : List Rec} (h : log.all program = true) : OnlyPrograms log := by
  intro r hr a m hd
  have h1 := List.all_eq_true.1 h r hr
  unfold program at h1
  rw [show r.op = .deliverTx (some (a, m)) from hd] at h1
  simp only at h1
  split at h1
  · next vk ek hm => exact ⟨Unit, Unit, ⟨fun _ => [], fun _ => [], vk, ek, []⟩, .checkIn, by rw [hm]; rfl⟩
  · next x hm =>
    simp only [Bool.and_eq_true, Bool.not_eq_true'] at h1
    refine ⟨Unit, Unit, ⟨fun _ => [], fun _ => [], [], [], x.configContractAddress⟩, .batchConfig x.startBatchIndex x.keypers x.threshold x.configIndex, ?_⟩
    rw [hm]
    obtain ⟨a1, a2, a3, a4, a5, a6, a7⟩ := x
    simp only at h1
    obtain ⟨rfl, rfl⟩ := h1
    rfl
  · cases h1

/-- The chain has three genesis keypers, 1, 2 and 3. The report of keyper 1 is refused as long as it is alone; after keyper 2 has run the
command, keyper 1 runs it again. Two keypers of the config check in. -/
def opsSeveral : List Op :=
  [ .initChain (genesisRequest [k 1, k 2, k 3] (pk 9) chain), .endBlock 1, .commit, tx (k 1) 1 (.batchConfig m1), tx (k 1) 2 (.batchConfigStarted 1),
    tx (k 2) 1 (.batchConfig m1), tx (k 2) 2 (.batchConfigStarted 1), tx (k 1) 3 (.batchConfig m1), tx (k 1) 4 (.batchConfigStarted 1),
    tx (k 5) 1 (.checkIn (pk 5) [5]), tx (k 6) 1 (.checkIn (pk 6) [6]), .endBlock 2, .commit ]

def logSeveral : List Rec := logOf false opsSeveral

/-- The call delivered this message, and it succeeded. -/
def accepts (a : Addr) (m : Msg) (r : Rec) : Bool :=
  match r.op, r.resp with
  | .deliverTx (some (b, mw)), .deliverTx d => decide (b = a) && decide (mw.msg = m) && d.ok
  | _, _ => false

theorem accepts_iff {a : Addr} {m : Msg} {r : Rec} : accepts a m r = true ↔ r.Accepts a m := by
  unfold accepts Rec.Accepts
  split
  · next b mw d h1 h2 =>
    simp only [Bool.and_eq_true, decide_eq_true_eq, h1, h2, Op.deliverTx.injEq, Option.some.injEq, Prod.mk.injEq, Resp.deliverTx.injEq]
    constructor
    · rintro ⟨⟨rfl, rfl⟩, h3⟩
      obtain ⟨ok, evs⟩ := d
      simp only at h3
      exact ⟨mw, rfl, ⟨rfl, rfl⟩, evs, by rw [h3]⟩
    · rintro ⟨mw', rfl, ⟨rfl, rfl⟩, evs, rfl⟩
      simp
  · next h =>
    refine iff_of_false (by simp) ?_
    rintro ⟨mw, _, h1, evs, h2⟩
    exact h _ _ _ h1 h2

theorem agreed_of {log : List Rec} {m : BatchConfigMsg} {index : Nat} (h : log.all (fun r => match r.op with
    | .deliverTx (some (_, mw)) => (match mw.msg with | .batchConfig m' => decide (m'.configIndex = index → m' = m) | _ => true)
    | _ => true) = true) : ∀ r ∈ log, ∀ a m', r.Accepts a (.batchConfig m') → m'.configIndex = index → m' = m := by
  intro r hr a m' ⟨mw, h1, h2, _⟩
  have := List.all_eq_true.1 h r hr
  rw [h2] at this
  simp only [h1, decide_eq_true_eq] at this
  exact this

end Shutter.Bootstrap.Demo
