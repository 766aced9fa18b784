import Verif.Spec.Net
import Verif.Props.Events
import Verif.Proofs.HonestRun

/-! # The chain the application writes, as the keypers read it -/

namespace Shutter.Net
open Shutter.App Shutter.Events Shutter.Observe Shutter.Decide Shutter.Decide.Spec

/-! ## Heights -/

theorem mem_stamp {log : List Rec} : ∀ {h : Nat} {p : Nat × Rec}, p ∈ stamp h log ↔
    ∃ pre post, log = pre ++ p.2 :: post ∧ p.1 = h + pre.countP (fun r => isEndBlock r.op) := by
  induction log with
  | nil => intro h p; simp [stamp]
  | cons r log ih =>
    intro h p
    simp only [stamp, List.mem_cons, ih]
    constructor
    · rintro (rfl | ⟨pre, post, h1, h2⟩)
      · exact ⟨[], log, rfl, by simp⟩
      · refine ⟨r :: pre, post, by rw [h1]; rfl, ?_⟩
        rw [h2, List.countP_cons]
        split <;> omega
    · rintro ⟨pre, post, h1, h2⟩
      cases pre with
      | nil =>
        simp only [List.nil_append, List.cons.injEq] at h1
        left
        rw [Prod.ext_iff]
        exact ⟨by simpa using h2, h1.1.symm⟩
      | cons x pre =>
        simp only [List.cons_append, List.cons.injEq] at h1
        obtain ⟨rfl, h1⟩ := h1
        right
        refine ⟨pre, post, h1, ?_⟩
        rw [h2, List.countP_cons]
        split <;> omega

theorem mem_stamp_one {log : List Rec} {p : Nat × Rec} : p ∈ stamp 1 log ↔
    ∃ pre post, log = pre ++ p.2 :: post ∧ p.1 = heightAfter pre := by
  rw [mem_stamp]
  constructor <;> rintro ⟨pre, post, h1, h2⟩ <;> refine ⟨pre, post, h1, ?_⟩ <;> unfold heightAfter at * <;> omega

theorem stamp_le {log : List Rec} {h : Nat} {p : Nat × Rec} (hp : p ∈ stamp h log) : h ≤ p.1 := by
  obtain ⟨pre, _, _, h1⟩ := mem_stamp.1 hp
  omega

theorem stamp_sorted (log : List Rec) : ∀ h, (stamp h log).Pairwise (fun p q => p.1 ≤ q.1) := by
  induction log with
  | nil => intro h; simp [stamp]
  | cons r log ih =>
    intro h
    simp only [stamp, List.pairwise_cons]
    refine ⟨fun p hp => ?_, ih _⟩
    have := stamp_le hp
    split at this <;> omega

theorem heightAfter_append (pre mid : List Rec) : heightAfter pre ≤ heightAfter (pre ++ mid) := by
  unfold heightAfter
  rw [List.countP_append]
  omega

theorem heightAfter_pos (pre : List Rec) : 1 ≤ heightAfter pre := by unfold heightAfter; omega

/-- Selecting by height, height after height, gives back a sorted list. -/
theorem flatMap_filter_eq {α : Type} (l : List (Nat × α)) (hs : l.Pairwise (fun p q => p.1 ≤ q.1)) : ∀ n : Nat,
    (List.range n).flatMap (fun i => l.filter (fun p => decide (p.1 = i))) = l.filter (fun p => decide (p.1 < n)) := by
  have step : ∀ (n : Nat) (l : List (Nat × α)), l.Pairwise (fun p q => p.1 ≤ q.1) →
      l.filter (fun p => decide (p.1 < n)) ++ l.filter (fun p => decide (p.1 = n)) = l.filter (fun p => decide (p.1 < n + 1)) := by
    intro n l
    induction l with
    | nil => simp
    | cons x l ih =>
      intro hs
      obtain ⟨h1, h2⟩ := List.pairwise_cons.1 hs
      rcases lt_trichotomy x.1 n with h | h | h
      · rw [List.filter_cons_of_pos (by simpa using h), List.filter_cons_of_neg (by simp; omega),
          List.filter_cons_of_pos (by simp; omega), List.cons_append, ih h2]
      · have e : l.filter (fun p => decide (p.1 < n)) = [] := by
          rw [List.filter_eq_nil_iff]
          intro y hy
          have := h1 y hy
          simp; omega
        have := ih h2
        rw [e, List.nil_append] at this
        rw [List.filter_cons_of_neg (by simp; omega), List.filter_cons_of_pos (by simpa using h),
          List.filter_cons_of_pos (by simp; omega), e, List.nil_append, this]
      · have e : ∀ P : Nat × α → Bool, (∀ y, P y = true → y.1 ≤ n) → (x :: l).filter P = [] := by
          intro P hP
          rw [List.filter_eq_nil_iff]
          intro y hy hp
          have := hP y hp
          rcases List.mem_cons.1 hy with rfl | hy
          · omega
          · have := h1 y hy; omega
        rw [e _ (by simp; omega), e _ (by simp), e _ (by simp)]
        rfl
  intro n
  induction n with
  | zero => simp
  | succ n ih => rw [List.range_succ, List.flatMap_append, ih, List.flatMap_singleton, step n l hs]

/-! ## Events -/

/-- What the keypers read of a call. -/
def readable (codecs : Codecs) (p : Nat × Rec) : List Stamped :=
  if isDelivery p.2.op then p.2.events.filterMap (fun ev => (makeEvent codecs (makeABCIEvent codecs ev)).map (fun e => ⟨(p.1 : Int), e⟩)) else []

theorem chain_events (codecs : Codecs) (log : List Rec) (hi : Int) (h0 : 0 ≤ hi) :
    chainEvents codecs (appChain codecs log) 0 hi =
      ((stamp 1 log).filter (fun p => decide (p.1 < hi.toNat + 1))).flatMap (readable codecs) := by
  unfold chainEvents
  rw [show (hi + 1 - 0).toNat = hi.toNat + 1 by omega, ← flatMap_filter_eq _ (stamp_sorted log 1), List.flatMap_assoc]
  congr 1
  funext i
  unfold appChain
  rw [show (fun p : Nat × Rec => isDelivery p.2.op && decide ((p.1 : Int) = 0 + (i : Int))) =
    (fun p => isDelivery p.2.op && decide (p.1 = i)) by funext p; congr 1; simp]
  generalize stamp 1 log = l
  induction l with
  | nil => rfl
  | cons p l ih =>
    by_cases h1 : p.1 = i
    · by_cases h2 : isDelivery p.2.op = true
      · rw [List.filter_cons_of_pos (by simp [h1, h2]), List.filter_cons_of_pos (by simp [h1]), List.map_cons, List.flatten_cons,
          List.filterMap_append, List.flatMap_cons, ih]
        congr 1
        unfold readable
        rw [if_pos h2, List.filterMap_map]
        subst h1
        simp only [zero_add]
        rfl
      · rw [List.filter_cons_of_neg (by simp [h2]), List.filter_cons_of_pos (by simp [h1]), List.flatMap_cons, ih]
        unfold readable
        rw [if_neg h2]
        rfl
    · rw [List.filter_cons_of_neg (by simp [h1]), List.filter_cons_of_neg (by simp [h1]), ih]

variable {ps : Parsers} {dev : Bool} {log : List Rec} {s : State} {codecs : Codecs}

theorem counter_le (h : Exec ps dev log s) {pre r post} (hl : log = pre ++ r :: post) : r.before.eonCounter ≤ s.eonCounter := by
  have h1 := (h.at hl).1.eons.1
  have h2 := h.eons.1
  have e : eonsOf (allEvents log) = eonsOf (allEvents pre) ++ eonsOf (allEvents (r :: post)) := by
    rw [hl, allEvents, List.flatMap_append]
    exact eonsOf_append _ _
  rw [h1, h2] at e
  have := congrArg List.length e
  simp only [List.length_range', List.length_append] at this
  omega

/-- The one kind of event that no keyper can read. -/
def hidden : Event → Bool
  | .polyCommitment _ _ [] => true
  | _ => false

theorem events_delivery (h : Exec ps dev log s) {r : Rec} (hr : r ∈ log) {ev : Event} (hev : ev ∈ r.events) :
    ∃ a m, r.Accepts a m.msg ∧ r.Delivers a m := by
  obtain ⟨pre, post, hl⟩ := List.append_of_mem hr
  obtain ⟨a, msg, acc⟩ := h.accepted_of_event hl (List.ne_nil_of_mem hev)
  obtain ⟨m, hm, hop, hok⟩ := acc
  exact ⟨a, m, ⟨m, rfl, hop, hok⟩, hop⟩

theorem decode (h : Exec ps dev log s) (fit : Codecs.Fit ps codecs) (sane : Sane log) (few : s.eonCounter + 1 < 2 ^ 64) {r : Rec}
    (hr : r ∈ log) {ev : Event} (hev : ev ∈ r.events) :
    makeEvent codecs (makeABCIEvent codecs ev) = if hidden ev then none else some ev := by
  obtain ⟨pre, post, hl⟩ := List.append_of_mem hr
  obtain ⟨a, m, acc, del⟩ := events_delivery h hr hev
  obtain ⟨h1, h2⟩ := sane r hr a m del
  have few' : r.before.eonCounter + 1 < 2 ^ 64 := by have := counter_le h hl; omega
  by_cases hw : WireOk m.msg
  · have := Events.Props.C33_published_decode_partial h codecs fit.lawful fit.agree hr del h1 hw few' hev
    rw [this, if_neg]
    intro hh
    unfold hidden at hh
    split at hh
    · next a' e' =>
      rw [Events.Props.C33_empty_gammas_counterexample codecs fit.empty] at this
      cases this
    · cases hh
  · obtain ⟨mm, e1, e2⟩ : ∃ e, m.msg = .polyCommitment e [] ∧ True := by
      cases hm : m.msg with
      | polyCommitment e gs =>
        rw [hm] at h2 hw
        cases gs with
        | nil => exact ⟨e, rfl, trivial⟩
        | cons g gs => exact absurd ⟨h2, by simp⟩ hw
      | _ => rw [hm] at h2 hw; exact absurd h2 hw
    obtain ⟨ev', q1, q2⟩ := (App.Props.C29_published_exactly h hr).1 a m.msg acc (by rw [e1]; rfl)
    rw [e1] at q1
    simp [App.Props.dkgEvent] at q1
    rw [q2, List.mem_singleton, ← q1] at hev
    subst hev
    rw [Events.Props.C33_empty_gammas_counterexample codecs fit.empty]
    rfl

/-- What the keypers read of a call: everything but empty commitments. -/
def seenOf (p : Nat × Rec) : List Stamped := (p.2.events.filter (fun ev => !hidden ev)).map (fun ev => ⟨(p.1 : Int), ev⟩)

theorem readable_eq (h : Exec ps dev log s) (fit : Codecs.Fit ps codecs) (sane : Sane log) (few : s.eonCounter + 1 < 2 ^ 64) {p : Nat × Rec}
    (hr : p.2 ∈ log) : readable codecs p = seenOf p := by
  unfold readable seenOf
  split
  · have : ∀ l : List Event, (∀ ev ∈ l, ev ∈ p.2.events) →
        l.filterMap (fun ev => (makeEvent codecs (makeABCIEvent codecs ev)).map (fun e => (⟨(p.1 : Int), e⟩ : Stamped))) =
          (l.filter (fun ev => !hidden ev)).map (fun ev => ⟨(p.1 : Int), ev⟩) := by
      intro l
      induction l with
      | nil => intro _; rfl
      | cons ev l ih =>
        intro hin
        have h1 := decode h fit sane few hr (hin ev (by simp))
        have h2 := ih (fun x hx => hin x (by simp [hx]))
        by_cases hh : hidden ev = true
        · rw [if_pos hh] at h1
          rw [List.filterMap_cons, h1, List.filter_cons_of_neg (by simp [hh])]
          exact h2
        · rw [if_neg hh] at h1
          rw [List.filterMap_cons, h1, List.filter_cons_of_pos (by simp [hh]), List.map_cons, ← h2]
          rfl
    exact this _ (fun _ h => h)
  · next hd =>
    have : p.2.events = [] := by
      rcases hh : p.2.events with _ | ⟨ev, l⟩
      · rfl
      · obtain ⟨a, m, _, del⟩ := events_delivery h hr (ev := ev) (by rw [hh]; simp)
        rw [show p.2.op = .deliverTx (some (a, m)) from del] at hd
        exact absurd rfl hd
    rw [this]
    rfl

theorem chain_seen (h : Exec ps dev log s) (fit : Codecs.Fit ps codecs) (sane : Sane log) (few : s.eonCounter + 1 < 2 ^ 64) (hi : Int)
    (h0 : 0 ≤ hi) : chainEvents codecs (appChain codecs log) 0 hi =
      ((stamp 1 log).filter (fun p => decide (p.1 < hi.toNat + 1))).flatMap seenOf := by
  rw [chain_events codecs log hi h0]
  refine List.flatMap_congr fun p hp => readable_eq h fit sane few ?_
  obtain ⟨pre, post, hl, _⟩ := mem_stamp_one.1 (List.mem_filter.1 hp).1
  rw [hl]
  simp

/-- An event is in a block exactly if a call of that block has published it (and it can be read). -/
theorem published_app (h : Exec ps dev log s) (fit : Codecs.Fit ps codecs) (sane : Sane log) (few : s.eonCounter + 1 < 2 ^ 64) (ht : Int)
    (ev : Event) : Published codecs (appChain codecs log) ht ev ↔
      hidden ev = false ∧ ∃ pre r post, log = pre ++ r :: post ∧ ev ∈ r.events ∧ ht = (heightAfter pre : Int) := by
  constructor
  · intro hp
    have h0 : 0 ≤ ht := hp.1
    have := published_iff (n := ht) (x := ⟨ht, ev⟩) |>.2 ⟨le_refl _, hp⟩
    rw [chain_seen h fit sane few ht h0, List.mem_flatMap] at this
    obtain ⟨p, hp, hm⟩ := this
    obtain ⟨pre, post, hl, hh⟩ := mem_stamp_one.1 (List.mem_filter.1 hp).1
    unfold seenOf at hm
    simp only [List.mem_map, List.mem_filter, Stamped.mk.injEq, Bool.not_eq_true'] at hm
    obtain ⟨ev', ⟨h1, h2⟩, h3, rfl⟩ := hm
    exact ⟨h2, pre, p.2, post, hl, h1, by rw [← h3, hh]⟩
  · rintro ⟨h1, pre, r, post, hl, h2, rfl⟩
    have : (⟨(heightAfter pre : Int), ev⟩ : Stamped) ∈ chainEvents codecs (appChain codecs log) 0 (heightAfter pre : Int) := by
      rw [chain_seen h fit sane few _ (by omega), List.mem_flatMap]
      refine ⟨(heightAfter pre, r), List.mem_filter.2 ⟨mem_stamp_one.2 ⟨pre, post, hl, rfl⟩, by simp⟩, ?_⟩
      unfold seenOf
      simp only [List.mem_map, List.mem_filter, Stamped.mk.injEq, Bool.not_eq_true']
      exact ⟨ev, ⟨h2, h1⟩, by simp⟩
    exact (published_iff.1 this).2

end Shutter.Net
