import Verif.Proofs.SentHandle
import Verif.Proofs.DriverAgree

/-! The messages of a keyper over its life. -/

namespace Shutter.Decide
open Shutter.Crypto Shutter.Crypto.Spec Shutter.Dkg Shutter.Observe Shutter.Decide.Spec
open Shutter.Observe.Props
open Shutter.App (Addr findAddressIndex)
open Shutter.Events (Codecs)

variable {G1 G2 GT R : Type}

/-! ## Reading the messages -/

theorem said_append {α : Type} (f : Action G1 G2 → List α) (rs : List (Round G1 G2)) (r : Round G1 G2) :
    said f (rs ++ [r]) = said f rs ++ (r.sent.flatMap f).map (fun x => (r.next, x)) := by
  simp [said]

/-- The eon a message is about. -/
def aboutEon : Action G1 G2 → Option Nat
  | .polyCommitment e _ => some e
  | .polyEval e _ _ => some e
  | .accusation e _ => some e
  | .apology e _ _ => some e
  | _ => none

/-- Selects messages about the eon `e`. -/
def About {α : Type} (e : Nat) (f : Action G1 G2 → List α) : Prop := ∀ a, aboutEon a ≠ some e → f a = []

theorem about_commitmentsFor (e : Nat) : About e (commitmentsFor (G1 := G1) (G2 := G2) e) := by
  intro a h
  cases a <;> simp_all [commitmentsFor, aboutEon]
theorem about_evaluationsFor (e : Nat) : About e (evaluationsFor (G1 := G1) (G2 := G2) e) := by
  intro a h
  cases a <;> simp_all [evaluationsFor, aboutEon]
theorem about_evaluationsTo (e : Nat) (x : Addr) : About e (evaluationsTo (G1 := G1) (G2 := G2) e x) := by
  intro a h
  cases a <;> simp_all [evaluationsTo, aboutEon]
theorem about_accusationsFor (e : Nat) : About e (accusationsFor (G1 := G1) (G2 := G2) e) := by
  intro a h
  cases a <;> simp_all [accusationsFor, aboutEon]
theorem about_apologiesFor (e : Nat) : About e (apologiesFor (G1 := G1) (G2 := G2) e) := by
  intro a h
  cases a <;> simp_all [apologiesFor, aboutEon]

theorem About.keygen {α : Type} {e : Nat} {f : Action G1 G2 → List α} (h : About e f) (a : Action G1 G2) (hk : a.kind ≠ .keygen) : f a = [] := by
  apply h
  cases a <;> simp_all [aboutEon, Action.kind]

theorem verdicts_keygen (a : Action G1 G2) (hk : a.kind ≠ .keygen) : verdicts a = [] := by
  cases a <;> simp_all [verdicts, Action.kind]

theorem flatMap_ite {α β : Type} (c : Prop) [Decidable c] (x : α) (f : α → List β) :
    (if c then [x] else []).flatMap f = if c then f x else [] := by
  split <;> simp

section
variable [AddCommGroup G2] [DecidableEq G2]

theorem sel_verdict {α : Type} {e : Nat} {f : Action G1 G2 → List α} (h : About e f) (env : Env G1 G2 GT) (b : DKG G2) :
    f (verdict env b) = [] := by
  apply h
  unfold verdict
  split <;> simp [aboutEon]

theorem evalMsg_flatMap {α : Type} (f : Action G1 G2 → List α) (e : Nat) (l : List (Addr × Bytes)) :
    (evalMsg e l).flatMap f = if l = [] then [] else f (.polyEval e (l.map (·.1)) (l.map (·.2))) := by
  unfold evalMsg
  split <;> simp

variable (cx : Cfg G1 G2 GT R) (keys : Addr → Option Bytes) (p0 : Nat) (a b : DKG G2) (P : List Nat) (out : List PolyEvalMsg)

theorem sel_other {α : Type} {e : Nat} {f : Action G1 G2 → List α} (h : About e f) (he : a.eon ≠ e) :
    (roundActs cx keys p0 a b P out).flatMap f = [] := by
  unfold roundActs
  simp only [List.flatMap_append, flatMap_ite, sel_verdict h]
  have : ∀ x : Action G1 G2, aboutEon x = some a.eon → f x = [] := by
    intro x hx
    apply h
    rw [hx]
    simpa using he
  have hm : (if b.pure.state.phase = dealing then evalMsg a.eon (sendable cx keys a.keypers out) else []).flatMap f = [] := by
    split
    · rw [evalMsg_flatMap, this _ rfl]; simp
    · simp
  rw [this _ rfl, this _ rfl, this _ rfl, hm]
  simp

theorem sel_commitment : (roundActs cx keys p0 a b P out).flatMap (commitmentsFor a.eon) =
    if p0 = off ∧ b.pure.state.phase = dealing then [P.map (fun c => c • cx.crypto.g2)] else [] := by
  unfold roundActs
  simp only [List.flatMap_append, flatMap_ite, sel_verdict (about_commitmentsFor a.eon)]
  split_ifs <;> simp [commitmentsFor, evalMsg_flatMap]

theorem sel_accusation : (roundActs cx keys p0 a b P out).flatMap (accusationsFor a.eon) =
    if p0 ≤ dealing ∧ b.pure.state.phase = accusing ∧ toBlame cx.crypto.g2 b.pure.state ≠ [] then
      [pick a.keypers (toBlame cx.crypto.g2 b.pure.state)] else [] := by
  unfold roundActs
  simp only [List.flatMap_append, flatMap_ite, sel_verdict (about_accusationsFor a.eon)]
  have : (if b.pure.state.phase = dealing then evalMsg a.eon (sendable cx keys a.keypers out) else []).flatMap
      (accusationsFor (G1 := G1) (G2 := G2) a.eon) = [] := by
    split
    · simp [evalMsg_flatMap, accusationsFor]
    · simp
  rw [this]
  simp [accusationsFor]

theorem sel_apology : (roundActs cx keys p0 a b P out).flatMap (apologiesFor a.eon) =
    if p0 ≤ accusing ∧ b.pure.state.phase = apologizing ∧ accusers b.pure.state ≠ [] then
      [(pick a.keypers (accusers b.pure.state), (accusers b.pure.state).map (fun j => ((evaluation P j : Nat) : Int)))] else [] := by
  unfold roundActs
  simp only [List.flatMap_append, flatMap_ite, sel_verdict (about_apologiesFor a.eon)]
  have : (if b.pure.state.phase = dealing then evalMsg a.eon (sendable cx keys a.keypers out) else []).flatMap
      (apologiesFor (G1 := G1) (G2 := G2) a.eon) = [] := by
    split
    · simp [evalMsg_flatMap, apologiesFor]
    · simp
  rw [this]
  simp [apologiesFor]

theorem sel_to (x : Addr) : (roundActs cx keys p0 a b P out).flatMap (evaluationsTo a.eon x) =
    if b.pure.state.phase = dealing then ((sendable cx keys a.keypers out).filter (fun r => decide (r.1 = x))).map (·.2) else [] := by
  unfold roundActs
  simp only [List.flatMap_append, flatMap_ite, sel_verdict (about_evaluationsTo a.eon x)]
  simp only [evaluationsTo, ite_self, List.nil_append, List.append_nil]
  split
  · rw [evalMsg_flatMap]
    split
    · next h => simp [h]
    · simp [evaluationsTo, List.zip_eq_zipWith]
  · simp

theorem sel_eval : (roundActs cx keys p0 a b P out).flatMap (evaluationsFor a.eon) =
    if b.pure.state.phase = dealing ∧ sendable cx keys a.keypers out ≠ [] then
      [((sendable cx keys a.keypers out).map (·.1), (sendable cx keys a.keypers out).map (·.2))] else [] := by
  unfold roundActs
  simp only [List.flatMap_append, flatMap_ite, sel_verdict (about_evaluationsFor a.eon)]
  simp only [evaluationsFor, ite_self, List.nil_append, List.append_nil]
  by_cases h : b.pure.state.phase = dealing
  · rw [if_pos h, evalMsg_flatMap]
    by_cases h' : sendable cx keys a.keypers out = []
    · rw [if_pos h', if_neg (fun hh => hh.2 h')]
    · rw [if_neg h', if_pos ⟨h, h'⟩]
      simp [evaluationsFor]
  · rw [if_neg h, if_neg (fun hh => h hh.1)]
    simp

theorem sel_verdicts : (roundActs cx keys p0 a b P out).flatMap verdicts =
    if p0 ≤ apologizing ∧ b.pure.state.phase = finalized then [verdict cx.crypto b] else [] := by
  unfold roundActs
  simp only [List.flatMap_append, flatMap_ite]
  have : (if b.pure.state.phase = dealing then evalMsg a.eon (sendable cx keys a.keypers out) else []).flatMap
      (verdicts (G1 := G1) (G2 := G2)) = [] := by
    split
    · simp [evalMsg_flatMap, verdicts]
    · simp
  have hv : verdicts (verdict cx.crypto b) = [verdict cx.crypto b] := by
    unfold verdict
    split <;> rfl
  rw [this, hv]
  simp [verdicts]

end

/-! ## Phases and rounds -/

theorem phase_inPhase {L S n : Int} (hL : 0 ≤ L) (hS : S < n) {k : Nat} (hk : k ≤ 2) :
    inPhase L S (k : Int) n = true ↔ getPhaseAtHeight L n S = k + 1 := by
  rw [phase_of L S n hL (by omega)]
  simp only [inPhase, decide_eq_true_eq, finalized, apologizing, accusing, dealing]
  interval_cases k
  · push_cast; split_ifs <;> omega
  · push_cast; split_ifs <;> omega
  · push_cast; split_ifs <;> omega

theorem phase_mono {L S n m : Int} (hL : 0 ≤ L) (hS : S < n) (hnm : n ≤ m) : getPhaseAtHeight L n S ≤ getPhaseAtHeight L m S := by
  rw [phase_of L S n hL (by omega), phase_of L S m hL (by omega)]
  simp only [finalized, apologizing, accusing, dealing]
  split_ifs <;> omega

theorem phase_range {L S n : Int} (hL : 0 ≤ L) (hS : S < n) : dealing ≤ getPhaseAtHeight L n S ∧ getPhaseAtHeight L n S ≤ finalized := by
  rw [phase_of L S n hL (by omega)]
  simp only [finalized, apologizing, accusing, dealing]
  split_ifs <;> omega

/-- The rounds so far, seen from a key generation in phase `p0`. -/
structure Timing (L S : Int) (rs : List (Round G1 G2)) (p0 : Nat) : Prop where
  early : ∀ k : Nat, k ≤ 2 → p0 ≤ k → firstIn S L k rs = none
  late : ∀ k : Nat, k ≤ 2 → p0 = k + 1 → firstIn S L k rs ≠ none

theorem timing_old {L S n : Int} (hL : 0 ≤ L) (hS : S < n) {rs : List (Round G1 G2)} (h1 : ∀ r ∈ rs, r.deciding = true → r.next ≤ n)
    (h2 : ∃ r ∈ rs, r.deciding = true ∧ r.next = n) : Timing L S rs (getPhaseAtHeight L n S) := by
  constructor
  · intro k hk hp
    unfold firstIn
    rw [List.find?_eq_none]
    intro r hr hd
    simp only [during, Bool.and_eq_true, decide_eq_true_eq] at hd
    obtain ⟨⟨d1, d2⟩, d3⟩ := hd
    have := (phase_inPhase hL d2 hk).1 d3
    have := phase_mono hL d2 (h1 r hr d1)
    omega
  · intro k hk hp
    unfold firstIn
    rw [ne_eq, List.find?_eq_none]
    obtain ⟨r, hr, hd, hn⟩ := h2
    intro hh
    apply hh r hr
    simp only [during, Bool.and_eq_true, decide_eq_true_eq]
    rw [hn]
    exact ⟨⟨hd, hS⟩, (phase_inPhase hL hS hk).2 hp⟩

theorem timing_new {L S n : Int} (hS : n ≤ S) {rs : List (Round G1 G2)} (h1 : ∀ r ∈ rs, r.deciding = true → r.next ≤ n) :
    Timing L S rs off := by
  constructor
  · intro k hk hp
    unfold firstIn
    rw [List.find?_eq_none]
    intro r hr hd
    simp only [during, Bool.and_eq_true, decide_eq_true_eq] at hd
    obtain ⟨⟨d1, d2⟩, d3⟩ := hd
    have := h1 r hr d1
    omega
  · intro k hk hp
    simp [off] at hp

theorem firstIn_step {L S : Int} (hL : 0 ≤ L) {rs : List (Round G1 G2)} {r : Round G1 G2} {p0 : Nat} (ht : Timing L S rs p0) (hd : r.deciding = true)
    (hS : S < r.next) (hp : p0 ≤ getPhaseAtHeight L r.next S) {k : Nat} (hk : k ≤ 2) :
    firstIn S L k (rs ++ [r]) = if p0 ≤ k ∧ getPhaseAtHeight L r.next S = k + 1 then some r else firstIn S L k rs := by
  have hdur : during S L k r = true ↔ getPhaseAtHeight L r.next S = k + 1 := by
    simp only [during, hd, Bool.true_and, Bool.and_eq_true, decide_eq_true_eq]
    rw [phase_inPhase hL hS hk]
    simp [hS]
  unfold firstIn
  rw [List.find?_append]
  by_cases hc : p0 ≤ k ∧ getPhaseAtHeight L r.next S = k + 1
  · have h0 := ht.early k hk hc.1
    unfold firstIn at h0
    rw [if_pos hc, h0]
    simp [hdur.2 hc.2]
  · rw [if_neg hc]
    by_cases hq : getPhaseAtHeight L r.next S = k + 1
    · have h0 := ht.late k hk (by omega)
      unfold firstIn at h0
      cases hf : rs.find? (during S L k) with
      | none => exact absurd hf h0
      | some _ => simp
    · have : during S L k r = false := by rw [← Bool.not_eq_true, hdur]; exact hq
      simp [this]

theorem firstTo_none {codecs : Codecs} {chain : Chain} {S L : Int} {x : Addr} {rs : List (Round G1 G2)} (h : firstIn S L 0 rs = none) :
    firstTo codecs chain S L x rs = none := by
  unfold firstIn at h
  unfold firstTo
  rw [List.find?_eq_none] at h ⊢
  intro r hr hh
  simp only [Bool.and_eq_true] at hh
  exact h r hr hh.1

theorem firstTo_step {codecs : Codecs} {chain : Chain} {L S : Int} (hL : 0 ≤ L) {x : Addr} {rs : List (Round G1 G2)} {r : Round G1 G2}
    (hd : r.deciding = true) (hS : S < r.next) :
    firstTo codecs chain S L x (rs ++ [r]) = (firstTo codecs chain S L x rs).or
      (if getPhaseAtHeight L r.next S = dealing ∧ (keyAt codecs chain x r.next).isSome = true then some r else none) := by
  have hdur : during S L 0 r = true ↔ getPhaseAtHeight L r.next S = dealing := by
    simp only [during, hd, Bool.true_and, Bool.and_eq_true, decide_eq_true_eq]
    have := phase_inPhase hL hS (k := 0) (by omega)
    simp only [Nat.cast_zero] at this
    rw [this]
    simp [hS, dealing]
  unfold firstTo
  rw [List.find?_append]
  congr 1
  by_cases h1 : getPhaseAtHeight L r.next S = dealing ∧ (keyAt codecs chain x r.next).isSome = true
  · rw [if_pos h1]
    simp [hdur.2 h1.1, h1.2]
  · rw [if_neg h1]
    have : (during S L 0 r && (keyAt codecs chain x r.next).isSome) = false := by
      rw [← Bool.not_eq_true, Bool.and_eq_true, hdur]
      exact h1
    simp [this]

end Shutter.Decide
