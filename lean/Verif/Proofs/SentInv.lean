import Verif.Proofs.SentLife

/-! What a keyper has said about a key generation, as an invariant. -/

namespace Shutter.Decide
open Shutter.Crypto Shutter.Crypto.Spec Shutter.Dkg Shutter.Observe Shutter.Decide.Spec
open Shutter.Observe.Props
open Shutter.App (Addr findAddressIndex)
open Shutter.Events (Codecs)

variable {G1 G2 GT R : Type}

/-- The encrypted evaluations for the address `x`. -/
def dueTo (cx : Cfg G1 G2 GT R) (P : List Nat) (ks : List Addr) (i : Nat) (x : Addr) (key : Bytes) : List Bytes :=
  (others ks i x).map (fun j => cx.encryptEval key (natBytes (evaluation P j)))

theorem sendable_to (cx : Cfg G1 G2 GT R) (keys : Addr → Option Bytes) (ks : List Addr) (e i : Nat) (P : List Nat) (x : Addr)
    (G : Addr → Bool) (l : List Nat) :
    ((sendable cx keys ks (((l.filter (fun j => decide (j ≠ i))).map (fun j => (⟨e, i, j, (evaluation P j : Nat)⟩ : PolyEvalMsg))).filter
      (fun m => ((ks[m.receiver]?).map G).getD true))).filter (fun r => decide (r.1 = x))).map (·.2) =
    if G x = true then
      match keys x with
      | some key => (l.filter (fun j => decide (j ≠ i) && decide (ks[j]? = some x))).map (fun j => cx.encryptEval key (natBytes (evaluation P j)))
      | none => []
    else [] := by
  induction l with
  | nil => cases keys x <;> simp [sendable]
  | cons j l ih =>
    by_cases hj : j = i
    · subst hj
      simpa using ih
    · have hj' : decide (j ≠ i) = true := by simpa using hj
      rw [List.filter_cons, if_pos hj', List.map_cons, List.filter_cons]
      simp only
      cases hk : ks[j]? with
      | none =>
        simp only [Option.map_none, Option.getD_none, if_true]
        have hs : ∀ rest : List PolyEvalMsg, sendable cx keys ks ((⟨e, i, j, (evaluation P j : Nat)⟩ : PolyEvalMsg) :: rest) = sendable cx keys ks rest := by
          intro rest
          simp [sendable, hk]
        rw [hs, ih]
        simp [List.filter_cons, hk]
      | some y =>
        simp only [Option.map_some, Option.getD_some]
        by_cases hy : y = x
        · subst hy
          by_cases hG : G y = true
          · rw [if_pos hG]
            rw [if_pos hG] at ih ⊢
            cases hkey : keys y with
            | none =>
              rw [hkey] at ih
              have hs : ∀ rest : List PolyEvalMsg, sendable cx keys ks ((⟨e, i, j, (evaluation P j : Nat)⟩ : PolyEvalMsg) :: rest) = sendable cx keys ks rest := by
                intro rest
                simp [sendable, hk, hkey]
              rw [hs, ih]
            | some key =>
              rw [hkey] at ih
              have hs : ∀ rest : List PolyEvalMsg, sendable cx keys ks ((⟨e, i, j, (evaluation P j : Nat)⟩ : PolyEvalMsg) :: rest) =
                  (y, cx.encryptEval key (natBytes (evaluation P j))) :: sendable cx keys ks rest := by
                intro rest
                simp [sendable, hk, hkey]
              rw [hs]
              simp only [decide_true, List.filter_cons_of_pos, List.map_cons, ih]
              simp [List.filter_cons, hk, hj]
          · rw [if_neg hG]
            rw [if_neg hG] at ih ⊢
            exact ih
        · have hsel : ∀ rest : List PolyEvalMsg, ((sendable cx keys ks ((⟨e, i, j, (evaluation P j : Nat)⟩ : PolyEvalMsg) :: rest)).filter
              (fun r => decide (r.1 = x))).map (·.2) = ((sendable cx keys ks rest).filter (fun r => decide (r.1 = x))).map (·.2) := by
            intro rest
            cases hkey : keys y with
            | none => simp [sendable, hk, hkey]
            | some key => simp [sendable, hk, hkey, hy]
          have hr : (l.filter (fun j => decide (j ≠ i) && decide (ks[j]? = some x))) =
              (j :: l).filter (fun j => decide (j ≠ i) && decide (ks[j]? = some x)) := by
            simp [List.filter_cons, hk, hy]
          rw [← hr, ← ih]
          split
          · rw [hsel]
          · rfl

variable [AddCommGroup G2] [DecidableEq G2]

/-- What was said about a key generation announced at height `S`. -/
structure Said (cx : Cfg G1 G2 GT R) (codecs : Codecs) (chain : Chain) (rs : List (Round G1 G2)) (dkg : DKG G2) (S : Int) (P : List Nat) :
    Prop where
  proper : Proper cx dkg
  poly : cx.poly dkg.eon = some P
  com : said (commitmentsFor dkg.eon) rs =
    ((firstIn S cx.phaseLength 0 rs).map (fun r => (r.next, P.map (fun c => c • cx.crypto.g2)))).toList
  acc : said (accusationsFor dkg.eon) rs = if toBlame cx.crypto.g2 dkg.pure.state = [] then [] else
    ((firstIn S cx.phaseLength 1 rs).map (fun r => (r.next, pick dkg.keypers (toBlame cx.crypto.g2 dkg.pure.state)))).toList
  apo : said (apologiesFor dkg.eon) rs = if accusers dkg.pure.state = [] then [] else
    ((firstIn S cx.phaseLength 2 rs).map (fun r => (r.next, pick dkg.keypers (accusers dkg.pure.state),
      (accusers dkg.pure.state).map (fun j => ((evaluation P j : Nat) : Int))))).toList
  ev : ∀ x, said (evaluationsTo dkg.eon x) rs = match firstTo codecs chain S cx.phaseLength x rs with
    | none => []
    | some r => (dueTo cx P dkg.keypers dkg.pure.state.keyper x ((keyAt codecs chain x r.next).getD [])).map (fun v => (r.next, v))
  out : dkg.pure.state.phase = dealing → dkg.outgoing = (dealt dkg.eon dkg.pure.state.keyper dkg.keypers.length P).filter
    (fun m => ((dkg.keypers[m.receiver]?).map (fun x => (firstTo codecs chain S cx.phaseLength x rs).isNone)).getD true)

omit [AddCommGroup G2] [DecidableEq G2] in
theorem once_step {T : Type} {p0 pn k : Nat} (r : Round G1 G2) (f : Option (Round G1 G2)) {xa xb : List Nat} (v : List Nat → T)
    (h0 : p0 ≤ k → f = none) (h1 : k + 1 ≤ p0 → xa = xb) :
    (if xa = [] then [] else (f.map (fun r => (r.next, v xa))).toList) ++
      (if p0 ≤ k ∧ pn = k + 1 ∧ xb ≠ [] then [v xb] else []).map (fun x => (r.next, x)) =
    if xb = [] then [] else ((if p0 ≤ k ∧ pn = k + 1 then some r else f).map (fun r => (r.next, v xb))).toList := by
  by_cases hp : p0 ≤ k
  · rw [h0 hp]
    by_cases hx : xb = []
    · simp [hx]
    · by_cases hn : pn = k + 1
      · simp [hp, hn, hx]
      · simp [hn]
  · rw [h1 (by omega)]
    simp [hp]

theorem said_step {cx : Cfg G1 G2 GT R} (law : ∀ p : G2, order • p = 0) (hL : 0 ≤ cx.phaseLength) {codecs : Codecs} {chain : Chain}
    {rs : List (Round G1 G2)} {r : Round G1 G2} {sh : Observe.Shutter} {h S : Int} {a b : DKG G2} {P : List Nat}
    {ekgs : List (EKG G1 G2)} {acts : List (Action G1 G2)} (hr : handleDKG cx sh h a = some (b, ekgs, acts))
    (hs : Said cx codecs chain rs a S P) (ht : Timing cx.phaseLength S rs a.pure.state.phase) (hd : r.deciding = true) (hS : S < r.next)
    (hnext : r.next = sh.currentBlock + 1) (hphase : b.pure.state.phase = getPhaseAtHeight cx.phaseLength r.next S)
    (hp : a.pure.state.phase ≤ b.pure.state.phase)
    (heon : a.pure.state.phase ≠ finalized → ∃ eon, findEon sh a.eon = some eon ∧ eon.startHeight = S)
    (hkeys : ∀ x, sh.keyperEncryptionKeys x = keyAt codecs chain x r.next)
    (hsel : ∀ {α : Type} (f : Action G1 G2 → List α), About a.eon f → r.sent.flatMap f = acts.flatMap f) :
    Said cx codecs chain (rs ++ [r]) b S P := by
  obtain ⟨r1, r2⟩ := phase_range hL hS
  rw [← hphase] at r1 r2
  obtain ⟨s1, s2, s3, P', s4, out, s5, s6, s7, s8, s9, s10⟩ := handleDKG_sent law hr hs.proper (by
    intro hh
    obtain ⟨eon, he, h2⟩ := heon hh
    exact ⟨eon, he, by rw [h2, ← hnext]; exact hphase, r1⟩)
  rw [hs.poly] at s4
  cases s4
  have hp' : a.pure.state.phase ≤ getPhaseAtHeight cx.phaseLength r.next S := by rw [← hphase]; exact hp
  have fi := fun (k : Nat) (hk : k ≤ 2) => firstIn_step hL ht hd hS hp' hk
  rw [← hphase] at fi
  have f0 := fi 0 (by omega)
  have f1 := fi 1 (by omega)
  have f2 := fi 2 (by omega)
  simp only [Nat.cast_zero, Nat.cast_one, Nat.cast_ofNat] at f0 f1 f2
  -- what can be sent
  have hout : b.pure.state.phase = dealing → out = (dealt a.eon a.pure.state.keyper a.keypers.length P).filter
      (fun m => ((a.keypers[m.receiver]?).map (fun x => (firstTo codecs chain S cx.phaseLength x rs).isNone)).getD true) := by
    intro hb
    rw [s5, hb]
    by_cases h0 : a.pure.state.phase = off
    · rw [if_pos ⟨h0, rfl⟩, s10]
      symm
      rw [List.filter_eq_self]
      intro m _
      have hn : ∀ x, firstTo codecs chain S cx.phaseLength x rs = none := fun x =>
        firstTo_none (by have := ht.early 0 (by omega) (by rw [h0]; simp [off]); simpa using this)
      cases a.keypers[m.receiver]? with
      | none => rfl
      | some x => simp [hn]
    · rw [if_neg (fun hh => h0 hh.1)]
      apply hs.out
      simp only [off, dealing] at *
      omega
  have hto : ∀ x, firstTo codecs chain S cx.phaseLength x (rs ++ [r]) = (firstTo codecs chain S cx.phaseLength x rs).or
      (if b.pure.state.phase = dealing ∧ (keyAt codecs chain x r.next).isSome = true then some r else none) := by
    intro x
    rw [hphase]
    exact firstTo_step hL hd hS
  have e1 := s3.eon
  have e2 := s3.keypers
  refine ⟨s1, by rw [e1]; exact hs.poly, ?_, ?_, ?_, ?_, ?_⟩
  · rw [said_append, e1, hs.com, hsel _ (about_commitmentsFor _), s7, sel_commitment, f0]
    by_cases hc : a.pure.state.phase = off ∧ b.pure.state.phase = dealing
    · have hc' : a.pure.state.phase ≤ 0 ∧ b.pure.state.phase = 0 + 1 := by simpa [off, dealing] using hc
      have := ht.early 0 (by omega) hc'.1
      rw [if_pos hc, if_pos hc']
      simp only [Nat.cast_zero] at this
      rw [this]
      simp
    · have hc' : ¬ (a.pure.state.phase ≤ 0 ∧ b.pure.state.phase = 0 + 1) := by simpa [off, dealing] using hc
      rw [if_neg hc, if_neg hc']
      simp
  · rw [said_append, e1, hs.acc, hsel _ (about_accusationsFor _), s7, sel_accusation, f1, e2]
    have h0 := ht.early 1 (by omega)
    simp only [Nat.cast_one] at h0
    exact once_step r _ (fun x => pick a.keypers x) h0 (fun hh => (s8 hh).symm)
  · rw [said_append, e1, hs.apo, hsel _ (about_apologiesFor _), s7, sel_apology, f2, e2]
    have h0 := ht.early 2 (by omega)
    simp only [Nat.cast_ofNat] at h0
    exact once_step r _ (fun x => (pick a.keypers x, x.map (fun j => ((evaluation P j : Nat) : Int)))) h0 (fun hh => (s9 hh).symm)
  · intro x
    rw [said_append, e1, hs.ev x, hsel _ (about_evaluationsTo _ x), s7, sel_to, hto x, e2, s10]
    by_cases hb : b.pure.state.phase = dealing
    · rw [if_pos hb, hout hb]
      have := sendable_to cx sh.keyperEncryptionKeys a.keypers a.eon a.pure.state.keyper P x
        (fun x => (firstTo codecs chain S cx.phaseLength x rs).isNone) (List.range a.keypers.length)
      unfold dealt
      rw [this, hkeys x]
      cases hf : firstTo codecs chain S cx.phaseLength x rs with
      | some r' => simp
      | none =>
        simp only [Option.isNone_none, if_true, List.nil_append, Option.none_or]
        cases hk : keyAt codecs chain x r.next with
        | none => simp
        | some key =>
          simp only [hb, Option.isSome_some, and_self, if_true, hk, Option.getD_some, dueTo, others]
    · rw [if_neg hb, if_neg (fun hh => hb hh.1)]
      simp
  · intro hb
    rw [s6 hb, hout hb, e1, e2, s10]
    unfold waiting
    rw [List.filter_filter]
    apply List.filter_congr
    intro m _
    cases hk : a.keypers[m.receiver]? with
    | none => simp
    | some x =>
      simp only [Option.bind_some, Option.map_some, Option.getD_some, hto, hkeys x]
      cases firstTo codecs chain S cx.phaseLength x rs with
      | some _ => simp
      | none =>
        cases keyAt codecs chain x r.next with
        | none => simp
        | some _ => simp [hb]

end Shutter.Decide
