import Verif.Proofs.SentStep
import Verif.Proofs.DriverReach

/-! The messages of one round for one key generation, exactly. -/

namespace Shutter.Decide
open Shutter.Crypto Shutter.Crypto.Spec Shutter.Dkg Shutter.Observe Shutter.Decide.Spec
open Shutter.App (Addr findAddressIndex)

variable {G1 G2 GT R : Type} [AddCommGroup G2] [DecidableEq G2]

theorem step_start2_state {env : Env G1 G2 GT} {st : PureDKG G2} {o : Outcome G2} (h : step env st .start2 = some o) :
    o.state = { st with phase := accusing } := by
  simp only [step, startPhase2Accusing] at h
  split at h
  · simp at h
  · next st1 hs =>
    obtain ⟨_, rfl⟩ := setPhase_some hs
    simp only [Option.map_some, Option.some.injEq] at h
    rw [← h]

theorem step_start3_state {env : Env G1 G2 GT} {st : PureDKG G2} {o : Outcome G2} (h : step env st .start3 = some o) :
    o.state = { st with phase := apologizing } := by
  simp only [step, startPhase3Apologizing] at h
  split at h
  · simp at h
  · next st1 hs =>
    obtain ⟨_, rfl⟩ := setPhase_some hs
    simp only [Option.map_map, Option.map_eq_some_iff] at h
    obtain ⟨msgs, _, h⟩ := h
    simp only [Function.comp] at h
    rw [← h]

/-- A key generation that only made calls since it was started. -/
structure Proper (cx : Cfg G1 G2 GT R) (dkg : DKG G2) : Prop where
  ran : ∃ ops thr i, Dkg.run cx.crypto (newWorld G2 dkg.eon dkg.keypers.length thr i) ops = some dkg.pure ∧ i < dkg.keypers.length
  poly : off < dkg.pure.state.phase → ∃ P w, cx.poly dkg.eon = some P ∧ dkg.pure.state.polynomial = some P ∧
    evalForKeyper P dkg.pure.state.keyper = some w ∧ w < order

theorem Proper.log {cx : Cfg G1 G2 GT R} {dkg : DKG G2} (h : Proper cx dkg) : dkg.pure.state.eon = dkg.eon ∧
    dkg.pure.state.numKeypers = dkg.keypers.length ∧ dkg.pure.state.keyper < dkg.keypers.length ∧
    ∀ (d : Nat) (c : List G2), (dkg.pure.state.commitments[d]?).join = some c → degree c = sub1u64 dkg.pure.state.threshold := by
  obtain ⟨ops, thr, i, hr, hi⟩ := h.ran
  have l := logInv_run _ _ _ _ _ _ _ hr
  refine ⟨l.eon, l.num, by rw [l.keyper]; exact hi, fun d c hc => ?_⟩
  rw [l.thr]
  exact l.deg d c hc

theorem Calls.ran {cx : Cfg G1 G2 GT R} {a b : DKG G2} {ops : List (Op G2)} (h : Calls cx a ops b)
    (ha : ∃ ops thr i, Dkg.run cx.crypto (newWorld G2 a.eon a.keypers.length thr i) ops = some a.pure ∧ i < a.keypers.length) :
    ∃ ops thr i, Dkg.run cx.crypto (newWorld G2 b.eon b.keypers.length thr i) ops = some b.pure ∧ i < b.keypers.length := by
  obtain ⟨o, thr, i, hr, hi⟩ := ha
  rw [h.2.eon, h.2.keypers]
  exact ⟨_, thr, i, (run_append _).2 ⟨_, hr, h.1⟩, hi⟩

theorem Calls.keyper {cx : Cfg G1 G2 GT R} {a b : DKG G2} {ops : List (Op G2)} (h : Calls cx a ops b) :
    b.pure.state.keyper = a.pure.state.keyper ∧ b.pure.state.numKeypers = a.pure.state.numKeypers ∧
    b.pure.state.threshold = a.pure.state.threshold ∧ b.pure.state.eon = a.pure.state.eon := by
  have : ∀ (ops : List (Op G2)) (w w' : World G2), Dkg.run cx.crypto w ops = some w' → w'.state.keyper = w.state.keyper ∧
      w'.state.numKeypers = w.state.numKeypers ∧ w'.state.threshold = w.state.threshold ∧ w'.state.eon = w.state.eon := by
    intro ops
    induction ops with
    | nil =>
      intro w w' h
      simp only [Dkg.run, List.foldlM_nil, Option.pure_def, Option.some.injEq] at h
      subst h
      simp
    | cons op ops ih =>
      intro w w' h
      obtain ⟨w1, h1, h2⟩ := (run_cons _).1 h
      obtain ⟨i1, i2, i3, i4⟩ := ih _ _ h2
      simp only [exec, Option.map_eq_some_iff] at h1
      obtain ⟨o, ho, rfl⟩ := h1
      have sp := step_spec _ _ _ _ ho
      exact ⟨i1.trans sp.keyper, i2.trans sp.num, i3.trans sp.thr, i4.trans sp.eon⟩
  exact this _ _ _ h.1

/-- Later calls do not change the polynomial. -/
theorem Calls.proper {cx : Cfg G1 G2 GT R} {a b : DKG G2} {ops : List (Op G2)} (h : Calls cx a ops b) (ha : Proper cx a)
    (hp : off < a.pure.state.phase) : Proper cx b := by
  refine ⟨h.ran ha.ran, fun _ => ?_⟩
  obtain ⟨P, w, h1, h2, h3, h4⟩ := ha.poly hp
  refine ⟨P, w, by rw [h.2.eon]; exact h1, ?_, by rw [h.keyper.1]; exact h3, h4⟩
  rw [(run_frozen h.1).2.2.1 hp]
  exact h2

/-- The calls while the phase is off do nothing to it. -/
theorem startPhase1_sent {cx : Cfg G1 G2 GT R} {a b : DKG G2} {n : Nat} {acts : List (Action G1 G2)} (ha : Proper cx a)
    (h : startPhase1 cx a n = some (b, acts)) : Proper cx b ∧ b.pure.state.phase = dealing ∧ ∃ P, cx.poly a.eon = some P ∧
      acts = (if n = dealing then [.polyCommitment a.eon (P.map (fun c => c • cx.crypto.g2))] else []) ∧
      b.outgoing = (if n = dealing then dealt a.eon a.pure.state.keyper a.keypers.length P else a.outgoing) := by
  obtain ⟨e1, e2, e3, e4⟩ := ha.log
  have hc := startPhase1_calls h
  unfold startPhase1 at h
  rw [Option.bind_eq_some_iff] at h
  obtain ⟨r, hr, h⟩ := h
  split at h
  · cases h
  · next hok =>
    obtain ⟨c, hs⟩ := start_calls hr
    obtain ⟨P, w, hP, hw, hlt, hg, he⟩ := start1_exact hs (by simpa using hok) (by rw [e2]; exact e3)
    rw [hP] at hs
    have sp := step_spec _ _ _ _ hs
    have hstate : r.1.pure.state = r.2.state := by
      rw [hP] at c
      obtain ⟨w1, h1, h2⟩ := (run_cons _).1 c.1
      cases h2
      simp only [exec, Option.map_eq_some_iff] at h1
      obtain ⟨o, ho, h1⟩ := h1
      rw [hs] at ho
      cases ho
      rw [← h1]
    have hpoly : r.1.pure.state.polynomial = some P := by rw [hstate, sp.poly]
    have hphase : r.1.pure.state.phase = dealing := by rw [hstate, sp.phase]; rfl
    have hpure : b.pure = r.1.pure := by
      split at h <;> (cases h; rfl)
    have hout : r.1.outgoing = a.outgoing := by
      unfold DKG.start at hr
      rw [Option.bind_eq_some_iff] at hr
      obtain ⟨w', _, hr⟩ := hr
      rw [Option.map_eq_some_iff] at hr
      obtain ⟨o, _, rfl⟩ := hr
      rfl
    refine ⟨⟨hc.ran ha.ran, fun _ => ⟨P, w, ?_, ?_, ?_, hlt⟩⟩, ?_, P, hP, ?_⟩
    · rw [hc.2.eon]; exact hP
    · rw [hpure]; exact hpoly
    · rw [hc.keyper.1]; exact hw
    · rw [hpure]; exact hphase
    · split at h
      · next hn =>
        cases h
        rw [if_neg hn, if_neg hn]
        exact ⟨rfl, hout⟩
      · next hn =>
        have hn := not_not.1 hn
        cases h
        rw [if_pos hn, if_pos hn, hg]
        refine ⟨rfl, ?_⟩
        simp only
        rw [he, e1, e2]

omit [AddCommGroup G2] [DecidableEq G2] in
theorem mapM_pick {α : Type} (keypers : List Addr) (f : α → Nat) : ∀ (l : List α) (r : List Addr),
    l.mapM (fun m => keypers[f m]?) = some r → r = pick keypers (l.map f) := by
  intro l
  induction l with
  | nil => intro r h; simp at h; simp [h, pick]
  | cons x l ih =>
    intro r h
    rw [List.mapM_cons] at h
    simp only [Option.pure_def, Option.bind_eq_bind, Option.bind_eq_some_iff, Option.some.injEq] at h
    obtain ⟨m, h1, ms, h2, rfl⟩ := h
    rw [ih _ h2]
    simp [pick, h1]

theorem start_state {cx : Cfg G1 G2 GT R} {a : DKG G2} {op : Op G2} {r : DKG G2 × Outcome G2} (h : a.start cx op = some r) :
    r.1.pure.state = r.2.state ∧ r.1.outgoing = a.outgoing := by
  unfold DKG.start at h
  rw [Option.bind_eq_some_iff] at h
  obtain ⟨w, hw, h⟩ := h
  rw [Option.map_eq_some_iff] at h
  obtain ⟨o, ho, rfl⟩ := h
  simp only [exec, Option.map_eq_some_iff] at hw
  obtain ⟨o', ho', rfl⟩ := hw
  rw [ho] at ho'
  cases ho'
  exact ⟨rfl, rfl⟩

theorem startPhase2_sent {cx : Cfg G1 G2 GT R} (law : ∀ p : G2, order • p = 0) {a b : DKG G2} {n : Nat} {acts : List (Action G1 G2)}
    (ha : Proper cx a) (h : startPhase2 cx a n = some (b, acts)) : b.pure.state = { a.pure.state with phase := accusing } ∧
      b.outgoing = a.outgoing ∧
      acts = (if n = accusing ∧ toBlame cx.crypto.g2 a.pure.state ≠ [] then
        [.accusation a.eon (pick a.keypers (toBlame cx.crypto.g2 a.pure.state))] else []) := by
  obtain ⟨e1, e2, e3, e4⟩ := ha.log
  unfold startPhase2 at h
  rw [Option.bind_eq_some_iff] at h
  obtain ⟨r, hr, h⟩ := h
  obtain ⟨c, hs⟩ := start_calls hr
  obtain ⟨q1, q2⟩ := start_state hr
  have hst := step_start2_state hs
  have hx := start2_exact hs
  rw [toBlame_eq law e4] at hx
  have hb : b = r.1 := by
    split at h
    · cases h; rfl
    · split at h
      · rw [Option.map_eq_some_iff] at h
        obtain ⟨_, _, h⟩ := h
        cases h; rfl
      · cases h; rfl
  refine ⟨by rw [hb, q1, hst], by rw [hb, q2], ?_⟩
  rw [hx] at h
  split at h
  · next hn => cases h; rw [if_neg (fun hh => hn hh.1)]
  · next hn =>
    split at h
    · next hlen =>
      rw [Option.map_eq_some_iff] at h
      obtain ⟨l, hl, h⟩ := h
      cases h
      rw [if_pos ⟨not_not.1 hn, by intro h0; rw [h0] at hlen; simp at hlen⟩]
      rw [mapM_pick a.keypers AccusationMsg.accused _ _ hl]
      simp [Function.comp_def]
    · next hlen =>
      cases h
      rw [if_neg]
      rintro ⟨_, h0⟩
      apply hlen
      rw [List.length_map]
      exact List.length_pos_of_ne_nil h0

theorem startPhase3_sent {cx : Cfg G1 G2 GT R} {a b : DKG G2} {n : Nat} {acts : List (Action G1 G2)}
    (ha : Proper cx a) (h : startPhase3 cx a n = some (b, acts)) {P : List Nat} (hP : cx.poly a.eon = some P) (hp : off < a.pure.state.phase) :
    b.pure.state = { a.pure.state with phase := apologizing } ∧ b.outgoing = a.outgoing ∧
      acts = (if n = apologizing ∧ accusers a.pure.state ≠ [] then
        [.apology a.eon (pick a.keypers (accusers a.pure.state)) ((accusers a.pure.state).map (fun j => ((evaluation P j : Nat) : Int)))] else []) := by
  obtain ⟨P', w, p1, p2, p3, p4⟩ := ha.poly hp
  rw [hP] at p1
  cases p1
  unfold startPhase3 at h
  rw [Option.bind_eq_some_iff] at h
  obtain ⟨r, hr, h⟩ := h
  obtain ⟨c, hs⟩ := start_calls hr
  obtain ⟨q1, q2⟩ := start_state hr
  have hst := step_start3_state hs
  have hx := start3_exact hs p2
  have hb : b = r.1 := by
    split at h
    · cases h; rfl
    · split at h
      · rw [Option.map_eq_some_iff] at h
        obtain ⟨_, _, h⟩ := h
        cases h; rfl
      · cases h; rfl
  refine ⟨by rw [hb, q1, hst], by rw [hb, q2], ?_⟩
  rw [hx] at h
  split at h
  · next hn => cases h; rw [if_neg (fun hh => hn hh.1)]
  · next hn =>
    split at h
    · next hlen =>
      rw [Option.map_eq_some_iff] at h
      obtain ⟨l, hl, h⟩ := h
      cases h
      rw [if_pos ⟨not_not.1 hn, by intro h0; rw [h0] at hlen; simp at hlen⟩]
      rw [mapM_pick a.keypers ApologyMsg.accuser _ _ hl]
      simp only [List.map_map, Function.comp_def, List.map_id']
      congr 2
      refine List.map_congr_left (fun j _ => ?_)
      rw [evalForKeyper_eq p3 p4]
      rfl
    · next hlen =>
      cases h
      rw [if_neg]
      rintro ⟨_, h0⟩
      apply hlen
      rw [List.length_map]
      exact List.length_pos_of_ne_nil h0

theorem finalize_sent {cx : Cfg G1 G2 GT R} {a b : DKG G2} {ekgs : List (EKG G1 G2)} {acts : List (Action G1 G2)}
    (h : dkgFinalize cx a = some (b, ekgs, acts)) : acts = [verdict cx.crypto b] ∧ b.outgoing = a.outgoing := by
  have hc := finalize_calls h
  unfold dkgFinalize at h
  rw [Option.map_eq_some_iff] at h
  obtain ⟨r, hr, h⟩ := h
  obtain ⟨q1, q2⟩ := start_state hr
  unfold verdict
  split at h
  · next hn =>
    cases h
    rw [hn, hc.2.sbi]
    exact ⟨rfl, q2⟩
  · next res hn =>
    have hk : res.keyper = r.1.pure.state.keyper := by
      unfold computeResult at hn
      split at hn
      · cases hn
      · split at hn
        · cases hn
        · split at hn
          · cases hn
          · simp only [Option.some.injEq] at hn
            rw [← hn]
    cases h
    rw [hn, hc.2.sbi, hk]
    exact ⟨rfl, q2⟩

omit [DecidableEq G2] [AddCommGroup G2] in
theorem toBlame_congr [AddCommGroup G2] [DecidableEq G2] (g2 : G2) {a b : PureDKG G2} (h1 : b.numKeypers = a.numKeypers)
    (h2 : b.keyper = a.keyper) (h3 : b.commitments = a.commitments) (h4 : b.evals = a.evals) : toBlame g2 b = toBlame g2 a := by
  unfold toBlame
  rw [h1, h2, h3, h4]

omit [AddCommGroup G2] [DecidableEq G2] in
theorem accusers_congr {a b : PureDKG G2} (h1 : b.keyper = a.keyper) (h2 : b.accusations = a.accusations) : accusers b = accusers a := by
  unfold accusers
  rw [h1, h2]

theorem call_outgoing {cx : Cfg G1 G2 GT R} {a b : DKG G2} {ops : List (Op G2)} (h : a.call cx ops = some b) : b.outgoing = a.outgoing := by
  unfold DKG.call at h
  rw [Option.map_eq_some_iff] at h
  obtain ⟨w, _, rfl⟩ := h
  rfl

set_option linter.unusedSimpArgs false in
theorem phase_arith3 (p0 pn : Nat) :
    (if p0 ≤ dealing ∧ pn ≥ accusing then accusing else if p0 = off then dealing else p0) = accusing ∧ pn ≥ apologizing ↔
      p0 ≤ accusing ∧ pn ≥ apologizing := by
  by_cases h1 : p0 ≤ dealing ∧ pn ≥ accusing
  · rw [if_pos h1]
    simp only [off, dealing, accusing, apologizing, true_and] at *; omega
  · rw [if_neg h1]
    by_cases h2 : p0 = off
    · rw [if_pos h2]
      simp only [off, dealing, accusing, apologizing, true_and] at *; omega
    · rw [if_neg h2]
      simp only [off, dealing, accusing, apologizing, true_and] at *; omega

set_option linter.unusedSimpArgs false in
theorem phase_arith4 (p0 pn : Nat) (h : pn ≤ finalized) :
    (if p0 ≤ accusing ∧ pn ≥ apologizing then apologizing else
      if p0 ≤ dealing ∧ pn ≥ accusing then accusing else if p0 = off then dealing else p0) = apologizing ∧ pn ≥ finalized ↔
      p0 ≤ apologizing ∧ pn = finalized := by
  by_cases h0 : p0 ≤ accusing ∧ pn ≥ apologizing
  · rw [if_pos h0]
    simp only [off, dealing, accusing, apologizing, finalized, true_and] at *; omega
  · rw [if_neg h0]
    by_cases h1 : p0 ≤ dealing ∧ pn ≥ accusing
    · rw [if_pos h1]
      simp only [off, dealing, accusing, apologizing, finalized, true_and] at *; omega
    · rw [if_neg h1]
      by_cases h2 : p0 = off
      · rw [if_pos h2]
        simp only [off, dealing, accusing, apologizing, finalized, true_and] at *; omega
      · rw [if_neg h2]
        simp only [off, dealing, accusing, apologizing, finalized, true_and] at *; omega

/-- The messages of the phases in one round, and what is left to send. -/
theorem syncDKG_sent {cx : Cfg G1 G2 GT R} (law : ∀ p : G2, order • p = 0) {h t : Int} {a b : DKG G2} {eon : Eon}
    {ekgs : List (EKG G1 G2)} {acts : List (Action G1 G2)} (hr : syncDKGWithEon cx h t a eon = some (b, ekgs, acts)) (ha : Proper cx a)
    (hpn : getPhaseAtHeight cx.phaseLength (t + 1) eon.startHeight ≥ dealing) :
    let pn := getPhaseAtHeight cx.phaseLength (t + 1) eon.startHeight
    let p0 := a.pure.state.phase
    Proper cx b ∧ off < b.pure.state.phase ∧ ∃ P, cx.poly a.eon = some P ∧
      b.outgoing = (if p0 = off ∧ pn = dealing then dealt a.eon b.pure.state.keyper a.keypers.length P else a.outgoing) ∧
      acts = (if p0 = off ∧ pn = dealing then [.polyCommitment a.eon (P.map (fun c => c • cx.crypto.g2))] else []) ++
        (if p0 ≤ dealing ∧ pn = accusing ∧ toBlame cx.crypto.g2 b.pure.state ≠ [] then
          [.accusation a.eon (pick a.keypers (toBlame cx.crypto.g2 b.pure.state))] else []) ++
        (if p0 ≤ accusing ∧ pn = apologizing ∧ accusers b.pure.state ≠ [] then
          [.apology a.eon (pick a.keypers (accusers b.pure.state)) ((accusers b.pure.state).map (fun j => ((evaluation P j : Nat) : Int)))] else []) ++
        (if p0 ≤ apologizing ∧ pn = finalized then [verdict cx.crypto b] else []) := by
  intro pn p0
  have hpn4 : pn ≤ finalized := by
    simp only [pn, getPhaseAtHeight]
    simp only [off, dealing, accusing, apologizing, finalized]
    split_ifs <;> omega
  have hpn1 : dealing ≤ pn := hpn
  simp only [syncDKGWithEon, Option.bind_eq_bind, Option.bind_eq_some_iff, Prod.exists] at hr
  obtain ⟨d1, a1, r1, d2, r2, d3, r3, d4, a2, r4, d5, r5, d6, a3, r6, d7, r7, hr⟩ := hr
  change advance a off pn (startPhase1 cx) = some (d1, a1) at r1
  change advance d3 dealing pn (startPhase2 cx) = some (d4, a2) at r4
  change advance d5 accusing pn (startPhase3 cx) = some (d6, a3) at r6
  change (if d7.pure.state.phase = apologizing ∧ pn ≥ finalized then _ else _) = _ at hr
  -- dealing
  have s1 : Proper cx d1 ∧ d1.pure.state.phase = (if p0 = off then dealing else p0) ∧ SameDkg a d1 ∧
      d1.pure.state.keyper = a.pure.state.keyper ∧ ∃ P, cx.poly a.eon = some P ∧
      a1 = (if p0 = off ∧ pn = dealing then [.polyCommitment a.eon (P.map (fun c => c • cx.crypto.g2))] else []) ∧
      d1.outgoing = (if p0 = off ∧ pn = dealing then dealt a.eon a.pure.state.keyper a.keypers.length P else a.outgoing) := by
    unfold advance at r1
    split at r1
    · next hc =>
      have h0 : p0 = off := hc.1
      have cc := startPhase1_calls r1
      obtain ⟨q1, q2, P, q3, q4, q5⟩ := startPhase1_sent ha r1
      refine ⟨q1, by rw [q2, if_pos h0], cc.2, cc.keyper.1, P, q3, ?_, ?_⟩
      · rw [q4]; simp [h0]
      · rw [q5]; simp [h0]
    · next hc =>
      have h0 : p0 ≠ off := fun h0 => hc ⟨h0, by simp only [off, dealing] at *; omega⟩
      cases r1
      obtain ⟨P, w, k1, k2, k3, k4⟩ := ha.poly (by simp only [off, p0] at *; omega)
      refine ⟨ha, by rw [if_neg h0], ⟨rfl, rfl, rfl, rfl⟩, rfl, P, k1, ?_, ?_⟩ <;> simp [h0]
  obtain ⟨f1, g1, h1, k1, P, hP, l1, m1⟩ := s1
  have hoff1 : off < d1.pure.state.phase := by
    rw [g1]; split <;> simp only [off, dealing] at * <;> omega
  -- the messages of the dealing phase
  have c2 := call_calls r2
  have o2 := call_outgoing r2
  simp only [syncPolyEvals, Option.bind_eq_some_iff] at r3
  obtain ⟨l3, m3, r3⟩ := r3
  have c3 := call_calls r3
  have o3 := call_outgoing r3
  have ev := mapM_flatten _ _ (evalCalls_eq cx d2 eon.startHeight) _ _ m3
  have ph2 := run_message_phase _ c2.1 (by
    intro op ho
    obtain ⟨x, _, ho⟩ := List.mem_flatMap.1 ho
    rw [commitmentCalls_eq] at ho
    obtain ⟨m, hm, _⟩ := commitmentOf_kind _ _ _ ho
    exact Or.inl ⟨m, hm⟩)
  have ph3 := run_message_phase _ c3.1 (by
    intro op ho
    rw [ev] at ho
    obtain ⟨x, _, ho⟩ := List.mem_flatMap.1 ho
    obtain ⟨m, hm, _⟩ := evalsOf_kind _ _ _ ho
    exact Or.inr (Or.inl ⟨m, hm⟩))
  have c13 := c2.append c3
  have f3 : Proper cx d3 := c13.proper f1 hoff1
  have g3 : d3.pure.state.phase = if p0 = off then dealing else p0 := by rw [ph3.1, ph2.1, g1]
  have h3 := h1.trans c13.2
  have hoff3 : off < d3.pure.state.phase := by rw [g3, ← g1]; exact hoff1
  -- accusing
  have s4 : Calls cx d3 (if d3.pure.state.phase = dealing ∧ pn ≥ accusing then [.start2] else []) d4 := advance_calls (fun b acts => startPhase2_calls (n := pn)) r4
  have f4 : Proper cx d4 := s4.proper f3 hoff3
  have g4 : d4.pure.state.phase = (if p0 ≤ dealing ∧ pn ≥ accusing then accusing else if p0 = off then dealing else p0) ∧
      d4.outgoing = d3.outgoing ∧ toBlame cx.crypto.g2 d4.pure.state = toBlame cx.crypto.g2 d3.pure.state ∧
      a2 = (if p0 ≤ dealing ∧ pn = accusing ∧ toBlame cx.crypto.g2 d3.pure.state ≠ [] then
        [.accusation a.eon (pick a.keypers (toBlame cx.crypto.g2 d3.pure.state))] else []) := by
    unfold advance at r4
    split at r4
    · next hc =>
      have hle : p0 ≤ dealing := by
        have := hc.1
        rw [g3] at this
        split at this <;> simp only [off, dealing] at * <;> omega
      obtain ⟨q1, q2, q3⟩ := startPhase2_sent law f3 r4
      refine ⟨?_, q2, ?_, ?_⟩
      · rw [q1, if_pos ⟨hle, hc.2⟩]
      · rw [q1]; rfl
      · rw [q3, h3.eon, h3.keypers]
        simp only [hle, true_and]
    · next hc =>
      cases r4
      have hn : ¬ (p0 ≤ dealing ∧ pn ≥ accusing) := by
        rintro ⟨x1, x2⟩
        apply hc
        rw [g3]
        refine ⟨?_, x2⟩
        split <;> simp only [off, dealing] at * <;> omega
      refine ⟨by rw [if_neg hn, g3], rfl, rfl, ?_⟩
      rw [if_neg]
      rintro ⟨x1, x2, _⟩
      exact hn ⟨x1, by rw [x2]⟩
  obtain ⟨g4, o4, b4, l4⟩ := g4
  have h4' := h3.trans s4.2
  have hoff4 : off < d4.pure.state.phase := lt_of_lt_of_le hoff3 (run_frozen s4.1).2.2.2
  -- the accusations of others
  have c5 := call_calls r5
  have o5 := call_outgoing r5
  have ph5 := run_message_phase _ c5.1 (by
    intro op ho
    obtain ⟨x, _, ho⟩ := List.mem_flatMap.1 ho
    rw [accusationCalls_eq cx] at ho
    obtain ⟨m, hm, _⟩ := accusationsOf_kind _ _ _ ho
    exact Or.inr (Or.inr (Or.inl ⟨m, hm⟩)))
  have f5 : Proper cx d5 := c5.proper f4 hoff4
  have h5 := h4'.trans c5.2
  have hoff5 : off < d5.pure.state.phase := by rw [ph5.1]; exact hoff4
  -- apologizing
  have s6 : Calls cx d5 (if d5.pure.state.phase = accusing ∧ pn ≥ apologizing then [.start3] else []) d6 := advance_calls (fun b acts => startPhase3_calls (n := pn)) r6
  have f6 : Proper cx d6 := s6.proper f5 hoff5
  have e5 : d5.pure.state.phase = accusing ∧ pn ≥ apologizing ↔ p0 ≤ accusing ∧ pn ≥ apologizing := by
    rw [ph5.1, g4]
    exact phase_arith3 p0 pn
  have g6 : d6.pure.state.phase = (if p0 ≤ accusing ∧ pn ≥ apologizing then apologizing else d5.pure.state.phase) ∧
      d6.outgoing = d5.outgoing ∧ accusers d6.pure.state = accusers d5.pure.state ∧
      a3 = (if p0 ≤ accusing ∧ pn = apologizing ∧ accusers d5.pure.state ≠ [] then
        [.apology a.eon (pick a.keypers (accusers d5.pure.state)) ((accusers d5.pure.state).map (fun j => ((evaluation P j : Nat) : Int)))] else []) := by
    unfold advance at r6
    split at r6
    · next hc =>
      have hle := (e5.1 hc).1
      obtain ⟨q1, q2, q3⟩ := startPhase3_sent f5 r6 (by rw [h5.eon]; exact hP) hoff5
      refine ⟨?_, q2, ?_, ?_⟩
      · rw [q1, if_pos ⟨hle, hc.2⟩]
      · rw [q1]; rfl
      · rw [q3, h5.eon, h5.keypers]
        simp only [hle, true_and]
    · next hc =>
      cases r6
      have hn : ¬ (p0 ≤ accusing ∧ pn ≥ apologizing) := fun hh => hc (e5.2 hh)
      refine ⟨by rw [if_neg hn], rfl, rfl, ?_⟩
      rw [if_neg]
      rintro ⟨x1, x2, _⟩
      exact hn ⟨x1, by rw [x2]⟩
  obtain ⟨g6, o6, b6, l6⟩ := g6
  have h6 := h5.trans s6.2
  have hoff6 : off < d6.pure.state.phase := lt_of_lt_of_le hoff5 (run_frozen s6.1).2.2.2
  -- the apologies of others
  simp only [syncApologies, Option.bind_eq_some_iff] at r7
  obtain ⟨l7, m7, r7⟩ := r7
  have c7 := call_calls r7
  have o7 := call_outgoing r7
  have ap := mapM_flatten _ _ (apologyCalls_eq cx d6 eon.startHeight) _ _ m7
  have ph7 := run_message_phase _ c7.1 (by
    intro op ho
    rw [ap] at ho
    obtain ⟨x, _, ho⟩ := List.mem_flatMap.1 ho
    obtain ⟨m, hm, _⟩ := apologiesOf_kind _ _ _ ho
    exact Or.inr (Or.inr (Or.inr ⟨m, hm⟩)))
  have f7 : Proper cx d7 := c7.proper f6 hoff6
  have h7 := h6.trans c7.2
  have hoff7 : off < d7.pure.state.phase := by rw [ph7.1]; exact hoff6
  have e7 : d7.pure.state.phase = apologizing ∧ pn ≥ finalized ↔ p0 ≤ apologizing ∧ pn = finalized := by
    rw [ph7.1, g6, ph5.1, g4]
    exact phase_arith4 p0 pn hpn4
  -- the end
  have s8 : Calls cx d7 (if p0 ≤ apologizing ∧ pn = finalized then [.fin] else []) b ∧ b.outgoing = d7.outgoing ∧
      acts = a1 ++ a2 ++ a3 ++ (if p0 ≤ apologizing ∧ pn = finalized then [verdict cx.crypto b] else []) := by
    split at hr
    · next hc =>
      rw [if_pos (e7.1 hc), if_pos (e7.1 hc)]
      rw [Option.map_eq_some_iff] at hr
      obtain ⟨⟨x1, x2, x3⟩, hf, hx⟩ := hr
      cases hx
      obtain ⟨y1, y2⟩ := finalize_sent hf
      refine ⟨finalize_calls hf, y2, ?_⟩
      simp only [y1]
    · next hc =>
      cases hr
      rw [if_neg (fun hh => hc (e7.2 hh)), if_neg (fun hh => hc (e7.2 hh))]
      exact ⟨Calls.nil _ _, rfl, by simp⟩
  obtain ⟨s8, o8, l8⟩ := s8
  have f8 : Proper cx b := s8.proper f7 hoff7
  have hoff8 : off < b.pure.state.phase := lt_of_lt_of_le hoff7 (run_frozen s8.1).2.2.2
  -- what was sent depends on the final state only
  have s48 := ((c5.append s6).append c7).append s8
  have s68 := c7.append s8
  have t4 : p0 ≤ dealing ∧ pn = accusing → toBlame cx.crypto.g2 b.pure.state = toBlame cx.crypto.g2 d3.pure.state := by
    intro hh
    rw [← b4]
    have hph : d4.pure.state.phase = accusing := by rw [g4, if_pos ⟨hh.1, by rw [hh.2]⟩]
    obtain ⟨x1, x2⟩ := (run_frozen s48.1).1 (by rw [hph]; simp [accusing])
    exact toBlame_congr _ s48.keyper.2.1 s48.keyper.1 x1 x2
  have t6 : p0 ≤ accusing ∧ pn = apologizing → accusers b.pure.state = accusers d5.pure.state := by
    intro hh
    rw [← b6]
    have hph : d6.pure.state.phase = apologizing := by rw [g6, if_pos ⟨hh.1, by rw [hh.2]⟩]
    exact accusers_congr s68.keyper.1 ((run_frozen s68.1).2.1 (by rw [hph]; simp [apologizing]))
  have hkb : b.pure.state.keyper = a.pure.state.keyper := by
    rw [s48.keyper.1, s4.keyper.1, c13.keyper.1, k1]
  refine ⟨f8, hoff8, P, hP, ?_, ?_⟩
  · rw [o8, o7, o6, o5, o4, o3, o2, m1, hkb]
  · rw [l8, l1, l4, l6]
    congr 2
    · congr 1
      · by_cases hh : p0 ≤ dealing ∧ pn = accusing
        · rw [t4 hh]
        · rw [if_neg (fun x => hh ⟨x.1, x.2.1⟩), if_neg (fun x => hh ⟨x.1, x.2.1⟩)]
    · by_cases hh : p0 ≤ accusing ∧ pn = apologizing
      · rw [t6 hh]
      · rw [if_neg (fun x => hh ⟨x.1, x.2.1⟩), if_neg (fun x => hh ⟨x.1, x.2.1⟩)]

end Shutter.Decide
