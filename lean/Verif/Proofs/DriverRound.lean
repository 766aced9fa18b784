import Verif.Proofs.Driver
import Verif.Spec.Driver

/-! One round of the driver of the DKG, as a list of calls. -/

namespace Shutter.Decide
open Shutter.Crypto Shutter.Dkg Shutter.Observe Shutter.Decide.Spec
open Shutter.App (Addr findAddressIndex)

variable {G1 G2 GT R : Type}

theorem findAddressIndex_eq (as : List Addr) (a : Addr) : findAddressIndex as a = as.idxOf? a := by
  induction as with
  | nil => rfl
  | cons b as ih =>
    rw [findAddressIndex, List.idxOf?_cons]
    by_cases h : b == a
    · simp [h]
    · simp only [h, Bool.false_eq_true, if_false, ih]

theorem phase_dealing (L h S : Int) : getPhaseAtHeight L h S = dealing ↔ inPhase L S 0 h = true := by
  unfold getPhaseAtHeight inPhase
  simp only [decide_eq_true_eq, off, dealing, accusing, apologizing, finalized]
  split_ifs <;> simp <;> omega

theorem phase_accusing (L h S : Int) : getPhaseAtHeight L h S = accusing ↔ inPhase L S 1 h = true := by
  unfold getPhaseAtHeight inPhase
  simp only [decide_eq_true_eq, off, dealing, accusing, apologizing, finalized]
  split_ifs <;> simp <;> omega

theorem phase_apologizing (L h S : Int) : getPhaseAtHeight L h S = apologizing ↔ inPhase L S 2 h = true := by
  unfold getPhaseAtHeight inPhase
  simp only [decide_eq_true_eq, off, dealing, accusing, apologizing, finalized]
  split_ifs <;> simp <;> omega

/-- The parameters of a DKG that started at height `S`. -/
def DKG.params (cx : Cfg G1 G2 GT R) (dkg : DKG G2) (S : Int) : Params G2 :=
  ⟨dkg.eon, S, dkg.phaseLength, dkg.keypers, dkg.pure.state.keyper, cx.gammas, cx.decryptEval⟩

theorem commitmentCalls_eq (cx : Cfg G1 G2 GT R) (dkg : DKG G2) (S : Int) (x : Stamped) :
    commitmentCalls cx dkg S x = commitmentOf (dkg.params cx S) x := by
  unfold commitmentCalls commitmentOf DKG.params
  cases x.ev <;> simp only
  next sender eon gammas =>
  rw [findAddressIndex_eq]
  by_cases h : inPhase dkg.phaseLength S 0 x.height = true
  · rw [if_neg (not_not.2 ((phase_dealing _ _ _).2 h)), if_pos h]
    cases List.idxOf? sender dkg.keypers <;> rfl
  · rw [if_pos (fun h' => h ((phase_dealing _ _ _).1 h')), if_neg h]

theorem accusationCalls_eq (cx : Cfg G1 G2 GT R) (dkg : DKG G2) (S : Int) (x : Stamped) :
    accusationCalls dkg S x = accusationsOf (dkg.params cx S) x := by
  unfold accusationCalls accusationsOf DKG.params
  cases x.ev <;> simp only
  next sender eon accused =>
  rw [findAddressIndex_eq]
  by_cases h : inPhase dkg.phaseLength S 1 x.height = true
  · rw [if_neg (not_not.2 ((phase_accusing _ _ _).2 h)), if_pos h]
    cases List.idxOf? sender dkg.keypers with
    | none => rfl
    | some i => simp [findAddressIndex_eq]
  · rw [if_pos (fun h' => h ((phase_accusing _ _ _).1 h')), if_neg h]

theorem evalCallsLoop_eq (cx : Cfg G1 G2 GT R) (dkg : DKG G2) (eon i : Nat) (evals : List Bytes) :
    ∀ (rs : List Addr) (j : Nat) (ops : List (Op G2)), evalCallsLoop cx dkg eon i evals j rs = some ops →
      ops = ((rs.zip (evals.drop j)).filter (fun r => decide (dkg.keypers.idxOf? r.1 = some dkg.pure.state.keyper))).filterMap
        (fun r => (cx.decryptEval r.2).map (fun b => .eval ⟨eon, i, dkg.pure.state.keyper, (beNat b : Nat)⟩)) := by
  intro rs
  induction rs with
  | nil =>
    intro j ops h
    simp only [evalCallsLoop, Option.some.injEq] at h
    simp [← h]
  | cons r rs ih =>
    intro j ops h
    rw [evalCallsLoop, findAddressIndex_eq] at h
    have skip : ∀ ops, evalCallsLoop cx dkg eon i evals (j + 1) rs = some ops →
        dkg.keypers.idxOf? r ≠ some dkg.pure.state.keyper →
        ops = (((r :: rs).zip (evals.drop j)).filter (fun r => decide (dkg.keypers.idxOf? r.1 = some dkg.pure.state.keyper))).filterMap
          (fun r => (cx.decryptEval r.2).map (fun b => .eval ⟨eon, i, dkg.pure.state.keyper, (beNat b : Nat)⟩)) := by
      intro ops h hne
      rw [ih _ _ h]
      cases hd : evals.drop j with
      | nil =>
        have : evals.drop (j + 1) = [] := by
          rw [List.drop_eq_nil_iff] at hd ⊢
          omega
        rw [this]
        simp
      | cons v vs =>
        have : evals.drop (j + 1) = vs := by
          rw [← List.tail_drop, hd]
          rfl
        rw [this]
        simp [hne]
    split at h
    · next hn => exact skip _ h (by rw [hn]; simp)
    · next k hk =>
      split at h
      · next hne =>
        exact skip _ h (by rw [hk]; simpa using hne)
      · next heq =>
        have heq : k = dkg.pure.state.keyper := not_not.1 heq
        subst heq
        split at h
        · cases h
        · next v hv =>
          have hd : evals.drop j = v :: evals.drop (j + 1) := by
            have hlt : j < evals.length := by
              by_contra hc
              rw [List.getElem?_eq_none (by omega)] at hv
              cases hv
            rw [List.drop_eq_getElem_cons hlt]
            rw [List.getElem?_eq_getElem hlt] at hv
            cases hv
            rfl
          rw [hd]
          split at h
          · next hn =>
            rw [ih _ _ h]
            simp [hk, hn]
          · next b hb =>
            rw [Option.map_eq_some_iff] at h
            obtain ⟨ops', h', rfl⟩ := h
            rw [ih _ _ h']
            simp [hk, hb]

theorem evalCalls_eq (cx : Cfg G1 G2 GT R) (dkg : DKG G2) (S : Int) (x : Stamped) (ops : List (Op G2))
    (h : evalCalls cx dkg S x = some ops) : ops = evalsOf (dkg.params cx S) x := by
  unfold evalCalls at h
  unfold evalsOf DKG.params
  cases hx : x.ev <;> simp only [hx, Option.some.injEq] at h ⊢
  all_goals try (exact h.symm)
  next sender eon receivers evals =>
  rw [findAddressIndex_eq] at h
  by_cases hp : inPhase dkg.phaseLength S 0 x.height = true
  · rw [if_neg (not_not.2 ((phase_dealing _ _ _).2 hp))] at h
    rw [if_pos hp]
    cases hi : List.idxOf? sender dkg.keypers with
    | none =>
      simp only [hi, Option.some.injEq] at h
      simp [← h]
    | some i =>
      simp only [hi] at h
      split at h
      · next he =>
        simp only [Option.some.injEq] at h
        simp [he, ← h]
      · next hne =>
        rw [evalCallsLoop_eq cx dkg eon i evals receivers 0 ops h]
        simp [hne, Option.filter]
  · rw [if_pos (fun h' => hp ((phase_dealing _ _ _).1 h'))] at h
    rw [if_neg hp]
    simpa using h.symm

theorem apologyCallsLoop_eq (dkg : DKG G2) (i : Nat) (evals : List Nat) :
    ∀ (rs : List Addr) (j : Nat) (ops : List (Op G2)), apologyCallsLoop dkg i evals j rs = some ops →
      ops = (rs.zip (evals.drop j)).filterMap
        (fun r => (dkg.keypers.idxOf? r.1).map (fun a => .apology ⟨dkg.eon, a, i, (r.2 : Int)⟩)) := by
  intro rs
  induction rs with
  | nil =>
    intro j ops h
    simp only [apologyCallsLoop, Option.some.injEq] at h
    simp [← h]
  | cons r rs ih =>
    intro j ops h
    rw [apologyCallsLoop, findAddressIndex_eq] at h
    split at h
    · next hn =>
      rw [ih _ _ h]
      cases hd : evals.drop j with
      | nil =>
        have : evals.drop (j + 1) = [] := by
          rw [List.drop_eq_nil_iff] at hd ⊢
          omega
        rw [this]
        simp
      | cons v vs =>
        have : evals.drop (j + 1) = vs := by
          rw [← List.tail_drop, hd]
          rfl
        rw [this]
        simp [hn]
    · next k hk =>
      split at h
      · cases h
      · next v hv =>
        have hd : evals.drop j = v :: evals.drop (j + 1) := by
          have hlt : j < evals.length := by
            by_contra hc
            rw [List.getElem?_eq_none (by omega)] at hv
            cases hv
          rw [List.drop_eq_getElem_cons hlt]
          rw [List.getElem?_eq_getElem hlt] at hv
          cases hv
          rfl
        rw [hd]
        rw [Option.map_eq_some_iff] at h
        obtain ⟨ops', h', rfl⟩ := h
        rw [ih _ _ h']
        simp [hk]

theorem apologyCalls_eq (cx : Cfg G1 G2 GT R) (dkg : DKG G2) (S : Int) (x : Stamped) (ops : List (Op G2))
    (h : apologyCalls dkg S x = some ops) : ops = apologiesOf (dkg.params cx S) x := by
  unfold apologyCalls at h
  unfold apologiesOf DKG.params
  cases hx : x.ev <;> simp only [hx, Option.some.injEq] at h ⊢
  all_goals try (exact h.symm)
  next sender eon receivers evals =>
  rw [findAddressIndex_eq] at h
  by_cases hp : inPhase dkg.phaseLength S 2 x.height = true
  · rw [if_neg (not_not.2 ((phase_apologizing _ _ _).2 hp))] at h
    rw [if_pos hp]
    cases hi : List.idxOf? sender dkg.keypers with
    | none =>
      simp only [hi, Option.some.injEq] at h
      simp [← h]
    | some i =>
      simp only [hi] at h
      rw [apologyCallsLoop_eq dkg i evals receivers 0 ops h]
      simp
  · rw [if_pos (fun h' => hp ((phase_apologizing _ _ _).1 h'))] at h
    rw [if_neg hp]
    simpa using h.symm

theorem mapM_flatten {α β : Type} (f : α → Option (List β)) (g : α → List β) (hfg : ∀ x r, f x = some r → r = g x) :
    ∀ (l : List α) (r : List (List β)), l.mapM f = some r → r.flatten = l.flatMap g := by
  intro l
  induction l with
  | nil =>
    intro r h
    simp only [List.mapM_nil, Option.pure_def, Option.some.injEq] at h
    simp [← h]
  | cons x l ih =>
    intro r h
    simp only [List.mapM_cons, Option.pure_def, Option.bind_eq_bind, Option.bind_eq_some_iff, Option.some.injEq] at h
    obtain ⟨a, ha, rs, hrs, rfl⟩ := h
    simp [hfg x a ha, ih rs hrs]

variable [AddCommGroup G2] [DecidableEq G2]

/-- What a call leaves as it is. -/
structure SameDkg (a b : DKG G2) : Prop where
  eon : b.eon = a.eon
  sbi : b.startBatchIndex = a.startBatchIndex
  keypers : b.keypers = a.keypers
  len : b.phaseLength = a.phaseLength

omit [AddCommGroup G2] [DecidableEq G2] in
theorem SameDkg.trans {a b c : DKG G2} (h : SameDkg a b) (k : SameDkg b c) : SameDkg a c :=
  ⟨k.eon.trans h.eon, k.sbi.trans h.sbi, k.keypers.trans h.keypers, k.len.trans h.len⟩

/-- Running the calls `ops` on a DKG. -/
def Calls (cx : Cfg G1 G2 GT R) (a : DKG G2) (ops : List (Op G2)) (b : DKG G2) : Prop :=
  Dkg.run cx.crypto a.pure ops = some b.pure ∧ SameDkg a b

theorem Calls.nil (cx : Cfg G1 G2 GT R) (a : DKG G2) : Calls cx a [] a := ⟨rfl, rfl, rfl, rfl, rfl⟩

theorem Calls.append {cx : Cfg G1 G2 GT R} {a b c : DKG G2} {x y : List (Op G2)} (h : Calls cx a x b) (k : Calls cx b y c) :
    Calls cx a (x ++ y) c :=
  ⟨(run_append _).2 ⟨_, h.1, k.1⟩, h.2.trans k.2⟩

theorem call_calls {cx : Cfg G1 G2 GT R} {a b : DKG G2} {ops : List (Op G2)} (h : a.call cx ops = some b) : Calls cx a ops b := by
  unfold DKG.call at h
  rw [Option.map_eq_some_iff] at h
  obtain ⟨w, hw, rfl⟩ := h
  exact ⟨hw, rfl, rfl, rfl, rfl⟩

theorem start_calls {cx : Cfg G1 G2 GT R} {a : DKG G2} {op : Op G2} {r : DKG G2 × Outcome G2} (h : a.start cx op = some r) :
    Calls cx a [op] r.1 ∧ Dkg.step cx.crypto a.pure.state op = some r.2 := by
  unfold DKG.start at h
  rw [Option.bind_eq_some_iff] at h
  obtain ⟨w, hw, h⟩ := h
  rw [Option.map_eq_some_iff] at h
  obtain ⟨o, ho, rfl⟩ := h
  exact ⟨⟨(run_cons _).2 ⟨w, hw, rfl⟩, rfl, rfl, rfl, rfl⟩, ho⟩

theorem startPhase1_calls {cx : Cfg G1 G2 GT R} {a b : DKG G2} {n : Nat} {acts : List (Action G1 G2)}
    (h : startPhase1 cx a n = some (b, acts)) : Calls cx a [.start1 (cx.poly a.eon)] b := by
  unfold startPhase1 at h
  rw [Option.bind_eq_some_iff] at h
  obtain ⟨r, hr, h⟩ := h
  have := (start_calls hr).1
  split at h
  · cases h
  · split at h
    · cases h
      exact this
    · cases h
      exact ⟨this.1, this.2.eon, this.2.sbi, this.2.keypers, this.2.len⟩

theorem startPhase2_calls {cx : Cfg G1 G2 GT R} {a b : DKG G2} {n : Nat} {acts : List (Action G1 G2)}
    (h : startPhase2 cx a n = some (b, acts)) : Calls cx a [.start2] b := by
  unfold startPhase2 at h
  rw [Option.bind_eq_some_iff] at h
  obtain ⟨r, hr, h⟩ := h
  have := (start_calls hr).1
  split at h
  · cases h
    exact this
  · split at h
    · rw [Option.map_eq_some_iff] at h
      obtain ⟨_, _, h⟩ := h
      cases h
      exact this
    · cases h
      exact this

theorem startPhase3_calls {cx : Cfg G1 G2 GT R} {a b : DKG G2} {n : Nat} {acts : List (Action G1 G2)}
    (h : startPhase3 cx a n = some (b, acts)) : Calls cx a [.start3] b := by
  unfold startPhase3 at h
  rw [Option.bind_eq_some_iff] at h
  obtain ⟨r, hr, h⟩ := h
  have := (start_calls hr).1
  split at h
  · cases h
    exact this
  · split at h
    · rw [Option.map_eq_some_iff] at h
      obtain ⟨_, _, h⟩ := h
      cases h
      exact this
    · cases h
      exact this

theorem finalize_calls {cx : Cfg G1 G2 GT R} {a b : DKG G2} {ekgs : List (EKG G1 G2)} {acts : List (Action G1 G2)}
    (h : dkgFinalize cx a = some (b, ekgs, acts)) : Calls cx a [.fin] b := by
  unfold dkgFinalize at h
  rw [Option.map_eq_some_iff] at h
  obtain ⟨r, hr, h⟩ := h
  have := (start_calls hr).1
  split at h <;> (cases h; exact this)

theorem advance_calls {cx : Cfg G1 G2 GT R} {a b : DKG G2} {here n : Nat} {f : DKG G2 → Nat → Option (DKG G2 × List (Action G1 G2))}
    {acts : List (Action G1 G2)} {op : Op G2} (hf : ∀ b acts, f a n = some (b, acts) → Calls cx a [op] b)
    (h : advance a here n f = some (b, acts)) :
    Calls cx a (if a.pure.state.phase = here ∧ n ≥ here + 1 then [op] else []) b := by
  unfold advance at h
  split at h
  · next hc =>
    rw [if_pos hc]
    exact hf _ _ h
  · next hc =>
    cases h
    rw [if_neg hc]
    exact Calls.nil _ _

omit [AddCommGroup G2] [DecidableEq G2] in
theorem sendPolyEvals_same {cx : Cfg G1 G2 GT R} {keys : Addr → Option Bytes} {a b : DKG G2} {acts : List (Action G1 G2)}
    (h : sendPolyEvals cx keys a = some (b, acts)) : b.pure = a.pure ∧ SameDkg a b := by
  unfold sendPolyEvals at h
  split at h
  · cases h
    exact ⟨rfl, rfl, rfl, rfl, rfl⟩
  · split at h
    · cases h
      exact ⟨rfl, rfl, rfl, rfl, rfl⟩
    · rw [Option.map_eq_some_iff] at h
      obtain ⟨_, _, h⟩ := h
      split at h <;> (cases h; exact ⟨rfl, rfl, rfl, rfl, rfl⟩)

/-- The phase after a list of messages. -/
theorem run_message_phase (env : Env G1 G2 GT) {ops : List (Op G2)} : ∀ {w w' : World G2}, Dkg.run env w ops = some w' →
    (∀ op ∈ ops, (∃ m, op = .commitment m) ∨ (∃ m, op = .eval m) ∨ (∃ m, op = .accusation m) ∨ ∃ m, op = .apology m) →
    w'.state.phase = w.state.phase ∧ w'.state.keyper = w.state.keyper := by
  induction ops with
  | nil =>
    intro w w' h _
    simp only [Dkg.run, List.foldlM_nil, Option.pure_def, Option.some.injEq] at h
    subst h
    exact ⟨rfl, rfl⟩
  | cons op ops ih =>
    intro w w' h hops
    obtain ⟨w1, h1, h2⟩ := (run_cons env).1 h
    obtain ⟨i1, i2⟩ := ih h2 (fun op ho => hops op (by simp [ho]))
    simp only [exec, Option.map_eq_some_iff] at h1
    obtain ⟨o, ho, rfl⟩ := h1
    have sp := step_spec env _ _ _ ho
    have hp := sp.phase
    refine ⟨i1.trans ?_, i2.trans sp.keyper⟩
    rcases hops op (by simp) with ⟨m, rfl⟩ | ⟨m, rfl⟩ | ⟨m, rfl⟩ | ⟨m, rfl⟩ <;> exact hp

/-- The phase after a call. -/
def opPhase (n : Nat) : Op G2 → Nat
  | .start1 _ => 1
  | .start2 => 2
  | .start3 => 3
  | .fin => 4
  | _ => n

theorem run_one_phase (env : Env G1 G2 GT) {w w' : World G2} {op : Op G2} (h : Dkg.run env w [op] = some w') :
    w'.state.phase = opPhase w.state.phase op ∧ w'.state.keyper = w.state.keyper := by
  obtain ⟨w1, h1, h2⟩ := (run_cons env).1 h
  cases h2
  simp only [exec, Option.map_eq_some_iff] at h1
  obtain ⟨o, ho, rfl⟩ := h1
  have sp := step_spec env _ _ _ ho
  have hp := sp.phase
  exact ⟨by cases op <;> exact hp, sp.keyper⟩

omit [AddCommGroup G2] [DecidableEq G2] in
theorem commitmentOf_kind (p : Params G2) (x : Stamped) : ∀ op ∈ commitmentOf p x, ∃ m, op = .commitment m ∧ ∃ k, eonMessage x.ev = some (k, m.eon) := by
  intro op h
  unfold commitmentOf at h
  split at h
  · next sender eon g hx =>
    split at h
    · simp only [Option.mem_toList, Option.map_eq_some_iff] at h
      obtain ⟨i, _, rfl⟩ := h
      exact ⟨_, rfl, .commitment, by rw [hx]; rfl⟩
    · simp at h
  · simp at h

omit [AddCommGroup G2] [DecidableEq G2] in
theorem evalsOf_kind (p : Params G2) (x : Stamped) : ∀ op ∈ evalsOf p x,
    ∃ m, op = .eval m ∧ m.receiver = p.own ∧ ∃ k, eonMessage x.ev = some (k, m.eon) := by
  intro op h
  unfold evalsOf at h
  split at h
  · next sender eon rs es hx =>
    split at h
    · simp only [List.mem_flatMap, List.mem_filterMap, Option.map_eq_some_iff] at h
      obtain ⟨i, _, r, _, b, _, rfl⟩ := h
      exact ⟨_, rfl, rfl, .polyEval, by rw [hx]; rfl⟩
    · simp at h
  · simp at h

omit [AddCommGroup G2] [DecidableEq G2] in
theorem accusationsOf_kind (p : Params G2) (x : Stamped) : ∀ op ∈ accusationsOf p x, ∃ m, op = .accusation m ∧ m.eon = p.eon := by
  intro op h
  unfold accusationsOf at h
  split at h
  · split at h
    · simp only [List.mem_flatMap, List.mem_filterMap, Option.map_eq_some_iff] at h
      obtain ⟨i, _, r, _, b, _, rfl⟩ := h
      exact ⟨_, rfl, rfl⟩
    · simp at h
  · simp at h

omit [AddCommGroup G2] [DecidableEq G2] in
theorem apologiesOf_kind (p : Params G2) (x : Stamped) : ∀ op ∈ apologiesOf p x, ∃ m, op = .apology m ∧ m.eon = p.eon := by
  intro op h
  unfold apologiesOf at h
  split at h
  · split at h
    · simp only [List.mem_flatMap, List.mem_filterMap, Option.map_eq_some_iff] at h
      obtain ⟨i, _, r, _, b, _, rfl⟩ := h
      exact ⟨_, rfl, rfl⟩
    · simp at h
  · simp at h

/-- The calls of one round. -/
theorem syncDKG_full {cx : Cfg G1 G2 GT R} {h t : Int} {a b : DKG G2} {eon : Eon} {ekgs : List (EKG G1 G2)} {acts : List (Action G1 G2)}
    (hr : syncDKGWithEon cx h t a eon = some (b, ekgs, acts)) :
    let pn := getPhaseAtHeight cx.phaseLength (t + 1) eon.startHeight
    let p0 := a.pure.state.phase
    let p := a.params cx eon.startHeight
    let p1 := if p0 = off ∧ pn ≥ dealing then dealing else p0
    let p2 := if p1 = dealing ∧ pn ≥ accusing then accusing else p1
    let p3 := if p2 = accusing ∧ pn ≥ apologizing then apologizing else p2
    let p4 := if p3 = apologizing ∧ pn ≥ finalized then finalized else p3
    Calls cx a ((if p0 = off ∧ pn ≥ dealing then [.start1 (cx.poly a.eon)] else []) ++
      (eon.query .commitment h).flatMap (commitmentOf p) ++ (eon.query .polyEval h).flatMap (evalsOf p) ++
      (if p1 = dealing ∧ pn ≥ accusing then [.start2] else []) ++
      (eon.query .accusation h).flatMap (accusationsOf p) ++
      (if p2 = accusing ∧ pn ≥ apologizing then [.start3] else []) ++
      (eon.query .apology h).flatMap (apologiesOf p) ++
      (if p3 = apologizing ∧ pn ≥ finalized then [.fin] else [])) b ∧ b.pure.state.phase = p4 ∧
      b.pure.state.keyper = a.pure.state.keyper ∧
      (p3 = apologizing ∧ pn ≥ finalized → ∀ res, computeResult cx.crypto b.pure.state = some res →
        ekgs = [⟨a.eon, a.keypers, newEpochKG res⟩]) := by
  intro pn p0 p p1 p2 p3 p4
  simp only [syncDKGWithEon, Option.bind_eq_bind, Option.bind_eq_some_iff, Prod.exists] at hr
  obtain ⟨d1, a1, r1, d2, r2, d3, r3, d4, a2, r4, d5, r5, d6, a3, r6, d7, r7, hr⟩ := hr
  -- the calls, one after the other
  have c1 : Calls cx a (if a.pure.state.phase = off ∧ pn ≥ dealing then _ else []) d1 := advance_calls (fun b acts => startPhase1_calls (n := pn)) r1
  have c2 := call_calls r2
  simp only [syncPolyEvals, Option.bind_eq_some_iff] at r3
  obtain ⟨l3, m3, r3⟩ := r3
  have c3 := call_calls r3
  have c4 : Calls cx d3 (if d3.pure.state.phase = dealing ∧ pn ≥ accusing then _ else []) d4 := advance_calls (fun b acts => startPhase2_calls (n := pn)) r4
  have c5 := call_calls r5
  have c6 : Calls cx d5 (if d5.pure.state.phase = accusing ∧ pn ≥ apologizing then _ else []) d6 := advance_calls (fun b acts => startPhase3_calls (n := pn)) r6
  simp only [syncApologies, Option.bind_eq_some_iff] at r7
  obtain ⟨l7, m7, r7⟩ := r7
  have c7 := call_calls r7
  rw [mapM_flatten _ _ (evalCalls_eq cx d2 eon.startHeight) _ _ m3] at c3
  rw [mapM_flatten _ _ (apologyCalls_eq cx d6 eon.startHeight) _ _ m7] at c7
  rw [show commitmentCalls cx d1 eon.startHeight = commitmentOf (d1.params cx eon.startHeight) from
    funext (commitmentCalls_eq cx d1 eon.startHeight)] at c2
  rw [show accusationCalls d4 eon.startHeight = accusationsOf (d4.params cx eon.startHeight) from
    funext (accusationCalls_eq cx d4 eon.startHeight)] at c5
  -- the phases and parameters
  have q1 : d1.pure.state.phase = p1 ∧ d1.pure.state.keyper = a.pure.state.keyper := by
    by_cases hc : a.pure.state.phase = off ∧ pn ≥ dealing
    · rw [if_pos hc] at c1
      have := run_one_phase _ c1.1
      refine ⟨this.1.trans ?_, this.2⟩
      simp only [p1, p0]
      rw [if_pos hc]
      rfl
    · rw [if_neg hc] at c1
      have := run_message_phase _ c1.1 (by simp)
      refine ⟨this.1.trans ?_, this.2⟩
      simp only [p1, p0]
      rw [if_neg hc]
  have e1 : d1.params cx eon.startHeight = p := by simp only [DKG.params, p, c1.2.eon, c1.2.len, c1.2.keypers, q1.2]
  rw [e1] at c2
  have k2 := run_message_phase _ c2.1 (by
    intro op ho
    obtain ⟨x, _, ho⟩ := List.mem_flatMap.1 ho
    obtain ⟨m, hm, _⟩ := commitmentOf_kind _ _ _ ho
    exact Or.inl ⟨m, hm⟩)
  have q2 : d2.pure.state.phase = p1 ∧ d2.pure.state.keyper = a.pure.state.keyper := ⟨k2.1.trans q1.1, k2.2.trans q1.2⟩
  have s2 := c1.2.trans c2.2
  have e2 : d2.params cx eon.startHeight = p := by simp only [DKG.params, p, s2.eon, s2.len, s2.keypers, q2.2]
  rw [e2] at c3
  have k3 := run_message_phase _ c3.1 (by
    intro op ho
    obtain ⟨x, _, ho⟩ := List.mem_flatMap.1 ho
    obtain ⟨m, hm, _⟩ := evalsOf_kind _ _ _ ho
    exact Or.inr (Or.inl ⟨m, hm⟩))
  have q3 : d3.pure.state.phase = p1 ∧ d3.pure.state.keyper = a.pure.state.keyper := ⟨k3.1.trans q2.1, k3.2.trans q2.2⟩
  have s3 := s2.trans c3.2
  rw [q3.1] at c4
  have q4 : d4.pure.state.phase = p2 ∧ d4.pure.state.keyper = a.pure.state.keyper := by
    by_cases hc : p1 = dealing ∧ pn ≥ accusing
    · rw [if_pos hc] at c4
      have := run_one_phase _ c4.1
      refine ⟨this.1.trans ?_, this.2.trans q3.2⟩
      simp only [p2]
      rw [if_pos hc]
      rfl
    · rw [if_neg hc] at c4
      have := run_message_phase _ c4.1 (by simp)
      refine ⟨this.1.trans ?_, this.2.trans q3.2⟩
      simp only [p2]
      rw [if_neg hc, q3.1]
  have s4 := s3.trans c4.2
  have e4 : d4.params cx eon.startHeight = p := by simp only [DKG.params, p, s4.eon, s4.len, s4.keypers, q4.2]
  rw [e4] at c5
  have k5 := run_message_phase _ c5.1 (by
    intro op ho
    obtain ⟨x, _, ho⟩ := List.mem_flatMap.1 ho
    obtain ⟨m, hm, _⟩ := accusationsOf_kind _ _ _ ho
    exact Or.inr (Or.inr (Or.inl ⟨m, hm⟩)))
  have q5 : d5.pure.state.phase = p2 ∧ d5.pure.state.keyper = a.pure.state.keyper := ⟨k5.1.trans q4.1, k5.2.trans q4.2⟩
  have s5 := s4.trans c5.2
  rw [q5.1] at c6
  have q6 : d6.pure.state.phase = p3 ∧ d6.pure.state.keyper = a.pure.state.keyper := by
    by_cases hc : p2 = accusing ∧ pn ≥ apologizing
    · rw [if_pos hc] at c6
      have := run_one_phase _ c6.1
      refine ⟨this.1.trans ?_, this.2.trans q5.2⟩
      simp only [p3]
      rw [if_pos hc]
      rfl
    · rw [if_neg hc] at c6
      have := run_message_phase _ c6.1 (by simp)
      refine ⟨this.1.trans ?_, this.2.trans q5.2⟩
      simp only [p3]
      rw [if_neg hc, q5.1]
  have s6 := s5.trans c6.2
  have e6 : d6.params cx eon.startHeight = p := by simp only [DKG.params, p, s6.eon, s6.len, s6.keypers, q6.2]
  rw [e6] at c7
  have k7 := run_message_phase _ c7.1 (by
    intro op ho
    obtain ⟨x, _, ho⟩ := List.mem_flatMap.1 ho
    obtain ⟨m, hm, _⟩ := apologiesOf_kind _ _ _ ho
    exact Or.inr (Or.inr (Or.inr ⟨m, hm⟩)))
  have q7 : d7.pure.state.phase = p3 ∧ d7.pure.state.keyper = a.pure.state.keyper := ⟨k7.1.trans q6.1, k7.2.trans q6.2⟩
  have c8 : Calls cx d7 (if p3 = apologizing ∧ pn ≥ finalized then [.fin] else []) b ∧ b.pure.state.phase = p4 ∧
      b.pure.state.keyper = a.pure.state.keyper ∧
      (p3 = apologizing ∧ pn ≥ finalized → ∀ res, computeResult cx.crypto b.pure.state = some res →
        ekgs = [⟨a.eon, a.keypers, newEpochKG res⟩]) := by
    rw [q7.1] at hr
    by_cases hc : p3 = apologizing ∧ pn ≥ finalized
    · rw [if_pos hc, Option.map_eq_some_iff] at hr
      obtain ⟨⟨r1, r2, r3⟩, hf, he⟩ := hr
      cases he
      have cc := finalize_calls hf
      rw [if_pos hc]
      have := run_one_phase _ cc.1
      refine ⟨cc, this.1.trans ?_, this.2.trans q7.2, fun _ res hres => ?_⟩
      · simp only [p4]
        rw [if_pos hc]
        rfl
      · unfold dkgFinalize at hf
        rw [Option.map_eq_some_iff] at hf
        obtain ⟨o, _, hf⟩ := hf
        have s7 := s6.trans c7.2
        split at hf
        · next hn => cases hf; rw [hn] at hres; cases hres
        · next res' hr' =>
          cases hf
          rw [hr'] at hres
          cases hres
          rw [s7.eon, s7.keypers]
    · rw [if_neg hc] at hr
      cases hr
      rw [if_neg hc]
      refine ⟨Calls.nil _ _, q7.1.trans ?_, q7.2, fun h => absurd h hc⟩
      simp only [p4]
      rw [if_neg hc]
  refine ⟨?_, c8.2⟩
  exact ((((((c1.append c2).append c3).append c4).append c5).append c6).append c7).append c8.1

theorem syncDKG_calls {cx : Cfg G1 G2 GT R} {h t : Int} {a b : DKG G2} {eon : Eon} {ekgs : List (EKG G1 G2)} {acts : List (Action G1 G2)}
    (hr : syncDKGWithEon cx h t a eon = some (b, ekgs, acts)) :
    let pn := getPhaseAtHeight cx.phaseLength (t + 1) eon.startHeight
    let p0 := a.pure.state.phase
    let p := a.params cx eon.startHeight
    let p1 := if p0 = off ∧ pn ≥ dealing then dealing else p0
    let p2 := if p1 = dealing ∧ pn ≥ accusing then accusing else p1
    let p3 := if p2 = accusing ∧ pn ≥ apologizing then apologizing else p2
    let p4 := if p3 = apologizing ∧ pn ≥ finalized then finalized else p3
    Calls cx a ((if p0 = off ∧ pn ≥ dealing then [.start1 (cx.poly a.eon)] else []) ++
      (eon.query .commitment h).flatMap (commitmentOf p) ++ (eon.query .polyEval h).flatMap (evalsOf p) ++
      (if p1 = dealing ∧ pn ≥ accusing then [.start2] else []) ++
      (eon.query .accusation h).flatMap (accusationsOf p) ++
      (if p2 = accusing ∧ pn ≥ apologizing then [.start3] else []) ++
      (eon.query .apology h).flatMap (apologiesOf p) ++
      (if p3 = apologizing ∧ pn ≥ finalized then [.fin] else [])) b ∧ b.pure.state.phase = p4 ∧
      b.pure.state.keyper = a.pure.state.keyper := by
  intro pn p0 p p1 p2 p3 p4
  obtain ⟨h1, h2, h3, _⟩ := syncDKG_full hr
  exact ⟨h1, h2, h3⟩

end Shutter.Decide
