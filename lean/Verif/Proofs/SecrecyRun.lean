import Verif.Proofs.Secrecy
import Verif.Proofs.DkgRun

/-! Helper lemmas: two runs of a keyper with different polynomials. -/

namespace Shutter.Dkg
open Shutter.Crypto Spec

variable {G1 G2 GT : Type}

/-- Two states that differ in the polynomial, the own evaluation and the own commitment only. -/
structure Twin (p p' : List Nat) (st st' : PureDKG G2) : Prop where
  phase : st'.phase = st.phase
  eon : st'.eon = st.eon
  num : st'.numKeypers = st.numKeypers
  thr : st'.threshold = st.threshold
  keyper : st'.keyper = st.keyper
  accs : st'.accusations = st.accusations
  apols : st'.apologies = st.apologies
  poly : (st.polynomial = none ∧ st'.polynomial = none) ∨ (st.polynomial = some p ∧ st'.polynomial = some p')
  comLen : st'.commitments.length = st.commitments.length
  com : ∀ d : Nat, d ≠ st.keyper → st'.commitments[d]? = st.commitments[d]?
  comOwn : (st'.commitments[st.keyper]?).join.isSome = (st.commitments[st.keyper]?).join.isSome
  evLen : st'.evals.length = st.evals.length
  ev : ∀ d : Nat, d ≠ st.keyper → st'.evals[d]? = st.evals[d]?
  evOwn : (st'.evals[st.keyper]?).join.isSome = (st.evals[st.keyper]?).join.isSome

variable {p p' : List Nat} {st st' : PureDKG G2}

/-- The slot of a dealer is filled in both or in none. -/
theorem slot {α : Type} {l l' : List (Option α)} {k : Nat} (len : l'.length = l.length) (off : ∀ d : Nat, d ≠ k → l'[d]? = l[d]?)
    (own : (l'[k]?).join.isSome = (l[k]?).join.isSome) (d : Nat) :
    (l[d]? = none ∧ l'[d]? = none) ∨ (l[d]? = some none ∧ l'[d]? = some none) ∨ (∃ x y, l[d]? = some (some x) ∧ l'[d]? = some (some y)) := by
  have key : (l'[d]?).join.isSome = (l[d]?).join.isSome := by
    by_cases h : d = k
    · subst h; exact own
    · rw [off d h]
  by_cases hd : d < l.length
  · rw [List.getElem?_eq_getElem hd, List.getElem?_eq_getElem (by omega : d < l'.length)] at *
    cases h1 : l[d] <;> cases h2 : l'[d] <;> simp_all
  · left; constructor <;> rw [List.getElem?_eq_none] <;> omega

theorem set_own {α : Type} {l l' : List (Option α)} {k s : Nat} {x y : α} (len : l'.length = l.length) (off : ∀ d : Nat, d ≠ k → l'[d]? = l[d]?)
    (own : (l'[k]?).join.isSome = (l[k]?).join.isSome) (h : s ≠ k → y = x) :
    (l'.set s (some y)).length = (l.set s (some x)).length ∧ (∀ d : Nat, d ≠ k → (l'.set s (some y))[d]? = (l.set s (some x))[d]?) ∧
      ((l'.set s (some y))[k]?).join.isSome = ((l.set s (some x))[k]?).join.isSome := by
  refine ⟨by simp [len], fun d hd => ?_, ?_⟩
  · rw [List.getElem?_set, List.getElem?_set, len, off d hd]
    split
    · next e => rw [h (e ▸ hd)]
    · rfl
  · rw [List.getElem?_set, List.getElem?_set, len]
    split
    · split <;> rfl
    · exact own

theorem twin_check (tw : Twin p p' st st') (e m : Nat) : checkEonAndPhase st' e m = checkEonAndPhase st e m := by
  unfold checkEonAndPhase; rw [tw.eon, tw.phase]

theorem twin_commitment (tw : Twin p p' st st') {m : PolyCommitmentMsg G2} {g : List G2} (len : g.length = m.gammas.length) (own : m.sender ≠ st.keyper → g = m.gammas)
    {r : PureDKG G2 × Bool} (h : handlePolyCommitmentMsg st m = some r) :
    ∃ r', handlePolyCommitmentMsg st' { m with gammas := g } = some r' ∧ Twin p p' r.1 r'.1 ∧ r'.2 = r.2 := by
  unfold handlePolyCommitmentMsg at h ⊢
  rw [twin_check tw]
  dsimp only
  split at h
  · next hc => rw [if_pos hc]; obtain rfl := Option.some.inj h; exact ⟨_, rfl, tw, rfl⟩
  next hc =>
  rw [if_neg hc]
  rcases slot tw.comLen tw.com tw.comOwn m.sender with ⟨h1, h2⟩ | ⟨h1, h2⟩ | ⟨x, y, h1, h2⟩
  · rw [h1] at h; cases h
  · rw [h1] at h
    rw [h2]
    dsimp only at h ⊢
    have hd : degree g = degree m.gammas := by unfold degree; rw [len]
    rw [hd, tw.thr]
    split at h
    · next hd => rw [if_pos hd]; obtain rfl := Option.some.inj h; exact ⟨_, rfl, tw, rfl⟩
    next hd =>
    rw [if_neg hd]
    obtain rfl := Option.some.inj h
    obtain ⟨s1, s2, s3⟩ := set_own (x := m.gammas) (y := g) (s := m.sender) tw.comLen tw.com tw.comOwn own
    exact ⟨_, rfl, { tw with thr := rfl, comLen := s1, com := s2, comOwn := s3 }, rfl⟩
  · rw [h1] at h; rw [h2]; obtain rfl := Option.some.inj h; exact ⟨_, rfl, tw, rfl⟩

theorem twin_eval (tw : Twin p p' st st') {m : PolyEvalMsg} {e : Int} (val : validEval e = validEval m.eval) (own : m.sender ≠ st.keyper → e = m.eval)
    {r : PureDKG G2 × Bool} (h : handlePolyEvalMsg st m = some r) :
    ∃ r', handlePolyEvalMsg st' { m with eval := e } = some r' ∧ Twin p p' r.1 r'.1 ∧ r'.2 = r.2 := by
  unfold handlePolyEvalMsg at h ⊢
  rw [twin_check tw, tw.keyper]
  dsimp only
  split at h
  · next hc => rw [if_pos hc]; obtain rfl := Option.some.inj h; exact ⟨_, rfl, tw, rfl⟩
  next hc =>
  rw [if_neg hc]
  split at h
  · next hr => rw [if_pos hr]; obtain rfl := Option.some.inj h; exact ⟨_, rfl, tw, rfl⟩
  next hr =>
  rw [if_neg hr]
  rcases slot tw.evLen tw.ev tw.evOwn m.sender with ⟨h1, h2⟩ | ⟨h1, h2⟩ | ⟨x, y, h1, h2⟩
  · rw [h1] at h; cases h
  · rw [h1] at h
    rw [h2]
    dsimp only at h ⊢
    rw [val]
    split at h
    · next hd => rw [if_pos hd]; obtain rfl := Option.some.inj h; exact ⟨_, rfl, tw, rfl⟩
    next hd =>
    rw [if_neg hd]
    obtain rfl := Option.some.inj h
    obtain ⟨s1, s2, s3⟩ := set_own (x := m.eval.toNat) (y := e.toNat) (s := m.sender) tw.evLen tw.ev tw.evOwn (fun hs => by rw [own hs])
    exact ⟨_, rfl, { tw with keyper := rfl, evLen := s1, ev := s2, evOwn := s3 }, rfl⟩
  · rw [h1] at h; rw [h2]; obtain rfl := Option.some.inj h; exact ⟨_, rfl, tw, rfl⟩

theorem handlePolyEvalMsg_keyper {m : PolyEvalMsg} {r : PureDKG G2 × Bool} (h : handlePolyEvalMsg st m = some r) : r.1.keyper = st.keyper ∧ r.1.eon = st.eon := by
  unfold handlePolyEvalMsg at h
  split at h
  · obtain rfl := Option.some.inj h; exact ⟨rfl, rfl⟩
  split at h
  · obtain rfl := Option.some.inj h; exact ⟨rfl, rfl⟩
  split at h
  · cases h
  · obtain rfl := Option.some.inj h; exact ⟨rfl, rfl⟩
  · split at h <;> (obtain rfl := Option.some.inj h; exact ⟨rfl, rfl⟩)

theorem validEval_of_lt {v : Nat} (h : v < order) : validEval (v : Int) = true := by
  unfold validEval
  rw [if_neg (by omega), if_neg (by omega)]

/-- Keypers in `J` get the same evaluations of both. -/
def Agree (J : Finset Nat) (p p' : List Nat) : Prop := ∀ j ∈ J, evalForKeyper p' j = evalForKeyper p j

theorem twin_deal {J : Finset Nat} {t : Nat} (hp : IsPoly t p) (hp' : IsPoly t p') (ag : Agree J p p') (rs : List Nat) :
    ∀ {st st' : PureDKG G2}, Twin p p' st st' → ∀ {s : PureDKG G2} {ms : List PolyEvalMsg}, dealLoop p st rs = some (s, ms) →
    ∃ s' ms', dealLoop p' st' rs = some (s', ms') ∧ Twin p p' s s' ∧ ms'.map (fun m => seenBy J (.eval m : Op G2)) = ms.map (fun m => seenBy J (.eval m : Op G2)) := by
  induction rs with
  | nil =>
    intro st st' tw s ms h
    simp only [dealLoop, Option.some.injEq, Prod.mk.injEq] at h
    obtain ⟨rfl, rfl⟩ := h
    exact ⟨_, _, rfl, tw, rfl⟩
  | cons r rs ih =>
    intro st st' tw s ms h
    rw [dealLoop] at h ⊢
    cases he : evalForKeyper p r with
    | none => rw [he] at h; cases h
    | some v =>
    have hne : p' ≠ [] := by
      intro e
      have hl : p.length = 0 := by rw [hp.1, ← hp'.1, e]; rfl
      rw [List.length_eq_zero_iff.1 hl] at he
      simp [evalForKeyper, polyEvalAt] at he
    obtain ⟨v', he'⟩ := polyEvalAt_isSome (keyperX r) hne
    have he'' : evalForKeyper p' r = some v' := he'
    rw [he] at h
    rw [he'']
    dsimp only at h ⊢
    rw [tw.keyper, tw.eon]
    split at h
    · next hr =>
      rw [if_pos hr]
      split at h
      · next st1 hm =>
        obtain ⟨r', e1, t1, ok⟩ := twin_eval tw (e := (v' : Int)) (by
          rw [validEval_of_lt (polyEvalAt_lt hp.2 he), validEval_of_lt (polyEvalAt_lt hp'.2 he')]) (fun h => absurd rfl h) hm
        obtain ⟨r1, r2⟩ := r'
        dsimp only at e1 t1 ok
        subst ok
        rw [e1]
        exact ih t1 h
      · cases h
    · next hr =>
      rw [if_neg hr]
      cases hd : dealLoop p st rs with
      | none => rw [hd] at h; cases h
      | some q =>
      obtain ⟨s0, ms0⟩ := q
      rw [hd] at h
      dsimp only at h
      obtain ⟨rfl, rfl⟩ := Prod.mk.injEq .. ▸ Option.some.inj h
      obtain ⟨s', ms', e1, t1, same⟩ := ih tw hd
      rw [e1]
      refine ⟨_, _, rfl, t1, ?_⟩
      rw [List.map_cons, List.map_cons, same]
      congr 1
      unfold seenBy
      dsimp only
      split
      · next hj =>
        have := ag r hj
        rw [he, he''] at this
        rw [Option.some.inj this]
      · rfl

theorem twin_setPhase (tw : Twin p p' st st') {q : Nat} {s : PureDKG G2} (h : setPhase st q = some s) :
    ∃ s', setPhase st' q = some s' ∧ Twin p p' s s' ∧ s.keyper = st.keyper ∧ s.numKeypers = st.numKeypers ∧ s.eon = st.eon ∧ s.accusations = st.accusations := by
  unfold setPhase at h ⊢
  rw [tw.phase]
  split at h
  · cases h
  · next hq =>
    rw [if_neg hq]
    obtain rfl := Option.some.inj h
    exact ⟨_, rfl, { tw with phase := rfl }, rfl, rfl, rfl, rfl⟩

variable [AddCommGroup G2] [DecidableEq G2] (env : Env G1 G2 GT)

theorem twin_start1 {J : Finset Nat} {t : Nat} (hp : IsPoly t p) (hp' : IsPoly t p') (ag : Agree J p p') (tw : Twin p p' st st') {o : Outcome G2}
    (h : step env st (.start1 (some p)) = some o) :
    ∃ o', step env st' (.start1 (some p')) = some o' ∧ Twin p p' o.state o'.state ∧ o'.ok = o.ok ∧ o'.out.map (seenBy J) = o.out.map (seenBy J) := by
  unfold step startPhase1Dealing at h ⊢
  dsimp only at h ⊢
  cases hs : setPhase st dealing with
  | none => rw [hs] at h; cases h
  | some s1 =>
  obtain ⟨s1', e1, t1, _⟩ := twin_setPhase tw hs
  rw [hs] at h
  rw [e1, tw.num, tw.eon, tw.keyper]
  dsimp only at h ⊢
  have t2 : Twin p p' { s1 with polynomial := some p } { s1' with polynomial := some p' } := { t1 with poly := .inr ⟨rfl, rfl⟩ }
  cases hd : dealLoop p { s1 with polynomial := some p } (List.range st.numKeypers) with
  | none => rw [hd] at h; cases h
  | some q =>
  obtain ⟨s3, ms⟩ := q
  obtain ⟨s3', ms', e3, t3, same⟩ := twin_deal hp hp' ag _ t2 hd
  rw [hd] at h
  rw [e3]
  dsimp only [Option.map_some] at h ⊢
  obtain rfl := Option.some.inj h
  refine ⟨_, rfl, t3, rfl, ?_⟩
  simp only [List.map_cons, List.map_map]
  congr 1

theorem twin_accuse (tw : Twin p p' st st') {d : Nat} (hd : d ≠ st.keyper) : shouldAccuse env st' d = shouldAccuse env st d := by
  unfold shouldAccuse
  rw [tw.ev d hd, tw.com d hd, tw.keyper, tw.thr]

theorem twin_start2 {J : Finset Nat} (tw : Twin p p' st st') {o : Outcome G2} (h : step env st .start2 = some o) :
    ∃ o', step env st' .start2 = some o' ∧ Twin p p' o.state o'.state ∧ o'.ok = o.ok ∧ o'.out.map (seenBy J) = o.out.map (seenBy J) := by
  unfold step startPhase2Accusing at h ⊢
  dsimp only at h ⊢
  cases hs : setPhase st accusing with
  | none => rw [hs] at h; cases h
  | some s1 =>
  obtain ⟨s1', e1, t1, _⟩ := twin_setPhase tw hs
  rw [hs] at h
  rw [e1]
  dsimp only [Option.map_some] at h ⊢
  obtain rfl := Option.some.inj h
  refine ⟨_, rfl, t1, rfl, ?_⟩
  dsimp only
  congr 2
  rw [t1.num, t1.keyper, t1.eon]
  apply List.filterMap_congr
  intro d _
  split
  · rfl
  · next hd => rw [twin_accuse env t1 hd]

theorem mapM_congr' {α β : Type} {f g : α → Option β} : ∀ {l : List α}, (∀ x ∈ l, f x = g x) → l.mapM f = l.mapM g := by
  intro l
  induction l with
  | nil => intro _; rfl
  | cons x xs ih =>
    intro h
    rw [List.mapM_cons, List.mapM_cons, h x (by simp), ih fun y hy => h y (by simp [hy])]

theorem twin_start3 {J : Finset Nat} (ag : Agree J p p') (tw : Twin p p' st st') (acc : ∀ a, (a, st.keyper) ∈ st.accusations → a ∈ J) {o : Outcome G2}
    (h : step env st .start3 = some o) :
    ∃ o', step env st' .start3 = some o' ∧ Twin p p' o.state o'.state ∧ o'.ok = o.ok ∧ o'.out.map (seenBy J) = o.out.map (seenBy J) := by
  unfold step startPhase3Apologizing at h ⊢
  dsimp only at h ⊢
  cases hs : setPhase st apologizing with
  | none => rw [hs] at h; cases h
  | some s1 =>
  obtain ⟨s1', e1, t1, hk, _, _, ha⟩ := twin_setPhase tw hs
  rw [hs] at h
  rw [e1]
  dsimp only [Option.map_some] at h ⊢
  rw [t1.accs, t1.keyper, t1.eon]
  rcases t1.poly with ⟨a, b⟩ | ⟨a, b⟩
  · rw [a] at h
    rw [b]
    dsimp only at h ⊢
    obtain ⟨x, hx, rfl⟩ := Option.map_eq_some_iff.1 h
    obtain ⟨y, hy, rfl⟩ := Option.map_eq_some_iff.1 hx
    exact ⟨⟨s1', true, y.map .apology⟩, by rw [hy]; rfl, t1, rfl, rfl⟩
  · rw [a] at h
    rw [b]
    dsimp only at h ⊢
    obtain ⟨x, hx, rfl⟩ := Option.map_eq_some_iff.1 h
    obtain ⟨y, hy, rfl⟩ := Option.map_eq_some_iff.1 hx
    refine ⟨⟨s1', true, y.map .apology⟩, ?_, t1, rfl, rfl⟩
    rw [(mapM_congr' (fun key hkey => ?_)).trans hy]
    · rfl
    · rw [List.mem_filter] at hkey
      have hJ : key.1 ∈ J := by
        apply acc
        rw [← ha, ← hk, ← of_decide_eq_true hkey.2]
        exact hkey.1
      rw [ag key.1 hJ]

omit [DecidableEq G2] in
theorem polyGammas_length (q : List Nat) : (polyGammas env q).length = q.length := by simp [polyGammas]

theorem twin_step {J : Finset Nat} {t : Nat} (hp : IsPoly t p) (hp' : IsPoly t p') (ag : Agree J p p') (tw : Twin p p' st st')
    (acc : ∀ a, (a, st.keyper) ∈ st.accusations → a ∈ J) {op : Op G2} {o : Outcome G2} (h : step env st (withPoly env st.keyper p op) = some o) :
    ∃ o', step env st' (withPoly env st.keyper p' op) = some o' ∧ Twin p p' o.state o'.state ∧ o'.ok = o.ok ∧ o'.out.map (seenBy J) = o.out.map (seenBy J) := by
  cases op with
  | start1 q =>
    cases q with
    | some q => exact twin_start1 env hp hp' ag tw h
    | none =>
      simp only [withPoly, step, startPhase1Dealing] at h ⊢
      cases hs : setPhase st dealing with
      | none => rw [hs] at h; cases h
      | some s1 =>
      obtain ⟨s1', e1, t1, _⟩ := twin_setPhase tw hs
      rw [hs] at h
      rw [e1]
      obtain rfl := Option.some.inj h
      exact ⟨_, rfl, t1, rfl, rfl⟩
  | start2 => exact twin_start2 env tw h
  | start3 => exact twin_start3 env ag tw acc h
  | fin =>
    simp only [withPoly, step, finalize] at h ⊢
    cases hs : setPhase st finalized with
    | none => rw [hs] at h; cases h
    | some s1 =>
    obtain ⟨s1', e1, t1, _⟩ := twin_setPhase tw hs
    rw [hs] at h
    rw [e1]
    obtain rfl := Option.some.inj h
    exact ⟨_, rfl, t1, rfl, rfl⟩
  | commitment m =>
    obtain ⟨m1, hm1, hm2⟩ : ∃ m1, withPoly env st.keyper p (.commitment m) = .commitment m1 ∧
        ∃ g, withPoly env st.keyper p' (.commitment m) = .commitment { m1 with gammas := g } ∧ g.length = m1.gammas.length ∧ (m1.sender ≠ st.keyper → g = m1.gammas) := by
      unfold withPoly
      dsimp only
      by_cases hk : m.sender = st.keyper
      · rw [if_pos hk, if_pos hk]
        exact ⟨_, rfl, _, rfl, by simp only [polyGammas_length]; rw [hp.1, hp'.1], fun h => absurd hk h⟩
      · rw [if_neg hk, if_neg hk]
        exact ⟨_, rfl, m.gammas, rfl, rfl, fun _ => rfl⟩
    obtain ⟨g, e, len, own⟩ := hm2
    rw [hm1] at h
    rw [e]
    simp only [step] at h ⊢
    cases hc : handlePolyCommitmentMsg st m1 with
    | none => rw [hc] at h; cases h
    | some r =>
    obtain ⟨r', e1, t1, ok⟩ := twin_commitment tw len own hc
    rw [hc] at h
    rw [e1]
    obtain rfl := Option.some.inj h
    exact ⟨_, rfl, t1, ok, rfl⟩
  | eval m =>
    simp only [withPoly, step] at h ⊢
    cases hc : handlePolyEvalMsg st m with
    | none => rw [hc] at h; cases h
    | some r =>
    obtain ⟨r', e1, t1, ok⟩ := twin_eval tw (e := m.eval) rfl (fun _ => rfl) hc
    rw [hc] at h
    rw [show ({ m with eval := m.eval } : PolyEvalMsg) = m from rfl] at e1
    rw [e1]
    obtain rfl := Option.some.inj h
    exact ⟨_, rfl, t1, ok, rfl⟩
  | accusation m =>
    simp only [withPoly, step] at h ⊢
    obtain rfl := Option.some.inj h
    refine ⟨_, rfl, ?_⟩
    unfold handleAccusationMsg
    rw [twin_check tw, tw.accs]
    split
    · exact ⟨tw, rfl, rfl⟩
    split
    · exact ⟨tw, rfl, rfl⟩
    · exact ⟨{ tw with accs := rfl }, rfl, rfl⟩
  | apology m =>
    simp only [withPoly, step] at h ⊢
    obtain rfl := Option.some.inj h
    refine ⟨_, rfl, ?_⟩
    unfold handleApologyMsg
    rw [twin_check tw, tw.apols]
    split
    · exact ⟨tw, rfl, rfl⟩
    split
    · exact ⟨tw, rfl, rfl⟩
    split
    · exact ⟨tw, rfl, rfl⟩
    · exact ⟨{ tw with apols := rfl }, rfl, rfl⟩

/-- What was accepted stays accepted. -/
theorem run_accepted : ∀ (ops : List (Op G2)) {w w' : World G2}, run env w ops = some w' → ∀ op ∈ w.accepted, op ∈ w'.accepted := by
  intro ops w w' h op hop
  refine run_induct env (fun w => op ∈ w.accepted) ops w w' hop ?_ h
  intro a x b _ ha hb
  simp only [exec, Option.map_eq_some_iff] at hb
  obtain ⟨o, _, rfl⟩ := hb
  dsimp only
  split
  · exact List.mem_append_left _ ha
  · exact ha

theorem run_cons (w : World G2) (op : Op G2) (ops : List (Op G2)) : run env w (op :: ops) = (exec env w op).bind fun v => run env v ops := rfl

theorem twin_run {J : Finset Nat} {t e n th k : Nat} (hp : IsPoly t p) (hp' : IsPoly t p') (ag : Agree J p p') : ∀ (ops : List (Op G2)) {w w' v : World G2},
    LogInv e n th k w → Twin p p' w.state w'.state → w'.emitted.map (seenBy J) = w.emitted.map (seenBy J) →
    run env w (ops.map (withPoly env k p)) = some v → (∀ m, Op.accusation m ∈ v.accepted → m.accused = k → m.accuser ∈ J) →
    ∃ v', run env w' (ops.map (withPoly env k p')) = some v' ∧ Twin p p' v.state v'.state ∧ v'.emitted.map (seenBy J) = v.emitted.map (seenBy J) := by
  intro ops
  induction ops with
  | nil =>
    intro w w' v inv tw em h acc
    obtain rfl := Option.some.inj h
    exact ⟨w', rfl, tw, em⟩
  | cons op ops ih =>
    intro w w' v inv tw em h acc
    rw [List.map_cons, run_cons] at h ⊢
    cases hx : exec env w (withPoly env k p op) with
    | none => rw [hx] at h; cases h
    | some w1 =>
    rw [hx] at h
    have h' : run env w1 (ops.map (withPoly env k p)) = some v := h
    have inv1 := logInv_exec env e n th k w w1 _ inv hx
    have hx' := hx
    simp only [exec, Option.map_eq_some_iff] at hx
    obtain ⟨o, ho, rfl⟩ := hx
    have hk := inv.keyper
    have accw : ∀ a, (a, w.state.keyper) ∈ w.state.accusations → a ∈ J := by
      intro a ha
      rw [hk] at ha
      obtain ⟨m, hm, rfl, hacc⟩ := (inv.accus a k).1 ha
      refine acc m (run_accepted env _ h' _ ?_) hacc
      dsimp only
      split
      · exact List.mem_append_left _ hm
      · exact hm
    rw [← hk] at ho
    obtain ⟨o', e1, t1, ok, same⟩ := twin_step env hp hp' ag tw accw ho
    rw [hk] at e1
    have : exec env w' (withPoly env k p' op) = some ⟨o'.state, if o'.ok then w'.accepted ++ [withPoly env k p' op] else w'.accepted, w'.emitted ++ o'.out⟩ := by
      simp only [exec, e1, Option.map_some]
    rw [this]
    exact ih inv1 t1 (by simp only [List.map_append, em, same]) h' acc

end Shutter.Dkg
