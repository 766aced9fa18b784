import Verif.Spec.Once
import Verif.Proofs.Appeals

/-! # Nothing is decided twice -/

set_option linter.unusedSectionVars false

namespace Shutter.Decide
open Shutter.Crypto Shutter.Dkg Shutter.Observe Shutter.Main Shutter.GoConfig
open Shutter.Events (Codecs)
open Shutter.Sol (World BatchConfig two64)

variable {G1 G2 GT R : Type}

theorem accusedBy_append (a b : List (Action G1 G2)) : accusedBy (a ++ b) = accusedBy a ++ accusedBy b := List.filterMap_append ..
theorem appealedBy_append (a b : List (Action G1 G2)) : appealedBy (a ++ b) = appealedBy a ++ appealedBy b := List.filterMap_append ..

theorem accusedBy_filter (l : List (Action G1 G2)) : accusedBy l = accusedBy (l.filter (fun a => a.kind = .accuse)) := by
  unfold accusedBy; rw [List.filterMap_filter]; congr 1; funext a; cases a <;> rfl
theorem appealedBy_filter (l : List (Action G1 G2)) : appealedBy l = appealedBy (l.filter (fun a => a.kind = .appeal)) := by
  unfold appealedBy; rw [List.filterMap_filter]; congr 1; funext a; cases a <;> rfl
theorem votesOf_filter (l : List (Action G1 G2)) : votesOf l = votesOf (l.filter (fun a => a.kind = .vote)) := by
  unfold votesOf; rw [List.filterMap_filter]; congr 1; funext a; cases a <;> rfl
theorem checkInsOf_filter (l : List (Action G1 G2)) : checkInsOf l = checkInsOf (l.filter (fun a => a.kind = .checkIn)) := by
  unfold checkInsOf; rw [List.filterMap_filter]; congr 1; funext a; cases a <;> rfl

/-! ### Accusations -/

theorem accuseStep_by {cx : Cfg G1 G2 GT R} {mc : MainChain} {d d' : Decider G1 G2} {h : Nat} (hs : accuseStep cx mc d h = some d') :
    accusedBy d'.actions = accusedBy d.actions ∨ accusedBy d'.actions = accusedBy d.actions ++ [h] := by
  unfold accuseStep at hs
  split at hs
  · cases hs; exact .inl rfl
  · split at hs
    · cases hs; exact .inl rfl
    · split at hs
      · cases hs; exact .inl rfl
      · split at hs
        · cases hs; exact .inl rfl
        · split at hs
          · cases hs; exact .inl rfl
          · split at hs
            · cases hs
            · cases hs; exact .inl rfl
            · cases hs
              right
              rw [Decider.add, accusedBy_append]
              rfl

theorem accuseLoop_by {cx : Cfg G1 G2 GT R} {mc : MainChain} : ∀ (n lo : Nat) (d d' : Decider G1 G2),
    (List.range' lo n).foldlM (accuseStep cx mc) d = some d' →
    ∃ new, accusedBy d'.actions = accusedBy d.actions ++ new ∧ new.Pairwise (· < ·) ∧ ∀ h ∈ new, lo ≤ h ∧ h < lo + n := by
  intro n
  induction n with
  | zero =>
    intro lo d d' h
    simp only [List.range'_zero, List.foldlM_nil, Option.pure_def, Option.some.injEq] at h
    subst h
    exact ⟨[], by simp, by simp, by simp⟩
  | succ n ih =>
    intro lo d d' h
    rw [List.range'_succ, List.foldlM_cons] at h
    simp only [Option.bind_eq_bind, Option.bind_eq_some_iff] at h
    obtain ⟨d1, h1, h2⟩ := h
    obtain ⟨new, e1, e2, e3⟩ := ih _ _ _ h2
    rcases accuseStep_by h1 with g | g
    · exact ⟨new, by rw [e1, g], e2, fun x hx => by have := e3 x hx; omega⟩
    · refine ⟨lo :: new, by rw [e1, g]; simp, ?_, ?_⟩
      · rw [List.pairwise_cons]
        exact ⟨fun x hx => by have := e3 x hx; omega, e2⟩
      · intro x hx
        rcases List.mem_cons.mp hx with rfl | hx
        · omega
        · have := e3 x hx; omega

variable [AddCommGroup G1] [AddCommGroup G2] [DecidableEq G2] [DecidableEq GT]
variable {cx : Cfg G1 G2 GT R} {codecs : Codecs} {chain : Observe.Chain} {E : Sol.Env} {fd : Nat}

/-- No actions of these kinds come from the earlier stages. -/
theorem Stages.none_before {sh : Observe.Shutter} {mc : MainChain} {keys : List Nat} {st st' : State G1 G2}
    {acts : List (Action G1 G2)} {dkg sync pub sigs exec app acc : Decider G1 G2} {ekgs : List (EKG G1 G2)}
    (g : Stages cx sh mc keys st st' acts dkg sync pub sigs exec app acc ekgs) :
    exec.actions.filter (fun a => a.kind = .appeal) = [] ∧ app.actions.filter (fun a => a.kind = .accuse) = [] := by
  constructor
  · rw [(exec_stage g.hexec).1.filter_ne (by decide), (handleSigs_stage g.hsigs).1, (publish_emits g.hpub).1.filter_ne (by decide),
      (syncEKGs_stage g.hsync).1.filter_ne (by decide), List.filter_eq_nil_iff]
    intro a ha
    rcases g.hkind a ha with h | h | h <;> rw [h] <;> decide
  · rw [(appeal_stage g.happ).1.filter_ne (by decide), (exec_stage g.hexec).1.filter_ne (by decide), (handleSigs_stage g.hsigs).1,
      (publish_emits g.hpub).1.filter_ne (by decide), (syncEKGs_stage g.hsync).1.filter_ne (by decide), List.filter_eq_nil_iff]
    intro a ha
    rcases g.hkind a ha with h | h | h <;> rw [h] <;> decide

theorem accused_round {sh : Observe.Shutter} {mc : MainChain} {keys : List Nat} {st st' : State G1 G2} {acts : List (Action G1 G2)}
    (hd : decideStep cx sh mc keys st = some (st', acts)) :
    (st'.halfStepsChecked = st.halfStepsChecked ∧ accusedBy acts = []) ∨
    (st'.halfStepsChecked = mc.numHalfSteps ∧ (accusedBy acts).Pairwise (· < ·) ∧
      ∀ h ∈ accusedBy acts, st.halfStepsChecked ≤ h ∧ h < mc.numHalfSteps) := by
  rcases decide_stages hd with ⟨rfl, rfl⟩ | ⟨dkg, sync, pub, sigs, exec, app, acc, ekgs, g⟩
  · exact .inl ⟨rfl, rfl⟩
  · right
    refine ⟨by rw [g.final]; show acc.st.halfStepsChecked = _; rw [(accuse_stage g.hacc).2], ?_⟩
    have h := g.hacc
    unfold maybeAccuse at h
    rw [Option.map_eq_some_iff] at h
    obtain ⟨d1, h, hd1⟩ := h
    obtain ⟨new, e1, e2, e3⟩ := accuseLoop_by _ _ _ _ h
    rw [accusedBy_filter app.actions, g.none_before.2] at e1
    replace e1 : accusedBy d1.actions = new := by rw [e1]; rfl
    have : accusedBy acts = new := by
      rw [g.hacts, ← hd1]
      exact e1
    rw [this]
    refine ⟨e2, fun x hx => ?_⟩
    have := e3 x hx
    rw [g.checked] at this
    omega

theorem half_le {mc mc' : MainChain} {hist hist' : Nat → World} (hf : Follows E (mc, hist) (mc', hist')) (o : Observed E fd false mc hist) :
    mc.numHalfSteps ≤ mc'.numHalfSteps := by
  obtain ⟨o', f2, f3⟩ := follows_spec hf o
  rw [Main.Props.C56_half_steps o, Main.Props.C56_half_steps o', ← f3 _ (le_refl _)]
  exact Sol.halfSteps_later (o'.chain.plater f2 o'.current)

theorem life_accused {s : Observe.Shutter} {st : State G1 G2} {mc : MainChain} {hist : Nat → World}
    {log : List (MainChain × List (Action G1 G2))} (l : Life cx codecs chain E fd s st mc hist log) :
    (log.flatMap (fun e => accusedBy e.2)).Pairwise (· < ·) ∧
    (∀ h ∈ log.flatMap (fun e => accusedBy e.2), h < st.halfStepsChecked) ∧ st.halfStepsChecked ≤ mc.numHalfSteps := by
  induction l with
  | init _ => exact ⟨by simp, by simp, Nat.zero_le _⟩
  | @round s s' st st' mc mc' hist hist' log ys keys acts l _ _ hf _ _ hd ih =>
    obtain ⟨i1, i2, i3⟩ := ih
    have hle := half_le hf (life_observed l).1
    rw [List.flatMap_append, List.flatMap_cons, List.flatMap_nil, List.append_nil]
    rcases accused_round hd with ⟨h1, h2⟩ | ⟨h1, h2, h3⟩
    · simp only [h1, h2, List.append_nil]
      exact ⟨i1, i2, by omega⟩
    · rw [h1]
      refine ⟨?_, ?_, le_refl _⟩
      · rw [List.pairwise_append]
        refine ⟨i1, h2, fun a ha b hb => ?_⟩
        have := i2 a ha
        have := (h3 b hb).1
        omega
      · intro b hb
        rw [List.mem_append] at hb
        rcases hb with hb | hb
        · have := i2 b hb; omega
        · exact (h3 b hb).2
  | @restart s st mc hist log forget l ih =>
    have : (loadState s st).halfStepsChecked = st.halfStepsChecked := by unfold loadState; split <;> rfl
    simp only [this]
    exact ih

/-! ### Appeals -/

omit [AddCommGroup G1] [AddCommGroup G2] [DecidableEq G2] in
theorem appealStep_by {mc : MainChain} {d d' : Decider G1 G2} {k : Nat} (hs : appealStep mc d k = some d') :
    (appealedBy d'.actions = appealedBy d.actions ∧ d'.st.pendingAppeals = d.st.pendingAppeals) ∨
    ∃ acc, mc.accusations k = some acc ∧ acc.appealed = false ∧ acc.halfStep ∉ d.st.pendingAppeals ∧
      appealedBy d'.actions = appealedBy d.actions ++ [acc.halfStep] ∧
      d'.st.pendingAppeals = d.st.pendingAppeals ++ [acc.halfStep] := by
  unfold appealStep at hs
  split at hs
  · cases hs; exact .inl ⟨rfl, rfl⟩
  · next acc hacc =>
    split at hs
    · cases hs; exact .inl ⟨rfl, rfl⟩
    · next h1 =>
      split at hs
      · cases hs; exact .inl ⟨rfl, rfl⟩
      · next h2 =>
        split at hs
        · cases hs; exact .inl ⟨rfl, rfl⟩
        · split at hs
          · cases hs; exact .inl ⟨rfl, rfl⟩
          · split at hs
            · cases hs; exact .inl ⟨rfl, rfl⟩
            · split at hs
              · cases hs
              · cases hs; exact .inl ⟨rfl, rfl⟩
              · rw [Option.map_eq_some_iff] at hs
                obtain ⟨cs, _, rfl⟩ := hs
                refine .inr ⟨acc, hacc, by simpa using h1, h2, ?_, rfl⟩
                rw [Decider.add, appealedBy_append]
                rfl

/-- The appeals of the keyper: pending, or seen. -/
def AppealsKnown (mc : MainChain) (pending done : List Nat) : Prop :=
  done.Nodup ∧ ∀ h ∈ done, h ∈ pending ∨ ∃ acc, mc.accusations h = some acc ∧ acc.appealed = true

theorem appealLoop_by {mc : MainChain} (hkey : ∀ k acc, mc.accusations k = some acc → acc.halfStep = k) (past : List Nat) :
    ∀ (keys : List Nat) (d d' : Decider G1 G2),
    keys.foldlM (appealStep mc) d = some d' → AppealsKnown mc d.st.pendingAppeals (past ++ appealedBy d.actions) →
    AppealsKnown mc d'.st.pendingAppeals (past ++ appealedBy d'.actions) := by
  intro keys d d' h hp
  refine foldlM_option_inv (fun x : Decider G1 G2 => AppealsKnown mc x.st.pendingAppeals (past ++ appealedBy x.actions)) _ ?_ _ _ _ h hp
  intro b k b' hb hp
  rcases appealStep_by hb with ⟨h1, h2⟩ | ⟨acc, h1, h2, h3, h4, h5⟩
  · rw [h1, h2]; exact hp
  · rw [h4, h5, ← List.append_assoc]
    have hk := hkey _ _ h1
    refine ⟨?_, ?_⟩
    · rw [List.nodup_append]
      refine ⟨hp.1, by simp, ?_⟩
      rintro x hx y hy rfl
      rw [List.mem_singleton] at hy
      subst hy
      rcases hp.2 _ hx with hm | ⟨acc', hm, ha⟩
      · exact h3 hm
      · rw [hk, h1] at hm; cases hm; rw [h2] at ha; cases ha
    · intro x hx
      rw [List.mem_append, List.mem_singleton] at hx
      rcases hx with hx | rfl
      · exact (hp.2 x hx).imp_left (List.mem_append_left _)
      · exact .inl (by simp)

theorem life_appealed {s : Observe.Shutter} {st : State G1 G2} {mc : MainChain} {hist : Nat → World}
    {log : List (MainChain × List (Action G1 G2))} (l : Life cx codecs chain E fd s st mc hist log) :
    AppealsKnown mc st.pendingAppeals (log.flatMap (fun e => appealedBy e.2)) := by
  induction l with
  | init _ => exact ⟨by simp, by simp⟩
  | @round s s' st st' mc mc' hist hist' log ys keys acts l _ _ hf hk1 hk2 hd ih =>
    have o := (life_observed l).1
    obtain ⟨o', f2, f3⟩ := follows_spec hf o
    have hkey : ∀ k acc, mc'.accusations k = some acc → acc.halfStep = k :=
      fun k acc h => ((Main.Props.C57_accusations o' k).2 acc h).1
    have ih' : AppealsKnown mc' st.pendingAppeals (log.flatMap (fun e => appealedBy e.2)) := by
      refine ⟨ih.1, fun h hh => (ih.2 h hh).imp_right ?_⟩
      rintro ⟨acc, ha, hb⟩
      have h1 := Main.Props.C57_accusations o h
      have h2 := Main.Props.C57_accusations o' h
      have q1 : ((hist mc.currentBlock).slasher.accusations h).accused = true := by
        rw [← Bool.not_eq_false, ← h1.1, ha]; simp
      have q2 : ((hist mc.currentBlock).slasher.accusations h).appealed = true := by
        rw [← (h1.2 acc ha).2.2.1]; exact hb
      rw [← f3 _ (le_refl _)] at q1 q2
      obtain ⟨q3, q4⟩ := appealed_later' (o'.chain.plater f2 o'.current) ⟨q1, q2⟩
      cases hx : mc'.accusations h with
      | none => rw [h2.1.mp hx] at q3; cases q3
      | some acc' => exact ⟨acc', rfl, by rw [(h2.2 acc' hx).2.2.1]; exact q4⟩
    rw [List.flatMap_append, List.flatMap_cons, List.flatMap_nil, List.append_nil]
    rcases decide_stages hd with ⟨rfl, rfl⟩ | ⟨dkg, sync, pub, sigs, exec, app, acc, ekgs, g⟩
    · simpa [appealedBy] using ih'
    · have hst' : st'.pendingAppeals = app.st.pendingAppeals := by
        rw [g.final]; show acc.st.pendingAppeals = _; rw [(accuse_stage g.hacc).2]
      have hst : exec.st.pendingAppeals = st.pendingAppeals := by
        rw [(exec_stage g.hexec).2, (handleSigs_stage g.hsigs).2, (publish_emits g.hpub).2]
        simp only
        rw [(syncEKGs_stage g.hsync).2]
        obtain ⟨_, _, _, _, _, h⟩ := g.hdkg
        rw [h]
      have hacts : appealedBy acts = appealedBy app.actions := by
        rw [g.hacts, appealedBy_filter, (accuse_stage g.hacc).1.filter_ne (by decide), ← appealedBy_filter]
      have hnone : appealedBy exec.actions = [] := by
        rw [appealedBy_filter, g.none_before.1]; rfl
      rw [hst', hacts]
      refine appealLoop_by hkey _ _ _ _ g.happ ?_
      show AppealsKnown mc' (exec.st.pendingAppeals.filter _) (_ ++ appealedBy exec.actions)
      rw [hnone, List.append_nil, hst]
      refine ⟨ih'.1, fun h hh => ?_⟩
      rcases ih'.2 h hh with hp | hp
      · by_cases hc : keys.any (fun k => (mc'.accusations k).any (fun a => h == a.halfStep && a.appealed)) = true
        · right
          simp only [List.any_eq_true, Option.any_eq_true, Bool.and_eq_true, beq_iff_eq] at hc
          obtain ⟨k, _, a, ha, he, hap⟩ := hc
          have := hkey _ _ ha
          exact ⟨a, by rw [he, this]; exact ha, hap⟩
        · left
          rw [List.mem_filter]
          exact ⟨hp, by simpa using hc⟩
      · exact .inr hp
  | @restart s st mc hist log forget l ih =>
    have : (loadState s st).pendingAppeals = st.pendingAppeals := by unfold loadState; split <;> rfl
    simp only [this]
    exact ih

/-! ### Half steps -/

theorem Steady.life {s₀ s : Observe.Shutter} {st₀ st : State G1 G2} {mc₀ mc : MainChain} {hist₀ hist : Nat → World}
    {log₀ log : List (MainChain × List (Action G1 G2))} (l : Life cx codecs chain E fd s₀ st₀ mc₀ hist₀ log₀)
    (h : Steady cx codecs chain E s₀ st₀ mc₀ hist₀ s st mc hist log) : Life cx codecs chain E fd s st mc hist (log₀ ++ log) := by
  induction h with
  | start => simpa using l
  | round _ h1 h2 h3 h4 h5 h6 ih => rw [← List.append_assoc]; exact .round ih h1 h2 h3 h4 h5 h6
  | @restart s st mc hist log _ ih =>
    have := Life.restart false ih
    have e : (loadState s st).pendingHalfStep = st.pendingHalfStep := by unfold loadState; split <;> rfl
    simp only [Bool.false_eq_true, if_false] at this
    rw [← e] at this
    exact this

/-- The half steps decided on: done, or pending. -/
def HalfStepsKnown (mc : MainChain) (pending : Option Nat) (done : List Nat) : Prop :=
  done.Pairwise (· < ·) ∧ ∀ h ∈ done, h < mc.numHalfSteps ∨ ∃ p, pending = some p ∧ h ≤ p

theorem halfSteps_round {sh : Observe.Shutter} {mc : MainChain} {keys : List Nat} {st st' : State G1 G2} {acts : List (Action G1 G2)}
    (hd : decideStep cx sh mc keys st = some (st', acts)) {done : List Nat} (hk : HalfStepsKnown mc st.pendingHalfStep done) :
    HalfStepsKnown mc st'.pendingHalfStep (done ++ halfStepsOf acts) := by
  rcases decide_stages hd with ⟨rfl, rfl⟩ | ⟨dkg, sync, pub, sigs, exec, app, acc, ekgs, g⟩
  · simpa [halfStepsOf] using hk
  · have hst' : st'.pendingHalfStep = exec.st.pendingHalfStep := by
      rw [g.final]; show acc.st.pendingHalfStep = _; rw [(accuse_stage g.hacc).2]; show app.st.pendingHalfStep = _; rw [(appeal_stage g.happ).2]
    have hst : sigs.st.pendingHalfStep = st.pendingHalfStep := by
      rw [(handleSigs_stage g.hsigs).2, (publish_emits g.hpub).2]
      simp only
      rw [(syncEKGs_stage g.hsync).2]
      obtain ⟨_, _, _, _, _, h⟩ := g.hdkg
      rw [h]
    have hsig : sigs.actions.filter (fun a => a.kind = .exec) = [] := by
      rw [(handleSigs_stage g.hsigs).1, (publish_emits g.hpub).1.filter_ne (by decide), (syncEKGs_stage g.hsync).1.filter_ne (by decide),
        List.filter_eq_nil_iff]
      intro a ha
      rcases g.hkind a ha with h | h | h <;> rw [h] <;> simp
    have hacts : halfStepsOf acts = halfStepsOf (exec.actions.filter (fun a => a.kind = .exec)) := by
      rw [halfStepsOf_filter, g.filter .exec]
    rw [hst', hacts]
    have h := g.hexec
    unfold maybeExecuteBatch at h
    simp only [Option.bind_eq_bind, Option.bind_eq_some_iff] at h
    obtain ⟨config, _, h⟩ := h
    split at h
    · cases h
      rw [hsig, hst]
      simpa [halfStepsOf] using hk
    · simp only [Option.bind_eq_some_iff] at h
      obtain ⟨_, _, h⟩ := h
      have hpend : HalfStepsKnown mc (stillPending mc.numHalfSteps sigs.st.pendingHalfStep) done := by
        refine ⟨hk.1, fun x hx => ?_⟩
        rcases hk.2 x hx with h1 | ⟨p, h1, h2⟩
        · exact .inl h1
        · rw [hst, h1]
          unfold stillPending
          simp only
          split
          · left; omega
          · exact .inr ⟨p, rfl, h2⟩
      split at h
      · cases h
        simp only
        rw [hsig]
        simpa [halfStepsOf] using hpend
      · next hnone =>
        have hno : stillPending mc.numHalfSteps sigs.st.pendingHalfStep = none := by simpa using hnone
        rw [hno] at hpend h
        obtain ⟨_, new, g1, _, g3, g4⟩ := executeLoop_stage h
        simp only at g1 g3 g4
        have hall : ∀ (j : Nat) a, new[j]? = some a → a.halfStep? = some (mc.numHalfSteps + j) := by
          intro j a hj
          obtain ⟨p, hp⟩ := g3 j a hj
          obtain ⟨_, _, _, _, _, _, k4⟩ := halfStep_turn hp
          exact k4.halfStep
        have hex : exec.actions.filter (fun a => a.kind = .exec) = new := by
          rw [g1, List.filter_append, hsig, List.nil_append, List.filter_eq_self]
          intro a ha
          obtain ⟨j, hj⟩ := List.getElem?_of_mem ha
          simpa using kind_of_halfStep (hall j a hj)
        have hrange : ∀ (l : List (Action G1 G2)) (n : Nat), (∀ (j : Nat) a, l[j]? = some a → a.halfStep? = some (n + j)) →
            halfStepsOf l = List.range' n l.length := by
          intro l
          induction l with
          | nil => intro n _; rfl
          | cons x l ih =>
            intro n hl
            have h0 := hl 0 x rfl
            have := ih (n + 1) (fun j a hj => by rw [hl (j + 1) a (by simpa using hj)]; congr 1; omega)
            unfold halfStepsOf at this ⊢
            rw [List.filterMap_cons, h0, this, List.length_cons, List.range'_succ]
            rfl
        rw [hex, hrange new _ hall]
        have hdone : ∀ x ∈ done, x < mc.numHalfSteps := by
          intro x hx
          rcases hpend.2 x hx with h1 | ⟨p, h1, _⟩
          · exact h1
          · cases h1
        refine ⟨?_, ?_⟩
        · rw [List.pairwise_append]
          refine ⟨hpend.1, List.pairwise_lt_range', fun a ha b hb => ?_⟩
          have := hdone a ha
          rw [List.mem_range'_1] at hb
          omega
        · intro x hx
          rw [List.mem_append] at hx
          rcases hx with hx | hx
          · exact .inl (hdone x hx)
          · rw [List.mem_range'_1] at hx
            right
            rw [g4, if_neg (by omega)]
            exact ⟨_, rfl, by omega⟩

theorem steady_halfSteps {s₀ s : Observe.Shutter} {st₀ st : State G1 G2} {mc₀ mc : MainChain} {hist₀ hist : Nat → World}
    {log₀ log : List (MainChain × List (Action G1 G2))} (l : Life cx codecs chain E fd s₀ st₀ mc₀ hist₀ log₀)
    (h : Steady cx codecs chain E s₀ st₀ mc₀ hist₀ s st mc hist log) :
    HalfStepsKnown mc st.pendingHalfStep (log.flatMap (fun e => halfStepsOf e.2)) := by
  induction h with
  | start => exact ⟨by simp, by simp⟩
  | round h1 _ _ hf _ _ hd ih =>
    have hle := half_le hf (life_observed (h1.life l)).1
    rw [List.flatMap_append, List.flatMap_cons, List.flatMap_nil, List.append_nil]
    refine halfSteps_round hd ⟨ih.1, fun x hx => ?_⟩
    rcases ih.2 x hx with h | h
    · left; omega
    · exact .inr h
  | @restart s st mc hist log _ ih =>
    have e : (loadState s st).pendingHalfStep = st.pendingHalfStep := by unfold loadState; split <;> rfl
    rw [e]; exact ih

/-! ### Check-in and votes -/

theorem first_round {sh : Observe.Shutter} {mc : MainChain} {keys : List Nat} {st st' : State G1 G2} {acts : List (Action G1 G2)}
    (hd : decideStep cx sh mc keys st = some (st', acts)) :
    ((st'.checkInMessageSent = st.checkInMessageSent ∧ checkInsOf acts = []) ∨
      (st.checkInMessageSent = false ∧ st'.checkInMessageSent = true ∧ checkInsOf acts = [()])) ∧
    ((st'.lastSentBatchConfigIndex = st.lastSentBatchConfigIndex ∧ votesOf acts = []) ∨
      ∃ i, st.lastSentBatchConfigIndex < i ∧ st'.lastSentBatchConfigIndex = i ∧ votesOf acts = [i]) := by
  rcases decide_stages hd with ⟨rfl, rfl⟩ | ⟨dkg, sync, pub, sigs, exec, app, acc, ekgs, g⟩
  · exact ⟨.inl ⟨rfl, rfl⟩, .inl ⟨rfl, rfl⟩⟩
  · have hst : st'.checkInMessageSent = dkg.st.checkInMessageSent ∧ st'.lastSentBatchConfigIndex = dkg.st.lastSentBatchConfigIndex := by
      rw [g.final, (accuse_stage g.hacc).2, (appeal_stage g.happ).2, (exec_stage g.hexec).2, (handleSigs_stage g.hsigs).2,
        (publish_emits g.hpub).2]
      simp only
      rw [(syncEKGs_stage g.hsync).2]
      exact ⟨rfl, rfl⟩
    obtain ⟨k1, x, y, z, k2⟩ := decideDKGs_stage g.hfirst
    have hc : checkInsOf acts = checkInsOf (maybeSendBatchConfig sh mc (maybeSendCheckIn cx sh ⟨st, []⟩)).actions := by
      rw [checkInsOf_filter, g.filter .checkIn]
      simp only
      rw [k1.filter_ne (by decide), ← checkInsOf_filter]
    have hv : votesOf acts = votesOf (maybeSendBatchConfig sh mc (maybeSendCheckIn cx sh ⟨st, []⟩)).actions := by
      rw [votesOf_filter, g.filter .vote]
      simp only
      rw [k1.filter_ne (by decide), ← votesOf_filter]
    rw [hc, hv, hst.1, hst.2, k2]
    simp only
    have h1 : (maybeSendCheckIn cx sh ⟨st, []⟩ = ⟨st, []⟩) ∨ st.checkInMessageSent = false ∧
        maybeSendCheckIn cx sh ⟨st, []⟩ = ⟨{ st with checkInMessageSent := true }, [.checkIn]⟩ := by
      unfold maybeSendCheckIn
      split_ifs with a b c
      · exact .inl rfl
      · exact .inl rfl
      · exact .inr ⟨by simpa using a, rfl⟩
      · exact .inl rfl
    have h2 : ∀ d : Decider G1 G2, maybeSendBatchConfig sh mc d = d ∨ ∃ i a b c, d.st.lastSentBatchConfigIndex < i ∧
        maybeSendBatchConfig sh mc d = ⟨{ d.st with lastSentBatchConfigIndex := i }, d.actions ++ [.batchConfig a b c i]⟩ := by
      intro d
      unfold maybeSendBatchConfig
      split
      · exact .inl rfl
      · simp only
        split
        · exact .inl rfl
        · next hlt =>
          split
          · exact .inl rfl
          · exact .inr ⟨_, _, _, _, by omega, rfl⟩
    rcases h1 with h1 | ⟨h0, h1⟩ <;> rw [h1] <;>
      rcases h2 _ with h2 | ⟨i, a, b, c, hlt, h2⟩ <;> rw [h2]
    · exact ⟨.inl ⟨rfl, rfl⟩, .inl ⟨rfl, rfl⟩⟩
    · exact ⟨.inl ⟨rfl, rfl⟩, .inr ⟨i, hlt, rfl, rfl⟩⟩
    · exact ⟨.inr ⟨h0, rfl, rfl⟩, .inl ⟨rfl, rfl⟩⟩
    · exact ⟨.inr ⟨h0, rfl, rfl⟩, .inr ⟨i, hlt, rfl, rfl⟩⟩

theorem life_first {s : Observe.Shutter} {st : State G1 G2} {mc : MainChain} {hist : Nat → World}
    {log : List (MainChain × List (Action G1 G2))} (l : Life cx codecs chain E fd s st mc hist log) :
    (log.flatMap (fun e => checkInsOf e.2)).length = (if st.checkInMessageSent then 1 else 0) ∧
    (log.flatMap (fun e => votesOf e.2)).Pairwise (· < ·) ∧ ∀ i ∈ log.flatMap (fun e => votesOf e.2), i ≤ st.lastSentBatchConfigIndex := by
  induction l with
  | init _ => exact ⟨rfl, by simp, by simp⟩
  | @round s s' st st' mc mc' hist hist' log ys keys acts l _ _ hf _ _ hd ih =>
    obtain ⟨i1, i2, i3⟩ := ih
    obtain ⟨h1, h2⟩ := first_round hd
    simp only [List.flatMap_append, List.flatMap_cons, List.flatMap_nil, List.append_nil]
    constructor
    · rw [List.length_append, i1]
      rcases h1 with ⟨h1, h3⟩ | ⟨h1, h3, h4⟩
      · rw [h1, h3]; rfl
      · rw [h1, h3, h4]; rfl
    · rcases h2 with ⟨h2, h3⟩ | ⟨i, h2, h3, h4⟩
      · rw [h2, h3, List.append_nil]; exact ⟨i2, i3⟩
      · rw [h3, h4]
        refine ⟨?_, ?_⟩
        · rw [List.pairwise_append]
          refine ⟨i2, by simp, fun a ha b hb => ?_⟩
          rw [List.mem_singleton] at hb
          have := i3 a ha
          omega
        · intro x hx
          rw [List.mem_append, List.mem_singleton] at hx
          rcases hx with hx | rfl
          · have := i3 x hx; omega
          · exact le_refl _
  | @restart s st mc hist log forget l ih =>
    have e1 : (loadState s st).checkInMessageSent = st.checkInMessageSent := by unfold loadState; split <;> rfl
    have e2 : (loadState s st).lastSentBatchConfigIndex = st.lastSentBatchConfigIndex := by unfold loadState; split <;> rfl
    simp only [e1, e2]
    exact ih

end Shutter.Decide
