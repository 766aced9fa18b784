import Verif.Model.Keyper
import Verif.Proofs.DecideFrame
import Verif.Proofs.DriverInv
import Verif.Props.Observe

/-! The DKGs of a keyper over its life. -/

namespace Shutter.Decide
open Shutter.Crypto Shutter.Dkg Shutter.Observe Shutter.Decide.Spec
open Shutter.Observe.Props
open Shutter.App (Addr findAddressIndex)
open Shutter.Events (Codecs)

variable {G1 G2 GT R : Type}

theorem runLoop_append {cx : Codecs} {chain : Chain} : ∀ {xs ys : List LoopStep} {s s' s'' : Observe.Shutter},
    runLoop cx chain s xs = some s' → runLoop cx chain s' ys = some s'' → runLoop cx chain s (xs ++ ys) = some s'' := by
  intro xs
  induction xs with
  | nil =>
    intro ys s s' s'' h1 h2
    cases h1
    exact h2
  | cons x xs ih =>
    intro ys s s' s'' h1 h2
    simp only [runLoop, List.cons_append, Option.bind_eq_some_iff] at h1 ⊢
    obtain ⟨s1, h, h1⟩ := h1
    exact ⟨s1, h, ih h1 h2⟩

theorem filtersOf_append (xs ys : List LoopStep) : filtersOf (xs ++ ys) = filtersOf xs ++ filtersOf ys := by
  induction xs with
  | nil => rfl
  | cons x xs ih => cases x <;> simp [filtersOf, ih]

theorem runLoop_mono {cx : Codecs} {chain : Chain} {xs : List LoopStep} {s s' : Observe.Shutter}
    (h : runLoop cx chain s xs = some s') : s.currentBlock ≤ s'.currentBlock := by
  induction xs generalizing s with
  | nil => cases h; exact le_refl _
  | cons x xs ih =>
    simp only [runLoop, Option.bind_eq_some_iff] at h
    obtain ⟨s1, h1, h2⟩ := h
    refine le_trans ?_ (ih h2)
    cases x with
    | filter f => cases h1; rw [applyFilter_currentBlock]
    | syncFailed => cases h1; exact le_refl _
    | sync h c u =>
      simp only [loopStep, syncToHead] at h1
      split at h1
      · cases h1; exact le_refl _
      · unfold syncToHeight fetchAndApplyEvents at h1
        split at h1
        · cases h1
        · rw [Option.map_eq_some_iff] at h1
          obtain ⟨r, _, rfl⟩ := h1
          simp only
          omega

/-- The eons of the view, in order. -/
theorem runLoop_inc {cx : Codecs} {chain : Chain} {xs : List LoopStep} {s : Observe.Shutter}
    (h : runLoop cx chain newShutter xs = some s) : EonsInc s.eons := by
  obtain ⟨thr, b0, inv⟩ := runLoop_inv_some h
  exact inv.inc

variable [AddCommGroup G2] [DecidableEq G2]

omit [AddCommGroup G2] [DecidableEq G2] in
theorem maybeStartDKG_spec (cx : Cfg G1 G2 GT R) (sh : Observe.Shutter) : ∀ (es : List Eon) (last : Nat),
    last ≤ (maybeStartDKG cx sh last es).2 ∧ (∀ e ∈ es, e.eon ≤ (maybeStartDKG cx sh last es).2) ∧
    (∀ dkg ∈ (maybeStartDKG cx sh last es).1, (∃ e ∈ es, last < e.eon ∧ startDKG cx sh e = some dkg) ∧
      last < dkg.eon ∧ dkg.eon ≤ (maybeStartDKG cx sh last es).2) ∧
    (maybeStartDKG cx sh last es).1.Pairwise (fun x y => x.eon < y.eon) := by
  intro es
  induction es with
  | nil => intro last; simp [maybeStartDKG]
  | cons e es ih =>
    intro last
    unfold maybeStartDKG
    split
    · next hlt =>
      obtain ⟨i1, i2, i3, i4⟩ := ih e.eon
      simp only
      refine ⟨by omega, ?_, ?_, ?_⟩
      · intro x hx
        rcases List.mem_cons.1 hx with rfl | hx
        · exact i1
        · exact i2 x hx
      · intro dkg hd
        rcases List.mem_append.1 hd with hd | hd
        · rw [Option.mem_toList] at hd
          have he : dkg.eon = e.eon := by
            unfold startDKG at hd
            simp only [Option.mem_def, Option.map_eq_some_iff] at hd
            obtain ⟨_, _, rfl⟩ := hd
            rfl
          exact ⟨⟨e, by simp, hlt, hd⟩, by omega, by omega⟩
        · obtain ⟨⟨x, hx, hxl, hxs⟩, h2, h3⟩ := i3 dkg hd
          exact ⟨⟨x, by simp [hx], by omega, hxs⟩, by omega, h3⟩
      · rw [List.pairwise_append]
        refine ⟨?_, i4, ?_⟩
        · cases startDKG cx sh e <;> simp
        · intro x hx y hy
          have he : x.eon = e.eon := by
            rw [Option.mem_toList] at hx
            unfold startDKG at hx
            simp only [Option.mem_def, Option.map_eq_some_iff] at hx
            obtain ⟨_, _, rfl⟩ := hx
            rfl
          rw [he]
          exact (i3 y hy).2.1
    · next hlt =>
      obtain ⟨i1, i2, i3, i4⟩ := ih last
      refine ⟨i1, ?_, ?_, i4⟩
      · intro x hx
        rcases List.mem_cons.1 hx with rfl | hx
        · omega
        · exact i2 x hx
      · intro dkg hd
        obtain ⟨⟨x, hx, hxl, hxs⟩, h2, h3⟩ := i3 dkg hd
        exact ⟨⟨x, by simp [hx], hxl, hxs⟩, h2, h3⟩

/-- `handleDKGs` handles every DKG by itself. -/
theorem handleDKGs_spec {cx : Cfg G1 G2 GT R} {sh : Observe.Shutter} {h : Int} : ∀ {l l' : List (DKG G2)} {ekgs : List (EKG G1 G2)}
    {acts : List (Action G1 G2)}, handleDKGs cx sh h l = some (l', ekgs, acts) →
    List.Forall₂ (fun a b => ∃ e ac, handleDKG cx sh h a = some (b, e, ac) ∧ (∀ x ∈ e, x ∈ ekgs)) l l' := by
  intro l
  induction l with
  | nil =>
    intro l' ekgs acts hr
    cases hr
    exact List.Forall₂.nil
  | cons a l ih =>
    intro l' ekgs acts hr
    simp only [handleDKGs, Option.bind_eq_bind, Option.bind_eq_some_iff, Prod.exists, Option.some.injEq] at hr
    obtain ⟨b, e1, a1, h1, l2, e2, a2, h2, he⟩ := hr
    cases he
    refine List.Forall₂.cons ⟨e1, a1, h1, fun x hx => by simp [hx]⟩ ?_
    refine (ih h2).imp ?_
    rintro a b ⟨e, ac, h, hx⟩
    exact ⟨e, ac, h, fun x hm => by simp [hx x hm]⟩

theorem handleDKG_calls {cx : Cfg G1 G2 GT R} {sh : Observe.Shutter} {h : Int} {a b : DKG G2} {ekgs : List (EKG G1 G2)}
    {acts : List (Action G1 G2)} (hr : handleDKG cx sh h a = some (b, ekgs, acts)) :
    (a.pure.state.phase = finalized ∧ b = a) ∨ (a.pure.state.phase ≠ finalized ∧ ∃ eon b' ac, findEon sh a.eon = some eon ∧
      syncDKGWithEon cx h sh.currentBlock a eon = some (b', ekgs, ac) ∧ b.pure = b'.pure ∧ SameDkg b' b) := by
  unfold handleDKG at hr
  split at hr
  · next hp => cases hr; exact Or.inl ⟨hp, rfl⟩
  · next hp =>
    simp only [Option.bind_eq_bind, Option.bind_eq_some_iff, Prod.exists, Option.some.injEq] at hr
    obtain ⟨eon, he, b', e1, a1, h1, b2, a2, h2, hx⟩ := hr
    cases hx
    obtain ⟨q1, q2⟩ := sendPolyEvals_same h2
    exact Or.inr ⟨hp, eon, b', a1, he, h1, q1, q2⟩

theorem DkgInv.congr {cx : Cfg G1 G2 GT R} {evs : List Stamped} {n S : Int} {a b : DKG G2} (h : DkgInv cx evs n a S) (hp : b.pure = a.pure)
    (hs : SameDkg a b) : DkgInv cx evs n b S := by
  obtain ⟨h1, h2, h3, h4, h5⟩ := h
  refine ⟨hs.len.trans h1, ?_, h3, ?_, ?_⟩
  · rw [hs.eon, hs.sbi]; exact h2
  · rw [hp]; exact h4
  · rw [hs.eon, hs.keypers, hp]; exact h5

/-- A finished DKG: later messages are outside the phases. -/
theorem round_done {cx : Cfg G1 G2 GT R} (hL : 0 ≤ cx.phaseLength) {a b : List Stamped} {t t' S : Int} {dkg : DKG G2}
    (htt : t ≤ t') (ha : ∀ x ∈ a, x.height ≤ t) (hb : ∀ x ∈ b, t + 1 ≤ x.height ∧ x.height ≤ t')
    (inv : DkgInv cx a (t + 1) dkg S) (hp : dkg.pure.state.phase = finalized) : DkgInv cx (a ++ b) (t' + 1) dkg S := by
  obtain ⟨h1, h2, h3, h4, h5⟩ := inv
  rw [hp] at h4
  have hd : S + 3 * cx.phaseLength ≤ t + 1 := (phase_ge cx.phaseLength S (t + 1) hL (by omega)).2.2.2.1 (by rw [← h4])
  refine ⟨h1, started_append h2, by omega, ?_, ?_⟩
  · rw [hp, phase_of _ _ _ hL (by omega), if_pos (by omega)]
  · obtain ⟨ops, thr, i, run, hi, pre⟩ := h5
    refine ⟨ops, thr, i, run, hi, ?_⟩
    have ext := prescribed_extend (p := ⟨dkg.eon, S, cx.phaseLength, dkg.keypers, i, cx.gammas, cx.decryptEval⟩) hL htt ha hb pre
    have mem_new : ∀ k x, x ∈ (messages k dkg.eon (a ++ b)).filter (fun y => decide (y.height ≥ t + 1)) → t + 1 ≤ x.height := by
      intro k x hx
      simpa using (List.mem_filter.1 hx).2
    simp only at ext
    rw [flatMap_nil (f := commitmentOf _), flatMap_nil (f := evalsOf _), flatMap_nil (f := accusationsOf _), flatMap_nil (f := apologiesOf _),
      if_neg (by omega), if_neg (by omega), if_neg (by omega)] at ext
    · simpa using ext
    · intro x hx
      apply apologiesOf_nil
      have := mem_new _ x hx
      simp only [inPhase, decide_eq_false_iff_not]
      omega
    · intro x hx
      apply accusationsOf_nil
      have := mem_new _ x hx
      simp only [inPhase, decide_eq_false_iff_not]
      omega
    · intro x hx
      apply evalsOf_nil
      have := mem_new _ x hx
      simp only [inPhase, decide_eq_false_iff_not]
      omega
    · intro x hx
      apply commitmentOf_nil
      have := mem_new _ x hx
      simp only [inPhase, decide_eq_false_iff_not]
      omega

/-- What holds for everything a keyper saves. -/
structure KInv (cx : Cfg G1 G2 GT R) (codecs : Codecs) (chain : Chain) (s : Observe.Shutter) (st : State G1 G2) : Prop where
  view : ∃ xs, runLoop codecs chain newShutter xs = some s ∧ ∀ f ∈ filtersOf xs, f.syncHeight ≤ st.syncHeight
  low : 0 ≤ st.syncHeight
  bound : st.syncHeight ≤ s.currentBlock + 1
  dkgs : ∀ dkg ∈ st.dkgs, ∃ S, DkgInv cx (chainEvents codecs chain 0 (st.syncHeight - 1)) st.syncHeight dkg S
  last : ∀ dkg ∈ st.dkgs, dkg.eon ≤ st.lastEonStarted
  known : ∀ e b h, Started (chainEvents codecs chain 0 (st.syncHeight - 1)) e b h → e ≤ st.lastEonStarted
  inc : st.dkgs.Pairwise (fun x y => x.eon < y.eon)

variable [AddCommGroup G1] [DecidableEq GT]

theorem kinv_round {cx : Cfg G1 G2 GT R} (hL : 0 ≤ cx.phaseLength) {codecs : Codecs} {chain : Chain} {s s' : Observe.Shutter}
    {st st' : State G1 G2} {ys : List LoopStep} {mc : Main.MainChain} {keys : List Nat} {acts : List (Action G1 G2)}
    (inv : KInv cx codecs chain s st) (hr : runLoop codecs chain s ys = some s') (hf : ∀ f ∈ filtersOf ys, f.syncHeight ≤ st.syncHeight)
    (hd : decideStep cx s' mc keys st = some (st', acts)) : KInv cx codecs chain s' st' := by
  obtain ⟨xs, hx, hxf⟩ := inv.view
  have hview : runLoop codecs chain newShutter (xs ++ ys) = some s' := runLoop_append hx hr
  have hfil : ∀ f ∈ filtersOf (xs ++ ys), f.syncHeight ≤ st.syncHeight := by
    intro f h
    rw [filtersOf_append] at h
    rcases List.mem_append.1 h with h | h
    · exact hxf f h
    · exact hf f h
  have hmono := runLoop_mono hr
  have hb := inv.bound
  have hlow := inv.low
  rcases decideStep_dkgs hd with rfl | ⟨_, _, _, ekgs, ac, hh, hlast, hsync⟩
  · exact ⟨⟨_, hview, hfil⟩, inv.low, by omega, inv.dkgs, inv.last, inv.known, inv.inc⟩
  · obtain ⟨b0, hb0⟩ : ∃ b0 : Nat, ∀ f ∈ filtersOf (xs ++ ys), f.batchIndex ≤ b0 := by
      generalize filtersOf (xs ++ ys) = l
      induction l with
      | nil => exact ⟨0, by simp⟩
      | cons a l ih =>
        obtain ⟨h0, hh⟩ := ih
        refine ⟨max h0 a.batchIndex, ?_⟩
        intro f hf
        rcases List.mem_cons.1 hf with rfl | hf
        · exact le_max_right _ _
        · exact le_trans (hh f hf) (le_max_left _ _)
    obtain ⟨v1, v2, _⟩ := C36_filter_loses_nothing_partial hview hfil hb0
    have hinc := runLoop_inc hview
    obtain ⟨t, ht⟩ : ∃ t, st.syncHeight = t + 1 := ⟨st.syncHeight - 1, by omega⟩
    have hsplit : seenEvents codecs chain s' = chainEvents codecs chain 0 t ++ chainEvents codecs chain (t + 1) s'.currentBlock := by
      unfold seenEvents
      rw [chainEvents_append codecs chain (by omega) (by omega)]
    have ha : ∀ x ∈ chainEvents codecs chain 0 t, x.height ≤ t := fun x hx => (chainEvents_heights _ _ hx).2
    have hbb : ∀ x ∈ chainEvents codecs chain (t + 1) s'.currentBlock, t + 1 ≤ x.height ∧ x.height ≤ s'.currentBlock :=
      fun x hx => chainEvents_heights _ _ hx
    have hknown := inv.known
    have hdkgs := inv.dkgs
    rw [ht, show t + 1 - 1 = t by omega] at hknown hdkgs
    rw [ht] at hh
    rw [hsplit, ht] at v2
    rw [hsplit] at v1
    generalize hA : chainEvents codecs chain 0 t = A at *
    generalize hB : chainEvents codecs chain (t + 1) s'.currentBlock = B at *
    obtain ⟨m1, m2, m3, m4⟩ := maybeStartDKG_spec cx s' s'.eons st.lastEonStarted
    generalize hnew : maybeStartDKG cx s' st.lastEonStarted s'.eons = new at *
    -- every DKG after the round
    have key : ∀ a b, a ∈ st.dkgs ++ new.1 → (∃ e ac, handleDKG cx s' (t + 1) a = some (b, e, ac) ∧ ∀ x ∈ e, x ∈ ekgs) →
        (∃ S, DkgInv cx (A ++ B) (s'.currentBlock + 1) b S) ∧ b.eon = a.eon := by
      rintro a b hm ⟨e, ac', hs, _⟩
      rcases handleDKG_calls hs with ⟨hp, rfl⟩ | ⟨hp, eon, b', ac2, he, hsync', hpure, hsame⟩
      · refine ⟨?_, rfl⟩
        rcases List.mem_append.1 hm with hm | hm
        · obtain ⟨S, hS⟩ := hdkgs b hm
          exact ⟨S, round_done hL (by omega) ha hbb hS hp⟩
        · obtain ⟨⟨x, _, _, hxs⟩, _⟩ := m3 b hm
          unfold startDKG at hxs
          simp only [Option.map_eq_some_iff] at hxs
          obtain ⟨_, _, rfl⟩ := hxs
          simp [newWorld, newPureDKG, finalized, off] at hp
      · have hq : ∀ k, k ≠ .share → eon.query k (t + 1) = (messages k a.eon (A ++ B)).filter (fun y => decide (y.height ≥ t + 1)) :=
          fun k hk => v2 a.eon eon he k hk (t + 1) (le_refl _)
        rcases List.mem_append.1 hm with hm | hm
        · obtain ⟨S, hS⟩ := hdkgs a hm
          have hst : eon.startHeight = S := by
            obtain ⟨x, hx1, _, hx3⟩ := (v1 _ _ _).2 (started_append (b := B) hS.started)
            rw [he] at hx1
            cases hx1
            exact hx3
          obtain ⟨r1, r2⟩ := round_old hL (by omega) ha hbb hS hst hq hsync'
          exact ⟨⟨S, r1.congr hpure hsame⟩, hsame.eon.trans r2.eon⟩
        · obtain ⟨⟨x, hx1, hx2, hxs⟩, hx4, _⟩ := m3 a hm
          have hfind : findEon s' x.eon = some x := (findEon_eq_some hinc).2 ⟨hx1, rfl⟩
          have hw : a.eon = x.eon ∧ a.startBatchIndex = x.startBatchIndex ∧ a.phaseLength = cx.phaseLength ∧
              ∃ thr i, a.pure = newWorld G2 a.eon a.keypers.length thr i ∧ findAddressIndex a.keypers cx.own = some i := by
            unfold startDKG at hxs
            simp only [Option.map_eq_some_iff] at hxs
            obtain ⟨i, hi, rfl⟩ := hxs
            exact ⟨rfl, rfl, rfl, _, i, rfl, hi⟩
          obtain ⟨w1, w2, w3, w4⟩ := hw
          rw [w1, hfind] at he
          cases he
          have hst : Started (A ++ B) a.eon a.startBatchIndex eon.startHeight := by
            rw [w1, w2]
            exact (v1 _ _ _).1 ⟨eon, hfind, rfl, rfl⟩
          have hnot : ∀ y ∈ A, ∀ i, y.ev ≠ .eonStarted a.eon i := by
            intro y hy i hyi
            obtain ⟨e', b'', h', hle, hs'⟩ := started_of_announced hy hyi
            have := hknown _ _ _ hs'
            omega
          have hS' : t < eon.startHeight := by
            obtain ⟨pre, post, hpp, _⟩ := hst
            have hmem : (⟨eon.startHeight, .eonStarted a.eon a.startBatchIndex⟩ : Stamped) ∈ A ++ B := by rw [hpp]; simp
            rcases List.mem_append.1 hmem with h | h
            · exact absurd rfl (hnot _ h _)
            · have := (hbb _ h).1
              simp only at this
              omega
          obtain ⟨r1, r2⟩ := round_new hL (by omega) ha hbb w3 hst hnot hS' w4 rfl hq hsync'
          exact ⟨⟨_, r1.congr hpure hsame⟩, hsame.eon.trans r2.eon⟩
    have hall := handleDKGs_spec hh
    have hevs : chainEvents codecs chain 0 (st'.syncHeight - 1) = A ++ B := by
      rw [hsync, show s'.currentBlock + 1 - 1 = s'.currentBlock by omega, ← hsplit]
      rfl
    have heons : st'.dkgs.map (·.eon) = (st.dkgs ++ new.1).map (·.eon) := by
      clear hdkgs
      generalize st.dkgs ++ new.1 = l at hall key
      generalize st'.dkgs = l' at hall
      induction hall with
      | nil => rfl
      | cons h _ ih =>
        simp only [List.map_cons]
        rw [(key _ _ (by simp) h).2, ih (fun a b hm => key a b (by simp [hm]))]
    refine ⟨⟨_, hview, fun f h => ?_⟩, by omega, by omega, ?_, ?_, ?_, ?_⟩
    · have := hfil f h
      omega
    · intro dkg hm
      rw [hevs, hsync]
      obtain ⟨i, hi, rfl⟩ := List.mem_iff_getElem.1 hm
      have hlen := hall.length_eq
      exact (key _ _ (List.getElem_mem (by omega)) ((List.forall₂_iff_get.1 hall).2 i (by omega) hi)).1
    · intro dkg hm
      have : dkg.eon ∈ st'.dkgs.map (·.eon) := List.mem_map.2 ⟨dkg, hm, rfl⟩
      rw [heons] at this
      obtain ⟨a, ham, hae⟩ := List.mem_map.1 this
      rw [← hae, hlast]
      rcases List.mem_append.1 ham with h | h
      · exact le_trans (inv.last a h) m1
      · exact (m3 a h).2.2
    · intro e b h hst
      rw [hevs] at hst
      obtain ⟨x, hx1, _, _⟩ := (v1 _ _ _).2 hst
      obtain ⟨hmem, rfl⟩ := (findEon_eq_some hinc).1 hx1
      rw [hlast]
      exact m2 x hmem
    · have hp : ((st.dkgs ++ new.1).map (·.eon)).Pairwise (· < ·) := by
        rw [List.pairwise_map, List.pairwise_append]
        exact ⟨inv.inc, m4, fun x hx y hy => lt_of_le_of_lt (inv.last x hx) (m3 y hy).2.1⟩
      rw [← heons, List.pairwise_map] at hp
      exact hp

theorem kinv_reach {cx : Cfg G1 G2 GT R} (hL : 0 ≤ cx.phaseLength) {codecs : Codecs} {chain : Chain} {s : Observe.Shutter}
    {st : State G1 G2} (h : Reach cx codecs chain s st) : KInv cx codecs chain s st := by
  induction h with
  | init =>
    refine ⟨⟨[], rfl, by simp [filtersOf]⟩, by simp [State.new], by simp [State.new, newShutter], by simp [State.new], by simp [State.new], ?_,
      by simp [State.new]⟩
    intro e b h hs
    rw [chainEvents_empty codecs chain (by simp [State.new])] at hs
    obtain ⟨pre, post, hp, _⟩ := hs
    simp at hp
  | round _ hr hf hd ih => exact kinv_round hL ih hr hf hd
  | restart _ hn ih =>
    unfold loadState
    rw [hn]
    exact ih

end Shutter.Decide
