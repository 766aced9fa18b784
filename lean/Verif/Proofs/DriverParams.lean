import Verif.Proofs.DriverView

/-! The keypers and the threshold of a key generation. -/

namespace Shutter.Decide
open Shutter.Crypto Shutter.Dkg Shutter.Observe Shutter.Decide.Spec
open Shutter.App (Addr findAddressIndex)
open Shutter.Events (Codecs)
open Shutter.Observe.Props

variable {G1 G2 GT R : Type}

theorem filterMap_filter_none {α β : Type} (f : α → Option β) (p : α → Bool) (h : ∀ x, p x = false → f x = none) (l : List α) :
    (l.filter p).filterMap f = l.filterMap f := by
  induction l with
  | nil => rfl
  | cons x l ih =>
    cases hp : p x
    · rw [List.filter_cons_of_neg (by simp [hp]), ih, List.filterMap_cons, h x hp]
    · rw [List.filter_cons_of_pos hp, List.filterMap_cons, List.filterMap_cons, ih]

theorem findBatchConfig_eq (s : Observe.Shutter) (evs : List Stamped) (b : Nat) (h : s.batchConfigs = configEvents evs) :
    ((findBatchConfigByBatchIndex s b).keypers, (findBatchConfigByBatchIndex s b).threshold) = (configFor evs b).getD ([], 0) := by
  have h1 : configFor evs b = ((configs s).filter (fun c => decide (c.startBatchIndex ≤ b))).getLast?.map (fun c => (c.keypers, c.threshold)) := by
    rw [← List.getLast?_map]
    unfold configFor configs
    rw [h]
    congr 1
    unfold configEvents
    rw [← List.filterMap_eq_map, ← List.filterMap_eq_filter, List.filterMap_filterMap, List.filterMap_filterMap, filterMap_filter_none]
    · congr 1
      funext x
      simp only [Stamped.config]
      cases x.ev <;> simp [Option.guard]
      split <;> simp
    · intro x hx
      simp only [Stamped.config]
      cases hev : x.ev <;> simp_all
  rw [h1]
  unfold findBatchConfigByBatchIndex
  rw [List.getLast?_eq_head?_reverse, ← List.filter_reverse, List.head?_filter]
  cases (configs s).reverse.find? _ <;> rfl

variable [AddCommGroup G2] [DecidableEq G2]

theorem run_params (env : Env G1 G2 GT) (ops : List (Op G2)) (w w' : World G2) (h : Dkg.run env w ops = some w') :
    SameParams w.state w'.state := by
  refine run_induct env (fun x => SameParams w.state x.state) ops w w' (SameParams.refl _) ?_ h
  intro a op b _ ha hb
  simp only [exec, Option.map_eq_some_iff] at hb
  obtain ⟨o, ho, rfl⟩ := hb
  have sp := step_spec env a.state op o ho
  exact ha.trans ⟨sp.eon, sp.num, sp.thr, sp.keyper⟩

/-- The keypers and the threshold are those of the config in force at the block at which the eon was first seen. -/
structure ParInv (cx : Cfg G1 G2 GT R) (codecs : Codecs) (chain : Chain) (next : Int) (dkg : DKG G2) : Prop where
  config : ∃ seen : Int, seen < next ∧ (∃ S, Started (chainEvents codecs chain 0 seen) dkg.eon dkg.startBatchIndex S) ∧
    (configFor (chainEvents codecs chain 0 seen) dkg.startBatchIndex).getD ([], 0) = (dkg.keypers, dkg.pure.state.threshold)
  eon : dkg.pure.state.eon = dkg.eon
  num : dkg.pure.state.numKeypers = dkg.keypers.length
  keyper : findAddressIndex dkg.keypers cx.own = some dkg.pure.state.keyper

theorem ParInv.mono {cx : Cfg G1 G2 GT R} {codecs : Codecs} {chain : Chain} {n m : Int} {a b : DKG G2} (h : ParInv cx codecs chain n a)
    (hnm : n ≤ m) (hs : SameDkg a b) (hp : SameParams a.pure.state b.pure.state) : ParInv cx codecs chain m b := by
  obtain ⟨⟨x, hx, hst, hc⟩, h2, h3, h4⟩ := h
  refine ⟨⟨x, by omega, ?_, ?_⟩, ?_, ?_, ?_⟩
  · rw [hs.eon, hs.sbi]; exact hst
  · rw [hs.sbi, hs.keypers, hp.thr]; exact hc
  · rw [hs.eon, hp.eon]; exact h2
  · rw [hs.keypers, hp.num]; exact h3
  · rw [hs.keypers, hp.keyper]; exact h4

theorem handleDKG_params {cx : Cfg G1 G2 GT R} {sh : Observe.Shutter} {h : Int} {a b : DKG G2} {ekgs : List (EKG G1 G2)}
    {acts : List (Action G1 G2)} (hr : handleDKG cx sh h a = some (b, ekgs, acts)) :
    SameDkg a b ∧ SameParams a.pure.state b.pure.state := by
  rcases handleDKG_calls hr with ⟨_, rfl⟩ | ⟨_, eon, b', ac, _, hs, hp, hd⟩
  · exact ⟨⟨rfl, rfl, rfl, rfl⟩, SameParams.refl _⟩
  · obtain ⟨hc, _⟩ := syncDKG_calls hs
    rw [hp]
    exact ⟨hc.2.trans hd, run_params _ _ _ _ hc.1⟩

variable [AddCommGroup G1] [DecidableEq GT]

theorem par_reach {cx : Cfg G1 G2 GT R} (hL : 0 ≤ cx.phaseLength) {codecs : Codecs} {chain : Chain} {s : Observe.Shutter}
    {st : State G1 G2} (h : Reach cx codecs chain s st) : ∀ dkg ∈ st.dkgs, ParInv cx codecs chain st.syncHeight dkg := by
  induction h with
  | init => simp [State.new]
  | restart _ hn ih =>
    unfold loadState
    rw [hn]
    exact ih
  | @round s s' st st' ys mc keys acts hreach hr hf hd ih =>
    have inv := kinv_reach hL hreach
    have inv' := kinv_round hL inv hr hf hd
    have hmono := runLoop_mono hr
    have hb := inv.bound
    obtain ⟨xs, hview, hfil⟩ := inv'.view
    have hinc := runLoop_inc hview
    obtain ⟨b0, hb0⟩ : ∃ b0 : Nat, ∀ f ∈ filtersOf xs, f.batchIndex ≤ b0 := by
      generalize filtersOf xs = l
      induction l with
      | nil => exact ⟨0, by simp⟩
      | cons a l ih =>
        obtain ⟨h0, hh⟩ := ih
        refine ⟨max h0 a.batchIndex, ?_⟩
        intro f hf
        rcases List.mem_cons.1 hf with rfl | hf
        · exact le_max_right _ _
        · exact le_trans (hh f hf) (le_max_left _ _)
    obtain ⟨v1, _, _, v4, _⟩ := C36_filter_loses_nothing_partial hview hfil hb0
    rcases decideStep_dkgs hd with rfl | ⟨_, _, _, ekgs, ac, hh, hlast, hsync⟩
    · exact ih
    · obtain ⟨m1, m2, m3, m4⟩ := maybeStartDKG_spec cx s' s'.eons st.lastEonStarted
      generalize hnew : maybeStartDKG cx s' st.lastEonStarted s'.eons = new at *
      have hall := handleDKGs_spec hh
      intro dkg hm
      obtain ⟨i, hi, rfl⟩ := List.mem_iff_getElem.1 hm
      have hlen := hall.length_eq
      obtain ⟨e, ac', hs, _⟩ := (List.forall₂_iff_get.1 hall).2 i (by omega) hi
      obtain ⟨p1, p2⟩ := handleDKG_params hs
      refine ParInv.mono (n := st'.syncHeight) ?_ (le_refl _) p1 p2
      simp only [List.get_eq_getElem]
      have hmem : (st.dkgs ++ new.1)[i]'(by omega) ∈ st.dkgs ++ new.1 := List.getElem_mem _
      generalize (st.dkgs ++ new.1)[i]'(by omega) = a at hmem
      rcases List.mem_append.1 hmem with ha | ha
      · exact (ih a ha).mono (by omega) ⟨rfl, rfl, rfl, rfl⟩ (SameParams.refl _)
      · obtain ⟨⟨x, hx, _, hxs⟩, _⟩ := m3 a ha
        unfold startDKG at hxs
        simp only [Option.map_eq_some_iff] at hxs
        obtain ⟨k, hk, rfl⟩ := hxs
        refine ⟨⟨s'.currentBlock, by omega, ⟨x.startHeight, ?_⟩, ?_⟩, rfl, rfl, hk⟩
        · exact (v1 _ _ _).1 ⟨x, (findEon_eq_some hinc).2 ⟨hx, rfl⟩, rfl, rfl⟩
        · exact (findBatchConfig_eq s' _ _ v4).symm

end Shutter.Decide
