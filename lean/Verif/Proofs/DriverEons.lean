import Verif.Proofs.DriverAgree

/-! No eon is missed. -/

namespace Shutter.Decide
open Shutter.Crypto Shutter.Dkg Shutter.Observe Shutter.Decide.Spec
open Shutter.App (Addr findAddressIndex)
open Shutter.Events (Codecs)
open Shutter.Observe.Props

variable {G1 G2 GT R : Type}

theorem maybeStartDKG_all (cx : Cfg G1 G2 GT R) (sh : Observe.Shutter) : ∀ (es : List Eon) (last : Nat),
    es.Pairwise (fun x y => x.eon < y.eon) → ((maybeStartDKG (G2 := G2) cx sh last es).2 = last ∨ ∃ e ∈ es, e.eon = (maybeStartDKG (G2 := G2) cx sh last es).2) ∧
    ∀ e ∈ es, last < e.eon → ∀ dkg : DKG G2, startDKG cx sh e = some dkg → dkg ∈ (maybeStartDKG cx sh last es).1 := by
  intro es
  induction es with
  | nil => intro last _; simp [maybeStartDKG]
  | cons x es ih =>
    intro last hp
    rw [List.pairwise_cons] at hp
    unfold maybeStartDKG
    split
    · next hlt =>
      obtain ⟨i1, i2⟩ := ih x.eon hp.2
      refine ⟨Or.inr ?_, ?_⟩
      · rcases i1 with h | ⟨e, he, h⟩
        · exact ⟨x, by simp, h.symm⟩
        · exact ⟨e, by simp [he], h⟩
      · intro e he hl dkg hd
        rcases List.mem_cons.1 he with rfl | he
        · simp [hd]
        · exact List.mem_append_right _ (i2 e he (hp.1 e he) dkg hd)
    · next hlt =>
      obtain ⟨i1, i2⟩ := ih last hp.2
      refine ⟨?_, ?_⟩
      · rcases i1 with h | ⟨e, he, h⟩
        · exact Or.inl h
        · exact Or.inr ⟨e, by simp [he], h⟩
      · intro e he hl dkg hd
        rcases List.mem_cons.1 he with rfl | he
        · omega
        · exact i2 e he hl dkg hd

/-- Of two announcements the first is not in the later part. -/
theorem started_old {A B : List Stamped} {e b last bl : Nat} {S Sl : Int} (h : Started (A ++ B) e b S) (hl : Started A last bl Sl)
    (hle : e ≤ last) : Started A e b S := by
  obtain ⟨pre, post, he, hp⟩ := h
  obtain ⟨pl, ql, hA, hpl⟩ := hl
  have hlast : (⟨Sl, .eonStarted last bl⟩ : Stamped) ∈ A := by rw [hA]; simp
  rcases List.append_eq_append_iff.1 he with ⟨l, h1, h2⟩ | ⟨l, h1, h2⟩
  · exact absurd (hp _ (by rw [h1]; exact List.mem_append_left _ hlast) last bl rfl) (by omega)
  · cases l with
    | nil =>
      exact absurd (hp _ (by rw [List.append_nil] at h1; rw [← h1]; exact hlast) last bl rfl) (by omega)
    | cons x l =>
      simp only [List.cons_append, List.cons.injEq] at h2
      rw [← h2.1] at h1
      exact ⟨pre, l, h1, hp⟩

variable [AddCommGroup G2] [DecidableEq G2] [AddCommGroup G1] [DecidableEq GT]

/-- Every announced eon has been noticed: the keyper takes part, or it is not one of the keypers. -/
theorem eons_reach {cx : Cfg G1 G2 GT R} (hL : 0 ≤ cx.phaseLength) {codecs : Codecs} {chain : Chain} {s : Observe.Shutter}
    {st : State G1 G2} (h : Reach cx codecs chain s st) :
    (st.lastEonStarted = 0 ∨ ∃ b S, Started (chainEvents codecs chain 0 (st.syncHeight - 1)) st.lastEonStarted b S) ∧
    ∀ e b S, 0 < e → Started (chainEvents codecs chain 0 (st.syncHeight - 1)) e b S → (∃ dkg ∈ st.dkgs, dkg.eon = e) ∨
      ∃ seen, seen < st.syncHeight ∧ S ≤ seen ∧ cx.own ∉ ((configFor (chainEvents codecs chain 0 seen) b).getD ([], 0)).1 := by
  induction h with
  | init =>
    refine ⟨Or.inl rfl, ?_⟩
    intro e b S _ hs
    have := started_height hs
    simp only [State.new] at this
    omega
  | restart _ hn ih =>
    unfold loadState
    rw [hn]
    exact ih
  | @round s s' st st' ys mc keys acts hreach hr hf hd ih =>
    have inv := kinv_reach hL hreach
    have inv' := kinv_round hL inv hr hf hd
    have hmono := runLoop_mono hr
    have hb := inv.bound
    have hlow := inv.low
    obtain ⟨xs, hview, hfil⟩ := inv'.view
    have hinc := runLoop_inc hview
    obtain ⟨b0, hb0⟩ : ∃ b0 : Nat, ∀ f ∈ filtersOf xs, f.batchIndex ≤ b0 := by
      generalize filtersOf xs = l
      induction l with
      | nil => exact ⟨0, by simp⟩
      | cons a l ih =>
        obtain ⟨h0, hh⟩ := ih
        refine ⟨max h0 a.batchIndex, ?_⟩
        intro f hf
        rcases List.mem_cons.1 hf with rfl | hf
        · exact le_max_right _ _
        · exact le_trans (hh f hf) (le_max_left _ _)
    obtain ⟨v1, _, _, v4, _⟩ := C36_filter_loses_nothing_partial hview hfil hb0
    rcases decideStep_dkgs hd with rfl | ⟨_, _, _, ekgs, ac, hh, hlast, hsync⟩
    · exact ih
    · obtain ⟨n1, n2⟩ := maybeStartDKG_all (G2 := G2) cx s' s'.eons st.lastEonStarted hinc
      generalize hnew : maybeStartDKG cx s' st.lastEonStarted s'.eons = new at *
      have hall := handleDKGs_spec hh
      have heons : ∀ a ∈ st.dkgs ++ new.1, ∃ dkg ∈ st'.dkgs, dkg.eon = a.eon := by
        intro a ha
        obtain ⟨i, hi, rfl⟩ := List.mem_iff_getElem.1 ha
        have hlen := hall.length_eq
        obtain ⟨e, ac', hs, _⟩ := (List.forall₂_iff_get.1 hall).2 i hi (by omega)
        exact ⟨_, List.getElem_mem (by omega), (handleDKG_params hs).1.eon⟩
      have hevs : chainEvents codecs chain 0 (st'.syncHeight - 1) = seenEvents codecs chain s' := by
        rw [hsync, show s'.currentBlock + 1 - 1 = s'.currentBlock by omega]
        rfl
      have hsplit : seenEvents codecs chain s' = chainEvents codecs chain 0 (st.syncHeight - 1) ++
          chainEvents codecs chain (st.syncHeight - 1 + 1) s'.currentBlock := by
        unfold seenEvents
        rw [chainEvents_append codecs chain (by omega) (by omega)]
      rw [hevs]
      refine ⟨?_, ?_⟩
      · rw [hlast]
        rcases n1 with h | ⟨e, he, h⟩
        · rw [h]
          rcases ih.1 with h | ⟨b, S, h⟩
          · exact Or.inl h
          · refine Or.inr ⟨b, S, ?_⟩
            rw [hsplit]
            exact started_append h
        · right
          rw [← h]
          exact ⟨e.startBatchIndex, e.startHeight, (v1 _ _ _).1 ⟨e, (findEon_eq_some hinc).2 ⟨he, rfl⟩, rfl, rfl⟩⟩
      · intro e b S he hst
        by_cases hle : e ≤ st.lastEonStarted
        · have hold : Started (chainEvents codecs chain 0 (st.syncHeight - 1)) e b S := by
            rcases ih.1 with h | ⟨bl, Sl, h⟩
            · omega
            · rw [hsplit] at hst
              exact started_old hst h hle
          rcases ih.2 e b S he hold with ⟨dkg, hm, hde⟩ | ⟨seen, h1, h2, h3⟩
          · obtain ⟨x, hx, hxe⟩ := heons dkg (List.mem_append_left _ hm)
            exact Or.inl ⟨x, hx, hxe.trans hde⟩
          · exact Or.inr ⟨seen, by omega, h2, h3⟩
        · obtain ⟨x, hx, rfl, rfl⟩ := (v1 _ _ _).2 hst
          obtain ⟨hmem, rfl⟩ := (findEon_eq_some hinc).1 hx
          cases hsd : (startDKG cx s' x : Option (DKG G2)) with
          | some dkg =>
            have hm := n2 x hmem (by omega) dkg hsd
            obtain ⟨y, hy, hye⟩ := heons dkg (List.mem_append_right _ hm)
            refine Or.inl ⟨y, hy, ?_⟩
            rw [hye]
            unfold startDKG at hsd
            simp only [Option.map_eq_some_iff] at hsd
            obtain ⟨_, _, rfl⟩ := hsd
            rfl
          | none =>
            right
            refine ⟨s'.currentBlock, by omega, ?_, ?_⟩
            · have := started_height (h := s'.currentBlock) hst
              exact this.2
            · unfold startDKG at hsd
              simp only [Option.map_eq_none_iff] at hsd
              have := findBatchConfig_eq s' _ x.startBatchIndex v4
              rw [show chainEvents codecs chain 0 s'.currentBlock = seenEvents codecs chain s' from rfl, ← this]
              rw [findAddressIndex_eq] at hsd
              simpa [List.idxOf?_eq_none_iff] using hsd

end Shutter.Decide
