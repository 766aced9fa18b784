import Verif.Proofs.TurnSigs
import Verif.Props.Observe

/-! # A keyper counts the signatures it sees -/

namespace Shutter.Decide
open Shutter.Crypto Shutter.Dkg Shutter.Observe Shutter.Observe.Props Shutter.Main Shutter.GoConfig Shutter.Decide.Spec
open Shutter.Sol (BatchConfig zeroHash World two64 NoneTakenBack)

variable {G1 G2 GT R : Type} [AddCommGroup G1] [AddCommGroup G2] [DecidableEq G2] [DecidableEq GT]
variable {cx : Cfg G1 G2 GT R} {codecs : Events.Codecs} {chain : Observe.Chain} {E : Sol.Env} {fd : Nat}
variable {s : Observe.Shutter} {st : State G1 G2} {mc : MainChain} {hist : Nat → World} {log : List (Moment G1 G2)}

theorem watch_life (w : Watch cx codecs chain E fd s st mc hist log) :
    Life cx codecs chain E fd s st mc hist (log.map (fun r => (r.main, r.acts))) := by
  induction w with
  | init h => exact .init h
  | round _ h1 h2 h3 h4 h5 h6 ih =>
    rw [List.map_append]
    exact .round ih h1 (fun f hf => (h2 f hf).1) h3 h4 h5 h6
  | restart f _ ih => exact .restart f ih

theorem watch_observed (w : Watch cx codecs chain E fd s st mc hist log) :
    Observed E fd false mc hist ∧ ∀ r ∈ log, Observed E fd false r.main hist ∧ r.main.currentBlock ≤ mc.currentBlock := by
  obtain ⟨h1, h2⟩ := life_observed (watch_life w)
  exact ⟨h1, fun r hr => h2 (r.main, r.acts) (List.mem_map.2 ⟨r, hr, rfl⟩)⟩

omit [AddCommGroup G1] [AddCommGroup G2] [DecidableEq G2] [DecidableEq GT] in
theorem halfSteps_follow {mc' : MainChain} {hist' : Nat → World} (o : Observed E fd false mc hist) (hf : Follows E (mc, hist) (mc', hist')) :
    mc.numHalfSteps ≤ mc'.numHalfSteps := by
  obtain ⟨f1, f2, f3⟩ := follows_spec hf o
  rw [Main.Props.C56_half_steps o, Main.Props.C56_half_steps f1, ← f3 _ (le_refl _)]
  exact Sol.halfSteps_later (f1.chain.plater f2 f1.current)

/-- The keyper sees all signatures for the batches not yet executed. -/
theorem watch_sigs (w : Watch cx codecs chain E fd s st mc hist log) :
    ∃ xs, runLoop codecs chain newShutter xs = some s ∧ ∀ f ∈ filtersOf xs, f.batchIndex ≤ mc.numHalfSteps / 2 := by
  induction w with
  | init _ => exact ⟨[], rfl, by simp [filtersOf]⟩
  | @round s s' st st' mc mc' hist hist' log ys keys acts w h1 h2 h3 h4 h5 h6 ih =>
    obtain ⟨xs, g1, g2⟩ := ih
    have hm : mc.numHalfSteps / 2 ≤ mc'.numHalfSteps / 2 := Nat.div_le_div_right (halfSteps_follow (watch_observed w).1 h3)
    refine ⟨xs ++ ys, runLoop_append g1 h1, fun f hf => ?_⟩
    rw [filtersOf_append, List.mem_append] at hf
    rcases hf with hf | hf
    · exact le_trans (g2 f hf) hm
    · exact le_trans (h2 f hf).2 hm
  | restart _ _ ih => exact ih

omit [AddCommGroup G1] [AddCommGroup G2] [DecidableEq G2] [DecidableEq GT] in
theorem filters_heights (l : List Filter) : ∃ h0 : Int, ∀ f ∈ l, f.syncHeight ≤ h0 := by
  induction l with
  | nil => exact ⟨0, by simp⟩
  | cons a l ih =>
    obtain ⟨h0, hh⟩ := ih
    refine ⟨max h0 a.syncHeight, ?_⟩
    intro f hf
    rcases List.mem_cons.1 hf with rfl | hf
    · exact le_max_right _ _
    · exact le_trans (hh f hf) (le_max_left _ _)

omit [AddCommGroup G1] [AddCommGroup G2] [DecidableEq G2] [DecidableEq GT] in
theorem sigs_of {xs : List LoopStep} {b0 : Nat} (hr : runLoop codecs chain newShutter xs = some s) (hb : ∀ f ∈ filtersOf xs, f.batchIndex ≤ b0) :
    ∀ b ≥ b0, getBatchData s b = signaturesFor b (seenEvents codecs chain s) := by
  obtain ⟨h0, hh⟩ := filters_heights (filtersOf xs)
  exact (C36_filter_loses_nothing_partial hr hh hb).2.2.1

omit [AddCommGroup G1] [AddCommGroup G2] [DecidableEq G2] [DecidableEq GT] in
theorem seen_append {s' : Observe.Shutter} (lo : -1 ≤ s.currentBlock) (h : s.currentBlock ≤ s'.currentBlock) (b : Nat) :
    ∃ more, signaturesFor b (seenEvents codecs chain s') = signaturesFor b (seenEvents codecs chain s) ++ more := by
  unfold seenEvents
  rw [← chainEvents_append codecs chain (lo := 0) (m := s.currentBlock) (by omega) h]
  unfold signaturesFor
  rw [List.filter_append]
  exact ⟨_, rfl⟩

omit [AddCommGroup G1] [AddCommGroup G2] [DecidableEq G2] [DecidableEq GT] in
theorem SigInv.append {config : BatchConfig} {b : Nat} {sigs more : List Stamped} {bt : Batch} (h : SigInv cx config b sigs bt) :
    SigInv cx config b (sigs ++ more) bt := by
  refine ⟨h.index, by have := h.le; rw [List.length_append]; omega, ?_⟩
  rw [List.take_append_of_le_length h.le]
  exact h.seen

theorem entry_inv {sh : Observe.Shutter} {b : Nat} {config : BatchConfig} (hc : configForBatchIndex mc b = some (some config))
    {K : G1 → Prop} {o o' : Option Batch} (h : Entry cx sh mc b K o o') (inv : ∀ bt, o = some bt → SigInv cx config b (getBatchData sh b) bt) :
    ∀ bt, o' = some bt → SigInv cx config b (getBatchData sh b) bt := by
  induction h with
  | refl => exact inv
  | tail _ h ih =>
    cases h with
    | fresh o key _ =>
      rintro bt ⟨⟩
      exact ⟨rfl, Nat.zero_le _, .inr (by simp [freshBatch])⟩
    | sync hs =>
      rintro bt ⟨⟩
      exact (syncBatch_inv hc (ih _ rfl) hs).1

/-- An entry, made from what was accepted in the end, with a key of the keyper. -/
structure Made (cx : Cfg G1 G2 GT R) (w : World) (st : State G1 G2) (b : Nat) (bt : Batch) : Prop where
  from_key : ∃ key, HasKey st b key ∧ DecryptedWith cx key (w.accepted b .cipher) bt.decryptedTransactions
  empty : bt.isEmpty = (w.batcher.hashes b .cipher == zeroHash)
  signed : bt.decryptionSignatureHash = decryptionSignatureHash cx b (w.batcher.hashes b .cipher) (transactionsHash cx bt.decryptedTransactions)

omit [AddCommGroup G1] [DecidableEq GT] in
theorem fresh_made (o : Observed E fd false mc hist) {b : Nat} {key : G1} (hk : HasKey st b key) :
    Made cx (hist mc.currentBlock) st b (freshBatch cx mc b key) := by
  have h := (Main.Props.C37_exact_partial o b).1 .cipher
  refine ⟨⟨key, hk, ?_⟩, ?_, ?_⟩
  · rw [← h.1]
    unfold DecryptedWith MainChain.txs freshBatch
    cases mc.batches b <;> rfl
  · rw [← h.2]
    unfold MainChain.hash freshBatch
    cases mc.batches b <;> rfl
  · rw [← h.2]
    unfold MainChain.hash freshBatch
    cases mc.batches b <;> rfl

omit [AddCommGroup G1] [DecidableEq GT] in
theorem Made.sync {w : World} {b : Nat} {sh : Observe.Shutter} {bt bt' : Batch} (h : Made cx w st b bt) (hs : syncBatch cx sh mc bt = some bt') :
    Made cx w st b bt' := by
  unfold syncBatch at hs
  split at hs
  · cases hs; exact h
  · split at hs
    · cases hs
    · cases hs
    · next _ sigs _ _ config hc =>
      split at hs
      · cases hs; exact h
      · cases hs
        obtain ⟨new, g1, g2, g3⟩ := syncSignatures_spec cx config (sigs.drop bt.decryptionSignatureIndex) bt
        rw [g1]
        exact ⟨h.from_key, h.empty, h.signed⟩

omit [DecidableEq GT] in
theorem entry_made (o : Observed E fd false mc hist) {sh : Observe.Shutter} {b : Nat} {o1 o2 : Option Batch}
    (h : Entry cx sh mc b (HasKey st b) o1 o2) (inv : ∀ bt, o1 = some bt → Made cx (hist mc.currentBlock) st b bt) :
    ∀ bt, o2 = some bt → Made cx (hist mc.currentBlock) st b bt := by
  induction h with
  | refl => exact inv
  | tail _ h ih =>
    cases h with
    | fresh o1 key hk =>
      rintro bt ⟨⟩
      exact fresh_made o hk
    | sync hs =>
      rintro bt ⟨⟩
      exact (ih _ rfl).sync hs

/-- What the keyper has of batch `b`, if it got the key in time. -/
structure EntryInv (cx : Cfg G1 G2 GT R) (evs : List Stamped) (w : World) (st : State G1 G2) (b : Nat) : Prop where
  ended : ∀ key, HasKey st b key → w.BatchOver b
  has : ∀ key, HasKey st b key → (st.batches.lookup b).isSome
  made : ∀ bt, st.batches.lookup b = some bt → Made cx w st b bt
  sigs : ∀ bc x y z, w.HasBatch b bc x y z → y ≤ w.block → ∀ bt, st.batches.lookup b = some bt → SigInv cx (known bc) b evs bt

/-- In a round in which it decided, the keyper has counted all signatures. -/
structure Settled (cx : Cfg G1 G2 GT R) (evs : List Stamped) (w : World) (st : State G1 G2) (b : Nat) : Prop extends EntryInv cx evs w st b where
  all : ∀ bc x y z, w.HasBatch b bc x y z → y ≤ w.block → ∀ bt, st.batches.lookup b = some bt → bt.isEmpty = false →
    bt.decryptionSignatureIndex = evs.length

omit [AddCommGroup G1] [AddCommGroup G2] [DecidableEq G2] [DecidableEq GT] in
theorem hasBatch_later {n m : Nat} (c : Main.Chain E hist) (hnm : n ≤ m) (hm : m < two64) {b : Nat} {bc : BatchConfig} {x y z : Nat}
    (h : (hist n).HasBatch b bc x y z) (hy : y ≤ (hist n).block) : (hist m).HasBatch b bc x y z :=
  Sol.hasBatch_mono (c.reach (by omega)).preach.inv (Sol.plater_config (c.plater hnm hm)) h (le_trans (Sol.HasBatch.order h).1 hy)

theorem watch_entries (w : Watch cx codecs chain E fd s st mc hist log) (hn : NoneTakenBack hist mc.currentBlock) (hk : KeysInTime hist log) :
    (∀ b ≥ mc.numHalfSteps / 2, EntryInv cx (signaturesFor b (seenEvents codecs chain s)) (hist mc.currentBlock) st b) ∧
    ∀ r ∈ log, decides cx r.view r.main = true → ∀ b ≥ r.main.numHalfSteps / 2,
      Settled cx (signaturesFor b (seenEvents codecs chain r.view)) (hist r.main.currentBlock) r.after b := by
  induction w with
  | init _ =>
    refine ⟨fun b _ => ⟨?_, ?_, ?_, ?_⟩, by simp⟩
    · rintro key ⟨e, he, _⟩; cases he
    · rintro key ⟨e, he, _⟩; cases he
    · intro bt h; cases h
    · intro bc x y z _ _ bt h; cases h
  | @round s s' st st' mc mc' hist hist' log ys keys acts w h1 h2 h3 h4 h5 h6 ih =>
    have w' := Watch.round w h1 h2 h3 h4 h5 h6
    obtain ⟨o, ol⟩ := watch_observed w
    obtain ⟨f1, f2, f3⟩ := follows_spec h3 o
    have hle := halfSteps_follow o h3
    obtain ⟨i1, i2⟩ := ih
      (fun k m hkm hm => by rw [← f3 k (le_trans hkm hm), ← f3 m hm]; exact hn k m hkm (le_trans hm f2))
      (fun m hm b key h => by
        rw [← f3 _ (ol m hm).2]
        exact hk m (List.mem_append_left _ hm) b key h)
    obtain ⟨xs, g1, g2⟩ := watch_sigs w
    obtain ⟨xs', g1', g2'⟩ := watch_sigs w'
    have hlo : -1 ≤ s.currentBlock := by
      have := runLoop_mono g1
      simpa [newShutter] using this
    have hmono := runLoop_mono h1
    have over' : ∀ b key, HasKey st' b key → (hist' mc'.currentBlock).BatchOver b :=
      fun b key h => hk ⟨s', st, mc', st', acts⟩ (by simp) b key h
    have lb := life_batches (watch_life w')
    -- the batch of the view before
    have lift : ∀ b ≥ mc'.numHalfSteps / 2, ∀ bc x y z, (hist' mc'.currentBlock).HasBatch b bc x y z → ∀ bt, st.batches.lookup b = some bt →
        SigInv cx (known bc) b (signaturesFor b (seenEvents codecs chain s')) bt := by
      intro b hb bc x y z hB bt hbt
      have hb0 : b ≥ mc.numHalfSteps / 2 := le_trans (Nat.div_le_div_right hle) hb
      obtain ⟨_, _, ⟨_, key, _, hkey, _⟩, _⟩ := life_batches (watch_life w) _ (mem_of_lookup hbt)
      obtain ⟨bc0, x0, y0, z0, hB0, hy0⟩ := (i1 b hb0).ended key hkey
      rw [← f3 _ (le_refl _)] at hB0 hy0
      have := hasBatch_later f1.chain f2 f1.current hB0 hy0
      obtain ⟨rfl, rfl, rfl, rfl⟩ := Sol.HasBatch.unique this hB
      rw [f3 _ (le_refl _)] at hB0 hy0
      obtain ⟨more, hmore⟩ := seen_append (codecs := codecs) (chain := chain) hlo hmono b
      rw [hmore]
      exact ((i1 b hb0).sigs _ _ _ _ hB0 hy0 bt hbt).append
    have liftM : ∀ b ≥ mc'.numHalfSteps / 2, ∀ bt, st.batches.lookup b = some bt → Made cx (hist' mc'.currentBlock) st' b bt := by
      intro b hb bt hbt
      have hb0 : b ≥ mc.numHalfSteps / 2 := le_trans (Nat.div_le_div_right hle) hb
      obtain ⟨⟨key, m1, m2⟩, m3, m4⟩ := (i1 b hb0).made bt hbt
      have hover := (i1 b hb0).ended key m1
      rw [← f3 _ (le_refl _)] at hover m2 m3 m4
      have ha := Sol.accepted_later (f1.chain.reach (lt_of_le_of_lt f2 f1.current)).preach.inv (f1.chain.plater f2 f1.current) hover .cipher
      refine ⟨⟨key, hasKey_round h6 m1, ?_⟩, ?_, ?_⟩
      · rw [ha.1]; exact m2
      · rw [ha.2.1]; exact m3
      · rw [ha.2.1]; exact m4
    have main : ∀ b ≥ mc'.numHalfSteps / 2, EntryInv cx (signaturesFor b (seenEvents codecs chain s')) (hist' mc'.currentBlock) st' b ∧
        (decides cx s' mc' = true → ∀ bc x y z, (hist' mc'.currentBlock).HasBatch b bc x y z → y ≤ (hist' mc'.currentBlock).block →
          ∀ bt, st'.batches.lookup b = some bt → bt.isEmpty = false →
          bt.decryptionSignatureIndex = (signaturesFor b (seenEvents codecs chain s')).length) := by
      intro b hb
      have hb0 : b ≥ mc.numHalfSteps / 2 := le_trans (Nat.div_le_div_right hle) hb
      have hsg := sigs_of g1' g2' b hb
      have stages : (decides cx s' mc' = true → ∃ dkg sync pub sigs exec app acc ekgs,
          Stages cx s' mc' keys st st' acts dkg sync pub sigs exec app acc ekgs) := by
        intro hd
        unfold decides at hd
        simp only [Bool.and_eq_true] at hd
        exact decide_ready h6 hd.1.1 hd.1.2 hd.2
      by_cases hd : decides cx s' mc' = true
      · obtain ⟨_, _, _, _, _, _, _, _, g⟩ := stages hd
        obtain ⟨o', e1, e2, e3, e4⟩ := entry_round (b := b) g
        have hne : mc'.configs ≠ [] := by
          intro h0
          have := g.hpub
          simp [publishEpochSecretKeyShares, activeConfigIndex, h0] at this
        have inv : ∀ bc x y z, (hist' mc'.currentBlock).HasBatch b bc x y z → ∀ bt, o' = some bt →
            SigInv cx (known bc) b (getBatchData s' b) bt := by
          intro bc x y z hB
          refine entry_inv (configFor_of f1 hn hne hB).1 e1 fun bt hbt => ?_
          rw [hsg]
          exact lift b hb bc x y z hB bt hbt
        have fin : ∀ bc x y z, (hist' mc'.currentBlock).HasBatch b bc x y z → ∀ bt, st'.batches.lookup b = some bt →
            SigInv cx (known bc) b (getBatchData s' b) bt ∧ (bt.isEmpty = false → bt.decryptionSignatureIndex = (getBatchData s' b).length) := by
          intro bc x y z hB bt hbt
          cases ho : o' with
          | none => rw [e3 ho] at hbt; cases hbt
          | some bt0 =>
            obtain ⟨bt', k1, k2⟩ := e2 bt0 ho
            rw [k2] at hbt
            cases hbt
            have := syncBatch_inv (configFor_of f1 hn hne hB).1 (inv bc x y z hB bt0 ho) k1
            exact ⟨this.1, this.2.2⟩
        rw [hsg] at fin
        refine ⟨⟨fun key => over' b key, fun key h => ?_, fun bt hbt => ?_, fun bc x y z hB _ bt hbt => (fin bc x y z hB bt hbt).1⟩,
          fun _ bc x y z hB _ bt hbt => (fin bc x y z hB bt hbt).2⟩
        have hsome : o'.isSome := by
          rcases e4 key h with h | h
          · exact e1.isSome ((i1 b hb0).has key h)
          · exact h
        obtain ⟨bt0, ho⟩ := Option.isSome_iff_exists.mp hsome
        obtain ⟨bt', _, k2⟩ := e2 bt0 ho
        rw [k2]; rfl
        cases ho : o' with
        | none => rw [e3 ho] at hbt; cases hbt
        | some bt0 =>
          obtain ⟨bt', k1, k2⟩ := e2 bt0 ho
          rw [k2] at hbt
          cases hbt
          exact (entry_made f1 e1 (liftM b hb) bt0 ho).sync k1
      · have hst : st' = st := by
          rcases decide_stages h6 with ⟨h, _⟩ | ⟨_, _, _, _, _, _, _, _, g⟩
          · exact h
          · exfalso
            apply hd
            unfold decides
            rw [g.ready.1, g.ready.2.1, g.ready.2.2]
            rfl
        subst hst
        refine ⟨⟨fun key => over' b key, fun key h => (i1 b hb0).has key h, liftM b hb, fun bc x y z hB _ bt hbt => lift b hb bc x y z hB bt hbt⟩,
          fun h => absurd h hd⟩
    refine ⟨fun b hb => (main b hb).1, fun r hr hd b hb => ?_⟩
    rcases List.mem_append.1 hr with hr | hr
    · have := i2 r hr hd b hb
      rw [← f3 _ (ol r hr).2] at this
      exact this
    · rw [List.mem_singleton] at hr
      subst hr
      exact ⟨(main b hb).1, (main b hb).2 hd⟩
  | restart f w ih =>
    obtain ⟨i1, i2⟩ := ih hn hk
    refine ⟨fun b hb => ?_, i2⟩
    have := i1 b hb
    unfold loadState
    split
    · exact ⟨this.ended, this.has, fun bt h => let m := this.made bt h; ⟨m.from_key, m.empty, m.signed⟩, this.sigs⟩
    · exact ⟨this.ended, this.has, fun bt h => let m := this.made bt h; ⟨m.from_key, m.empty, m.signed⟩, this.sigs⟩

end Shutter.Decide
