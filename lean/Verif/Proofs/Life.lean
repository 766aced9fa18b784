import Verif.Spec.Life
import Verif.Proofs.Schedule
import Verif.Proofs.DecideStages
import Verif.Proofs.MainChainAcc
import Verif.Proofs.SolBatcher

set_option linter.unusedSectionVars false

/-! # The life of a keyper: epoch secret key shares -/

namespace Shutter.Main
open Shutter.Sol Shutter.GoConfig

theorem follows_aux {E fd} {x y : MainChain × (Nat → World)} (h : Follows E x y) (o : Observed E fd false x.1 x.2) :
    Observed E fd false y.1 y.2 ∧ x.1.currentBlock ≤ y.1.currentBlock ∧ ∀ n, n ≤ x.1.currentBlock → y.2 n = x.2 n := by
  induction h with
  | refl => exact ⟨o, le_refl _, fun _ _ => rfl⟩
  | @tail b c _ st ih =>
    obtain ⟨i1, i2, i3⟩ := ih
    cases st with
    | sync h64 hb hs =>
      refine ⟨i1.sync h64 (fun _ => hb) hs, ?_, i3⟩
      rcases syncToHead_spec hs with rfl | ⟨h1, _⟩
      · exact i2
      · change _ ≤ MainChain.currentBlock _
        rw [h1]; exact le_trans i2 hb
    | reorg hc he =>
      exact ⟨i1.reorg hc he, i2, fun n hn => (he n (le_trans hn i2)).trans (i3 n hn)⟩

theorem follows_spec {E fd} {mc mc' : MainChain} {hist hist' : Nat → World} (h : Follows E (mc, hist) (mc', hist'))
    (o : Observed E fd false mc hist) :
    Observed E fd false mc' hist' ∧ mc.currentBlock ≤ mc'.currentBlock ∧ ∀ n, n ≤ mc.currentBlock → hist' n = hist n :=
  follows_aux h o

/-- The configs known to a keyper are in the schedule of the contract. -/
theorem known_active {cs : List BatchConfig} {n i : Nat} (h : ActiveAt (cs.map known) n i) : ActiveAt cs n i := by
  obtain ⟨⟨c, h1, h2⟩, h3⟩ := h
  rw [List.getElem?_map, Option.map_eq_some_iff] at h1
  obtain ⟨bc, h1, rfl⟩ := h1
  refine ⟨⟨bc, h1, h2⟩, fun j x hj hx => ?_⟩
  exact h3 j (known x) hj (by rw [List.getElem?_map, hx]; rfl)

/-- What the keyper takes for the current batch is the current batch of the schedule. -/
theorem current_of {E fd mc hist} (o : Observed E fd false mc hist) (hn : NoneTakenBack hist mc.currentBlock)
    (ho : InOrder (hist mc.currentBlock).config.scheduled) {i current : Nat} {c : BatchConfig}
    (hi : activeConfigIndex mc mc.currentBlock = some i) (hc : mc.configs[i]? = some c)
    (hb : batchIndex c mc.currentBlock = some current) :
    ∃ bc, (hist mc.currentBlock).config.scheduled[i]? = some bc ∧ c = known bc ∧
      ActiveAt (hist mc.currentBlock).config.scheduled mc.currentBlock i ∧ current = currentIn bc mc.currentBlock := by
  have hinv := (o.chain.reach o.current).preach.inv
  have hs := hinv.schedule ho
  have ha := activeAt_of hi
  rcases configView o hn with h | h
  · rw [h] at hc; simp at hc
  · rw [h] at ha hc
    rw [List.getElem?_map, Option.map_eq_some_iff] at hc
    obtain ⟨bc, hbc, rfl⟩ := hc
    exact ⟨bc, hbc, rfl, known_active ha, (batchIndex_eq (hs.index_le hbc) o.current hb).2⟩

/-- A batch before the current one has ended, and gets no more transactions. -/
theorem closed_of {E fd mc hist} (o : Observed E fd false mc hist)
    (ho : InOrder (hist mc.currentBlock).config.scheduled) {i : Nat} {bc : BatchConfig}
    (ha : ActiveAt (hist mc.currentBlock).config.scheduled mc.currentBlock i)
    (hbc : (hist mc.currentBlock).config.scheduled[i]? = some bc) {b : Nat} (hb : b < currentIn bc mc.currentBlock) :
    ∃ j bj, Responsible (hist mc.currentBlock).config j b ∧ (hist mc.currentBlock).config.scheduled[j]? = some bj ∧
      0 < bj.batchSpan ∧ bj.nominalEnd b ≤ mc.currentBlock := by
  have hinv := (o.chain.reach o.current).preach.inv
  obtain ⟨j, _, _, hr⟩ := hinv.lookup b
  obtain ⟨⟨bj, h1, h2⟩, h3⟩ := hr
  obtain ⟨h4, h5⟩ := (hinv.schedule ho).closed ha hbc hb h1 h2 h3
  exact ⟨j, bj, ⟨⟨bj, h1, h2⟩, h3⟩, h1, h4, h5⟩

theorem no_more {E hist} (c : Chain E hist) {n m j b : Nat} {bj : BatchConfig} (hnm : n ≤ m) (hm : m < two64)
    (hr : Responsible (hist n).config j b) (hj : (hist n).config.scheduled[j]? = some bj) (hspan : 0 < bj.batchSpan)
    (hend : bj.nominalEnd b ≤ n) (ty : TxType) : (hist m).accepted b ty = (hist n).accepted b ty := by
  have hn : n < two64 := by omega
  have hinv := (c.reach hn).preach.inv
  have hinv' := (c.reach hm).preach.inv
  obtain ⟨l, h1, h2⟩ := c.log hnm hm
  have hb : bj.startBatchIndex ≤ b := by
    obtain ⟨⟨x, hx, hx'⟩, _⟩ := hr
    rw [hj] at hx; cases hx; exact hx'
  have hst : (if b = bj.startBatchIndex then bj.nominalStart b else bj.nominalStart b - bj.batchSpan) ≤ (hist n).configAt.block := by
    have : (hist n).configAt.block = n := c.blk hn
    rw [this]
    unfold BatchConfig.nominalEnd at hend
    split <;> omega
  have fz := Config.frozen_later (s := (hist n).configAt) hinv hj hspan hb hst hr (plater_config (c.plater hnm hm))
  obtain ⟨k, bk, hk, g1, g2, g3, g4⟩ := Config.frozen_lookup (c := (hist n).config) hinv hinv' hr fz b (le_refl _)
  have hkj : k = j := Config.responsible_unique ((hinv.lookup_iff b k).1 g1) hr
  subst hkj
  have hnil : addedIn l b ty = [] := by
    unfold addedIn
    rw [List.filterMap_eq_nil_iff]
    intro e he
    obtain ⟨x, ev⟩ := e
    obtain ⟨hx, _⟩ := h2 _ he
    have hmem : (x, ev) ∈ (hist m).log := by rw [h1]; exact List.mem_append_right _ he
    cases ev with
    | transactionAdded b' ty' tx hash v =>
      simp only [ite_eq_right_iff]
      rintro ⟨rfl, rfl⟩
      exfalso
      obtain ⟨bc, st, e, t, ⟨i, k1, k2, k3⟩, k4, k5, _⟩ := (batcherInv (c.reach hm).preach).entry _ _ _ _ _ _ hmem
      change (hist m).config.configIndexForBatchIndex _ = _ at g2
      rw [g2] at k1; cases k1
      obtain ⟨bc', m1, _, _, m4, _⟩ := Config.boundary_iff.1 k3
      rw [Config.configs_get (get_lt g4), g4] at m1
      cases m1
      rw [g3] at hj; cases hj
      simp only at hx
      omega
    | _ => rfl
  rw [accepted_eq, accepted_eq, h1, addedIn_append, hnil, List.append_nil]

end Shutter.Main

namespace Shutter.Decide
open Shutter.Crypto Shutter.Dkg Shutter.Observe Shutter.Main Shutter.Sol
open Shutter.Events (Codecs)

variable {G1 G2 GT R : Type} [AddCommGroup G1] [AddCommGroup G2] [DecidableEq G2] [DecidableEq GT]
variable {cx : Cfg G1 G2 GT R} {codecs : Codecs} {chain : Observe.Chain} {E : Sol.Env} {fd : Nat}

/-- The views of all rounds are views of the final chain. -/
theorem life_observed {s : Observe.Shutter} {st : State G1 G2} {mc : MainChain} {hist : Nat → World}
    {log : List (MainChain × List (Action G1 G2))} (l : Life cx codecs chain E fd s st mc hist log) :
    Observed E fd false mc hist ∧ ∀ e ∈ log, Observed E fd false e.1 hist ∧ e.1.currentBlock ≤ mc.currentBlock := by
  induction l with
  | init hc => exact ⟨.start hc, by simp⟩
  | round _ _ _ hf _ _ _ ih =>
    obtain ⟨i1, i2⟩ := ih
    obtain ⟨f1, f2, f3⟩ := follows_spec hf i1
    refine ⟨f1, fun e he => ?_⟩
    rw [List.mem_append, List.mem_singleton] at he
    rcases he with he | rfl
    · obtain ⟨j1, j2⟩ := i2 e he
      exact ⟨j1.reorg f1.chain (fun n hn => f3 n (le_trans hn j2)), le_trans j2 f2⟩
    · exact ⟨f1, le_refl _⟩
  | restart _ _ ih => exact ih

/-- The shares of a round. -/
theorem shares_round {sh : Observe.Shutter} {mc : MainChain} {keys : List Nat} {st st' : State G1 G2} {acts : List (Action G1 G2)}
    (h : decideStep cx sh mc keys st = some (st', acts)) :
    (st'.nextEpochSecretShare = st.nextEpochSecretShare ∧ sharesOf acts = []) ∨ ∃ i c current,
      activeConfigIndex mc mc.currentBlock = some i ∧ mc.configs[i]? = some c ∧ GoConfig.batchIndex c mc.currentBlock = some current ∧
      st'.nextEpochSecretShare = current ∧ (sharesOf acts).Pairwise (· < ·) ∧
      ∀ b ∈ sharesOf acts, st.nextEpochSecretShare ≤ b ∧ b < current := by
  have hshare : ∀ l : List (Action G1 G2), sharesOf l = sharesOf (l.filter (fun a => a.kind = .share)) := by
    intro l
    unfold sharesOf
    induction l with
    | nil => rfl
    | cons x l ih =>
      cases x <;> simpa [List.filterMap_cons, List.filter_cons, Action.kind] using ih
  rcases decide_stages h with ⟨rfl, rfl⟩ | ⟨dkg, sync, pub, sigs, exec, app, acc, ekgs, g⟩
  · exact .inl ⟨rfl, rfl⟩
  · have hf := g.filter .share
    obtain ⟨_, _, _, _, _, hd⟩ := g.hdkg
    have e1 := (syncEKGs_stage g.hsync)
    have e3 := (handleSigs_stage g.hsigs).2
    have e4 := (exec_stage g.hexec).2
    have e5 := (appeal_stage g.happ).2
    have e6 := (accuse_stage g.hacc).2
    have hnext : st'.nextEpochSecretShare = pub.st.nextEpochSecretShare := by
      rw [g.final, e6, e5, e4, e3]
    have hnext0 : sync.st.nextEpochSecretShare = st.nextEpochSecretShare := by
      rw [e1.2, hd]
    have hnone : sync.actions.filter (fun a => a.kind = .share) = [] := by
      rw [e1.1.filter_ne (by decide), List.filter_eq_nil_iff]
      intro a ha
      rcases g.hkind a ha with h | h | h <;> rw [h] <;> decide
    rw [hshare, hf, hnext]
    simp only
    rcases publish_stage g.hpub with rfl | ⟨i, bc, c, g1, g2, _, g3, g4, new, g5, g6, g7⟩
    · left
      refine ⟨hnext0, ?_⟩
      change sharesOf (sync.actions.filter _) = []
      rw [hnone]; rfl
    · right
      have hacts : pub.actions.filter (fun a => a.kind = .share) = new := by
        rw [g5]
        change (sync.actions ++ new).filter _ = new
        rw [List.filter_append, hnone, List.nil_append, List.filter_eq_self]
        intro a ha
        obtain ⟨_, _, _, rfl, _⟩ := g6 a ha
        rfl
      rw [hacts]
      refine ⟨i, bc, c, g1, g2, g3, by rw [g4], ?_, ?_⟩
      · unfold sharesOf
        rw [List.pairwise_filterMap]
        refine g7.imp ?_
        intro x y hxy b hb b' hb'
        cases x <;> cases y <;> simp at hb hb'
        subst hb hb'
        exact hxy _ _ _ _ _ _ rfl rfl
      · intro b hb
        unfold sharesOf at hb
        rw [List.mem_filterMap] at hb
        obtain ⟨a, ha, hb⟩ := hb
        obtain ⟨eon, b', share, rfl, k1, k2, _⟩ := g6 a ha
        simp at hb; subst hb
        change sync.st.nextEpochSecretShare ≤ _ at k1
        rw [hnext0] at k1
        exact ⟨k1, k2⟩

theorem mem_sharesOf {acts : List (Action G1 G2)} {eon b : Nat} {share : G1} (h : .epochSecretKeyShare eon b share ∈ acts) :
    b ∈ sharesOf acts := by
  unfold sharesOf
  rw [List.mem_filterMap]
  exact ⟨_, h, rfl⟩

/-- The rounds of a life are rounds of the keyper. -/
theorem life_round {s : Observe.Shutter} {st : State G1 G2} {mc : MainChain} {hist : Nat → World}
    {log : List (MainChain × List (Action G1 G2))} (l : Life cx codecs chain E fd s st mc hist log) :
    ∀ e ∈ log, ∃ sh keys st1 st2, decideStep cx sh e.1 keys st1 = some (st2, e.2) := by
  induction l with
  | init _ => simp
  | round _ _ _ _ _ _ hd ih =>
    intro e he
    rw [List.mem_append, List.mem_singleton] at he
    rcases he with he | rfl
    · exact ih e he
    · exact ⟨_, _, _, _, hd⟩
  | restart _ _ ih => exact ih

/-- The current batch at a block, on the chain. -/
def CurrentAt (hist : Nat → World) (n b : Nat) : Prop :=
  ∃ i bc, ActiveAt (hist n).config.scheduled n i ∧ (hist n).config.scheduled[i]? = some bc ∧ b = currentIn bc n

theorem currentAt_mono {hist : Nat → World} (c : Main.Chain E hist) {n m b b' : Nat} (hnm : n ≤ m) (hm : m < two64)
    (hp : (hist n).config.scheduled <+: (hist m).config.scheduled) (ho : InOrder (hist m).config.scheduled)
    (h : CurrentAt hist n b) (h' : CurrentAt hist m b') : b ≤ b' := by
  obtain ⟨i, bc, h1, h2, rfl⟩ := h
  obtain ⟨i', bc', h1', h2', rfl⟩ := h'
  have hn : n < two64 := by omega
  have hinv := (c.reach hn).preach.inv
  have hs := (c.reach hm).preach.inv.schedule ho
  have hnew := Config.new_later (s := (hist n).configAt) hinv (plater_config (c.plater hnm hm))
  have hblk : (hist n).configAt.block = n := c.blk hn
  rw [hblk] at hnew
  have h2x : (hist m).config.scheduled[i]? = some bc := by
    obtain ⟨t, ht⟩ := hp
    rw [← ht, List.getElem?_append_left (get_lt h2)]; exact h2
  exact hs.current_mono hnm (h1.extend hp hnew) h2x h1' h2'

theorem life_in_order {s : Observe.Shutter} {st : State G1 G2} {mc : MainChain} {hist : Nat → World}
    {log : List (MainChain × List (Action G1 G2))} (l : Life cx codecs chain E fd s st mc hist log)
    (hn : NoneTakenBack hist mc.currentBlock) (ho : InOrder (hist mc.currentBlock).config.scheduled) :
    (log.flatMap (fun e => sharesOf e.2)).Pairwise (· < ·) ∧
    (∀ b ∈ log.flatMap (fun e => sharesOf e.2), b < st.nextEpochSecretShare) ∧
    (st.nextEpochSecretShare = 0 ∨ ∃ n, n ≤ mc.currentBlock ∧ CurrentAt hist n st.nextEpochSecretShare) := by
  induction l with
  | init _ => exact ⟨by simp, by simp, .inl rfl⟩
  | @round s s' st st' mc mc' hist hist' log ys keys acts l _ _ hf _ _ hd ih =>
    obtain ⟨o, _⟩ := life_observed l
    obtain ⟨o', f2, f3⟩ := follows_spec hf o
    have hn' : NoneTakenBack hist mc.currentBlock := by
      intro k m hk hm
      rw [← f3 k (by omega), ← f3 m hm]
      exact hn k m hk (le_trans hm f2)
    have ho' : InOrder (hist mc.currentBlock).config.scheduled := by
      rw [← f3 _ (le_refl _)]
      exact List.Pairwise.sublist (hn _ _ f2 (le_refl _)).sublist ho
    obtain ⟨i1, i2, i3⟩ := ih hn' ho'
    rw [List.flatMap_append, List.flatMap_cons, List.flatMap_nil, List.append_nil]
    have hcur : ∀ n b, n ≤ mc.currentBlock → CurrentAt hist n b → CurrentAt hist' n b := by
      intro n b hn hc
      unfold CurrentAt at hc ⊢
      rw [f3 n hn]; exact hc
    rcases shares_round hd with ⟨h1, h2⟩ | ⟨i, c, cur, h1, h2, h3, h4, h5, h6⟩
    · simp only [h2, List.append_nil]
      rw [h1]
      refine ⟨i1, i2, i3.imp_right ?_⟩
      rintro ⟨n, hn1, hn2⟩
      exact ⟨n, le_trans hn1 f2, hcur n _ hn1 hn2⟩
    · obtain ⟨bc, k1, _, k3, k4⟩ := current_of o' hn ho h1 h2 h3
      have hc' : CurrentAt hist' mc'.currentBlock cur := ⟨i, bc, k3, k1, k4⟩
      have hle : st.nextEpochSecretShare ≤ cur := by
        rcases i3 with h0 | ⟨n, hn1, hn2⟩
        · omega
        · exact currentAt_mono o'.chain (le_trans hn1 f2) o'.current (hn n _ (le_trans hn1 f2) (le_refl _)) ho (hcur n _ hn1 hn2) hc'
      rw [h4]
      refine ⟨?_, ?_, .inr ⟨_, le_refl _, hc'⟩⟩
      · rw [List.pairwise_append]
        refine ⟨i1, h5, fun a ha b hb => ?_⟩
        have := i2 a ha
        have := (h6 b hb).1
        omega
      · intro b hb
        rw [List.mem_append] at hb
        rcases hb with hb | hb
        · have := i2 b hb; omega
        · exact (h6 b hb).2
  | @restart s st mc hist log forget l ih =>
    have : (loadState s st).nextEpochSecretShare = st.nextEpochSecretShare := by
      unfold loadState; split <;> rfl
    simp only [this]
    exact ih hn ho

end Shutter.Decide
