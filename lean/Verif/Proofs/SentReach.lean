import Verif.Proofs.SentInv

/-! Everything a keyper says in its life. -/

namespace Shutter.Decide
open Shutter.Crypto Shutter.Crypto.Spec Shutter.Dkg Shutter.Observe Shutter.Decide.Spec
open Shutter.Observe.Props
open Shutter.App (Addr findAddressIndex)
open Shutter.Events (Codecs)

variable {G1 G2 GT R : Type} [AddCommGroup G1] [AddCommGroup G2] [DecidableEq G2] [DecidableEq GT]

theorem lived_reach {cx : Cfg G1 G2 GT R} {codecs : Codecs} {chain : Chain} {rs : List (Round G1 G2)} {s : Observe.Shutter}
    {st : State G1 G2} (h : Lived cx codecs chain rs s st) : Reach cx codecs chain s st := by
  induction h with
  | init => exact .init
  | round _ hr hf hd ih => exact .round ih hr hf hd
  | restart _ hn ih => exact .restart ih hn

theorem reach_lived {cx : Cfg G1 G2 GT R} {codecs : Codecs} {chain : Chain} {s : Observe.Shutter}
    {st : State G1 G2} (h : Reach cx codecs chain s st) : ∃ rs, Lived cx codecs chain rs s st := by
  induction h with
  | init => exact ⟨_, .init⟩
  | round _ hr hf hd ih =>
    obtain ⟨rs, ih⟩ := ih
    exact ⟨_, .round ih hr hf hd⟩
  | restart _ hn ih =>
    obtain ⟨rs, ih⟩ := ih
    exact ⟨_, .restart ih hn⟩

omit [AddCommGroup G1] [AddCommGroup G2] [DecidableEq G2] [DecidableEq GT] in
theorem findAddressIndex_lt : ∀ {as : List Addr} {a : Addr} {i : Nat}, findAddressIndex as a = some i → i < as.length := by
  intro as
  induction as with
  | nil => intro a i h; cases h
  | cons x as ih =>
    intro a i h
    unfold findAddressIndex at h
    split at h
    · cases h; simp
    · rw [Option.map_eq_some_iff] at h
      obtain ⟨j, h, rfl⟩ := h
      have := ih h
      simp only [List.length_cons]
      omega

/-- The result of a finished key generation is due. -/
def due (cx : Cfg G1 G2 GT R) (l : List (DKG G2)) : List (Action G1 G2) :=
  (l.filter (fun dkg => decide (dkg.pure.state.phase = finalized))).map (verdict cx.crypto)

/-- What holds for everything a keyper said. -/
structure LInv (cx : Cfg G1 G2 GT R) (codecs : Codecs) (chain : Chain) (rs : List (Round G1 G2)) (st : State G1 G2) : Prop where
  times : ∀ r ∈ rs, r.deciding = true → r.next ≤ st.syncHeight
  now : st.dkgs ≠ [] → ∃ r ∈ rs, r.deciding = true ∧ r.next = st.syncHeight
  silent : ∀ r ∈ rs, ∀ a ∈ r.sent, ∀ e, aboutEon a = some e → ∃ dkg ∈ st.dkgs, dkg.eon = e
  idle : ∀ r ∈ rs, r.deciding = false → r.sent = []
  shape : ∀ r ∈ rs, ∀ e rec enc, Action.polyEval e rec enc ∈ r.sent → rec.length = enc.length ∧ rec ≠ []
  said : ∀ dkg ∈ st.dkgs, ∀ S, Started (chainEvents codecs chain 0 (st.syncHeight - 1)) dkg.eon dkg.startBatchIndex S →
    ∃ P, Said cx codecs chain rs dkg S P
  verd : (rs.flatMap (fun r => r.sent.flatMap verdicts)).Perm (due cx st.dkgs)
  when : ∀ dkg ∈ st.dkgs, dkg.pure.state.phase = finalized →
    ∀ S, Started (chainEvents codecs chain 0 (st.syncHeight - 1)) dkg.eon dkg.startBatchIndex S →
    ∃ r ∈ rs, S + 3 * cx.phaseLength ≤ r.next ∧ verdict cx.crypto dkg ∈ r.sent.flatMap verdicts
  origin : ∀ r ∈ rs, ∀ v ∈ r.sent.flatMap verdicts, ∃ dkg ∈ st.dkgs, dkg.pure.state.phase = finalized ∧ verdict cx.crypto dkg = v ∧
    ∀ S, Started (chainEvents codecs chain 0 (st.syncHeight - 1)) dkg.eon dkg.startBatchIndex S → S + 3 * cx.phaseLength ≤ r.next

omit [AddCommGroup G1] [AddCommGroup G2] [DecidableEq G2] [DecidableEq GT] in
theorem said_silent {α : Type} {rs : List (Round G1 G2)} {e : Nat} (h : ∀ r ∈ rs, ∀ a ∈ r.sent, aboutEon a ≠ some e)
    {f : Action G1 G2 → List α} (hf : About e f) : said f rs = [] := by
  unfold Spec.said
  rw [List.flatMap_eq_nil_iff]
  intro r hr
  rw [List.map_eq_nil_iff, List.flatMap_eq_nil_iff]
  intro a ha
  exact hf a (h r hr a ha)

omit [AddCommGroup G1] [AddCommGroup G2] [DecidableEq G2] [DecidableEq GT] in
theorem aboutEon_kind {a : Action G1 G2} {e : Nat} (h : aboutEon a = some e) : a.kind = .keygen := by
  cases a <;> simp_all [aboutEon, Action.kind]

/-- A round without a decision changes nothing. -/
theorem linv_idle {cx : Cfg G1 G2 GT R} {codecs : Codecs} {chain : Chain} {rs : List (Round G1 G2)} {st : State G1 G2}
    (inv : LInv cx codecs chain rs st) (n : Int) : LInv cx codecs chain (rs ++ [⟨false, n, []⟩]) st := by
  have hsaid : ∀ {α : Type} (f : Action G1 G2 → List α), Spec.said f (rs ++ [⟨false, n, []⟩]) = Spec.said f rs := by
    intro α f
    rw [said_append]
    simp
  have hfirst : ∀ S k, firstIn S cx.phaseLength k (rs ++ [⟨false, n, []⟩]) = firstIn S cx.phaseLength k rs := by
    intro S k
    unfold firstIn
    rw [List.find?_append]
    simp [during]
  have hto : ∀ S x, firstTo codecs chain S cx.phaseLength x (rs ++ [⟨false, n, []⟩]) = firstTo codecs chain S cx.phaseLength x rs := by
    intro S x
    unfold firstTo
    rw [List.find?_append]
    simp [during]
  constructor
  · intro r hr hd
    rcases List.mem_append.1 hr with hr | hr
    · exact inv.times r hr hd
    · simp only [List.mem_singleton] at hr
      subst hr
      simp at hd
  · intro h
    obtain ⟨r, hr, h1⟩ := inv.now h
    exact ⟨r, by simp [hr], h1⟩
  · intro r hr
    rcases List.mem_append.1 hr with hr | hr
    · exact inv.silent r hr
    · simp only [List.mem_singleton] at hr
      subst hr
      simp
  · intro r hr
    rcases List.mem_append.1 hr with hr | hr
    · exact inv.idle r hr
    · simp only [List.mem_singleton] at hr
      subst hr
      simp
  · intro r hr
    rcases List.mem_append.1 hr with hr | hr
    · exact inv.shape r hr
    · simp only [List.mem_singleton] at hr
      subst hr
      simp
  · intro dkg hd S hS
    obtain ⟨P, h⟩ := inv.said dkg hd S hS
    refine ⟨P, h.proper, h.poly, ?_, ?_, ?_, ?_, ?_⟩
    · rw [hsaid, hfirst]; exact h.com
    · rw [hsaid, hfirst]; exact h.acc
    · rw [hsaid, hfirst]; exact h.apo
    · intro x; rw [hsaid, hto]; exact h.ev x
    · intro hp
      simp only [hto]
      exact h.out hp
  · simpa using inv.verd
  · intro dkg hd hp S hS
    obtain ⟨r, hr, h⟩ := inv.when dkg hd hp S hS
    exact ⟨r, by simp [hr], h⟩
  · intro r hr
    rcases List.mem_append.1 hr with hr | hr
    · exact inv.origin r hr
    · simp only [List.mem_singleton] at hr
      subst hr
      simp

theorem due_trace (cx : Cfg G1 G2 GT R) (l : List (DKG G2)) :
    due cx l = l.flatMap (fun d => if d.pure.state.phase = finalized then [verdict cx.crypto d] else []) := by
  unfold due
  induction l with
  | nil => rfl
  | cons d l ih =>
    by_cases h : d.pure.state.phase = finalized
    · simp [List.filter_cons, h, ih]
    · simp [List.filter_cons, h, ih]

set_option maxHeartbeats 1000000 in
theorem linv_round {cx : Cfg G1 G2 GT R} (law : ∀ p : G2, order • p = 0) (hL : 0 ≤ cx.phaseLength) {codecs : Codecs} {chain : Chain}
    {rs : List (Round G1 G2)} {s s' : Observe.Shutter}
    {st st' : State G1 G2} {ys : List LoopStep} {mc : Main.MainChain} {keys : List Nat} {acts : List (Action G1 G2)}
    (kinv : KInv cx codecs chain s st) (inv : LInv cx codecs chain rs st) (hr : runLoop codecs chain s ys = some s')
    (hf : ∀ f ∈ filtersOf ys, f.syncHeight ≤ st.syncHeight)
    (hd : decideStep cx s' mc keys st = some (st', acts)) :
    LInv cx codecs chain (rs ++ [⟨decides cx s' mc, s'.currentBlock + 1, acts⟩]) st' := by
  have kinv' := kinv_round hL kinv hr hf hd
  obtain ⟨xs, hx, hxf⟩ := kinv'.view
  rcases decideStep_sent hd with ⟨g1, rfl, rfl⟩ | ⟨g1, g2, g3, tr, t1, t2, t3, t4⟩
  · rw [g1]
    exact linv_idle inv _
  · rw [g1]
    set r : Round G1 G2 := ⟨true, s'.currentBlock + 1, acts⟩ with hrd
    have hmono := runLoop_mono hr
    have hb := kinv.bound
    have hlow := kinv.low
    obtain ⟨b0, hb0⟩ : ∃ b0 : Nat, ∀ f ∈ filtersOf xs, f.batchIndex ≤ b0 := by
      generalize filtersOf xs = l
      induction l with
      | nil => exact ⟨0, by simp⟩
      | cons a l ih =>
        obtain ⟨h0, hh⟩ := ih
        refine ⟨max h0 a.batchIndex, ?_⟩
        intro f hf
        rcases List.mem_cons.1 hf with rfl | hf
        · exact le_max_right _ _
        · exact le_trans (hh f hf) (le_max_left _ _)
    obtain ⟨v1, _, _, _, v5⟩ := C36_filter_loses_nothing_partial hx hxf hb0
    have hinc := runLoop_inc hx
    have hevs : chainEvents codecs chain 0 (st'.syncHeight - 1) = seenEvents codecs chain s' := by
      rw [g2, show s'.currentBlock + 1 - 1 = s'.currentBlock by omega]
      rfl
    obtain ⟨m1, m2, m3, m4⟩ := maybeStartDKG_spec cx s' s'.eons st.lastEonStarted
    generalize hnew : maybeStartDKG cx s' st.lastEonStarted s'.eons = new at *
    -- one key generation in this round
    have key : ∀ x ∈ tr, ∀ S, Started (chainEvents codecs chain 0 (st'.syncHeight - 1)) x.2.1.eon x.2.1.startBatchIndex S →
        (∃ P, Said cx codecs chain rs x.1 S P) ∧ Timing cx.phaseLength S rs x.1.pure.state.phase ∧
        S < r.next ∧ x.2.1.pure.state.phase = getPhaseAtHeight cx.phaseLength r.next S ∧ x.1.pure.state.phase ≤ x.2.1.pure.state.phase ∧
        (∃ eon, findEon s' x.1.eon = some eon ∧ eon.startHeight = S) ∧ SameDkg x.1 x.2.1 := by
      intro x hxm S hS
      obtain ⟨e, hh⟩ := t3 x hxm
      have hb : x.2.1 ∈ st'.dkgs := by rw [← t2]; exact List.mem_map.2 ⟨x, hxm, rfl⟩
      have ha : x.1 ∈ st.dkgs ++ new.1 := by rw [← t1]; exact List.mem_map.2 ⟨x, hxm, rfl⟩
      have hsame : SameDkg x.1 x.2.1 := by
        rcases handleDKG_calls hh with ⟨_, h2⟩ | ⟨_, eon, b', ac, _, h2, _, h4⟩
        · rw [h2]; exact ⟨rfl, rfl, rfl, rfl⟩
        · exact ((syncDKG_calls h2).1).2.trans h4
      obtain ⟨S', hinv⟩ := kinv'.dkgs _ hb
      have hSS := (started_unique hS hinv.started).2
      subst hSS
      have hphase := hinv.phase
      have hbef := hinv.before
      rw [g2] at hphase hbef
      obtain ⟨eon, he1, _, he3⟩ := (v1 _ _ _).2 (by rw [← hevs]; exact hS)
      rw [hsame.eon] at he1
      have hgoal : (∃ P, Said cx codecs chain rs x.1 S P) ∧ Timing cx.phaseLength S rs x.1.pure.state.phase ∧
          x.1.pure.state.phase ≤ x.2.1.pure.state.phase := by
        rcases List.mem_append.1 ha with ha | ha
        · obtain ⟨S0, hinv0⟩ := kinv.dkgs _ ha
          have hst := hinv0.started
          have hS' := hS
          rw [hsame.eon, hsame.sbi] at hS'
          have : S0 = S := (started_unique_chain hst hS').2
          subst this
          refine ⟨inv.said _ ha _ hst, ?_, ?_⟩
          · rw [hinv0.phase]
            exact timing_old hL hinv0.before inv.times (inv.now (List.ne_nil_of_mem ha))
          · rw [hinv0.phase, hphase]
            exact phase_mono hL hinv0.before (by omega)
        · obtain ⟨⟨y, hy1, hy2, hys⟩, hx4, _⟩ := m3 _ ha
          have hnotA : ∀ S0 i, ¬ Started (chainEvents codecs chain 0 (st.syncHeight - 1)) x.1.eon i S0 := by
            intro S0 i hh
            have := kinv.known _ _ _ hh
            omega
          have hS0 : st.syncHeight ≤ S := by
            by_contra hlt
            -- the announcement would have been seen before
            have hsp : chainEvents codecs chain 0 (st'.syncHeight - 1) = chainEvents codecs chain 0 (st.syncHeight - 1) ++
                chainEvents codecs chain (st.syncHeight - 1 + 1) (st'.syncHeight - 1) := by
              rw [chainEvents_append codecs chain (by omega) (by omega)]
            obtain ⟨pre, post, hpp, _⟩ := hS
            have hmem : (⟨S, .eonStarted x.2.1.eon x.2.1.startBatchIndex⟩ : Stamped) ∈
                chainEvents codecs chain 0 (st.syncHeight - 1) ++ chainEvents codecs chain (st.syncHeight - 1 + 1) (st'.syncHeight - 1) := by
              rw [← hsp, hpp]; simp
            rcases List.mem_append.1 hmem with h | h
            · obtain ⟨e', b'', h', hle, hs'⟩ := started_of_announced h rfl
              have := kinv.known _ _ _ hs'
              have := hsame.eon
              omega
            · have := (chainEvents_heights _ _ h).1
              simp only at this
              omega
          have hoff : x.1.pure.state.phase = off ∧ (∃ thr i, x.1.pure = newWorld G2 x.1.eon x.1.keypers.length thr i ∧ i < x.1.keypers.length) := by
            unfold startDKG at hys
            simp only [Option.map_eq_some_iff] at hys
            obtain ⟨i, hi, hys⟩ := hys
            rw [← hys]
            exact ⟨rfl, _, i, rfl, findAddressIndex_lt hi⟩
          obtain ⟨h0, thr, i, hw, hi⟩ := hoff
          have ht : Timing cx.phaseLength S rs x.1.pure.state.phase := by
            rw [h0]
            exact timing_new hS0 inv.times
          refine ⟨?_, ht, by rw [h0]; simp [off]⟩
          have hproper : Proper cx x.1 := by
            refine ⟨⟨[], thr, i, by rw [hw]; rfl, hi⟩, ?_⟩
            rw [h0]
            intro hh
            exact absurd hh (lt_irrefl _)
          have hge : dealing ≤ x.2.1.pure.state.phase := by rw [hphase]; exact (phase_range hL hbef).1
          obtain ⟨_, _, _, P, hP, _⟩ := handleDKG_sent law hh hproper (fun _ => ⟨eon, he1, by rw [he3]; exact hphase, hge⟩)
          have hfresh : ∀ r ∈ rs, ∀ a ∈ r.sent, aboutEon a ≠ some x.1.eon := by
            intro r hr a ha he
            obtain ⟨dkg, hd, hde⟩ := inv.silent r hr a ha _ he
            have := kinv.last _ hd
            omega
          have n0 := ht.early 0 (by omega) (by rw [h0]; simp [off])
          have n1 := ht.early 1 (by omega) (by rw [h0]; simp [off])
          have n2 := ht.early 2 (by omega) (by rw [h0]; simp [off])
          simp only [Nat.cast_zero, Nat.cast_one, Nat.cast_ofNat] at n0 n1 n2
          refine ⟨P, hproper, hP, ?_, ?_, ?_, ?_, ?_⟩
          · rw [said_silent hfresh (about_commitmentsFor _), n0]; rfl
          · rw [said_silent hfresh (about_accusationsFor _), n1]; simp
          · rw [said_silent hfresh (about_apologiesFor _), n2]; simp
          · intro y
            rw [said_silent hfresh (about_evaluationsTo _ y), firstTo_none n0]
          · rw [h0]
            intro hh
            simp [off, dealing] at hh
      exact ⟨hgoal.1, hgoal.2.1, hbef, hphase, hgoal.2.2, ⟨eon, he1, he3⟩, hsame⟩
    -- its messages
    have form : ∀ x ∈ tr, ∃ P out, x.2.2 = roundActs cx s'.keyperEncryptionKeys x.1.pure.state.phase x.1 x.2.1 P out ∧ x.2.1.eon = x.1.eon := by
      intro x hxm
      obtain ⟨e, hh⟩ := t3 x hxm
      have hb : x.2.1 ∈ st'.dkgs := by rw [← t2]; exact List.mem_map.2 ⟨x, hxm, rfl⟩
      obtain ⟨S, hinv⟩ := kinv'.dkgs _ hb
      obtain ⟨⟨P, k1⟩, _, k2, k3, _, ⟨eon, k4, k5⟩, k6⟩ := key x hxm S hinv.started
      obtain ⟨_, _, _, P', _, out, _, _, q, _⟩ := handleDKG_sent law hh k1.proper (fun _ => ⟨eon, k4, by rw [k5]; exact k3, by
        rw [k3]; exact (phase_range hL k2).1⟩)
      exact ⟨P', out, q, k6.eon⟩
    have kept : ∀ x ∈ tr, x.1.pure.state.phase = finalized → x.1 ∈ st.dkgs ∧ x.2.1 = x.1 := by
      intro x hxm hfin
      obtain ⟨e, hh⟩ := t3 x hxm
      have ha : x.1 ∈ st.dkgs ++ new.1 := by rw [← t1]; exact List.mem_map.2 ⟨x, hxm, rfl⟩
      refine ⟨?_, ?_⟩
      · rcases List.mem_append.1 ha with ha | ha
        · exact ha
        · obtain ⟨⟨y, hy1, hy2, hys⟩, _⟩ := m3 _ ha
          unfold startDKG at hys
          simp only [Option.map_eq_some_iff] at hys
          obtain ⟨i, hi, hys⟩ := hys
          rw [← hys] at hfin
          simp [newWorld, newPureDKG, off, finalized] at hfin
      · rcases handleDKG_calls hh with ⟨_, h2⟩ | ⟨h2, _⟩
        · exact h2
        · exact absurd hfin h2
    have hnodup : (tr.map (·.1.eon)).Nodup := by
      have : (st'.dkgs.map (·.eon)).Nodup := by
        rw [List.nodup_iff_pairwise_ne, List.pairwise_map]
        exact kinv'.inc.imp (fun h => ne_of_lt h)
      rw [← t2, List.map_map] at this
      rw [show tr.map (·.1.eon) = tr.map ((fun d : DKG G2 => d.eon) ∘ (fun x => x.2.1)) from List.map_congr_left (fun x hx => by
        obtain ⟨_, _, _, h⟩ := form x hx
        exact h.symm)]
      exact this
    have hselect : ∀ x ∈ tr, ∀ {α : Type} (f : Action G1 G2 → List α), About x.1.eon f → acts.flatMap f = x.2.2.flatMap f := by
      intro x hxm α f hf
      rw [t4 f hf.keygen]
      have : ∀ l : List (DKG G2 × DKG G2 × List (Action G1 G2)), (∀ y ∈ l, y ∈ tr) → (l.map (·.1.eon)).Nodup → x ∈ l →
          l.flatMap (fun y => y.2.2.flatMap f) = x.2.2.flatMap f := by
        intro l
        induction l with
        | nil => simp
        | cons y l ih =>
          intro hl hn hx
          simp only [List.map_cons, List.nodup_cons, List.mem_map, not_exists, not_and] at hn
          have hz : ∀ z ∈ tr, z.1.eon ≠ x.1.eon → z.2.2.flatMap f = [] := by
            intro z hz hne
            obtain ⟨P, out, hq, _⟩ := form z hz
            rw [hq]
            exact sel_other cx _ _ _ _ _ _ hf hne
          rcases List.mem_cons.1 hx with rfl | hx
          · have : l.flatMap (fun y => y.2.2.flatMap f) = [] := by
              rw [List.flatMap_eq_nil_iff]
              intro z hzl
              exact hz z (hl z (by simp [hzl])) (hn.1 z hzl)
            simp [this]
          · have hne : y.1.eon ≠ x.1.eon := fun h => hn.1 x hx h.symm
            rw [List.flatMap_cons, hz y (hl y (by simp)) hne, List.nil_append]
            exact ih (fun z hz => hl z (by simp [hz])) hn.2 hx
      exact this tr (fun _ h => h) hnodup hxm
    have hkeys : ∀ x, s'.keyperEncryptionKeys x = keyAt codecs chain x r.next := by
      intro x
      rw [v5 x]
      unfold keyAt
      rw [hrd]
      simp only [seenEvents]
      rw [show s'.currentBlock + 1 - 1 = s'.currentBlock by omega]
    constructor
    · intro q hq hd
      rcases List.mem_append.1 hq with hq | hq
      · have := inv.times q hq hd
        omega
      · simp only [List.mem_singleton] at hq
        rw [hq, hrd, g2]
    · intro _
      exact ⟨r, by simp, rfl, by rw [hrd, g2]⟩
    · intro q hq a ha e he
      rcases List.mem_append.1 hq with hq | hq
      · obtain ⟨dkg, hd, hde⟩ := inv.silent q hq a ha e he
        have hmem : dkg ∈ tr.map (·.1) := by rw [t1]; simp [hd]
        obtain ⟨x, hxm, rfl⟩ := List.mem_map.1 hmem
        obtain ⟨_, _, _, h⟩ := form x hxm
        exact ⟨x.2.1, by rw [← t2]; exact List.mem_map.2 ⟨x, hxm, rfl⟩, by rw [h, hde]⟩
      · simp only [List.mem_singleton] at hq
        subst hq
        have hk : a.kind = .keygen := aboutEon_kind he
        have := t4 (fun b => if b.kind = .keygen then [b] else []) (fun b hb => by simp [hb])
        have hm : a ∈ acts.flatMap (fun b => if b.kind = .keygen then [b] else []) :=
          List.mem_flatMap.2 ⟨a, ha, by simp [hk]⟩
        rw [this] at hm
        obtain ⟨x, hxm, hm⟩ := List.mem_flatMap.1 hm
        obtain ⟨b, hbm, hm⟩ := List.mem_flatMap.1 hm
        have hab : b = a := by
          split at hm
          · simpa using (List.mem_singleton.1 hm).symm
          · simp at hm
        subst hab
        obtain ⟨P, out, hq, h⟩ := form x hxm
        refine ⟨x.2.1, by rw [← t2]; exact List.mem_map.2 ⟨x, hxm, rfl⟩, ?_⟩
        by_contra hne
        rw [h] at hne
        have hz := sel_other cx s'.keyperEncryptionKeys x.1.pure.state.phase x.1 x.2.1 P out (e := e)
          (f := fun c => if aboutEon c = some e then [c] else []) (fun c hc => by simp [hc]) hne
        rw [← hq, List.flatMap_eq_nil_iff] at hz
        have := hz b hbm
        simp [he] at this
    · intro q hq
      rcases List.mem_append.1 hq with hq | hq
      · exact inv.idle q hq
      · simp only [List.mem_singleton] at hq
        subst hq
        intro hh
        simp [hrd] at hh
    · intro q hq e rec enc ha
      rcases List.mem_append.1 hq with hq | hq
      · exact inv.shape q hq e rec enc ha
      · simp only [List.mem_singleton] at hq
        subst hq
        have hm : (rec, enc) ∈ acts.flatMap (evaluationsFor e) := List.mem_flatMap.2 ⟨_, ha, by simp [evaluationsFor]⟩
        have hab := (about_evaluationsFor (G1 := G1) (G2 := G2) e)
        rw [t4 _ hab.keygen] at hm
        obtain ⟨x, hxm, hm⟩ := List.mem_flatMap.1 hm
        obtain ⟨P, out, hq, h⟩ := form x hxm
        by_cases hee : x.1.eon = e
        · subst hee
          rw [hq, sel_eval] at hm
          split at hm
          · next hc =>
            simp only [List.mem_singleton, Prod.mk.injEq] at hm
            rw [hm.1, hm.2]
            refine ⟨by simp, ?_⟩
            simpa using hc.2
          · simp at hm
        · rw [hq, sel_other cx _ _ _ _ _ _ hab hee] at hm
          simp at hm
    · intro dkg hdm S hS
      rw [← t2] at hdm
      obtain ⟨x, hxm, rfl⟩ := List.mem_map.1 hdm
      obtain ⟨e, hh⟩ := t3 x hxm
      obtain ⟨⟨P, k1⟩, k7, k2, k3, k8, ⟨eon, k4, k5⟩, k6⟩ := key x hxm S hS
      exact ⟨P, said_step law hL hh k1 k7 rfl k2 rfl k3 k8 (fun _ => ⟨eon, k4, k5⟩) hkeys (hselect x hxm)⟩
    · rw [List.flatMap_append]
      have h1 : due cx st.dkgs = tr.flatMap (fun x => if x.1.pure.state.phase = finalized then [verdict cx.crypto x.2.1] else []) := by
        have hz : due cx new.1 = [] := by
          rw [due_trace, List.flatMap_eq_nil_iff]
          intro d hdm
          obtain ⟨⟨y, hy1, hy2, hys⟩, _⟩ := m3 d hdm
          unfold startDKG at hys
          simp only [Option.map_eq_some_iff] at hys
          obtain ⟨i, hi, rfl⟩ := hys
          simp [newWorld, newPureDKG, off, finalized]
        have : due cx st.dkgs = due cx (tr.map (·.1)) := by
          rw [t1, due_trace, due_trace, List.flatMap_append, ← due_trace cx new.1, hz, List.append_nil]
        rw [this, due_trace, List.flatMap_map]
        refine List.flatMap_congr (fun x hxm => ?_)
        split
        · next hfin =>
          obtain ⟨e, hh⟩ := t3 x hxm
          rcases handleDKG_calls hh with ⟨_, h2⟩ | ⟨h2, _⟩
          · rw [h2]
          · exact absurd hfin h2
        · rfl
      have h2 : due cx st'.dkgs = tr.flatMap (fun x => if x.2.1.pure.state.phase = finalized then [verdict cx.crypto x.2.1] else []) := by
        rw [← t2, due_trace, List.flatMap_map]
      have h3 : acts.flatMap verdicts = tr.flatMap (fun x => if x.1.pure.state.phase ≤ apologizing ∧ x.2.1.pure.state.phase = finalized then
          [verdict cx.crypto x.2.1] else []) := by
        rw [t4 _ verdicts_keygen]
        refine List.flatMap_congr (fun x hxm => ?_)
        obtain ⟨P, out, hq, _⟩ := form x hxm
        rw [hq, sel_verdicts]
      have h4 : [r].flatMap (fun r => r.sent.flatMap verdicts) = acts.flatMap verdicts := by simp [hrd]
      rw [h4, h3, h2]
      refine ((inv.verd).append_right _).trans ?_
      rw [h1]
      refine (List.flatMap_append_perm _ _ _).trans (List.Perm.of_eq ?_)
      refine List.flatMap_congr (fun x hxm => ?_)
      have hb : x.2.1 ∈ st'.dkgs := by rw [← t2]; exact List.mem_map.2 ⟨x, hxm, rfl⟩
      obtain ⟨S, hinv⟩ := kinv'.dkgs _ hb
      obtain ⟨_, _, k2, k3, k8, _, _⟩ := key x hxm S hinv.started
      have hle := (phase_range hL k2).2
      rw [← k3] at hle
      by_cases h5 : x.1.pure.state.phase = finalized
      · have h6 : x.2.1.pure.state.phase = finalized := by omega
        rw [if_pos h5, if_pos h6, if_neg (by rw [h5]; simp [finalized, apologizing])]
        rfl
      · rw [if_neg h5, List.nil_append]
        congr 1
        simp only [finalized, apologizing] at *
        simp only [eq_iff_iff, and_iff_right_iff_imp]
        intro hh
        omega
    · intro dkg hdm hfin S hS
      rw [← t2] at hdm
      obtain ⟨x, hxm, rfl⟩ := List.mem_map.1 hdm
      obtain ⟨_, _, k2, k3, k8, _, k6⟩ := key x hxm S hS
      by_cases h5 : x.1.pure.state.phase = finalized
      · have hold := kept x hxm h5
        have hS' := hS
        rw [k6.eon, k6.sbi] at hS'
        obtain ⟨S0, hinv0⟩ := kinv.dkgs _ hold.1
        have : S0 = S := (started_unique_chain hinv0.started hS').2
        subst this
        obtain ⟨q, hq, h6, h7⟩ := inv.when _ hold.1 h5 _ hinv0.started
        exact ⟨q, by simp [hq], h6, by rw [hold.2]; exact h7⟩
      · have hle := (phase_range hL k2).2
        rw [← k3] at hle
        refine ⟨r, by simp, ?_, ?_⟩
        · exact (phase_ge cx.phaseLength S r.next hL (by omega)).2.2.2.1 (by rw [← k3, hfin])
        · show _ ∈ acts.flatMap verdicts
          rw [t4 _ verdicts_keygen]
          refine List.mem_flatMap.2 ⟨x, hxm, ?_⟩
          obtain ⟨P, out, hq, _⟩ := form x hxm
          rw [hq, sel_verdicts, if_pos ⟨by simp only [finalized, apologizing] at *; omega, hfin⟩]
          simp
    · intro q hq v hv
      rcases List.mem_append.1 hq with hq | hq
      · obtain ⟨dkg, hd, h5, h6, h7⟩ := inv.origin q hq v hv
        have hmem : dkg ∈ tr.map (·.1) := by rw [t1]; simp [hd]
        obtain ⟨x, hxm, rfl⟩ := List.mem_map.1 hmem
        obtain ⟨_, hsame⟩ := kept x hxm h5
        refine ⟨x.2.1, by rw [← t2]; exact List.mem_map.2 ⟨x, hxm, rfl⟩, by rw [hsame]; exact h5, by rw [hsame]; exact h6, ?_⟩
        intro S hS
        rw [hsame] at hS
        obtain ⟨S0, hinv0⟩ := kinv.dkgs _ hd
        have : S0 = S := (started_unique_chain hinv0.started hS).2
        subst this
        exact h7 _ hinv0.started
      · simp only [List.mem_singleton] at hq
        subst hq
        have hv : v ∈ acts.flatMap verdicts := hv
        rw [t4 _ verdicts_keygen] at hv
        obtain ⟨x, hxm, hv⟩ := List.mem_flatMap.1 hv
        obtain ⟨P, out, hq, _⟩ := form x hxm
        rw [hq, sel_verdicts] at hv
        split at hv
        · next hc =>
          simp only [List.mem_singleton] at hv
          refine ⟨x.2.1, by rw [← t2]; exact List.mem_map.2 ⟨x, hxm, rfl⟩, hc.2, hv.symm, ?_⟩
          intro S hS
          obtain ⟨_, _, k2, k3, _⟩ := key x hxm S hS
          exact (phase_ge cx.phaseLength S r.next hL (by omega)).2.2.2.1 (by rw [← k3, hc.2])
        · cases hv

theorem linv_lived {cx : Cfg G1 G2 GT R} (law : ∀ p : G2, order • p = 0) (hL : 0 ≤ cx.phaseLength) {codecs : Codecs} {chain : Chain}
    {rs : List (Round G1 G2)} {s : Observe.Shutter} {st : State G1 G2} (h : Lived cx codecs chain rs s st) :
    LInv cx codecs chain rs st := by
  induction h with
  | init => constructor <;> simp [State.new, due]
  | round hl hr hf hd ih => exact linv_round law hL (kinv_reach hL (lived_reach hl)) ih hr hf hd
  | restart _ hn ih =>
    unfold loadState
    rw [hn]
    exact ih

end Shutter.Decide
