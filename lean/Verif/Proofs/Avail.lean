import Verif.Spec.Avail
import Verif.Proofs.Keys
import Verif.Proofs.DriverReach
import Verif.Proofs.DriverAgree

/-! The shares a keyper collects over its life. -/

namespace Shutter.Decide
open Shutter.Crypto Shutter.Crypto.Spec Shutter.Dkg Shutter.Observe Shutter.Main Shutter.Decide.Spec
open Shutter.App (Addr findAddressIndex)
open Shutter.Events (Codecs)
open Shutter.Observe.Props

variable {G1 G2 GT R : Type} [AddCommGroup G1] [AddCommGroup G2] [DecidableEq G2] [DecidableEq GT]

theorem filtersAt_runs {P : Filter → Int → Prop} {codecs : Codecs} {chain : Chain} : ∀ {ys : List LoopStep} {s s' : Observe.Shutter},
    runLoop codecs chain s ys = some s' → FiltersAt codecs chain P s ys → ∀ f ∈ filtersOf ys, ∃ c, P f c := by
  intro ys
  induction ys with
  | nil => intro s s' _ _ f hf; cases hf
  | cons y ys ih =>
    intro s s' hr hf f hm
    simp only [runLoop, Option.bind_eq_some_iff] at hr
    obtain ⟨s1, h1, h2⟩ := hr
    have rest := ih h2 (hf.2 s1 h1)
    cases y with
    | filter g =>
      simp only [filtersOf, List.mem_cons] at hm
      rcases hm with rfl | hm
      · exact ⟨_, hf.1 _ rfl⟩
      · exact rest f hm
    | syncFailed => exact rest f hm
    | sync h c u => exact rest f hm

theorem attentive_lived {cx : Cfg G1 G2 GT R} {codecs : Codecs} {chain : Chain} {rs : List (Round G1 G2)} {s : Observe.Shutter}
    {st : State G1 G2} (h : Attentive cx codecs chain rs s st) : Lived cx codecs chain rs s st := by
  induction h with
  | init => exact .init
  | round _ h1 h2 h3 ih =>
    refine .round ih h1 (fun f hf => ?_) h3
    obtain ⟨_, h⟩ := filtersAt_runs h1 h2 f hf
    exact h.1
  | restart _ hn ih => exact .restart ih hn

/-! ## Shares taken into account -/

omit [AddCommGroup G1] [AddCommGroup G2] [DecidableEq G2] [DecidableEq GT] in
/-- The key is known, or a share of keyper `i` is kept. -/
def Noted (kg : EpochKG G1 G2) (e i : Nat) : Prop := (kg.secretKeys e).isSome = true ∨ ∃ m ∈ kg.secretShares e, m.sender = i

omit [AddCommGroup G2] [DecidableEq G2] in
theorem handleShare_noted {env : Crypto.Env G1 G2 GT} {kg kg' : EpochKG G1 G2} {m : EpochShare G1} {ok : Bool}
    (h : kg.handleShare env m = some (kg', ok)) :
    (∀ e i, Noted kg e i → Noted kg' e i) ∧
    (∀ pk, kg.publicKeyShares[m.sender]? = some pk → verifyEpochSecretKeyShare env m.share pk (epochIDOf env m.epoch) = true →
      Noted kg' m.epoch m.sender) := by
  unfold EpochKG.handleShare at h
  split at h
  · next hk => cases h; exact ⟨fun _ _ h => h, fun _ _ _ => .inl hk⟩
  · next hk =>
    split at h
    · cases h
    · next pk hpk =>
      split at h
      · next hv =>
        cases h
        refine ⟨fun _ _ h => h, fun pk' h1 h2 => ?_⟩
        rw [hpk] at h1
        cases h1
        simp [h2] at hv
      · simp only [Option.some.injEq] at h
        unfold EpochKG.addShare at h
        simp only at h
        split at h
        · next hdup =>
          cases h
          refine ⟨fun _ _ h => h, fun _ _ _ => .inr ?_⟩
          simpa using hdup
        · split at h
          · cases h
            refine ⟨?_, fun _ _ _ => .inr ⟨m, by simp, rfl⟩⟩
            rintro e i (h | ⟨x, hx, he⟩)
            · exact .inl h
            · refine .inr ⟨x, ?_, he⟩
              simp only
              split
              · next hee => subst hee; simp [hx]
              · exact hx
          · cases h
            refine ⟨?_, fun _ _ _ => .inl (by simp)⟩
            rintro e i (h | ⟨x, hx, he⟩)
            · left
              simp only
              split
              · rfl
              · exact h
            · by_cases hee : e = m.epoch
              · left; simp [hee]
              · right; exact ⟨x, by simpa [hee] using hx, he⟩

/-- The share in the event is of keyper `i` for batch `b`, and passes the check. -/
def Counts (cx : Cfg G1 G2 GT R) (ekg : EKG G1 G2) (x : Stamped) (b i : Nat) : Prop :=
  ∃ a eon sh pk, x.ev = .epochSecretKeyShare a eon b sh ∧ findAddressIndex ekg.keypers a = some i ∧ ekg.kg.publicKeyShares[i]? = some pk ∧
    verifyEpochSecretKeyShare cx.crypto (cx.share sh) pk (epochIDOf cx.crypto b) = true

omit [AddCommGroup G2] [DecidableEq G2] in
theorem Counts.congr {cx : Cfg G1 G2 GT R} {ekg ekg' : EKG G1 G2} {x : Stamped} {b i : Nat} (h : Counts cx ekg x b i)
    (h1 : ekg'.keypers = ekg.keypers) (h2 : ekg'.kg.publicKeyShares = ekg.kg.publicKeyShares) : Counts cx ekg' x b i := by
  unfold Counts
  rw [h1, h2]
  exact h

/-- What handling the events `xs` does to an EKG. -/
structure Collects (cx : Cfg G1 G2 GT R) (xs : List Stamped) (a b : EKG G1 G2) : Prop where
  eon : b.eon = a.eon
  keypers : b.keypers = a.keypers
  pks : b.kg.publicKeyShares = a.kg.publicKeyShares
  pk : b.kg.publicKey = a.kg.publicKey
  thr : b.kg.threshold = a.kg.threshold
  keeps : ∀ e i, Noted a.kg e i → Noted b.kg e i
  notes : ∀ x ∈ xs, ∀ e i, Counts cx a x e i → Noted b.kg e i

theorem shareEvent_collects {cx : Cfg G1 G2 GT R} {sh : Observe.Shutter} {mc : MainChain} {ekg ekg' : EKG G1 G2} {d d' : Decider G1 G2}
    {x : Stamped} (hs : handleShareEvent cx sh mc ekg d x = some (ekg', d')) : Collects cx [x] ekg ekg' := by
  unfold handleShareEvent at hs
  split at hs
  · next sender eon epoch share hev =>
    split at hs
    · next hn =>
      cases hs
      refine ⟨rfl, rfl, rfl, rfl, rfl, fun _ _ h => h, ?_⟩
      rintro y hy e i ⟨a, eon', sh', pk, h1, h2, _⟩
      rw [List.mem_singleton] at hy
      subst hy
      rw [hev] at h1
      cases h1
      rw [hn] at h2
      cases h2
    · next j hj =>
      split at hs
      · next hk =>
        cases hs
        refine ⟨rfl, rfl, rfl, rfl, rfl, fun _ _ h => h, ?_⟩
        rintro y hy e i ⟨a, eon', sh', pk, h1, h2, _⟩
        rw [List.mem_singleton] at hy
        subst hy
        rw [hev] at h1
        cases h1
        exact .inl hk
      · simp only [Option.bind_eq_bind, Option.bind_eq_some_iff, Prod.exists] at hs
        obtain ⟨kg, ok', hh, hs⟩ := hs
        obtain ⟨n1, n2⟩ := handleShare_noted hh
        have key : Collects cx [x] ekg { ekg with kg := kg } := by
          refine ⟨rfl, rfl, (handleShare_same hh).2.2.1, (handleShare_same hh).2.1, (handleShare_same hh).1, n1, ?_⟩
          rintro y hy e i ⟨a, eon', sh', pk, h1, h2, h3, h4⟩
          rw [List.mem_singleton] at hy
          subst hy
          rw [hev] at h1
          cases h1
          rw [hj] at h2
          cases h2
          exact n2 pk h3 h4
        split at hs
        · cases hs; exact key
        · split at hs
          · simp only [Option.bind_eq_some_iff] at hs
            obtain ⟨t, _, hs⟩ := hs
            split at hs
            · cases hs; exact key
            · rw [Option.map_eq_some_iff] at hs
              obtain ⟨d1, h1, hs⟩ := hs
              cases hs
              exact key
          · cases hs; exact key
  · next hne =>
    cases hs
    refine ⟨rfl, rfl, rfl, rfl, rfl, fun _ _ h => h, ?_⟩
    rintro y hy e i ⟨a, eon', sh', pk, h1, _⟩
    rw [List.mem_singleton] at hy
    subst hy
    exact absurd h1 (hne _ _ _ _)

theorem syncEKG_collects {cx : Cfg G1 G2 GT R} {sh : Observe.Shutter} {mc : MainChain} : ∀ {xs : List Stamped} {ekg ekg' : EKG G1 G2}
    {d d' : Decider G1 G2}, syncEKGWithEon cx sh mc ekg d xs = some (ekg', d') → Collects cx xs ekg ekg' := by
  intro xs
  induction xs with
  | nil => intro ekg ekg' d d' hs; cases hs; exact ⟨rfl, rfl, rfl, rfl, rfl, fun _ _ h => h, by simp⟩
  | cons x xs ih =>
    intro ekg ekg' d d' hs
    simp only [syncEKGWithEon, Option.bind_eq_bind, Option.bind_eq_some_iff, Prod.exists] at hs
    obtain ⟨e1, d1, h1, h2⟩ := hs
    have c1 := shareEvent_collects h1
    have c2 := ih h2
    refine ⟨c2.eon.trans c1.eon, c2.keypers.trans c1.keypers, c2.pks.trans c1.pks, c2.pk.trans c1.pk, c2.thr.trans c1.thr, fun e i h => c2.keeps e i (c1.keeps e i h), ?_⟩
    intro y hy e i hc
    rcases List.mem_cons.1 hy with rfl | hy
    · exact c2.keeps e i (c1.notes _ (by simp) e i hc)
    · exact c2.notes y hy e i (hc.congr c1.keypers c1.pks)

theorem syncEKG_height {cx : Cfg G1 G2 GT R} {sh : Observe.Shutter} {mc : MainChain} {xs : List Stamped} {ekg ekg' : EKG G1 G2}
    {d d' : Decider G1 G2} (h : syncEKGWithEon cx sh mc ekg d xs = some (ekg', d')) : d'.st.syncHeight = d.st.syncHeight := by
  rw [(syncEKG_stage h).2]

theorem syncEKGs_collects {cx : Cfg G1 G2 GT R} {sh : Observe.Shutter} {mc : MainChain} : ∀ {l l' : List (EKG G1 G2)} {d d' : Decider G1 G2},
    syncEKGs cx sh mc l d = some (l', d') → List.Forall₂ (fun a b => ∃ eon, findEon sh a.eon = some eon ∧
      Collects cx (eon.query .share d.st.syncHeight) a b) l l' := by
  intro l
  induction l with
  | nil => intro l' d d' hs; cases hs; exact .nil
  | cons x l ih =>
    intro l' d d' hs
    simp only [syncEKGs, Option.bind_eq_bind, Option.bind_eq_some_iff, Prod.exists, Option.some.injEq, Prod.mk.injEq] at hs
    obtain ⟨eon, he, e1, d1, h1, l1, d2, h2, rfl, rfl⟩ := hs
    refine .cons ⟨eon, he, syncEKG_collects h1⟩ ?_
    have := ih h2
    rw [syncEKG_height h1] at this
    exact this

/-! ## The view -/

theorem chainEvents_mono {codecs : Codecs} {chain : Chain} {lo hi hi' : Int} (hh : hi ≤ hi') {x : Stamped}
    (hx : x ∈ chainEvents codecs chain lo hi) : x ∈ chainEvents codecs chain lo hi' := by
  have := chainEvents_heights _ _ hx
  rw [← chainEvents_append codecs chain (lo := lo) (m := hi) (by omega) hh]
  exact List.mem_append_left _ hx

theorem mem_chainEvents_of_le {codecs : Codecs} {chain : Chain} {lo hi m : Int} {x : Stamped} (hx : x ∈ chainEvents codecs chain lo hi)
    (h : x.height ≤ m) : x ∈ chainEvents codecs chain lo m := by
  have h1 := chainEvents_heights _ _ hx
  by_cases hm : hi ≤ m
  · exact chainEvents_mono hm hx
  · rw [← chainEvents_append codecs chain (lo := lo) (m := m) (by omega) (by omega)] at hx
    rcases List.mem_append.1 hx with hx | hx
    · exact hx
    · have := (chainEvents_heights _ _ hx).1
      omega

/-- A message after the start of its eon is among the messages of the eon. -/
theorem message_counts {evs : List Stamped} (hs : Sorted evs) {e b : Nat} {S : Int} (st : Started evs e b S) {x : Stamped} (hx : x ∈ evs)
    (hlt : S < x.height) {k : Observe.Kind} (hk : eonMessage x.ev = some (k, e)) : x ∈ messages k e evs := by
  obtain ⟨pre, post, rfl, hp⟩ := st
  unfold messages
  rw [List.mem_filter]
  refine ⟨?_, by simpa using hk⟩
  rw [sinceStart_skip (fun y hy i hyi => by have := hp y hy _ _ hyi; omega)]
  rcases List.mem_append.1 hx with hx | hx
  · have := (List.pairwise_append.1 hs).2.2 x hx _ List.mem_cons_self
    simp only at this
    omega
  · unfold sinceStart
    rw [List.dropWhile_cons_of_neg (by simp)]
    exact hx

theorem filters_bounded (l : List Filter) : ∃ b0 : Nat, ∀ f ∈ l, f.batchIndex ≤ b0 := by
  induction l with
  | nil => exact ⟨0, by simp⟩
  | cons a l ih =>
    obtain ⟨h0, hh⟩ := ih
    refine ⟨max h0 a.batchIndex, ?_⟩
    intro f hf
    rcases List.mem_cons.1 hf with rfl | hf
    · exact le_max_right _ _
    · exact le_trans (hh f hf) (le_max_left _ _)

theorem decide_height {cx : Cfg G1 G2 GT R} {sh : Observe.Shutter} {mc : MainChain} {keys : List Nat} {st st' : State G1 G2}
    {acts : List (Action G1 G2)} (h : decideStep cx sh mc keys st = some (st', acts)) : st' = st ∨ st'.syncHeight = sh.currentBlock + 1 := by
  rcases decideStep_dkgs h with h | ⟨_, _, _, _, _, _, _, h⟩
  · exact .inl h
  · exact .inr h

/-- The view in a round: it has all messages the keyper has not decided on. -/
theorem view_round {codecs : Codecs} {chain : Chain} {s s' : Observe.Shutter} {n : Int} {b0 : Nat} {ys : List LoopStep}
    (lo : -1 ≤ s.currentBlock) (inv : Inv (seenEvents codecs chain s) (fun _ => n) b0 s) (hr : runLoop codecs chain s ys = some s')
    (hf : FiltersAt codecs chain (fun f seen => f.syncHeight ≤ n ∧ seen < n) s ys) :
    ∃ b1, Inv (seenEvents codecs chain s') (fun _ => n) b1 s' := by
  obtain ⟨b1, hb1⟩ := filters_bounded (filtersOf ys)
  refine ⟨max b0 b1, runLoop_inv lo (inv.weaken (fun _ => le_refl _) (le_max_left _ _)) hr (filtersAt_imp hf ?_)⟩
  rintro f hfm c ⟨h1, h2⟩
  refine ⟨le_trans (hb1 f hfm) (le_max_right _ _), fun k => ?_⟩
  cases k <;> simp only [raise] <;> omega

/-- What holds for everything an attentive keyper saves. -/
structure AvInv (cx : Cfg G1 G2 GT R) (codecs : Codecs) (chain : Chain) (s : Observe.Shutter) (st : State G1 G2) : Prop where
  view : ∃ b0, Inv (seenEvents codecs chain s) (fun _ => st.syncHeight) b0 s
  noted : ∀ ekg ∈ st.ekgs, ∀ upTo start S, Started (chainEvents codecs chain 0 upTo) ekg.eon start S →
    ∀ x ∈ chainEvents codecs chain 0 (st.syncHeight - 1), S < x.height → S + 3 * cx.phaseLength ≤ x.height →
      eonMessage x.ev = some (.share, ekg.eon) → ∀ b i, Counts cx ekg x b i → Noted ekg.kg b i

theorem avInv_round {cx : Cfg G1 G2 GT R} (hL : 0 ≤ cx.phaseLength) {codecs : Codecs} {chain : Chain} {s s' : Observe.Shutter}
    {st st' : State G1 G2} {ys : List LoopStep} {mc : Main.MainChain} {keys : List Nat} {acts : List (Action G1 G2)}
    (k : KInv cx codecs chain s st) (inv : AvInv cx codecs chain s st) (hr : runLoop codecs chain s ys = some s')
    (hf : FiltersAt codecs chain (fun f seen => f.syncHeight ≤ st.syncHeight ∧ seen < st.syncHeight) s ys)
    (hd : decideStep cx s' mc keys st = some (st', acts)) : AvInv cx codecs chain s' st' := by
  have hmono := runLoop_mono hr
  have hb := k.bound
  have hlow := k.low
  obtain ⟨b0, v⟩ := inv.view
  obtain ⟨b1, v⟩ := view_round (by omega) v hr hf
  rcases decide_stages hd with ⟨rfl, rfl⟩ | ⟨dkg, sync, pub, sigs, exec, app, acc, ekgs, g⟩
  · exact ⟨⟨b1, v⟩, inv.noted⟩
  · have hsync : st'.syncHeight = s'.currentBlock + 1 := by rw [g.final]
    refine ⟨⟨b1, v.weaken (fun _ => by omega) (le_refl _)⟩, ?_⟩
    have hfin := ekgs_final g
    have hdh : dkg.st.syncHeight = st.syncHeight := by
      obtain ⟨_, _, _, _, _, h⟩ := g.hdkg
      rw [h]
    have hall := syncEKGs_collects g.hsync
    rw [hdh] at hall
    intro ekg' he upTo start S hS x hx hlt h3 hm b i hc
    rw [hfin] at he
    obtain ⟨n, hn, rfl⟩ := List.mem_iff_getElem.1 he
    have hn' : n < dkg.st.ekgs.length := by have := hall.length_eq; omega
    obtain ⟨eon, hfind, col⟩ := (List.forall₂_iff_get.1 hall).2 n hn' hn
    simp only [List.get_eq_getElem] at hfind col
    generalize hek : dkg.st.ekgs[n] = ekg at *
    have hmem : ekg ∈ dkg.st.ekgs := by rw [← hek]; exact List.getElem_mem _
    rw [col.eon] at hS hm
    have hc' : Counts cx ekg x b i := hc.congr col.keypers.symm col.pks.symm
    rw [hsync, show s'.currentBlock + 1 - 1 = s'.currentBlock by omega] at hx
    have heon : Started (seenEvents codecs chain s') eon.eon eon.startBatchIndex eon.startHeight := by
      rw [← v.started]
      exact ⟨eon, ((findEon_eq_some v.inc).1 hfind).1, rfl, rfl, rfl⟩
    obtain ⟨hem, hee⟩ := (findEon_eq_some v.inc).1 hfind
    rw [hee] at heon
    obtain ⟨rfl, rfl⟩ := started_unique_chain hS heon
    by_cases hnew : st.syncHeight ≤ x.height
    · -- a new share
      refine col.notes x ?_ b i hc'
      rw [eon.query_eq, getFrom_eq_filter (v.listSorted hem .share)]
      have := v.lists eon hem .share st.syncHeight (le_refl _)
      unfold atLeast at this
      rw [this, hee, List.mem_filter]
      exact ⟨message_counts v.sorted heon hx hlt hm, by simpa using hnew⟩
    · -- an old one
      refine col.keeps b i ?_
      have hf := g.hfirst
      simp only [decideDKGs, Option.bind_eq_bind, Option.bind_eq_some_iff, Prod.exists, Option.some.injEq] at hf
      obtain ⟨dkgs, new, a, hh, hd'⟩ := hf
      have hk0 := (dkgPart_batchConfig s' mc (maybeSendCheckIn cx s' ⟨st, []⟩)).trans (dkgPart_checkIn cx s' ⟨st, []⟩)
      simp only [State.dkgPart, Prod.mk.injEq] at hk0
      have hek0 : (maybeSendBatchConfig s' mc (maybeSendCheckIn cx s' ⟨st, []⟩)).st.ekgs = st.ekgs := by
        rw [(batchConfig_stage s' mc _).2, (checkIn_stage cx s' _).2]
      rw [← hd'] at hmem
      simp only at hmem
      rw [hek0] at hmem
      rcases List.mem_append.1 hmem with he | he
      · exact inv.noted ekg he _ _ _ hS x (mem_chainEvents_of_le hx (by omega)) hlt h3 hm b i hc'
      · exfalso
        obtain ⟨y, hy, b', e1, a1, k1, k2, k3, k4⟩ := handleDKGs_ekg hh ekg he
        obtain ⟨res, r1, rfl, r3, r4⟩ := handleDKG_ekg k1 k2
        have hye : b'.eon = y.eon := (handleDKG_params k1).1.eon
        rcases List.mem_append.1 hy with hy | hy
        · have hy : y ∈ st.dkgs := by
            have := hk0
            simp_all
          obtain ⟨S', di⟩ := k.dkgs y hy
          have hst := di.started
          rw [← hye] at hst
          obtain ⟨_, rfl⟩ := started_unique_chain hst hS
          rcases handleDKG_calls k1 with ⟨hp, hbb⟩ | ⟨hp, _⟩
          · unfold handleDKG at k1
            rw [if_pos hp] at k1
            cases k1
            cases k2
          · apply hp
            rw [di.phase, phase_of _ _ _ hL (by have := di.before; omega), if_pos (by omega)]
        · obtain ⟨_, _, m3, _⟩ := maybeStartDKG_spec cx s' s'.eons
            (maybeSendBatchConfig s' mc (maybeSendCheckIn cx s' ⟨st, []⟩)).st.lastEonStarted
          have hlast := (m3 y hy).2.1
          rw [hk0.2.1] at hlast
          -- the start of the eon was not known before
          obtain ⟨pre, post, hpp, _⟩ := heon
          have hmem' : (⟨eon.startHeight, .eonStarted b'.eon eon.startBatchIndex⟩ : Stamped) ∈ chainEvents codecs chain 0 s'.currentBlock := by
            show _ ∈ seenEvents codecs chain s'
            rw [hpp]; simp
          have hmem'' := mem_chainEvents_of_le (m := st.syncHeight - 1) hmem' (by simp only; omega)
          obtain ⟨e', b'', h', hle, hs'⟩ := started_of_announced hmem'' rfl
          have := k.known _ _ _ hs'
          omega

theorem avInv {cx : Cfg G1 G2 GT R} (hL : 0 ≤ cx.phaseLength) {codecs : Codecs} {chain : Chain} {rs : List (Round G1 G2)}
    {s : Observe.Shutter} {st : State G1 G2} (h : Attentive cx codecs chain rs s st) : KInv cx codecs chain s st ∧ AvInv cx codecs chain s st := by
  induction h with
  | init => exact ⟨kinv_reach hL .init, ⟨0, inv_start _ _⟩, by simp [State.new]⟩
  | round _ h1 h2 h3 ih =>
    obtain ⟨i1, i2⟩ := ih
    refine ⟨kinv_round hL i1 h1 (fun f hf => ?_) h3, avInv_round hL i1 i2 h1 h2 h3⟩
    obtain ⟨_, h⟩ := filtersAt_runs h1 h2 f hf
    exact h.1
  | restart _ hn ih =>
    unfold loadState
    rw [hn]
    exact ih

/-! ## A key generation with a result leads to a part in the eon -/

omit [AddCommGroup G1] [DecidableEq GT] in
theorem handleDKG_gives {cx : Cfg G1 G2 GT R} {sh : Observe.Shutter} {h : Int} {a b : DKG G2} {ekgs : List (EKG G1 G2)}
    {acts : List (Action G1 G2)} (hr : handleDKG cx sh h a = some (b, ekgs, acts)) (ha : a.pure.state.phase ≠ finalized)
    (hb : b.pure.state.phase = finalized) {res : Result G2} (hres : computeResult cx.crypto b.pure.state = some res) :
    ekgs = [⟨b.eon, b.keypers, newEpochKG res⟩] := by
  rcases handleDKG_calls hr with ⟨hp, _⟩ | ⟨_, eon, b', ac, _, hs, hp, hd⟩
  · exact absurd hp ha
  · obtain ⟨h1, h2, _, h4⟩ := syncDKG_full hs
    rw [hp] at hb hres
    rw [hd.eon, hd.keypers, h1.2.eon, h1.2.keypers]
    refine h4 ?_ res hres
    rw [hb] at h2
    by_contra hc
    rw [if_neg hc] at h2
    clear hc h4 h1
    have ite_ne : ∀ (c : Prop) [Decidable c] (x y : Nat), x ≠ finalized → y ≠ finalized → (if c then x else y) ≠ finalized := by
      intro c _ x y hx hy
      split
      · exact hx
      · exact hy
    exact ite_ne _ _ _ (by decide) (ite_ne _ _ _ (by decide) (ite_ne _ _ _ (by decide) ha)) h2.symm

/-- The keyper takes part in the eon of a key generation with the result `res`. -/
def PartIn (st : State G1 G2) (dkg : DKG G2) (res : Result G2) : Prop :=
  ∃ ekg ∈ st.ekgs, ekg.eon = dkg.eon ∧ ekg.keypers = dkg.keypers ∧ ekg.kg.publicKey = res.publicKey ∧
    ekg.kg.publicKeyShares = res.publicKeyShares ∧ ekg.kg.threshold = res.threshold

theorem part_round {cx : Cfg G1 G2 GT R} {sh : Observe.Shutter} {mc : MainChain} {keys : List Nat} {st st' : State G1 G2}
    {acts : List (Action G1 G2)} (ih : ∀ dkg ∈ st.dkgs, dkg.pure.state.phase = finalized → ∀ res,
      computeResult cx.crypto dkg.pure.state = some res → PartIn st dkg res)
    (h : decideStep cx sh mc keys st = some (st', acts)) : ∀ dkg ∈ st'.dkgs, dkg.pure.state.phase = finalized → ∀ res,
      computeResult cx.crypto dkg.pure.state = some res → PartIn st' dkg res := by
  rcases decide_stages h with ⟨rfl, rfl⟩ | ⟨dkg, sync, pub, sigs, exec, app, acc, ekgs, g⟩
  · exact ih
  · have hst : st'.dkgs = dkg.st.dkgs := by
      have e0 : pub.st.dkgs = sync.st.dkgs := by rw [(publish_emits g.hpub).2]
      have e1 : sigs.st.dkgs = pub.st.dkgs := by rw [(handleSigs_stage g.hsigs).2]
      have e2 : exec.st.dkgs = sigs.st.dkgs := by rw [(exec_stage g.hexec).2]
      have e3 : app.st.dkgs = exec.st.dkgs := by rw [(appeal_stage g.happ).2]
      have e4 : acc.st.dkgs = app.st.dkgs := by rw [(accuse_stage g.hacc).2]
      have e5 : sync.st.dkgs = dkg.st.dkgs := by rw [(syncEKGs_stage g.hsync).2]
      rw [g.final]
      show acc.st.dkgs = _
      rw [e4, e3, e2, e1, e0, e5]
    have hf := g.hfirst
    simp only [decideDKGs, Option.bind_eq_bind, Option.bind_eq_some_iff, Prod.exists, Option.some.injEq] at hf
    obtain ⟨dkgs, new, a, hh, hd⟩ := hf
    have hk0 := (dkgPart_batchConfig sh mc (maybeSendCheckIn cx sh ⟨st, []⟩)).trans (dkgPart_checkIn cx sh ⟨st, []⟩)
    simp only [State.dkgPart, Prod.mk.injEq] at hk0
    have hek : (maybeSendBatchConfig sh mc (maybeSendCheckIn cx sh ⟨st, []⟩)).st.ekgs = st.ekgs := by
      rw [(batchConfig_stage sh mc _).2, (checkIn_stage cx sh _).2]
    obtain ⟨_, _, m3, _⟩ := maybeStartDKG_spec cx sh sh.eons (maybeSendBatchConfig sh mc (maybeSendCheckIn cx sh ⟨st, []⟩)).st.lastEonStarted
    have hall := handleDKGs_spec hh
    have hdk : dkg.st.dkgs = dkgs := by rw [← hd]
    have pre : ∀ x ∈ dkgs, x.pure.state.phase = finalized → ∀ res, computeResult cx.crypto x.pure.state = some res → PartIn dkg.st x res := by
      intro x hx hp res hres
      obtain ⟨i, hi, rfl⟩ := List.mem_iff_getElem.1 hx
      obtain ⟨e, ac', hs, hsub⟩ := (List.forall₂_iff_get.1 hall).2 i (by have := hall.length_eq; omega) hi
      simp only [List.get_eq_getElem] at hs
      have hmem := List.getElem_mem (l := (maybeSendBatchConfig sh mc (maybeSendCheckIn cx sh ⟨st, []⟩)).st.dkgs ++ (maybeStartDKG cx sh
        (maybeSendBatchConfig sh mc (maybeSendCheckIn cx sh ⟨st, []⟩)).st.lastEonStarted sh.eons).1) (n := i) (by have := hall.length_eq; omega)
      rcases handleDKG_calls hs with ⟨hp0, hb⟩ | ⟨hp0, _⟩
      · rw [← hb] at hmem
        have hold : dkgs[i] ∈ st.dkgs := by
          rcases List.mem_append.1 hmem with hm | hm
          · have := hk0
            simp_all
          · exfalso
            obtain ⟨⟨y, _, _, hxs⟩, _⟩ := m3 _ hm
            unfold startDKG at hxs
            simp only [Option.map_eq_some_iff] at hxs
            obtain ⟨_, _, hxs⟩ := hxs
            rw [← hxs] at hp
            simp [newWorld, newPureDKG, finalized, off] at hp
        obtain ⟨ekg, h1, h2⟩ := ih _ hold hp res hres
        refine ⟨ekg, ?_, h2⟩
        rw [← hd]
        simp [hek, h1]
      · have := handleDKG_gives hs hp0 hp hres
        refine ⟨⟨dkgs[i].eon, dkgs[i].keypers, newEpochKG res⟩, ?_, rfl, rfl, rfl, rfl, rfl⟩
        rw [← hd]
        simp only [List.mem_append]
        right
        apply hsub
        rw [this]
        simp
    intro x hx hp res hres
    rw [hst, hdk] at hx
    obtain ⟨ekg, h1, h2, h3, h4, h5, h6⟩ := pre x hx hp res hres
    have hcol := syncEKGs_collects g.hsync
    obtain ⟨i, hi, rfl⟩ := List.mem_iff_getElem.1 h1
    have hi' : i < ekgs.length := by have := hcol.length_eq; omega
    obtain ⟨_, _, col⟩ := (List.forall₂_iff_get.1 hcol).2 i hi hi'
    simp only [List.get_eq_getElem] at col
    refine ⟨ekgs[i], by rw [ekgs_final g]; exact List.getElem_mem _, col.eon.trans h2, col.keypers.trans h3, col.pk.trans h4, col.pks.trans h5, col.thr.trans h6⟩

theorem reach_part {cx : Cfg G1 G2 GT R} {codecs : Codecs} {chain : Chain} {s : Observe.Shutter} {st : State G1 G2}
    (h : Reach cx codecs chain s st) : ∀ dkg ∈ st.dkgs, dkg.pure.state.phase = finalized → ∀ res,
      computeResult cx.crypto dkg.pure.state = some res → PartIn st dkg res := by
  induction h with
  | init => simp [State.new]
  | round _ _ _ hd ih => exact part_round ih hd
  | restart _ hn ih =>
    unfold loadState
    rw [hn]
    exact ih

end Shutter.Decide
