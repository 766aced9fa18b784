import Verif.Spec.Honest
import Verif.Proofs.SentReach
import Verif.Proofs.DriverAgree
import Verif.Props.Dkg

/-! The key generation of honest keypers. -/

namespace Shutter.Decide
open Shutter.Crypto Shutter.Crypto.Spec Shutter.Dkg Shutter.Observe Shutter.Decide.Spec
open Shutter.Observe.Props
open Shutter.App (Addr findAddressIndex)
open Shutter.Events (Codecs makeEvent)

variable {G1 G2 GT R : Type}

theorem published_iff {codecs : Codecs} {chain : Chain} {n : Int} {x : Stamped} :
    x ∈ chainEvents codecs chain 0 n ↔ x.height ≤ n ∧ Published codecs chain x.height x.ev := by
  unfold chainEvents Published
  simp only [List.mem_flatMap, List.mem_filterMap, List.mem_range, Option.map_eq_some_iff]
  constructor
  · rintro ⟨i, hi, y, hy, ev, hev, rfl⟩
    refine ⟨by simp only; omega, by simp only; omega, y, ?_, hev⟩
    exact hy
  · rintro ⟨h1, h0, y, hy, hev⟩
    refine ⟨x.height.toNat, by omega, y, ?_, x.ev, hev, ?_⟩
    · rw [show (0 : Int) + (x.height.toNat : Int) = x.height by omega]
      exact hy
    · rw [show (0 : Int) + (x.height.toNat : Int) = x.height by omega]

/-- Every message after the announcement counts. -/
theorem mem_messages {codecs : Codecs} {chain : Chain} {n S : Int} {e b : Nat} {k : Observe.Kind}
    (hs : Started (chainEvents codecs chain 0 n) e b S) {x : Stamped} :
    S < x.height → x.height ≤ n → Published codecs chain x.height x.ev → eonMessage x.ev = some (k, e) →
    x ∈ messages k e (chainEvents codecs chain 0 n) := by
  intro h1 h2 h3 h4
  have hx : x ∈ chainEvents codecs chain 0 n := published_iff.2 ⟨h2, h3⟩
  have hsort := chainEvents_sorted codecs chain 0 n
  obtain ⟨pre, post, he, hp⟩ := hs
  rw [he] at hx hsort ⊢
  unfold messages
  rw [List.mem_filter]
  refine ⟨?_, by simpa using h4⟩
  have hskip : ∀ y ∈ pre, ∀ i, y.ev ≠ .eonStarted e i := by
    intro y hy i hi
    exact absurd (hp y hy _ _ hi) (lt_irrefl _)
  rw [sinceStart_skip hskip]
  unfold sinceStart
  rw [List.dropWhile_cons_of_neg (by simp)]
  rw [List.mem_append] at hx
  rcases hx with hx | hx
  · exfalso
    unfold Sorted at hsort
    rw [List.pairwise_append] at hsort
    have := hsort.2.2 x hx ⟨S, .eonStarted e b⟩ (by simp)
    simp only at this
    omega
  · exact hx

theorem of_mem_messages {codecs : Codecs} {chain : Chain} {n : Int} {e : Nat} {k : Observe.Kind} {x : Stamped}
    (h : x ∈ messages k e (chainEvents codecs chain 0 n)) : Published codecs chain x.height x.ev ∧ eonMessage x.ev = some (k, e) := by
  unfold messages at h
  obtain ⟨h1, h2⟩ := List.mem_filter.1 h
  have := (List.dropWhile_sublist _).subset h1
  exact ⟨(published_iff.1 this).2, by simpa using h2⟩

theorem idxOf_get {as : List Addr} {a : Addr} {i : Nat} (h : as.idxOf? a = some i) : as[i]? = some a := by
  rw [List.idxOf?_eq_some_iff] at h
  obtain ⟨hi, h1, _⟩ := h
  rw [List.getElem?_eq_getElem hi]
  simpa using h1

theorem idxOf_inj {as : List Addr} {a b : Addr} {i : Nat} (h : as.idxOf? a = some i) (h' : as.idxOf? b = some i) : a = b := by
  have := (idxOf_get h).symm.trans (idxOf_get h')
  simpa using this

/-- `pick` on indices that were looked up. -/
theorem zip_pick (ks : List Addr) (f : Nat → Int) : ∀ (is : List Nat), (∀ i ∈ is, ∃ a, ks.idxOf? a = some i) →
    (pick ks is).zip (is.map f) = is.filterMap (fun i => (ks[i]?).map (fun a => (a, f i))) := by
  intro is
  induction is with
  | nil => intro _; rfl
  | cons i is ih =>
    intro h
    obtain ⟨a, ha⟩ := h i (by simp)
    have hg := idxOf_get ha
    have := ih (fun j hj => h j (by simp [hj]))
    unfold pick at this ⊢
    rw [List.filterMap_cons, hg, List.filterMap_cons, hg]
    simp [this]

theorem phases_pos {S L h k : Int} (hk : 1 ≤ k) (hL : 0 ≤ L) (h1 : inPhase L S k h = true) : S < h := by
  unfold inPhase at h1
  simp only [decide_eq_true_eq] at h1
  nlinarith [h1.1, h1.2]

theorem phases_lt {S L h k : Int} (hk : k ≤ 2) (hL : 0 ≤ L) (h1 : inPhase L S k h = true) : h < S + 3 * L := by
  unfold inPhase at h1
  simp only [decide_eq_true_eq] at h1
  nlinarith [h1.1, h1.2]

variable [AddCommGroup G1] [AddCommGroup G2] [DecidableEq G2] [DecidableEq GT]

/-- The first of the messages, if all say the same. -/
theorem findSome_const {α β : Type} {l : List α} {f : α → Option β} {v : β} (h1 : ∃ x ∈ l, (f x).isSome = true)
    (h2 : ∀ x ∈ l, ∀ w, f x = some w → w = v) : l.findSome? f = some v := by
  cases h : l.findSome? f with
  | none =>
    obtain ⟨x, hx, hs⟩ := h1
    rw [List.findSome?_eq_none_iff] at h
    rw [h x hx] at hs
    cases hs
  | some w =>
    obtain ⟨x, hx, hw⟩ := List.exists_of_findSome?_eq_some h
    rw [h2 x hx w hw]

/-- What the keyper has said, in one place. -/
structure HonestFacts (cx : Cfg G1 G2 GT R) (dkg : DKG G2) (i : Nat) (P : List Nat) : Prop where
  own : dkg.keypers.idxOf? cx.own = some i
  keyper : dkg.pure.state.keyper = i
  poly : cx.poly dkg.eon = some P
  phase : dkg.pure.state.phase = finalized
  proper : Proper cx dkg
  mine : ∃ v, evalForKeyper P i = some v ∧ HasEval dkg.pure.state i v
  com : HasCommit dkg.pure.state i (polyGammas cx.crypto P)
  answered : ∀ a, HasAccusation dkg.pure.state a i → HasApology dkg.pure.state a i (evaluation P a)
  right : ∀ a v, HasApology dkg.pure.state a i v → v = evaluation P a
  accused : ∀ d c, d ≠ i → HasCommit dkg.pure.state d c → ¬ Good cx.crypto dkg.pure.state d → HasAccusation dkg.pure.state i d

theorem commitments_from {p : Params G2} {codecs : Codecs} {chain : Chain} {n : Int} {m : PolyCommitmentMsg G2}
    (h : Op.commitment m ∈ commitments p (chainEvents codecs chain 0 n)) : ∃ t a gammas,
      Published codecs chain t (.polyCommitment a p.eon gammas) ∧ p.keypers.idxOf? a = some m.sender ∧ m.gammas = p.gammas gammas := by
  unfold commitments at h
  obtain ⟨x, hx, h⟩ := List.mem_flatMap.1 h
  obtain ⟨h1, h2⟩ := of_mem_messages hx
  unfold commitmentOf at h
  split at h
  · next sender eon gammas hev =>
    split at h
    · simp only [Option.mem_toList, Option.map_eq_some_iff] at h
      obtain ⟨i, hi, h⟩ := h
      cases h
      rw [hev] at h1 h2
      simp only [eonMessage, Option.some.injEq, Prod.mk.injEq, true_and] at h2
      subst h2
      exact ⟨_, _, _, h1, hi, rfl⟩
    · simp at h
  · simp at h

theorem apologies_from {p : Params G2} {codecs : Codecs} {chain : Chain} {n : Int} {m : ApologyMsg}
    (h : Op.apology m ∈ apologies p (chainEvents codecs chain 0 n)) : ∃ t a as evals,
      Published codecs chain t (.apology a p.eon as evals) ∧ p.keypers.idxOf? a = some m.accused ∧
      ∃ r ∈ as.zip evals, p.keypers.idxOf? r.1 = some m.accuser ∧ m.eval = ((r.2 : Nat) : Int) := by
  unfold apologies at h
  obtain ⟨x, hx, h⟩ := List.mem_flatMap.1 h
  obtain ⟨h1, h2⟩ := of_mem_messages hx
  unfold apologiesOf at h
  split at h
  · next sender eon as evals hev =>
    split at h
    · simp only [List.mem_flatMap, Option.mem_toList, List.mem_filterMap, Option.map_eq_some_iff] at h
      obtain ⟨i, hi, r, hr, a, ha, h⟩ := h
      cases h
      rw [hev] at h1 h2
      simp only [eonMessage, Option.some.injEq, Prod.mk.injEq, true_and] at h2
      subst h2
      exact ⟨_, _, _, _, h1, hi, r, hr, ha, rfl⟩
    · simp at h
  · simp at h

theorem accusations_from {p : Params G2} {codecs : Codecs} {chain : Chain} {n : Int} {m : AccusationMsg}
    (h : Op.accusation m ∈ accusations p (chainEvents codecs chain 0 n)) : ∃ a, p.keypers.idxOf? a = some m.accuser := by
  unfold accusations at h
  obtain ⟨x, hx, h⟩ := List.mem_flatMap.1 h
  unfold accusationsOf at h
  split at h
  · split at h
    · simp only [List.mem_flatMap, Option.mem_toList, List.mem_filterMap, Option.map_eq_some_iff] at h
      obtain ⟨i, hi, r, hr, a, ha, h⟩ := h
      cases h
      exact ⟨_, hi⟩
    · simp at h
  · simp at h

theorem honest_facts (law : ∀ p : G2, order • p = 0) {cx : Cfg G1 G2 GT R} (hL : 0 ≤ cx.phaseLength) {codecs : Codecs} {chain : Chain}
    {S : Int} {rs : List (Round G1 G2)} {s : Observe.Shutter} {st : State G1 G2} {dkg : DKG G2}
    (h : Honest cx codecs chain S rs s st dkg) :
    ∃ i P, HonestFacts cx dkg i P := by
  obtain ⟨S', inv⟩ := (kinv_reach hL (lived_reach h.lived)).dkgs dkg h.runs
  obtain ⟨_, rfl⟩ := started_unique h.started inv.started
  obtain ⟨P, sd⟩ := (linv_lived law hL h.lived).said dkg h.runs S h.started
  obtain ⟨i, hi, hn, he, hph, hnd, hcom, hacc, hapo, _⟩ := dkg_views hL inv h.finished
  obtain ⟨ops, thr, i', hrun, hi', hpre⟩ := inv.ran
  rw [hi] at hi'
  cases hi'
  have lg := logInv_run _ _ _ _ _ _ _ hrun
  have hkeyper : dkg.pure.state.keyper = i := lg.keyper
  have hown : dkg.keypers.idxOf? cx.own = some i := by rw [← findAddressIndex_eq]; exact hi
  have hdeg := h.degree P sd.poly
  have hdeg' : degree (polyGammas cx.crypto P) = sub1u64 dkg.pure.state.threshold := by
    unfold degree sub1u64 polyGammas
    rw [List.length_map, hdeg]
  have in0 : ∀ {x k}, S < x → inPhase cx.phaseLength S k x = true → k ≤ 2 → x ≤ st.syncHeight - 1 := by
    intro x k h1 h2 h3
    have := phases_lt h3 hL h2
    have := h.finished
    omega
  have c1 : HasCommit dkg.pure.state i (polyGammas cx.crypto P) := by
    have : com dkg.pure.state i = some (polyGammas cx.crypto P) := by
      rw [hcom]
      apply findSome_const
      · have h0 := h.online 0 (by simp)
        obtain ⟨r, hr⟩ := Option.ne_none_iff_exists'.1 h0
        have hm := sd.com
        rw [hr] at hm
        obtain ⟨t, gammas, g1, g2, g3, g4⟩ := h.carried.commitment (r.next, P.map (fun c => c • cx.crypto.g2)) (by rw [hm]; simp)
        refine ⟨.commitment ⟨dkg.eon, i, polyGammas cx.crypto P⟩, ?_, by simp [commitmentIn, hdeg']⟩
        unfold commitments
        refine List.mem_flatMap.2 ⟨⟨t, .polyCommitment cx.own dkg.eon gammas⟩, mem_messages h.started g1 (in0 g1 g2 (by omega)) g3 rfl, ?_⟩
        simp only [commitmentOf, g2, if_true, hown, g4, Option.map_some, Option.toList_some, List.mem_singleton]
        rfl
      · intro x hx w hw
        cases x <;> simp only [commitmentIn, reduceCtorEq] at hw
        next m =>
        split at hw
        · next hm =>
          obtain ⟨t, a, gammas, g1, g2, g3⟩ := commitments_from hx
          simp only at g1 g2 g3
          rw [hm.1] at g2
          have := idxOf_inj g2 hown
          subst this
          obtain ⟨m', hm', g4⟩ := h.authentic.commitment t gammas g1
          rw [sd.com] at hm'
          simp only [Option.some.injEq] at hw
          rw [← hw, g3, g4]
          simp only [Option.mem_toList, Option.map_eq_some_iff] at hm'
          obtain ⟨r, _, rfl⟩ := hm'
          rfl
        · cases hw
    exact this
  have hidx : ∀ a ∈ accusers dkg.pure.state, ∃ x, dkg.keypers.idxOf? x = some a := by
    intro a ha
    unfold accusers at ha
    obtain ⟨⟨a', d⟩, hm, rfl⟩ := List.mem_map.1 ha
    obtain ⟨hm, hd⟩ := List.mem_filter.1 hm
    have := (hacc _).1 hm
    rw [List.any_eq_true] at this
    obtain ⟨op, hop, hin⟩ := this
    cases op <;> simp only [accusationIn, Bool.false_eq_true] at hin
    next m =>
    simp only [decide_eq_true_eq, Prod.mk.injEq] at hin
    obtain ⟨x, hx⟩ := accusations_from hop
    simp only at hx
    exact ⟨x, by rw [hx, hin.1]⟩
  have zipped : ∀ r ∈ (pick dkg.keypers (accusers dkg.pure.state)).zip
      ((accusers dkg.pure.state).map (fun j => ((evaluation P j : Nat) : Int))), ∀ a, dkg.keypers.idxOf? r.1 = some a →
      r.2 = ((evaluation P a : Nat) : Int) := by
    intro r hr a ha
    rw [zip_pick _ _ _ hidx, List.mem_filterMap] at hr
    obtain ⟨j, hj, hr⟩ := hr
    obtain ⟨x, hx⟩ := hidx j hj
    rw [idxOf_get hx] at hr
    simp only [Option.map_some, Option.some.injEq] at hr
    rw [← hr] at ha ⊢
    simp only at ha ⊢
    rw [hx] at ha
    cases ha
    rfl
  have ap : ∀ m : ApologyMsg, Op.apology m ∈ apologies (⟨dkg.eon, S, cx.phaseLength, dkg.keypers, i, cx.gammas, cx.decryptEval⟩ : Params G2)
      (chainEvents codecs chain 0 (st.syncHeight - 1)) → m.accused = i → m.eval = ((evaluation P m.accuser : Nat) : Int) := by
    intro m hm hd
    obtain ⟨t, a, as, evals, g1, g2, r, hr, g3, g4⟩ := apologies_from hm
    simp only at g1 g2 g3
    rw [hd] at g2
    have := idxOf_inj g2 hown
    subst this
    obtain ⟨m', hm', g5⟩ := h.authentic.apology t as evals g1
    rw [sd.apo] at hm'
    split at hm'
    · simp at hm'
    · simp only [Option.mem_toList, Option.map_eq_some_iff] at hm'
      obtain ⟨r', _, rfl⟩ := hm'
      simp only [Prod.mk.injEq] at g5
      have hr' : (r.1, ((r.2 : Nat) : Int)) ∈ (pick dkg.keypers (accusers dkg.pure.state)).zip
          ((accusers dkg.pure.state).map (fun j => ((evaluation P j : Nat) : Int))) := by
        rw [g5.1, g5.2, List.zip_map_right]
        exact List.mem_map.2 ⟨(r.1, r.2), hr, rfl⟩
      rw [g4]
      exact zipped _ hr' _ g3
  have hright : ∀ a v, HasApology dkg.pure.state a i v → v = evaluation P a := by
    intro a v hv
    have hl := (mem_iff_lookup hnd (a, i) v).1 hv
    have : apo dkg.pure.state (a, i) = some v := hl
    rw [hapo] at this
    obtain ⟨op, hop, hin⟩ := List.exists_of_findSome?_eq_some this
    cases op <;> simp only [apologyIn, reduceCtorEq] at hin
    next m =>
    split at hin
    · next hm =>
      simp only [Prod.mk.injEq, Option.some.injEq] at hm hin
      have := ap m hop hm.1.2
      rw [this, hm.1.1] at hin
      simpa using hin.symm
    · cases hin
  have mine : ∃ v, evalForKeyper P i = some v ∧ HasEval dkg.pure.state i v := by
    have hno : Op.start1 none ∉ ops := by
      obtain ⟨D, rfl, hD, _⟩ := hpre
      rw [sd.poly]
      have k1 : ∀ op ∈ accusations (⟨dkg.eon, S, cx.phaseLength, dkg.keypers, i, cx.gammas, cx.decryptEval⟩ : Params G2)
          (chainEvents codecs chain 0 (st.syncHeight - 1)), op ≠ .start1 none := by
        intro op hop h
        subst h
        obtain ⟨x, _, hx⟩ := List.mem_flatMap.1 hop
        unfold accusationsOf at hx
        split at hx
        · split at hx
          · simp at hx
          · simp at hx
        · simp at hx
      have k2 : ∀ op ∈ apologies (⟨dkg.eon, S, cx.phaseLength, dkg.keypers, i, cx.gammas, cx.decryptEval⟩ : Params G2)
          (chainEvents codecs chain 0 (st.syncHeight - 1)), op ≠ .start1 none := by
        intro op hop h
        subst h
        obtain ⟨x, _, hx⟩ := List.mem_flatMap.1 hop
        unfold apologiesOf at hx
        split at hx
        · split at hx
          · simp at hx
          · simp at hx
        · simp at hx
      unfold script
      simp only [List.mem_append, not_or]
      refine ⟨⟨⟨⟨⟨⟨by simp, ?_⟩, by split <;> simp⟩, fun h => k1 _ h rfl⟩, by split <;> simp⟩, fun h => k2 _ h rfl⟩, by split <;> simp⟩
      intro h
      rcases hD _ h with h | h <;> simp [isCommitment, isEval] at h
    have hi := honestInv_run _ _ _ _ _ _ _ hno hrun
    obtain ⟨p, hp, _, h3, _⟩ := hi.poly (by rw [hph]; decide)
    obtain ⟨P', w, q1, q2, q3, q4⟩ := sd.proper.poly (by rw [hph]; decide)
    rw [sd.poly] at q1
    cases q1
    rw [q2] at hp
    cases hp
    obtain ⟨v, h4, h5⟩ := h3 (by rw [← findAddressIndex_eq] at hown; exact findAddressIndex_lt hown)
    exact ⟨v, h4, h5⟩
  refine ⟨i, P, hown, hkeyper, sd.poly, hph, sd.proper, mine, c1, ?_, hright, ?_⟩
  · intro a ha
    have hmem : a ∈ accusers dkg.pure.state := by
      unfold accusers
      exact List.mem_map.2 ⟨(a, i), List.mem_filter.2 ⟨ha, by simp [hkeyper]⟩, rfl⟩
    have hne : accusers dkg.pure.state ≠ [] := List.ne_nil_of_mem hmem
    obtain ⟨r, hr⟩ := Option.ne_none_iff_exists'.1 (h.online 2 (by simp))
    have hm := sd.apo
    rw [if_neg hne, hr] at hm
    obtain ⟨t, evals, g1, g2, g3⟩ := h.carried.apology _ (by rw [hm]; simp; rfl)
    simp only at g2 g3
    obtain ⟨x, hx⟩ := hidx a hmem
    have hin : (x, ((evaluation P a : Nat) : Int)) ∈ (pick dkg.keypers (accusers dkg.pure.state)).zip
        (evals.map Int.ofNat) := by
      rw [g3, zip_pick _ _ _ hidx, List.mem_filterMap]
      exact ⟨a, hmem, by rw [idxOf_get hx]; rfl⟩
    rw [List.zip_map_right, List.mem_map] at hin
    obtain ⟨⟨x', v⟩, hxv, hin⟩ := hin
    simp only [Prod.map_apply, id_eq, Prod.mk.injEq] at hin
    obtain ⟨rfl, hv⟩ := hin
    have hop : Op.apology ⟨dkg.eon, a, i, ((evaluation P a : Nat) : Int)⟩ ∈ apologies (⟨dkg.eon, S, cx.phaseLength, dkg.keypers, i, cx.gammas, cx.decryptEval⟩ : Params G2)
        (chainEvents codecs chain 0 (st.syncHeight - 1)) := by
      unfold apologies
      have hS := phases_pos (by omega) hL g1
      refine List.mem_flatMap.2 ⟨⟨t,   .apology cx.own dkg.eon _ _⟩, mem_messages h.started hS (in0 hS g1 (by omega)) g2 rfl, ?_⟩
      simp only [apologiesOf, g1, if_true, hown, Option.toList_some, List.flatMap_cons, List.flatMap_nil, List.append_nil,
        List.mem_filterMap, Option.map_eq_some_iff]
      exact ⟨(x', v), hxv, a, hx, by rw [← hv]; rfl⟩
    refine (mem_iff_lookup hnd (a, i) _).2 ?_
    have : apo dkg.pure.state (a, i) = some (evaluation P a) := by
      rw [hapo]
      apply findSome_const
      · refine ⟨_, hop, ?_⟩
        have : validEval ((evaluation P a : Nat) : Int) = true := by
          have : evaluation P a < order := Nat.mod_lt _ (by decide)
          unfold validEval
          rw [if_neg (by omega), if_neg (by omega)]
        simp [apologyIn, this]
      · intro op hop w hw
        cases op <;> simp only [apologyIn, reduceCtorEq] at hw
        next m =>
        split at hw
        · next hm =>
          simp only [Prod.mk.injEq, Option.some.injEq] at hm hw
          have := ap m hop hm.1.2
          rw [this, hm.1.1] at hw
          simpa using hw.symm
        · cases hw
    exact this
  · intro d c hdi hc hbad
    have hdx : ∃ x, dkg.keypers.idxOf? x = some d := by
      have : com dkg.pure.state d = some c := hc
      rw [hcom] at this
      obtain ⟨op, hop, hin⟩ := List.exists_of_findSome?_eq_some this
      cases op <;> simp only [commitmentIn, reduceCtorEq] at hin
      next m =>
      split at hin
      · next hm =>
        obtain ⟨t, a, gammas, _, g2, _⟩ := commitments_from hop
        rw [hm.1] at g2
        exact ⟨a, g2⟩
      · cases hin
    obtain ⟨x, hx⟩ := hdx
    have hdn : d < dkg.keypers.length := by rw [← findAddressIndex_eq] at hx; exact findAddressIndex_lt hx
    have hmem : d ∈ toBlame cx.crypto.g2 dkg.pure.state := by
      rw [← toBlame_eq law sd.proper.log.2.2.2, List.mem_filter, List.mem_range, hn]
      refine ⟨hdn, ?_⟩
      simp only [ne_eq, hkeyper, Bool.and_eq_true, decide_eq_true_eq]
      exact ⟨hdi, (shouldAccuse_iff _ _ _).2 hbad⟩
    have hne : toBlame cx.crypto.g2 dkg.pure.state ≠ [] := List.ne_nil_of_mem hmem
    obtain ⟨r, hr⟩ := Option.ne_none_iff_exists'.1 (h.online 1 (by simp))
    have hm := sd.acc
    rw [if_neg hne, hr] at hm
    obtain ⟨t, g1, g2⟩ := h.carried.accusation _ (by rw [hm]; simp; rfl)
    simp only at g2
    refine (hacc (i, d)).2 ?_
    rw [List.any_eq_true]
    refine ⟨.accusation ⟨dkg.eon, i, d⟩, ?_, by simp [accusationIn]⟩
    unfold accusations
    have hS := phases_pos (by omega) hL g1
    refine List.mem_flatMap.2 ⟨⟨t, .accusation cx.own dkg.eon _⟩, mem_messages h.started hS (in0 hS g1 (by omega)) g2 rfl, ?_⟩
    simp only [accusationsOf, g1, if_true, hown, Option.toList_some, List.flatMap_cons, List.flatMap_nil, List.append_nil,
      List.mem_filterMap, Option.map_eq_some_iff]
    refine ⟨x, ?_, d, hx, rfl⟩
    unfold pick
    exact List.mem_filterMap.2 ⟨d, hmem, idxOf_get hx⟩

theorem honest_not_corrupt (law : ∀ p : G2, order • p = 0) {cx : Cfg G1 G2 GT R} {dkg : DKG G2} {i : Nat} {P : List Nat}
    (h : HonestFacts cx dkg i P) : isCorrupt cx.crypto dkg.pure.state i = false := by
  obtain ⟨P', w, p1, p2, p3, p4⟩ := h.proper.poly (by rw [h.phase]; decide)
  rw [h.poly] at p1
  cases p1
  rw [Bool.eq_false_iff, Ne, isCorrupt_iff]
  rintro (h1 | ⟨c, hc, h1⟩)
  · exact h1 _ h.com
  · have hcc : c = polyGammas cx.crypto P := by
      have := h.com
      unfold HasCommit at this hc
      rw [hc] at this
      simpa using this
    subst hcc
    rcases h1 with ⟨a, v, hv, hbad⟩ | ⟨a, ha, hno⟩
    · rw [h.right a v hv, verify_own cx.crypto law P a _ _ (evalForKeyper_eq p3 p4 a) (h.proper.log.2.2.2 i _ hc)] at hbad
      cases hbad
    · exact hno ⟨_, h.answered a ha⟩

/-- The number of dealers that count decides. -/
theorem honest_result (law : ∀ p : G2, order • p = 0) {cx : Cfg G1 G2 GT R} {dkg : DKG G2} {i : Nat} {P : List Nat}
    (h : HonestFacts cx dkg i P)
    (enough : dkg.pure.state.threshold ≤ ((List.range dkg.pure.state.numKeypers).filter (fun d => !isCorrupt cx.crypto dkg.pure.state d)).length) :
    (computeResult cx.crypto dkg.pure.state).isSome = true := by
  obtain ⟨P', w, p1, p2, p3, p4⟩ := h.proper.poly (by rw [h.phase]; decide)
  rw [h.poly] at p1
  cases p1
  have hgood : ∀ d ∈ List.range dkg.pure.state.numKeypers, isCorrupt cx.crypto dkg.pure.state d = false →
      ∃ c e, HasCommit dkg.pure.state d c ∧ Dkg.polyEval dkg.pure.state d = some e ∧
        verifyPolyEval cx.crypto dkg.pure.state.keyper e c dkg.pure.state.threshold = true := by
    intro d hd hc
    have hc' : ¬ isCorrupt cx.crypto dkg.pure.state d = true := by simp [hc]
    rw [isCorrupt_iff] at hc'
    push Not at hc'
    obtain ⟨⟨c, hcm⟩, hc2⟩ := hc'
    obtain ⟨ha, hb⟩ := hc2 c hcm
    unfold Dkg.polyEval
    cases hf : dkg.pure.state.apologies.find? (fun a => a.1.1 = dkg.pure.state.keyper && a.1.2 = d) with
    | some a =>
      have hmem := List.mem_of_find?_eq_some hf
      have hpred := List.find?_some hf
      simp only [Bool.and_eq_true, decide_eq_true_eq] at hpred
      obtain ⟨⟨x, y⟩, v⟩ := a
      simp only at hpred
      obtain ⟨rfl, rfl⟩ := hpred
      have := ha _ _ hmem
      exact ⟨c, v, hcm, rfl, by simpa using this⟩
    | none =>
      have hnoap : ∀ v, ¬ HasApology dkg.pure.state dkg.pure.state.keyper d v := by
        intro v hv
        have := (List.find?_eq_none.1 hf) _ hv
        simp at this
      simp only
      by_cases hg : Good cx.crypto dkg.pure.state d
      · obtain ⟨e, c', he, hcm', hver⟩ := hg
        exact ⟨c', e, hcm', he, hver⟩
      · exfalso
        by_cases hdi : d = i
        · subst hdi
          obtain ⟨v, hv, he⟩ := h.mine
          apply hg
          refine ⟨v, _, he, h.com, ?_⟩
          rw [h.keyper]
          exact verify_own cx.crypto law P d v _ hv (h.proper.log.2.2.2 d _ h.com)
        · obtain ⟨v, hv⟩ := hb i (h.accused d c hdi hcm hg)
          rw [← h.keyper] at hv
          exact hnoap v hv
  obtain ⟨ces, np, hcol⟩ := collect_isSome cx.crypto dkg.pure.state _ hgood
  obtain ⟨_, hnp⟩ := collect_spec cx.crypto dkg.pure.state _ _ _ hcol
  unfold computeResult
  rw [if_neg (by rw [h.phase]; decide), hcol]
  simp only
  rw [← hnp] at enough
  rw [if_neg (by omega)]
  rfl

theorem evals_from {p : Params G2} {codecs : Codecs} {chain : Chain} {n : Int} {m : PolyEvalMsg}
    (h : Op.eval m ∈ evals p (chainEvents codecs chain 0 n)) : ∃ t a rs es,
      Published codecs chain t (.polyEval a p.eon rs es) ∧ p.keypers.idxOf? a = some m.sender ∧
      ∃ r ∈ rs.zip es, p.keypers.idxOf? r.1 = some p.own ∧ ∃ b, p.decrypt r.2 = some b ∧ m.eval = ((beNat b : Nat) : Int) := by
  unfold evals at h
  obtain ⟨x, hx, h⟩ := List.mem_flatMap.1 h
  obtain ⟨h1, h2⟩ := of_mem_messages hx
  unfold evalsOf at h
  split at h
  · next sender eon rs es hev =>
    split at h
    · simp only [List.mem_flatMap, Option.mem_toList, List.mem_filterMap, Option.map_eq_some_iff, List.mem_filter,
        Option.filter_eq_some_iff, decide_eq_true_eq] at h
      obtain ⟨i, hi, r, hr, b, hb, h⟩ := h
      cases h
      rw [hev] at h1 h2
      simp only [eonMessage, Option.some.injEq, Prod.mk.injEq, true_and] at h2
      subst h2
      exact ⟨_, _, _, _, h1, hi.1, r, hr.1, hr.2, b, hb, rfl⟩
    · simp at h
  · simp at h

/-- What is said to `a` is part of a message. -/
theorem mem_evaluationsTo {e : Nat} {a : Addr} {rs : List (Round G1 G2)} {m : Int × Bytes} :
    m ∈ said (evaluationsTo e a) rs ↔ ∃ x ∈ said (evaluationsFor e) rs, x.1 = m.1 ∧ (a, m.2) ∈ x.2.1.zip x.2.2 := by
  unfold said
  simp only [List.mem_flatMap, List.mem_map]
  constructor
  · rintro ⟨r, hr, b, ⟨act, hact, hb⟩, rfl⟩
    cases act <;> simp only [evaluationsTo, List.not_mem_nil] at hb
    next e' receivers encrypted =>
    split at hb
    · next he =>
      simp only [List.mem_map, List.mem_filter, decide_eq_true_eq] at hb
      obtain ⟨y, ⟨hy, hya⟩, rfl⟩ := hb
      refine ⟨(r.next, receivers, encrypted), ⟨r, hr, (receivers, encrypted), ⟨_, hact, ?_⟩, rfl⟩, rfl, ?_⟩
      · simp [evaluationsFor, he]
      · simp only
        rw [← hya]
        exact hy
    · simp at hb
  · rintro ⟨x, ⟨r, hr, b, ⟨act, hact, hb⟩, rfl⟩, h1, h2⟩
    cases act <;> simp only [evaluationsFor, List.not_mem_nil] at hb
    next e' receivers encrypted =>
    split at hb
    · next he =>
      simp only [List.mem_singleton] at hb
      subst hb
      refine ⟨r, hr, m.2, ⟨_, hact, ?_⟩, ?_⟩
      · simp only [evaluationsTo, he, if_true, List.mem_map, List.mem_filter, decide_eq_true_eq]
        exact ⟨(a, m.2), ⟨h2, rfl⟩, rfl⟩
      · exact Prod.ext h1 rfl
    · simp at hb

theorem others_nodup {ks : List Addr} (hn : ks.Nodup) {i j : Nat} {a : Addr} (hj : ks.idxOf? a = some j) (hij : j ≠ i) :
    others ks i a = [j] := by
  have hg := idxOf_get hj
  have hjl : j < ks.length := by
    by_contra h
    rw [List.getElem?_eq_none (by omega)] at hg
    cases hg
  have hu : ∀ k, ks[k]? = some a → k = j := by
    intro k hk
    obtain ⟨hkl, hk'⟩ := List.getElem?_eq_some_iff.1 hk
    obtain ⟨hjl', hj'⟩ := List.getElem?_eq_some_iff.1 hg
    exact (List.Nodup.getElem_inj_iff hn).1 (hk'.trans hj'.symm)
  have heq : ∀ k, (decide (k ≠ i) && decide (ks[k]? = some a)) = (k == j) := by
    intro k
    by_cases hk : k = j
    · subst hk
      simp [hij, hg]
    · have : ¬ ks[k]? = some a := fun h => hk (hu k h)
      simp [this, hk]
  unfold others
  rw [List.filter_congr (fun k _ => heq k)]
  rw [List.filter_beq, List.count_eq_one_of_mem List.nodup_range (by simpa using hjl)]
  rfl

/-- Finished keypers have the same commitments. -/
theorem same_commitments {cx₁ cx₂ : Cfg G1 G2 GT R} (hL : 0 ≤ cx₁.phaseLength) (hlen : cx₂.phaseLength = cx₁.phaseLength)
    (hga : cx₂.gammas = cx₁.gammas) {codecs : Codecs} {chain : Chain} {n₁ n₂ S : Int} {d₁ d₂ : DKG G2}
    (i₁ : DkgInv cx₁ (chainEvents codecs chain 0 (n₁ - 1)) n₁ d₁ S) (i₂ : DkgInv cx₂ (chainEvents codecs chain 0 (n₂ - 1)) n₂ d₂ S)
    (g₁ : S + 3 * cx₁.phaseLength ≤ n₁) (g₂ : S + 3 * cx₁.phaseLength ≤ n₂) (he : d₁.eon = d₂.eon)
    (hk : d₁.keypers = d₂.keypers) (ht : d₁.pure.state.threshold = d₂.pure.state.threshold) (d : Nat) :
    com d₁.pure.state d = com d₂.pure.state d := by
  have h0 := (started_height i₁.started).1
  obtain ⟨n, a1, a2, a3, a4, a5, a6, _⟩ := dkg_views hL i₁ g₁
  obtain ⟨m, b1, b2, b3, b4, b5, b6, _⟩ := dkg_views (by omega) i₂ (by rw [hlen]; exact g₂)
  obtain ⟨l1, l2, l3, l4⟩ := lists_stable_chain (p := ⟨d₁.eon, S, cx₁.phaseLength, d₁.keypers, n, cx₁.gammas, cx₁.decryptEval⟩)
    (codecs := codecs) (chain := chain) hL h0 g₁ g₂
  rw [← he, ← hk, hlen, hga] at b6
  rw [a6, b6, ← ht]
  exact congrArg (List.findSome? _) l1

/-- The evaluation of an honest dealer, as another keyper has it at the end. -/
theorem dealt_eval (law : ∀ p : G2, order • p = 0) {cx₁ cx₂ : Cfg G1 G2 GT R} (hL : 0 ≤ cx₁.phaseLength)
    (hlen : cx₂.phaseLength = cx₁.phaseLength) {codecs : Codecs} {chain : Chain} {S : Int} {rs : List (Round G1 G2)}
    {s₁ : Observe.Shutter} {st₁ : State G1 G2} {d₁ d₂ : DKG G2} {n₂ : Int} (h₁ : Honest cx₁ codecs chain S rs s₁ st₁ d₁)
    (dealt : Dealt cx₁ codecs chain d₁.eon S rs) (i₂ : DkgInv cx₂ (chainEvents codecs chain 0 (n₂ - 1)) n₂ d₂ S)
    (g₂ : S + 3 * cx₁.phaseLength ≤ n₂) (he : d₁.eon = d₂.eon) (hk : d₁.keypers = d₂.keypers) (hn : d₂.keypers.Nodup)
    (hne : cx₁.own ≠ cx₂.own) (known : firstTo codecs chain S cx₁.phaseLength cx₂.own rs ≠ none)
    (opens : ∀ n key, keyAt codecs chain cx₂.own n = some key → ∀ b, cx₂.decryptEval (cx₁.encryptEval key b) = some b)
    {i j : Nat} {P : List Nat} (hf : HonestFacts cx₁ d₁ i P) (hj : d₂.keypers.idxOf? cx₂.own = some j) :
    i ≠ j ∧ HasEval d₂.pure.state i (evaluation P j) := by
  obtain ⟨Q, sd⟩ := (linv_lived law hL h₁.lived).said d₁ h₁.runs S h₁.started
  have := sd.poly
  rw [hf.poly] at this
  cases this
  obtain ⟨r, hr⟩ := Option.ne_none_iff_exists'.1 known
  have hkey : ∃ key, keyAt codecs chain cx₂.own r.next = some key := by
    have := List.find?_some hr
    simp only [Bool.and_eq_true] at this
    exact Option.isSome_iff_exists.1 this.2
  obtain ⟨key, hkey⟩ := hkey
  have hown := hf.own
  rw [hk] at hown
  have hij : i ≠ j := by
    intro h
    subst h
    exact hne (idxOf_inj hown hj)
  have hto : said (evaluationsTo d₁.eon cx₂.own) rs = [(r.next, cx₁.encryptEval key (natBytes (evaluation P j)))] := by
    rw [sd.ev cx₂.own, hr]
    simp only [hkey, Option.getD_some, dueTo, hf.keyper, hk]
    rw [others_nodup hn hj hij.symm]
    rfl
  refine ⟨hij, ?_⟩
  obtain ⟨j', b1, b2, b3, b4, b5, b6, b7, b8, b9⟩ := dkg_views (by omega) i₂ (by rw [hlen]; exact g₂)
  rw [findAddressIndex_eq, hj] at b1
  cases b1
  have : evl d₂.pure.state i = some (evaluation P j) := by
    rw [b9 i hij]
    apply findSome_const
    · obtain ⟨x, hx, _, hz⟩ := (mem_evaluationsTo (m := (r.next, cx₁.encryptEval key (natBytes (evaluation P j))))).1 (by rw [hto]; simp)
      obtain ⟨t, t1, t2, t3⟩ := dealt.carried x hx
      refine ⟨.eval ⟨d₂.eon, i, j, (beNat (natBytes (evaluation P j)) : Nat)⟩, ?_, ?_⟩
      · unfold evals
        rw [he] at t3
        have t4 := phases_lt (by omega) hL t2
        refine List.mem_flatMap.2 ⟨⟨t, .polyEval cx₁.own d₂.eon x.2.1 x.2.2⟩, mem_messages i₂.started t1 (by simp only; omega) t3 rfl, ?_⟩
        rw [hlen]
        simp only [evalsOf, t2, if_true, hown, Option.filter_some, decide_eq_true hij, Option.toList_some, List.flatMap_cons,
          List.flatMap_nil, List.append_nil, List.mem_filterMap, Option.map_eq_some_iff, List.mem_filter, decide_eq_true_eq]
        exact ⟨_, ⟨hz, hj⟩, _, opens _ _ hkey _, rfl⟩
      · have : validEval ((evaluation P j : Nat) : Int) = true := by
          have : evaluation P j < order := Nat.mod_lt _ (by decide)
          unfold validEval
          rw [if_neg (by omega), if_neg (by omega)]
        simp [evalIn, beNat_natBytes, this]
    · intro op hop w hw
      cases op <;> simp only [evalIn, reduceCtorEq] at hw
      next m =>
      split at hw
      · next hm =>
        obtain ⟨t, a, rc, es, t1, t2, z, hz, t3, b, t4, t5⟩ := evals_from hop
        simp only at t1 t2 t3 t4
        rw [hm.1] at t2
        have := idxOf_inj t2 hown
        subst this
        have := idxOf_inj t3 hj
        rw [← he] at t1
        obtain ⟨m', hm', t6⟩ := dealt.authentic t rc es t1
        have hin : (m'.1, z.2) ∈ said (evaluationsTo d₁.eon cx₂.own) rs := by
          refine mem_evaluationsTo.2 ⟨m', hm', rfl, ?_⟩
          rw [t6, ← this]
          exact hz
        rw [hto] at hin
        simp only [List.mem_singleton, Prod.mk.injEq] at hin
        rw [hin.2, opens _ _ hkey] at t4
        cases t4
        simp only [Option.some.injEq] at hw
        rw [← hw, t5, beNat_natBytes]
        simp
      · cases hw
  exact this

end Shutter.Decide
