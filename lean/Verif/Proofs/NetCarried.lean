import Verif.Proofs.NetKeyper

/-! # The messages of a keyper that takes part in a key generation are published, and nothing else is -/

namespace Shutter.Net
open Shutter.App Shutter.Events Shutter.Observe Shutter.Decide Shutter.Decide.Spec Shutter.Crypto Shutter.Dkg
open Shutter.Decide (State)
open Shutter.App.Props (dkgEvent dkgParties Msg.isDkg)

variable {ps : Parsers} {dev : Bool} {log : List Rec} {s : App.State} {codecs : Codecs}
variable {G1 G2 GT R : Type} {w : Wire G1 G2}

/-! ## Which actions give which events -/

theorem from_commitment {cx : Cfg G1 G2 GT R} (wf : Wire.Fit w ps cx) {a : Addr} {act : Action G1 G2} {m : Msg} {ev : Event}
    (h1 : message w act = some m) (h2 : dkgEvent ps a m = some ev) {e : Nat} (h3 : Once.commitment e a ∈ ev.once) :
    ∃ gammas, act = .polyCommitment e gammas ∧ ev = .polyCommitment a e (gammas.map w.g2) := by
  cases act <;> simp only [message, reduceCtorEq, Option.some.injEq] at h1 <;> subst h1 <;>
    simp only [dkgEvent, reduceCtorEq, Option.some.injEq, Option.map_eq_some_iff] at h2
  case polyCommitment e' gammas =>
    obtain ⟨l, h4, rfl⟩ := h2
    simp only [Event.once, List.mem_singleton, Once.commitment.injEq] at h3
    obtain ⟨rfl, _⟩ := h3
    refine ⟨gammas, rfl, ?_⟩
    congr 1
    have : (gammas.map w.g2).mapM ps.g2 = some (gammas.map w.g2) := by
      clear h4
      induction gammas with
      | nil => rfl
      | cons g gs ih => simp [List.mapM_cons, wf.g2, ih]
    rw [this] at h4
    exact (Option.some.inj h4).symm
  all_goals (subst h2; simp [Event.once] at h3)

theorem commitment_event {cx : Cfg G1 G2 GT R} (wf : Wire.Fit w ps cx) (a : Addr) (e : Nat) (gammas : List G2) :
    dkgEvent ps a (.polyCommitment e (gammas.map w.g2)) = some (.polyCommitment a e (gammas.map w.g2)) ∧
      (gammas.map w.g2).mapM ps.g2 = some (gammas.map w.g2) := by
  have : (gammas.map w.g2).mapM ps.g2 = some (gammas.map w.g2) := by
    induction gammas with
    | nil => rfl
    | cons g gs ih => simp [List.mapM_cons, wf.g2, ih]
  exact ⟨by simp [dkgEvent, this], this⟩

theorem from_evaluation {a : Addr} {act : Action G1 G2} {m : Msg} {ev : Event} (h1 : message w act = some m) (h2 : dkgEvent ps a m = some ev)
    {e : Nat} {b : Addr} (h3 : Once.eval e a b ∈ ev.once) :
    ∃ receivers encrypted, act = .polyEval e receivers encrypted ∧ ev = .polyEval a e receivers encrypted ∧ b ∈ receivers := by
  cases act <;> simp only [message, reduceCtorEq, Option.some.injEq] at h1 <;> subst h1 <;>
    simp only [dkgEvent, reduceCtorEq, Option.some.injEq, Option.map_eq_some_iff] at h2
  case polyCommitment e' gammas =>
    obtain ⟨l, h4, rfl⟩ := h2
    simp [Event.once] at h3
  case polyEval e' receivers encrypted =>
    subst h2
    simp only [Event.once, List.mem_map, Once.eval.injEq] at h3
    obtain ⟨b', h4, rfl, _, rfl⟩ := h3
    exact ⟨receivers, encrypted, rfl, rfl, h4⟩
  all_goals (subst h2; simp [Event.once] at h3)

theorem from_accusation {a : Addr} {act : Action G1 G2} {m : Msg} {ev : Event} (h1 : message w act = some m) (h2 : dkgEvent ps a m = some ev)
    {e : Nat} (h3 : Once.accusation e a ∈ ev.once) : ∃ accused, act = .accusation e accused ∧ ev = .accusation a e accused := by
  cases act <;> simp only [message, reduceCtorEq, Option.some.injEq] at h1 <;> subst h1 <;>
    simp only [dkgEvent, reduceCtorEq, Option.some.injEq, Option.map_eq_some_iff] at h2
  case polyCommitment e' gammas =>
    obtain ⟨l, h4, rfl⟩ := h2
    simp [Event.once] at h3
  case accusation e' accused =>
    subst h2
    simp only [Event.once, List.mem_singleton, Once.accusation.injEq] at h3
    obtain ⟨rfl, _⟩ := h3
    exact ⟨accused, rfl, rfl⟩
  all_goals (subst h2; simp [Event.once] at h3)

theorem from_apology {a : Addr} {act : Action G1 G2} {m : Msg} {ev : Event} (h1 : message w act = some m) (h2 : dkgEvent ps a m = some ev)
    {e : Nat} (h3 : Once.apology e a ∈ ev.once) :
    ∃ accusers evals, act = .apology e accusers evals ∧ ev = .apology a e accusers (evals.map (fun v : Int => v.natAbs)) := by
  cases act <;> simp only [message, reduceCtorEq, Option.some.injEq] at h1 <;> subst h1 <;>
    simp only [dkgEvent, reduceCtorEq, Option.some.injEq, Option.map_eq_some_iff] at h2
  case polyCommitment e' gammas =>
    obtain ⟨l, h4, rfl⟩ := h2
    simp [Event.once] at h3
  case apology e' accusers evals =>
    subst h2
    simp only [Event.once, List.mem_singleton, Once.apology.injEq] at h3
    obtain ⟨rfl, _⟩ := h3
    refine ⟨accusers, evals, rfl, ?_⟩
    simp [Function.comp_def, bigOfBytes_natBytes]
  all_goals (subst h2; simp [Event.once] at h3)

/-! ## When the application accepts -/

theorem accepts_commitment {t : App.State} {d : DKGInstance} {e : Nat} {a : Addr} {gs gs' : List App.Bytes} (hd : t.dkgMap e = some d) (he : d.eon = e)
    (hg : gs.mapM ps.g2 = some gs') (hk : a ∈ d.config.keypers) (hs : ¬ seen t (.commitment e a)) (ord : List Nat → List Nat) :
    ∃ t', deliverMessage ps ord t (.polyCommitment e gs) a = some (t', ⟨true, [.polyCommitment a e gs']⟩) := by
  have h1 : ¬ a ∈ d.polyCommitmentsSeen := fun h => hs ⟨d, hd, h⟩
  simp [deliverMessage, handlePolyCommitment, hg, registerDKG, hd, registerPolyCommitment, he, isKeyper_iff.2 hk, h1]

theorem accepts_evaluation {t : App.State} {d : DKGInstance} {e : Nat} {a : Addr} {rs es : List App.Bytes} (hd : t.dkgMap e = some d) (he : d.eon = e)
    (hl : rs.length = es.length) (hlen : ∀ b ∈ rs, b.length = 20) (hn : rs.Nodup) (hk : a ∈ d.config.keypers)
    (hr : ∀ b ∈ rs, b ∈ d.config.keypers ∧ b ≠ a) (hs : ∀ b ∈ rs, ¬ seen t (.eval e a b)) (ord : List Nat → List Nat) :
    ∃ t', deliverMessage ps ord t (.polyEval e rs es) a = some (t', ⟨true, [.polyEval a e rs es]⟩) := by
  have h1 : rs.all (receiverOk d a) = true := by
    rw [List.all_eq_true]
    intro b hb
    have h2 : ¬ (a, b) ∈ d.polyEvalsSeen := fun h => hs b hb ⟨d, hd, h⟩
    simp [receiverOk, isKeyper_iff.2 (hr b hb).1, (hr b hb).2, h2]
  simp [deliverMessage, handlePolyEval, hl, parseAddresses_iff.2 ⟨rfl, hlen, hn⟩, registerDKG, hd, registerPolyEval, he, isKeyper_iff.2 hk, h1]

theorem accepts_accusation {t : App.State} {d : DKGInstance} {e : Nat} {a : Addr} {rs : List App.Bytes} (hd : t.dkgMap e = some d) (he : d.eon = e)
    (hlen : ∀ b ∈ rs, b.length = 20) (hn : rs.Nodup) (hk : a ∈ d.config.keypers) (hr : ∀ b ∈ rs, b ∈ d.config.keypers ∧ b ≠ a)
    (hs : ¬ seen t (.accusation e a)) (ord : List Nat → List Nat) :
    ∃ t', deliverMessage ps ord t (.accusation e rs) a = some (t', ⟨true, [.accusation a e rs]⟩) := by
  have h1 : rs.all (fun b => d.config.isKeyper b && !(a == b)) = true := by
    rw [List.all_eq_true]
    intro b hb
    simpa [isKeyper_iff.2 (hr b hb).1] using fun h : a = b => (hr b hb).2 h.symm
  have h2 : ¬ a ∈ d.accusationsSeen := fun h => hs ⟨d, hd, h⟩
  simp [deliverMessage, handleAccusation, parseAddresses_iff.2 ⟨rfl, hlen, hn⟩, registerDKG, hd, registerAccusation, he, isKeyper_iff.2 hk, h1, h2]

theorem accepts_apology {t : App.State} {d : DKGInstance} {e : Nat} {a : Addr} {rs es : List App.Bytes} (hd : t.dkgMap e = some d) (he : d.eon = e)
    (hl : rs.length = es.length) (hlen : ∀ b ∈ rs, b.length = 20) (hn : rs.Nodup) (hk : a ∈ d.config.keypers)
    (hr : ∀ b ∈ rs, b ∈ d.config.keypers ∧ b ≠ a) (hs : ¬ seen t (.apology e a)) (ord : List Nat → List Nat) :
    ∃ t', deliverMessage ps ord t (.apology e rs es) a = some (t', ⟨true, [.apology a e rs (es.map bigOfBytes)]⟩) := by
  have h1 : rs.all (fun b => d.config.isKeyper b && !(a == b)) = true := by
    rw [List.all_eq_true]
    intro b hb
    simpa [isKeyper_iff.2 (hr b hb).1] using fun h : a = b => (hr b hb).2 h.symm
  have h2 : ¬ a ∈ d.apologiesSeen := fun h => hs ⟨d, hd, h⟩
  simp [deliverMessage, handleApology, hl, parseAddresses_iff.2 ⟨rfl, hlen, hn⟩, registerDKG, hd, registerApology, he, isKeyper_iff.2 hk, h1, h2]

/-! ## The keyper -/

theorem flatMap_one {α β : Type} {l : List α} {f : α → List β} (h : (l.flatMap f).length ≤ 1) {a b : α} (ha : a ∈ l) (hb : b ∈ l)
    (fa : f a ≠ []) (fb : f b ≠ []) : a = b := by
  induction l with
  | nil => cases ha
  | cons x l ih =>
    rw [List.flatMap_cons, List.length_append] at h
    have pos : ∀ {c}, c ∈ l → f c ≠ [] → 1 ≤ (l.flatMap f).length := by
      intro c hc fc
      rw [Nat.one_le_iff_ne_zero]
      intro h0
      have := List.eq_nil_of_length_eq_zero h0
      rw [List.flatMap_eq_nil_iff] at this
      exact fc (this c hc)
    have posx : f x ≠ [] → 1 ≤ (f x).length := fun h0 => by
      rw [Nat.one_le_iff_ne_zero]
      exact fun h1 => h0 (List.eq_nil_of_length_eq_zero h1)
    rcases List.mem_cons.1 ha with rfl | ha' <;> rcases List.mem_cons.1 hb with rfl | hb'
    · rfl
    · have := pos hb' fb; have := posx fa; omega
    · have := pos ha' fa; have := posx fb; omega
    · exact ih (by omega) ha' hb'

section keyper
variable [AddCommGroup G1] [AddCommGroup G2] [DecidableEq G2] [DecidableEq GT] {cx : Cfg G1 G2 GT R} {e b : Nat} {c : BatchConfig} {S : Nat}
variable {rs : List (Round G1 G2)} {sh : Observe.Shutter} {st : State G1 G2}

theorem phase_pos (P : Participates ps w cx codecs log e c S rs sh st) : (S : Int) < st.syncHeight ∧ 1 < cx.phaseLength := by
  have h1 := P.online 0 (by simp)
  obtain ⟨r, hr⟩ := Option.ne_none_iff_exists'.1 h1
  have := List.find?_some hr
  simp only [during, inPhase, Bool.and_eq_true, decide_eq_true_eq] at this
  have := P.finished
  omega

theorem takes_part (h : Exec ps dev log s) (fit : Codecs.Fit ps codecs) (sane : Sane log) (few : s.eonCounter + 1 < 2 ^ 64)
    (an : Announced log e b c S) (settled : Settled log e) (hc : c.configIndex ≠ 0)
    (P : Participates ps w cx codecs log e c S rs sh st) : ∃ dkg ∈ st.dkgs, dkg.eon = e := by
  have hpos := phase_pos P
  have he : 0 < e := by
    obtain ⟨pre, r, post, hl, hev, hst, _⟩ := an
    have := (h.starts hl hev hst).1
    omega
  rcases Decide.Props.C54_no_eon_missed (by omega) (lived_reach P.lived) he (announced_started h fit sane few an (by omega)) with h1 | ⟨seen, h1, h2, h3⟩
  · exact h1
  · rw [announced_config h fit sane few an settled h1, if_neg hc] at h3
    exact absurd P.member h3

/-- What is known of the key generation of such a keyper. -/
structure Run (cx : Cfg G1 G2 GT R) (codecs : Codecs) (log : List Rec) (e b : Nat) (c : BatchConfig) (S : Nat) (rs : List (Round G1 G2))
    (st : State G1 G2) (dkg : DKG G2) (i : Nat) (P : List Nat) : Prop where
  eon : dkg.eon = e
  keypers : dkg.keypers = c.keypers
  threshold : dkg.pure.state.threshold = c.threshold
  start : dkg.startBatchIndex = b
  inv : DkgInv cx (chainEvents codecs (appChain codecs log) 0 (st.syncHeight - 1)) st.syncHeight dkg S
  said : Said cx codecs (appChain codecs log) rs dkg S P
  index : c.keypers.idxOf? cx.own = some i
  keyper : dkg.pure.state.keyper = i
  num : dkg.pure.state.numKeypers = c.keypers.length
  nodup : c.keypers.Nodup
  length : ∀ a ∈ c.keypers, a.length = 20
  nonempty : P ≠ []
  accusations : dkg.pure.state.accusations.Nodup

theorem run_of (h : Exec ps dev log s) (fit : Codecs.Fit ps codecs) (sane : Sane log) (few : s.eonCounter + 1 < 2 ^ 64)
    (law : ∀ p : G2, order • p = 0) (an : Announced log e b c S) (settled : Settled log e)
    (P : Participates ps w cx codecs log e c S rs sh st) {dkg : DKG G2} (hd : dkg ∈ st.dkgs) (he : dkg.eon = e) :
    ∃ i Q, Run cx codecs log e b c S rs st dkg i Q := by
  have hpos := phase_pos P
  obtain ⟨p1, p2, p3, p4, p5, p6, inv⟩ := params h fit sane few an settled (cx := cx) (by omega) (lived_reach P.lived) hd he
  obtain ⟨k1, k2, k3⟩ := config_ok h an p3
  obtain ⟨Q, sd⟩ := (linv_lived law (by omega) P.lived).said dkg hd S inv.started
  obtain ⟨ops, thr, i, hrun, hi, _⟩ := inv.ran
  have lg := logInv_run _ _ _ _ _ _ _ hrun
  refine ⟨i, Q, he, p1, p2, p5, inv, sd, ?_, lg.keyper, by rw [lg.num, p1], k1, k2, ?_, run_accusations _ hrun (by simp [newWorld, newPureDKG])⟩
  · rw [← p1, ← findAddressIndex_eq]; exact hi
  · rintro rfl
    have := P.degree [] (by rw [← he]; exact sd.poly)
    exact k3 this.symm

theorem sent_commitment {act : Action G1 G2} {gammas : List G2} (h : gammas ∈ commitmentsFor e act) : act = .polyCommitment e gammas := by
  cases act <;> simp only [commitmentsFor, List.not_mem_nil] at h
  split at h
  · next he => simp only [List.mem_singleton] at h; rw [h, he]
  · cases h

theorem sent_evaluation {act : Action G1 G2} {x : List Addr × List App.Bytes} (h : x ∈ evaluationsFor e act) : act = .polyEval e x.1 x.2 := by
  cases act <;> simp only [evaluationsFor, List.not_mem_nil] at h
  split at h
  · next he => simp only [List.mem_singleton] at h; rw [h, he]
  · cases h

theorem sent_accusation {act : Action G1 G2} {x : List Addr} (h : x ∈ accusationsFor e act) : act = .accusation e x := by
  cases act <;> simp only [accusationsFor, List.not_mem_nil] at h
  split at h
  · next he => simp only [List.mem_singleton] at h; rw [h, he]
  · cases h

theorem sent_apology {act : Action G1 G2} {x : List Addr × List Int} (h : x ∈ apologiesFor e act) : act = .apology e x.1 x.2 := by
  cases act <;> simp only [apologiesFor, List.not_mem_nil] at h
  split at h
  · next he => simp only [List.mem_singleton] at h; rw [h, he]
  · cases h

theorem first_phase {L k : Int} {r : Round G1 G2} (h : firstIn (S : Int) L k rs = some r) : (S : Int) < r.next ∧ inPhase L S k r.next = true := by
  have := List.find?_some h
  simp only [during, Bool.and_eq_true, decide_eq_true_eq] at this
  exact ⟨this.1.2, this.2⟩

variable {dkg : DKG G2} {i : Nat} {Q : List Nat}

theorem carried_commitment (h : Exec ps dev log s) (fit : Codecs.Fit ps codecs) (sane : Sane log) (few : s.eonCounter + 1 < 2 ^ 64)
    (an : Announced log e b c S) (P : Participates ps w cx codecs log e c S rs sh st) (R : Run cx codecs log e b c S rs st dkg i Q)
    {n : Int} {gammas : List G2} (hm : (n, gammas) ∈ said (commitmentsFor e) rs) :
    ∃ ht, (S : Int) < ht ∧ inPhase cx.phaseLength S 0 ht = true ∧
      Published codecs (appChain codecs log) ht (.polyCommitment cx.own e (gammas.map w.g2)) := by
  have hs := R.said.com
  rw [R.eon] at hs
  rw [hs, Option.mem_toList, Option.map_eq_some_iff] at hm
  obtain ⟨r, hr, hre⟩ := hm
  simp only [Prod.mk.injEq] at hre
  obtain ⟨rfl, hg⟩ := hre
  obtain ⟨f1, f2⟩ := first_phase hr
  have hm : (r.next, gammas) ∈ said (commitmentsFor e) rs := by rw [hs, hr, ← hg]; simp
  obtain ⟨x, hx, act, ha, hy, hn⟩ := mem_said.1 hm
  have := sent_commitment hy
  subst this
  obtain ⟨c1, c2⟩ := commitment_event P.fits cx.own e gammas
  refine arrival h fit sane few an P.genuine P.inTime hx ha rfl c1 rfl (by omega) (by rw [hn]; exact f2) ?_ (by simp [Event.once]) ?_ ?_
  · rw [← hg]
    cases hQ : Q with
    | nil => exact absurd hQ R.nonempty
    | cons a l => rfl
  · intro t d hd he hc hseen ord
    exact accepts_commitment hd he c2 (by rw [hc]; exact P.member) (hseen _ (by simp [Event.once])) ord
  · rintro x' hx' act' ha' m' ev' hm' hev' ⟨key, hk1, hk2⟩
    simp only [Event.once, List.mem_singleton] at hk1
    subst hk1
    obtain ⟨gammas', rfl, rfl⟩ := from_commitment P.fits hm' hev' hk2
    have h' : (x'.next, gammas') ∈ said (commitmentsFor e) rs := mem_said.2 ⟨x', hx', _, ha', by simp [commitmentsFor], rfl⟩
    rw [hs, hr] at h'
    simp only [Option.map_some, Option.toList_some, List.mem_singleton, Prod.mk.injEq] at h'
    rw [hn, ← hg, h'.1, h'.2]
    exact ⟨rfl, rfl⟩

theorem carried_accusation (h : Exec ps dev log s) (fit : Codecs.Fit ps codecs) (sane : Sane log) (few : s.eonCounter + 1 < 2 ^ 64)
    (an : Announced log e b c S) (P : Participates ps w cx codecs log e c S rs sh st) (R : Run cx codecs log e b c S rs st dkg i Q)
    {n : Int} {accused : List Addr} (hm : (n, accused) ∈ said (accusationsFor e) rs) :
    ∃ ht, (S : Int) < ht ∧ inPhase cx.phaseLength S 1 ht = true ∧
      Published codecs (appChain codecs log) ht (.accusation cx.own e accused) := by
  have hs := R.said.acc
  rw [R.eon, R.keypers] at hs
  have hone : ∃ r, firstIn S cx.phaseLength 1 rs = some r ∧
      said (accusationsFor e) rs = [(r.next, pick c.keypers (toBlame cx.crypto.g2 dkg.pure.state))] := by
    rw [hs] at hm ⊢
    split at hm
    · cases hm
    · next h0 =>
      rw [Option.mem_toList, Option.map_eq_some_iff] at hm
      obtain ⟨r, hr, _⟩ := hm
      exact ⟨r, hr, by rw [if_neg h0, hr]; rfl⟩
  obtain ⟨r, hr, hs'⟩ := hone
  obtain ⟨f1, f2⟩ := first_phase hr
  obtain ⟨x, hx, act, ha, hy, hn⟩ := mem_said.1 hm
  have := sent_accusation hy
  subst this
  rw [hs', List.mem_singleton, Prod.mk.injEq] at hm
  obtain ⟨hn', hacc⟩ := hm
  have hget := idxOf_get R.index
  have hblame : ∀ a ∈ accused, a ∈ c.keypers ∧ a ≠ cx.own := by
    intro a ha'
    rw [hacc] at ha'
    obtain ⟨j, hj, hja⟩ := mem_pick.1 ha'
    refine ⟨List.mem_of_getElem? hja, ?_⟩
    rintro rfl
    unfold toBlame at hj
    simp only [List.mem_filter, Bool.and_eq_true, decide_eq_true_eq] at hj
    rw [R.keyper] at hj
    obtain ⟨h1, h2⟩ := List.getElem?_eq_some_iff.1 hget
    obtain ⟨h3, h4⟩ := List.getElem?_eq_some_iff.1 hja
    exact hj.2.1 ((List.Nodup.getElem_inj_iff R.nodup).1 (h4.trans h2.symm))
  have hnod : accused.Nodup := by
    rw [hacc]
    exact pick_nodup R.nodup (List.nodup_range.filter _)
  refine arrival h fit sane few an P.genuine P.inTime hx ha rfl rfl rfl (by omega) (by rw [hn, hn']; exact f2) rfl (by simp [Event.once]) ?_ ?_
  · intro t d hd he hc hseen ord
    exact accepts_accusation hd he (fun a ha => R.length a (hblame a ha).1) hnod (by rw [hc]; exact P.member)
      (by rw [hc]; exact hblame) (hseen _ (by simp [Event.once])) ord
  · rintro x' hx' act' ha' m' ev' hm' hev' ⟨key, hk1, hk2⟩
    simp only [Event.once, List.mem_singleton] at hk1
    subst hk1
    obtain ⟨accused', rfl, rfl⟩ := from_accusation hm' hev' hk2
    have h' : (x'.next, accused') ∈ said (accusationsFor e) rs := mem_said.2 ⟨x', hx', _, ha', by simp [accusationsFor], rfl⟩
    rw [hs', List.mem_singleton, Prod.mk.injEq] at h'
    rw [hn, hn', h'.1, h'.2, hacc]
    exact ⟨rfl, rfl⟩

theorem pick_length {ks : List Addr} : ∀ {is : List Nat}, (∀ j ∈ is, j < ks.length) → (pick ks is).length = is.length := by
  intro is h
  induction is with
  | nil => rfl
  | cons j l ih =>
    have := ih (fun j hj => h j (by simp [hj]))
    unfold pick at this ⊢
    rw [List.filterMap_cons, List.getElem?_eq_getElem (h j (by simp))]
    simp [this]

theorem accusers_ok (h : Exec ps dev log s) (fit : Codecs.Fit ps codecs) (sane : Sane log) (few : s.eonCounter + 1 < 2 ^ 64)
    (P : Participates ps w cx codecs log e c S rs sh st) (R : Run cx codecs log e b c S rs st dkg i Q) :
    (accusers dkg.pure.state).Nodup ∧ ∀ j ∈ accusers dkg.pure.state, j < c.keypers.length ∧ j ≠ i := by
  constructor
  · unfold accusers
    refine List.Nodup.map_on ?_ (R.accusations.filter _)
    rintro ⟨a, a'⟩ ha ⟨b, b'⟩ hb hab
    simp only [List.mem_filter, decide_eq_true_eq] at ha hb hab
    rw [hab, ha.2, hb.2]
  · intro j hj
    unfold accusers at hj
    obtain ⟨⟨j', k⟩, hk, rfl⟩ := List.mem_map.1 hj
    simp only [List.mem_filter, decide_eq_true_eq] at hk
    obtain ⟨hk1, hk2⟩ := hk
    rw [R.keyper] at hk2
    subst hk2
    have hpos := phase_pos P
    obtain ⟨i', hi', _, _, _, _, _, hacc, _⟩ := dkg_views (by omega) R.inv P.finished
    rw [findAddressIndex_eq, R.keypers, R.index] at hi'
    cases hi'
    have := (hacc (j', k)).1 hk1
    rw [List.any_eq_true] at this
    obtain ⟨op, hop, hin⟩ := this
    unfold Spec.accusations at hop
    obtain ⟨x, hx, hop⟩ := List.mem_flatMap.1 hop
    have hxm := (List.mem_filter.1 hx).2
    have hxe : x ∈ chainEvents codecs (appChain codecs log) 0 (st.syncHeight - 1) := by
      have := (List.mem_filter.1 hx).1
      unfold sinceStart at this
      exact (List.dropWhile_suffix _).subset this
    unfold accusationsOf at hop
    split at hop
    · next sender e' accused hev =>
      split at hop
      · simp only [List.mem_flatMap, Option.mem_toList, List.mem_filterMap, Option.map_eq_some_iff] at hop
        obtain ⟨i₁, hi₁, a, ha, j₁, hj₁, rfl⟩ := hop
        simp only [accusationIn, decide_eq_true_eq, Prod.mk.injEq] at hin
        obtain ⟨hin1, hin2⟩ := hin
        rw [R.keypers] at hi₁ hj₁
        have hsl := idxOf_get hi₁
        obtain ⟨hl1, hl2⟩ := List.getElem?_eq_some_iff.1 hsl
        show j' < c.keypers.length ∧ j' ≠ k
        rw [← hin1]
        refine ⟨hl1, ?_⟩
        rintro hik
        rw [hin2, ← hik] at hj₁
        have hsa : sender = a := idxOf_inj hi₁ hj₁
        obtain ⟨_, hp⟩ := published_iff.1 hxe
        rw [hev] at hp
        obtain ⟨_, pre, r, post, hl, hr, _⟩ := (published_app h fit sane few _ _).1 hp
        obtain ⟨_, _, _, _, _, hto⟩ := App.Props.C29_parties h hl hr rfl
        exact (hto a ha).2 hsa.symm
      · cases hop
    · cases hop

theorem carried_apology (h : Exec ps dev log s) (fit : Codecs.Fit ps codecs) (sane : Sane log) (few : s.eonCounter + 1 < 2 ^ 64)
    (an : Announced log e b c S) (P : Participates ps w cx codecs log e c S rs sh st) (R : Run cx codecs log e b c S rs st dkg i Q)
    {n : Int} {as : List Addr} {evals : List Int} (hm : (n, as, evals) ∈ said (apologiesFor e) rs) :
    (∀ v ∈ evals, 0 ≤ v) ∧ ∃ ht, (S : Int) < ht ∧ inPhase cx.phaseLength S 2 ht = true ∧
      Published codecs (appChain codecs log) ht (.apology cx.own e as (evals.map Int.natAbs)) := by
  have hs := R.said.apo
  rw [R.eon, R.keypers] at hs
  have hone : ∃ r, firstIn S cx.phaseLength 2 rs = some r ∧ said (apologiesFor e) rs =
      [(r.next, pick c.keypers (accusers dkg.pure.state), (accusers dkg.pure.state).map (fun j => ((evaluation Q j : Nat) : Int)))] := by
    rw [hs] at hm ⊢
    split at hm
    · cases hm
    · next h0 =>
      rw [Option.mem_toList, Option.map_eq_some_iff] at hm
      obtain ⟨r, hr, _⟩ := hm
      exact ⟨r, hr, by rw [if_neg h0, hr]; rfl⟩
  obtain ⟨r, hr, hs'⟩ := hone
  obtain ⟨f1, f2⟩ := first_phase hr
  obtain ⟨x, hx, act, ha, hy, hn⟩ := mem_said.1 hm
  have := sent_apology hy
  subst this
  rw [hs', List.mem_singleton, Prod.mk.injEq, Prod.mk.injEq] at hm
  obtain ⟨hn', has, hevals⟩ := hm
  obtain ⟨ok1, ok2⟩ := accusers_ok h fit sane few P R
  have hnn : ∀ v ∈ evals, 0 ≤ v := by
    intro v hv
    rw [hevals] at hv
    obtain ⟨j, _, rfl⟩ := List.mem_map.1 hv
    omega
  have hget := idxOf_get R.index
  have hblame : ∀ a ∈ as, a ∈ c.keypers ∧ a ≠ cx.own := by
    intro a ha'
    rw [has] at ha'
    obtain ⟨j, hj, hja⟩ := mem_pick.1 ha'
    refine ⟨List.mem_of_getElem? hja, ?_⟩
    rintro rfl
    obtain ⟨h1, h2⟩ := List.getElem?_eq_some_iff.1 hget
    obtain ⟨h3, h4⟩ := List.getElem?_eq_some_iff.1 hja
    exact (ok2 j hj).2 ((List.Nodup.getElem_inj_iff R.nodup).1 (h4.trans h2.symm))
  have hnod : as.Nodup := by
    rw [has]
    exact pick_nodup R.nodup ok1
  have hlen : as.length = evals.length := by
    rw [has, hevals, List.length_map]
    exact pick_length (fun j hj => (ok2 j hj).1)
  have hev : (evals.map (fun v => natBytes v.natAbs)).map bigOfBytes = evals.map Int.natAbs := by
    rw [List.map_map]
    exact List.map_congr_left (fun v _ => bigOfBytes_natBytes _)
  refine ⟨hnn, arrival h fit sane few an P.genuine P.inTime hx ha rfl (by simp only [dkgEvent, hev]) rfl (by omega) (by rw [hn, hn']; exact f2)
    rfl (by simp [Event.once]) ?_ ?_⟩
  · intro t d hd he hc hseen ord
    obtain ⟨t', ht'⟩ := accepts_apology (ps := ps) (es := evals.map (fun v => natBytes v.natAbs)) hd he (by simp [hlen])
      (fun a ha => R.length a (hblame a ha).1) hnod (by rw [hc]; exact P.member)
      (by rw [hc]; exact hblame) (hseen _ (by simp [Event.once])) ord
    rw [hev] at ht'
    exact ⟨t', ht'⟩
  · rintro x' hx' act' ha' m' ev' hm' hev' ⟨key, hk1, hk2⟩
    simp only [Event.once, List.mem_singleton] at hk1
    subst hk1
    obtain ⟨as', evals', rfl, rfl⟩ := from_apology hm' hev' hk2
    have h' : (x'.next, as', evals') ∈ said (apologiesFor e) rs := mem_said.2 ⟨x', hx', _, ha', by simp [apologiesFor], rfl⟩
    rw [hs', List.mem_singleton, Prod.mk.injEq, Prod.mk.injEq] at h'
    rw [hn, hn', h'.1, h'.2.1, h'.2.2, has, hevals]
    exact ⟨rfl, rfl⟩

theorem length_flatMap_mem {α β : Type} {l : List α} {f : α → List β} {a : α} (h : a ∈ l) : (f a).length ≤ (l.flatMap f).length := by
  obtain ⟨l1, l2, rfl⟩ := List.append_of_mem h
  simp only [List.flatMap_append, List.flatMap_cons, List.length_append]
  omega

theorem said_one {α : Type} {f : Action G1 G2 → List α} (h : (said f rs).length ≤ 1) {x x' : Round G1 G2} {a a' : Action G1 G2}
    (hx : x ∈ rs) (ha : a ∈ x.sent) (hx' : x' ∈ rs) (ha' : a' ∈ x'.sent) (fa : f a ≠ []) (fa' : f a' ≠ []) :
    x = x' ∧ a = a' ∧ (f a).length ≤ 1 := by
  have ne : ∀ {y : Round G1 G2} {c : Action G1 G2}, c ∈ y.sent → f c ≠ [] → (y.sent.flatMap f).map (fun x => (y.next, x)) ≠ [] := by
    intro y c hc fc h0
    rw [List.map_eq_nil_iff, List.flatMap_eq_nil_iff] at h0
    exact fc (h0 c hc)
  have hxx := flatMap_one h hx hx' (ne ha fa) (ne ha' fa')
  subst hxx
  have h1 : (x.sent.flatMap f).length ≤ 1 := by
    have := length_flatMap_mem (f := fun r : Round G1 G2 => (r.sent.flatMap f).map (fun x => (r.next, x))) hx
    rw [List.length_map] at this
    exact le_trans this h
  exact ⟨rfl, flatMap_one h1 ha ha' fa fa', le_trans (length_flatMap_mem ha) h1⟩

theorem mem_others {ks : List Addr} {i j : Nat} {a : Addr} : j ∈ others ks i a ↔ j ≠ i ∧ ks[j]? = some a := by
  unfold others
  simp only [List.mem_filter, List.mem_range, Bool.and_eq_true, decide_eq_true_eq]
  constructor
  · exact fun h => h.2
  · intro h
    exact ⟨(List.getElem?_eq_some_iff.1 h.2).1, h⟩

theorem others_le {ks : List Addr} (hn : ks.Nodup) (i : Nat) (a : Addr) : (others ks i a).length ≤ 1 := by
  have hnd : (others ks i a).Nodup := List.nodup_range.filter _
  match ho : others ks i a with
  | [] => simp
  | [_] => simp
  | x :: y :: l =>
    exfalso
    have hx := (mem_others.1 (show x ∈ others ks i a by rw [ho]; simp)).2
    have hy := (mem_others.1 (show y ∈ others ks i a by rw [ho]; simp)).2
    obtain ⟨h1, h2⟩ := List.getElem?_eq_some_iff.1 hx
    obtain ⟨h3, h4⟩ := List.getElem?_eq_some_iff.1 hy
    have := (List.Nodup.getElem_inj_iff hn).1 (h2.trans h4.symm)
    rw [ho, this] at hnd
    simp at hnd

theorem carried_evaluation (h : Exec ps dev log s) (fit : Codecs.Fit ps codecs) (sane : Sane log) (few : s.eonCounter + 1 < 2 ^ 64)
    (law : ∀ p : G2, order • p = 0) (an : Announced log e b c S) (P : Participates ps w cx codecs log e c S rs sh st)
    (R : Run cx codecs log e b c S rs st dkg i Q) {n : Int} {rcv : List Addr} {enc : List App.Bytes}
    (hm : (n, rcv, enc) ∈ said (evaluationsFor e) rs) :
    ∃ ht, (S : Int) < ht ∧ inPhase cx.phaseLength S 0 ht = true ∧
      Published codecs (appChain codecs log) ht (.polyEval cx.own e rcv enc) := by
  have hpos := phase_pos P
  obtain ⟨x, hx, act, ha, hy, hn⟩ := mem_said.1 hm
  have := sent_evaluation hy
  subst this
  simp only at ha
  obtain ⟨hlen, hne⟩ := (linv_lived law (by omega) P.lived).shape x hx _ _ _ ha
  have hev : ∀ a, said (evaluationsTo e a) rs = match firstTo codecs (appChain codecs log) S cx.phaseLength a rs with
      | none => []
      | some r => (dueTo cx Q c.keypers i a ((keyAt codecs (appChain codecs log) a r.next).getD [])).map (fun v => (r.next, v)) := by
    intro a
    have := R.said.ev a
    rw [R.eon, R.keypers, R.keyper] at this
    exact this
  have hone : ∀ a, (said (evaluationsTo e a) rs).length ≤ 1 := by
    intro a
    rw [hev]
    split
    · simp
    · rw [List.length_map]
      unfold dueTo
      rw [List.length_map]
      exact others_le R.nodup i a
  have hto : ∀ {rcv' : List Addr} {enc' : List App.Bytes} {a : Addr}, rcv'.length = enc'.length → a ∈ rcv' →
      evaluationsTo e a (.polyEval e rcv' enc' : Action G1 G2) ≠ [] := by
    intro rcv' enc' a hl hmem h0
    simp only [evaluationsTo, if_true, List.map_eq_nil_iff, List.filter_eq_nil_iff, decide_eq_true_eq] at h0
    obtain ⟨k, hk, rfl⟩ := List.getElem_of_mem hmem
    refine h0 (rcv'[k], enc'[k]'(by omega)) ?_ rfl
    rw [List.mem_iff_getElem]
    exact ⟨k, by rw [List.length_zip]; omega, by simp⟩
  have hblame : ∀ a ∈ rcv, (a ∈ c.keypers ∧ a ≠ cx.own) ∧ (S : Int) < x.next ∧ inPhase cx.phaseLength S 0 x.next = true := by
    intro a ha'
    obtain ⟨v, hv⟩ := List.exists_mem_of_ne_nil _ (hto hlen ha')
    have hmem : (x.next, v) ∈ said (evaluationsTo e a) rs := mem_said.2 ⟨x, hx, _, ha, hv, rfl⟩
    rw [hev] at hmem
    split at hmem
    · cases hmem
    · next r hr =>
      simp only [List.mem_map, Prod.mk.injEq, dueTo] at hmem
      obtain ⟨_, ⟨j, hj, _⟩, hnx, _⟩ := hmem
      rw [mem_others] at hj
      have hd := List.find?_some hr
      simp only [Bool.and_eq_true, during, decide_eq_true_eq] at hd
      rw [hnx] at hd
      refine ⟨⟨List.mem_of_getElem? hj.2, ?_⟩, hd.1.1.2, hd.1.2⟩
      rintro rfl
      obtain ⟨h1, h2⟩ := List.getElem?_eq_some_iff.1 (idxOf_get R.index)
      obtain ⟨h3, h4⟩ := List.getElem?_eq_some_iff.1 hj.2
      exact hj.1 ((List.Nodup.getElem_inj_iff R.nodup).1 (h4.trans h2.symm))
  have hnod : rcv.Nodup := by
    rw [List.nodup_iff_count_le_one]
    intro a
    by_cases hmem : a ∈ rcv
    · obtain ⟨_, _, hle⟩ := said_one (hone a) hx ha hx ha (hto hlen hmem) (hto hlen hmem)
      simp only [evaluationsTo, if_true, List.length_map] at hle
      rw [← List.countP_eq_length_filter] at hle
      have : rcv.count a = (rcv.zip enc).countP (fun r => decide (r.1 = a)) := by
        conv_lhs => rw [← List.map_fst_zip (l₁ := rcv) (l₂ := enc) (by omega)]
        rw [List.count_eq_countP, List.countP_map]
        congr 1
        funext r
        simp [Bool.beq_eq_decide_eq]
      rw [this]
      convert hle using 2
    · rw [List.count_eq_zero_of_not_mem hmem]; omega
  obtain ⟨a₀, ha₀⟩ := List.exists_mem_of_ne_nil _ hne
  obtain ⟨_, f1, f2⟩ := hblame a₀ ha₀
  refine arrival h fit sane few an P.genuine P.inTime hx ha rfl rfl rfl f1 f2 rfl (by simpa [Event.once] using hne) ?_ ?_
  · intro t d hd he hc hseen ord
    exact accepts_evaluation hd he hlen (fun a ha => R.length a (hblame a ha).1.1) hnod (by rw [hc]; exact P.member)
      (by rw [hc]; exact fun a ha => (hblame a ha).1) (fun a ha => hseen _ (by simp [Event.once, ha])) ord
  · rintro x' hx' act' ha' m' ev' hm' hev' ⟨key, hk1, hk2⟩
    simp only [Event.once, List.mem_map] at hk1
    obtain ⟨a, har, rfl⟩ := hk1
    obtain ⟨rcv', enc', rfl, rfl, har'⟩ := from_evaluation hm' hev' hk2
    obtain ⟨hlen', _⟩ := (linv_lived law (by omega) P.lived).shape x' hx' _ _ _ ha'
    obtain ⟨rfl, hact, _⟩ := said_one (hone a) hx ha hx' ha' (hto hlen har) (hto hlen' har')
    simp only [Action.polyEval.injEq, true_and] at hact
    obtain ⟨rfl, rfl⟩ := hact
    exact ⟨rfl, rfl⟩

/-! ## Together -/

theorem carried_of (h : Exec ps dev log s) (fit : Codecs.Fit ps codecs) (sane : Sane log) (few : s.eonCounter + 1 < 2 ^ 64)
    (an : Announced log e b c S) (P : Participates ps w cx codecs log e c S rs sh st)
    (R : Run cx codecs log e b c S rs st dkg i Q) : Carried cx codecs (appChain codecs log) e S rs where
  commitment := by
    rintro ⟨n, gammas⟩ hm
    obtain ⟨ht, h1, h2, h3⟩ := carried_commitment h fit sane few an P R hm
    exact ⟨ht, _, h1, h2, h3, P.fits.gammas gammas⟩
  accusation := by
    rintro ⟨n, accused⟩ hm
    obtain ⟨ht, h1, h2, h3⟩ := carried_accusation h fit sane few an P R hm
    exact ⟨ht, h2, h3⟩
  apology := by
    rintro ⟨n, as, evals⟩ hm
    obtain ⟨h0, ht, h1, h2, h3⟩ := carried_apology h fit sane few an P R hm
    refine ⟨ht, _, h2, h3, ?_⟩
    rw [List.map_map]
    exact (List.map_congr_left (fun v hv => by have := h0 v hv; simp only [Function.comp, Int.ofNat_eq_natCast, id]; omega)).trans (List.map_id _)

theorem authentic_of (h : Exec ps dev log s) (fit : Codecs.Fit ps codecs) (sane : Sane log) (few : s.eonCounter + 1 < 2 ^ 64)
    (an : Announced log e b c S) (P : Participates ps w cx codecs log e c S rs sh st)
    (R : Run cx codecs log e b c S rs st dkg i Q) : Authentic cx codecs (appChain codecs log) e rs where
  commitment := by
    intro ht gammas hp
    obtain ⟨x, hx, act, ha, m, h1, h2, _⟩ := origin h fit sane few P.genuine hp rfl
    obtain ⟨g', rfl, hg⟩ := from_commitment (e := e) P.fits h1 h2 (by simp [Event.once])
    simp only [Event.polyCommitment.injEq, true_and] at hg
    exact ⟨(x.next, g'), mem_said.2 ⟨x, hx, _, ha, by simp [commitmentsFor], rfl⟩, by rw [hg]; exact P.fits.gammas g'⟩
  apology := by
    intro ht as evals hp
    obtain ⟨x, hx, act, ha, m, h1, h2, _⟩ := origin h fit sane few P.genuine hp rfl
    obtain ⟨as', evals', rfl, hg⟩ := from_apology (e := e) h1 h2 (by simp [Event.once])
    simp only [Event.apology.injEq, true_and] at hg
    obtain ⟨rfl, rfl⟩ := hg
    have hm : (x.next, as, evals') ∈ said (apologiesFor e) rs := mem_said.2 ⟨x, hx, _, ha, by simp [apologiesFor], rfl⟩
    obtain ⟨h0, _⟩ := carried_apology h fit sane few an P R hm
    refine ⟨_, hm, ?_⟩
    rw [List.map_map]
    simp only [Prod.mk.injEq, true_and]
    exact ((List.map_congr_left (fun v hv => by have := h0 v hv; simp only [Function.comp, Int.ofNat_eq_natCast, id]; omega)).trans (List.map_id _)).symm

theorem dealt_of (h : Exec ps dev log s) (fit : Codecs.Fit ps codecs) (sane : Sane log) (few : s.eonCounter + 1 < 2 ^ 64)
    (law : ∀ p : G2, order • p = 0) (an : Announced log e b c S) (P : Participates ps w cx codecs log e c S rs sh st)
    (R : Run cx codecs log e b c S rs st dkg i Q) : Dealt cx codecs (appChain codecs log) e S rs where
  carried := by
    rintro ⟨n, rcv, enc⟩ hm
    exact carried_evaluation h fit sane few law an P R hm
  authentic := by
    intro ht rcv enc hp
    obtain ⟨x, hx, act, ha, m, h1, h2, _⟩ := origin h fit sane few P.genuine hp rfl
    have : act = .polyEval e rcv enc := by
      cases act <;> simp only [message, reduceCtorEq, Option.some.injEq] at h1 <;> subst h1 <;>
        simp only [dkgEvent, reduceCtorEq, Option.some.injEq, Option.map_eq_some_iff, and_false, exists_false,
          Event.polyEval.injEq, true_and] at h2
      obtain ⟨rfl, rfl, rfl⟩ := h2
      rfl
    subst this
    exact ⟨(x.next, rcv, enc), mem_said.2 ⟨x, hx, _, ha, by simp [evaluationsFor], rfl⟩, rfl⟩

theorem honest_of (h : Exec ps dev log s) (fit : Codecs.Fit ps codecs) (sane : Sane log) (few : s.eonCounter + 1 < 2 ^ 64)
    (an : Announced log e b c S) (P : Participates ps w cx codecs log e c S rs sh st) (hd : dkg ∈ st.dkgs)
    (R : Run cx codecs log e b c S rs st dkg i Q) : Honest cx codecs (appChain codecs log) S rs sh st dkg where
  lived := P.lived
  runs := hd
  started := R.inv.started
  finished := P.finished
  degree := by rw [R.eon, R.threshold]; exact P.degree
  online := P.online
  carried := by rw [R.eon]; exact carried_of h fit sane few an P R
  authentic := by rw [R.eon]; exact authentic_of h fit sane few an P R

end keyper

end Shutter.Net
