import Verif.Proofs.SentRound
import Verif.Proofs.DecideStages

/-! The messages of one round, for all key generations. -/

namespace Shutter.Decide
open Shutter.Crypto Shutter.Crypto.Spec Shutter.Dkg Shutter.Observe Shutter.Decide.Spec
open Shutter.App (Addr findAddressIndex)

variable {G1 G2 GT R : Type}

/-- Some evaluations of `l` can be sent. -/
def sendable (cx : Cfg G1 G2 GT R) (keys : Addr → Option Bytes) (ks : List Addr) (l : List PolyEvalMsg) : List (Addr × Bytes) :=
  l.filterMap (fun m => (ks[m.receiver]?).bind (fun x => (keys x).map (fun key => (x, cx.encryptEval key (natBytes m.eval.toNat)))))

/-- The others have to wait. -/
def waiting (keys : Addr → Option Bytes) (ks : List Addr) (l : List PolyEvalMsg) : List PolyEvalMsg :=
  l.filter (fun m => ((ks[m.receiver]?).bind keys).isNone)

/-- The message with the evaluations. -/
def evalMsg (e : Nat) (l : List (Addr × Bytes)) : List (Action G1 G2) :=
  if l = [] then [] else [.polyEval e (l.map (·.1)) (l.map (·.2))]

theorem splitOutgoing_exact (cx : Cfg G1 G2 GT R) (keys : Addr → Option Bytes) (ks : List Addr) : ∀ (l : List PolyEvalMsg)
    (r : List (Addr × Bytes) × List PolyEvalMsg), splitOutgoing cx keys ks l = some r → r = (sendable cx keys ks l, waiting keys ks l) := by
  intro l
  induction l with
  | nil => intro r h; cases h; rfl
  | cons m l ih =>
    intro r h
    unfold splitOutgoing at h
    split at h
    · cases h
    · next x hx =>
      rw [Option.map_eq_some_iff] at h
      obtain ⟨r', h1, h2⟩ := h
      have := ih _ h1
      subst this
      subst h2
      simp only [sendable, waiting, List.filterMap_cons, List.filter_cons, hx, Option.bind_some]
      cases keys x <;> simp

theorem sendPolyEvals_sent {cx : Cfg G1 G2 GT R} {keys : Addr → Option Bytes} {a b : DKG G2} {acts : List (Action G1 G2)}
    (h : sendPolyEvals cx keys a = some (b, acts)) :
    (dealing < a.pure.state.phase → acts = []) ∧
    (a.pure.state.phase ≤ dealing → b.outgoing = waiting keys a.keypers a.outgoing ∧
      acts = evalMsg a.eon (sendable cx keys a.keypers a.outgoing)) := by
  unfold sendPolyEvals at h
  split at h
  · next h0 =>
    have h0 := List.eq_nil_of_length_eq_zero h0
    cases h
    rw [h0]
    exact ⟨fun _ => rfl, fun _ => ⟨rfl, rfl⟩⟩
  · split at h
    · next hp =>
      cases h
      exact ⟨fun _ => rfl, fun hh => by omega⟩
    · next hp =>
      rw [Option.map_eq_some_iff] at h
      obtain ⟨r, h1, h2⟩ := h
      have := splitOutgoing_exact _ _ _ _ _ h1
      subst this
      refine ⟨fun hh => absurd hh hp, fun _ => ?_⟩
      simp only at h2
      split at h2
      · next hl =>
        cases h2
        refine ⟨rfl, ?_⟩
        unfold evalMsg
        rw [if_neg (by intro h0; rw [h0] at hl; simp at hl)]
      · next hl =>
        cases h2
        have h0 : sendable cx keys a.keypers a.outgoing = [] := List.eq_nil_of_length_eq_zero (by omega)
        refine ⟨?_, by simp [evalMsg, h0]⟩
        symm
        unfold waiting
        rw [List.filter_eq_self]
        intro m hm
        simp only [sendable, List.filterMap_eq_nil_iff] at h0
        have := h0 m hm
        cases hx : a.keypers[m.receiver]? with
        | none => simp
        | some x =>
          rw [hx] at this
          cases hk : keys x with
          | none => simp [hk]
          | some k => simp [hk] at this

variable [AddCommGroup G2] [DecidableEq G2]

/-- The messages of a key generation in a round that takes it from phase `p0` to the state `b`. -/
def roundActs (cx : Cfg G1 G2 GT R) (keys : Addr → Option Bytes) (p0 : Nat) (a b : DKG G2) (P : List Nat) (out : List PolyEvalMsg) :
    List (Action G1 G2) :=
  (if p0 = off ∧ b.pure.state.phase = dealing then [.polyCommitment a.eon (P.map (fun c => c • cx.crypto.g2))] else []) ++
  (if p0 ≤ dealing ∧ b.pure.state.phase = accusing ∧ toBlame cx.crypto.g2 b.pure.state ≠ [] then
    [.accusation a.eon (pick a.keypers (toBlame cx.crypto.g2 b.pure.state))] else []) ++
  (if p0 ≤ accusing ∧ b.pure.state.phase = apologizing ∧ accusers b.pure.state ≠ [] then
    [.apology a.eon (pick a.keypers (accusers b.pure.state)) ((accusers b.pure.state).map (fun j => ((evaluation P j : Nat) : Int)))] else []) ++
  (if p0 ≤ apologizing ∧ b.pure.state.phase = finalized then [verdict cx.crypto b] else []) ++
  (if b.pure.state.phase = dealing then evalMsg a.eon (sendable cx keys a.keypers out) else [])

theorem verdict_congr (env : Env G1 G2 GT) {a b : DKG G2} (h1 : b.pure = a.pure) (h2 : b.startBatchIndex = a.startBatchIndex) :
    verdict env b = verdict env a := by
  unfold verdict
  rw [h1, h2]

theorem handleDKG_sent {cx : Cfg G1 G2 GT R} (law : ∀ p : G2, order • p = 0) {sh : Observe.Shutter} {h : Int} {a b : DKG G2}
    {ekgs : List (EKG G1 G2)} {acts : List (Action G1 G2)} (hr : handleDKG cx sh h a = some (b, ekgs, acts)) (ha : Proper cx a)
    (hpn : a.pure.state.phase ≠ finalized → ∃ eon, findEon sh a.eon = some eon ∧
      b.pure.state.phase = getPhaseAtHeight cx.phaseLength (sh.currentBlock + 1) eon.startHeight ∧ dealing ≤ b.pure.state.phase) :
    Proper cx b ∧ off < b.pure.state.phase ∧ SameDkg a b ∧ ∃ P, cx.poly a.eon = some P ∧
      ∃ out, out = (if a.pure.state.phase = off ∧ b.pure.state.phase = dealing then dealt a.eon b.pure.state.keyper a.keypers.length P
        else a.outgoing) ∧
      (b.pure.state.phase = dealing → b.outgoing = waiting sh.keyperEncryptionKeys a.keypers out) ∧
      acts = roundActs cx sh.keyperEncryptionKeys a.pure.state.phase a b P out ∧
      (accusing ≤ a.pure.state.phase → toBlame cx.crypto.g2 b.pure.state = toBlame cx.crypto.g2 a.pure.state) ∧
      (apologizing ≤ a.pure.state.phase → accusers b.pure.state = accusers a.pure.state) ∧
      b.pure.state.keyper = a.pure.state.keyper := by
  unfold handleDKG at hr
  split at hr
  · next hp =>
    cases hr
    have hoff : off < a.pure.state.phase := by rw [hp]; simp [off, finalized]
    obtain ⟨P, w, k1, _⟩ := ha.poly hoff
    refine ⟨ha, hoff, ⟨rfl, rfl, rfl, rfl⟩, P, k1, _, rfl, ?_, ?_, fun _ => rfl, fun _ => rfl, rfl⟩
    · intro hh; rw [hp] at hh; simp [finalized, dealing] at hh
    · simp [roundActs, hp, off, dealing, accusing, apologizing, finalized]
  · next hp =>
    obtain ⟨eon, he, hph, hge⟩ := hpn hp
    simp only [Option.bind_eq_bind, Option.bind_eq_some_iff, Prod.exists, Option.some.injEq] at hr
    obtain ⟨eon', he', b', e1, a1, h1, b2, a2, h2, hx⟩ := hr
    cases hx
    rw [he] at he'
    cases he'
    obtain ⟨q1, q2⟩ := sendPolyEvals_same h2
    have hge' : getPhaseAtHeight cx.phaseLength (sh.currentBlock + 1) eon.startHeight ≥ dealing := by rw [← hph]; exact hge
    obtain ⟨s1, s2, P, s3, s4, s5⟩ := syncDKG_sent law h1 ha hge'
    rw [← hph] at s4 s5
    have hc := (syncDKG_calls h1).1
    obtain ⟨v1, v2⟩ := sendPolyEvals_sent h2
    have hs := hc.2.trans q2
    have hbp : Proper cx b := by
      refine ⟨?_, ?_⟩
      · obtain ⟨ops, thr, i, w1, w2⟩ := s1.ran
        rw [q2.eon, q2.keypers, q1]
        exact ⟨ops, thr, i, w1, w2⟩
      · rw [q2.eon, q1]; exact s1.poly
    refine ⟨hbp, by rw [q1]; exact s2, hs, P, s3, _, rfl, ?_, ?_, ?_, ?_, ?_⟩
    · intro hd
      rw [q1] at hd
      obtain ⟨v3, v4⟩ := v2 (by rw [hd])
      rw [v3, s4, hc.2.keypers, q1]
    · unfold roundActs
      rw [s5, verdict_congr cx.crypto q1 q2.sbi]
      rw [← q1]
      congr 1
      by_cases hd : b.pure.state.phase = dealing
      · rw [if_pos hd]
        obtain ⟨v3, v4⟩ := v2 (by rw [← q1, hd])
        rw [v4, s4, hc.2.keypers, hc.2.eon, q1]
      · rw [if_neg hd]
        apply v1
        rw [← q1]
        omega
    · intro hh
      rw [q1]
      obtain ⟨x1, x2⟩ := (run_frozen hc.1).1 hh
      exact toBlame_congr _ hc.keyper.2.1 hc.keyper.1 x1 x2
    · intro hh
      rw [q1]
      exact accusers_congr hc.keyper.1 ((run_frozen hc.1).2.1 hh)
    · rw [q1]; exact hc.keyper.1

/-- The round of all key generations, one by one. -/
theorem handleDKGs_trace {cx : Cfg G1 G2 GT R} {sh : Observe.Shutter} {h : Int} : ∀ {l l' : List (DKG G2)} {ekgs : List (EKG G1 G2)}
    {acts : List (Action G1 G2)}, handleDKGs cx sh h l = some (l', ekgs, acts) →
    ∃ tr : List (DKG G2 × DKG G2 × List (Action G1 G2)), tr.map (·.1) = l ∧ tr.map (·.2.1) = l' ∧ acts = tr.flatMap (·.2.2) ∧
      ∀ x ∈ tr, ∃ e, handleDKG cx sh h x.1 = some (x.2.1, e, x.2.2) := by
  intro l
  induction l with
  | nil =>
    intro l' ekgs acts hr
    cases hr
    exact ⟨[], rfl, rfl, rfl, by simp⟩
  | cons a l ih =>
    intro l' ekgs acts hr
    simp only [handleDKGs, Option.bind_eq_bind, Option.bind_eq_some_iff, Prod.exists, Option.some.injEq] at hr
    obtain ⟨b, e1, a1, h1, l2, e2, a2, h2, he⟩ := hr
    cases he
    obtain ⟨tr, t1, t2, t3, t4⟩ := ih h2
    refine ⟨(a, b, a1) :: tr, by simp [t1], by simp [t2], by simp [t3], ?_⟩
    intro x hx
    rcases List.mem_cons.1 hx with rfl | hx
    · exact ⟨e1, h1⟩
    · exact t4 x hx

variable [AddCommGroup G1] [DecidableEq GT]

/-- Reading the messages of the key generation from the actions of a round. -/
theorem decideStep_sent {cx : Cfg G1 G2 GT R} {sh : Observe.Shutter} {mc : Main.MainChain} {keys : List Nat} {st st' : State G1 G2}
    {acts : List (Action G1 G2)} (h : decideStep cx sh mc keys st = some (st', acts)) :
    (decides cx sh mc = false ∧ st' = st ∧ acts = []) ∨ (decides cx sh mc = true ∧ st'.syncHeight = sh.currentBlock + 1 ∧
      st'.lastEonStarted = (maybeStartDKG cx sh st.lastEonStarted sh.eons).2 ∧ ∃ tr : List (DKG G2 × DKG G2 × List (Action G1 G2)),
      tr.map (·.1) = st.dkgs ++ (maybeStartDKG cx sh st.lastEonStarted sh.eons).1 ∧ tr.map (·.2.1) = st'.dkgs ∧
      (∀ x ∈ tr, ∃ e, handleDKG cx sh st.syncHeight x.1 = some (x.2.1, e, x.2.2)) ∧
      ∀ {α : Type} (f : Action G1 G2 → List α), (∀ a, a.kind ≠ .keygen → f a = []) → acts.flatMap f = tr.flatMap (fun x => x.2.2.flatMap f)) := by
  by_cases g : isSynced sh = true ∧ mc.nodeSynced = true ∧ isKeyper sh cx.own = true
  · right
    obtain ⟨dkg, sync, pub, sigs, exec, app, acc, ekgs, S⟩ := decide_ready h g.1 g.2.1 g.2.2
    refine ⟨by simp [decides, g], by rw [S.final], ?_⟩
    have hf := S.hfirst
    simp only [decideDKGs, Option.bind_eq_bind, Option.bind_eq_some_iff, Prod.exists, Option.some.injEq] at hf
    obtain ⟨dk, ek, ac, h1, rfl⟩ := hf
    have e0 := (dkgPart_batchConfig sh mc (maybeSendCheckIn cx sh ⟨st, []⟩)).trans (dkgPart_checkIn cx sh ⟨st, []⟩)
    simp only [State.dkgPart, Prod.mk.injEq] at e0
    rw [e0.1, e0.2.1, e0.2.2] at h1
    obtain ⟨tr, t1, t2, t3, t4⟩ := handleDKGs_trace h1
    have hdk : handleDKGs cx sh st.syncHeight (st.dkgs ++ (maybeStartDKG cx sh st.lastEonStarted sh.eons).1) = some (st'.dkgs, ek, ac) ∧
        st'.lastEonStarted = (maybeStartDKG cx sh st.lastEonStarted sh.eons).2 := by
      have hsame : st'.dkgs = dk ∧ st'.lastEonStarted = (maybeStartDKG cx sh st.lastEonStarted sh.eons).2 := by
        have hst := h
        unfold decideStep at hst
        simp only [g, Bool.not_true, Bool.false_eq_true, if_false] at hst
        rw [Option.map_eq_some_iff] at hst
        obtain ⟨d, hd, he⟩ := hst
        cases he
        simp only [decideAll, Option.bind_eq_bind, Option.bind_eq_some_iff, Option.some.injEq] at hd
        obtain ⟨d1, h1', d2, h2, d3, h3, d4, h4, d5, h5, d6, h6, rfl⟩ := hd
        rw [S.hfirst] at h1'
        cases h1'
        have e : d6.st.dkgPart = _ :=
          (dkgPart_maybeAccuse h6).trans ((dkgPart_maybeAppeal h5).trans ((dkgPart_maybeExecuteBatch h4).trans
            ((dkgPart_handleDecryptionSignatures h3).trans (dkgPart_handleEpochKG h2))))
        simp only [State.dkgPart, Prod.mk.injEq] at e
        refine ⟨e.1, ?_⟩
        simp only [e.2.1, e0.2.1]
      rw [hsame.1]
      exact ⟨h1, hsame.2⟩
    refine ⟨hdk.2, tr, t1, ?_, t4, ?_⟩
    · rw [t2]
      have := hdk.1
      rw [h1] at this
      simp only [Option.some.injEq, Prod.mk.injEq] at this
      exact this.1
    · intro α f hf
      have key : ∀ l : List (Action G1 G2), l.flatMap f = (l.filter (fun a => a.kind = .keygen)).flatMap f := by
        intro l
        induction l with
        | nil => rfl
        | cons x l ih =>
          by_cases hk : x.kind = .keygen
          · simp [List.filter_cons, hk, ih]
          · simp [List.filter_cons, hk, ih, hf x hk]
      have hfil := S.filter .keygen
      simp only at hfil
      rw [key acts, hfil, ← key]
      obtain ⟨n1, e1, f1⟩ := (checkIn_stage cx sh (⟨st, []⟩ : Decider G1 G2)).1
      obtain ⟨n2, e2, f2⟩ := (batchConfig_stage sh mc (maybeSendCheckIn cx sh (⟨st, []⟩ : Decider G1 G2))).1
      have hz : ∀ (l : List (Action G1 G2)) (k : Kind), k ≠ .keygen → (∀ a ∈ l, a.kind = k) → l.flatMap f = [] := by
        intro l k hk hl
        rw [List.flatMap_eq_nil_iff]
        intro a ha
        exact hf a (by rw [hl a ha]; exact hk)
      simp only [e2, e1, List.nil_append, List.flatMap_append]
      rw [hz n1 _ (by simp) f1, hz n2 _ (by simp) f2, t3]
      simp [List.flatMap_assoc]
  · left
    have hd : decides cx sh mc = false := by
      simp only [decides, Bool.and_eq_false_iff]
      by_contra hh
      push Not at hh
      apply g
      simpa [and_assoc] using hh
    refine ⟨hd, ?_⟩
    unfold decideStep at h
    split at h
    · cases h; exact ⟨rfl, rfl⟩
    · split at h
      · cases h; exact ⟨rfl, rfl⟩
      · split at h
        · cases h; exact ⟨rfl, rfl⟩
        · next g1 g2 g3 => exact absurd ⟨by simpa using g1, by simpa using g2, by simpa using g3⟩ g

end Shutter.Decide
