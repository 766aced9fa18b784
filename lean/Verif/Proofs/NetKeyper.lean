import Verif.Proofs.NetView
import Verif.Props.Honest
import Verif.Props.App

/-! # What a keyper sends reaches the others through the application -/

namespace Shutter.Dkg
open Shutter.Crypto

variable {G1 G2 GT : Type} [AddCommGroup G2] [DecidableEq G2]

theorem step_accusations (env : Env G1 G2 GT) {st : PureDKG G2} {op : Op G2} {o : Outcome G2} (h : step env st op = some o)
    (hn : st.accusations.Nodup) : o.state.accusations.Nodup := by
  have phase : ∀ {st st1 : PureDKG G2} {k}, setPhase st k = some st1 → st1.accusations = st.accusations := by
    intro st st1 k h
    unfold setPhase at h
    split at h
    · cases h
    · cases h; rfl
  cases op with
  | start1 poly =>
    simp only [step, Option.map_eq_some_iff] at h
    obtain ⟨r, h1, rfl⟩ := h
    unfold startPhase1Dealing at h1
    cases hp : setPhase st dealing with
    | none => rw [hp] at h1; cases h1
    | some st1 =>
      rw [hp] at h1
      cases poly with
      | none => cases h1; show st1.accusations.Nodup; rw [phase hp]; exact hn
      | some p =>
        simp only at h1
        cases hd : dealLoop p { st1 with polynomial := some p } (List.range st.numKeypers) with
        | none => rw [hd] at h1; cases h1
        | some q =>
          obtain ⟨st3, msgs⟩ := q
          rw [hd] at h1
          cases h1
          obtain ⟨_, b2, _⟩ := dealLoop_frame p _ _ _ _ hd
          show st3.accusations.Nodup
          rw [b2]
          show st1.accusations.Nodup
          rw [phase hp]
          exact hn
  | start2 =>
    simp only [step, Option.map_eq_some_iff] at h
    obtain ⟨r, h1, rfl⟩ := h
    unfold startPhase2Accusing at h1
    split at h1
    · cases h1
    · next st1 hp =>
      cases h1
      show st1.accusations.Nodup
      rw [phase hp]; exact hn
  | start3 =>
    simp only [step, Option.map_eq_some_iff] at h
    obtain ⟨r, h1, rfl⟩ := h
    unfold startPhase3Apologizing at h1
    split at h1
    · cases h1
    · next st1 hp =>
      rw [Option.map_eq_some_iff] at h1
      obtain ⟨_, _, rfl⟩ := h1
      show st1.accusations.Nodup
      rw [phase hp]; exact hn
  | fin =>
    simp only [step, finalize, Option.map_eq_some_iff] at h
    obtain ⟨r, h1, rfl⟩ := h
    show r.accusations.Nodup
    rw [phase h1]; exact hn
  | commitment m =>
    simp only [step, handlePolyCommitmentMsg] at h
    split at h
    · cases h; exact hn
    · split at h
      · cases h
      · cases h; exact hn
      · split at h
        · cases h; exact hn
        · cases h; exact hn
  | eval m =>
    simp only [step, Option.map_eq_some_iff] at h
    obtain ⟨⟨st', ok⟩, h1, rfl⟩ := h
    obtain ⟨_, a2, _⟩ := handleEval_frame h1
    show st'.accusations.Nodup
    rw [a2]; exact hn
  | accusation m =>
    simp only [step, handleAccusationMsg] at h
    split at h
    · cases h; exact hn
    · split at h
      · cases h; exact hn
      · next hc =>
        cases h
        show (st.accusations ++ [(m.accuser, m.accused)]).Nodup
        rw [List.nodup_append]
        refine ⟨hn, by simp, ?_⟩
        rintro x hx y hy rfl
        rw [List.mem_singleton] at hy
        subst hy
        exact hc (by simpa using hx)
  | apology m =>
    simp only [step, handleApologyMsg] at h
    split at h
    · cases h; exact hn
    · split at h
      · cases h; exact hn
      · split at h
        · cases h; exact hn
        · cases h; exact hn

theorem run_accusations (env : Env G1 G2 GT) {w w' : World G2} {ops : List (Op G2)} (h : run env w ops = some w')
    (hn : w.state.accusations.Nodup) : w'.state.accusations.Nodup := by
  refine run_induct env (fun w => w.state.accusations.Nodup) ops w w' hn ?_ h
  intro w op w' _ hw he
  simp only [exec, Option.map_eq_some_iff] at he
  obtain ⟨o, ho, rfl⟩ := he
  exact step_accusations env ho hw

end Shutter.Dkg

namespace Shutter.App

/-- Every config but the one of the genesis was asked for. -/
theorem Exec.asked {ps dev log s} (h : Exec ps dev log s) : ∀ c ∈ (ids s).tail, ∃ m bc, Asks m bc ∧ c = bc.erase := by
  induction h with
  | start => simp [ids, newApp]
  | @step log s o op s' r hE ho hs ih =>
    have inv := hE.inv
    have hne : ids s ≠ [] := by
      obtain ⟨c, rest, h1, _⟩ := inv.cfg.first
      rw [h1]
      simp
    rcases step_frame hs with ⟨hf, hev, _⟩ | ⟨a, m, d, rfl, _, _, rfl, he⟩
    · rw [hf.tail inv]
      exact ih
    · have hold : ∀ {t : State}, ids t = ids s → ∀ c ∈ (ids t).tail, ∃ m bc, Asks m bc ∧ c = bc.erase := by
        intro t ht
        rw [ht]
        exact ih
      have hadd : ∀ {t : State} {m' bc}, batchConfigFromMessage m' = some bc → ids t = ids s ++ [bc.erase] →
          ∀ c ∈ (ids t).tail, ∃ m bc, Asks m bc ∧ c = bc.erase := by
        intro t m' bc hbc ht c hc
        rw [ht, List.tail_append_of_ne_nil hne, List.mem_append, List.mem_singleton] at hc
        rcases hc with hc | rfl
        · exact ih c hc
        · exact ⟨m', bc, asks_iff.1 hbc, rfl⟩
      generalize m.msg = msg at he
      cases he with
      | configAdded m' bc last cv i hbc =>
        exact hadd hbc (by simp [ids, added, updateCheckTxMembers, withNonce])
      | configAddedDKG m' bc last cv i hbc =>
        exact hadd hbc (by simp [ids, added, updateCheckTxMembers, withNonce, startDKG])
      | _ => exact hold (by simp [ids, withNonce, startDKG])

end Shutter.App

namespace Shutter.Net
open Shutter.App Shutter.Events Shutter.Observe Shutter.Decide Shutter.Decide.Spec Shutter.Crypto Shutter.Dkg
open Shutter.Decide (State)

variable {ps : Parsers} {dev : Bool} {log : List Rec} {s : App.State} {codecs : Codecs}

/-- A config of an eon that is not the one of the genesis has keypers with different addresses and a threshold. -/
theorem config_ok (h : Exec ps dev log s) {e b : Nat} {c : BatchConfig} {S : Nat} (an : Announced log e b c S) (hc : c.configIndex ≠ 0) :
    c.keypers.Nodup ∧ (∀ a ∈ c.keypers, a.length = 20) ∧ c.threshold ≠ 0 := by
  obtain ⟨pre, r, post, hl, hev, hst, _⟩ := an
  obtain ⟨_, ⟨l1, l2, hf, _⟩, _⟩ := h.starts hl hev hst
  have hx := after_exec h hl
  have inv := hx.inv
  have hmem : c.erase ∈ ids r.after := List.mem_map_of_mem (by rw [hf]; simp)
  obtain ⟨c₀, rest, h1, _, h2⟩ := inv.cfg.first
  have htail : c.erase ∈ (ids r.after).tail := by
    rw [h1, List.mem_cons] at hmem
    rcases hmem with h3 | h3
    · exact absurd (by rw [← h2, ← h3]; rfl) hc
    · rw [h1]; exact h3
  obtain ⟨m, bc, ha, hb⟩ := hx.asked _ htail
  have hk : c.keypers = bc.keypers := by have := congrArg BatchConfig.keypers hb; exact this
  refine ⟨by rw [hk, ← ha.keypers]; exact ha.unique, by rw [hk, ← ha.keypers]; exact ha.lengths, ?_⟩
  rcases inv.cfg.valid _ hmem with hv | ⟨hv, _⟩
  · intro h0
    unfold BatchConfig.ensureValid at hv
    split at hv
    · cases hv
    · rw [if_pos (by exact h0)] at hv
      cases hv
  · rw [hv] at htail
    cases htail

variable {G1 G2 GT R : Type}

/-- The parameters of the key generation for an announced eon. -/
theorem params [AddCommGroup G1] [AddCommGroup G2] [DecidableEq G2] [DecidableEq GT] (h : Exec ps dev log s) (fit : Codecs.Fit ps codecs)
    (sane : Sane log) (few : s.eonCounter + 1 < 2 ^ 64)
    {e b : Nat} {c : BatchConfig} {S : Nat} (an : Announced log e b c S) (settled : Settled log e) {cx : Cfg G1 G2 GT R}
    (hL : 0 ≤ cx.phaseLength) {sh : Observe.Shutter} {st : State G1 G2} (hr : Reach cx codecs (appChain codecs log) sh st) {dkg : DKG G2}
    (hd : dkg ∈ st.dkgs) (he : dkg.eon = e) :
    dkg.keypers = c.keypers ∧ dkg.pure.state.threshold = c.threshold ∧ c.configIndex ≠ 0 ∧ cx.own ∈ c.keypers ∧ dkg.startBatchIndex = b ∧
      (S : Int) < st.syncHeight ∧ DkgInv cx (chainEvents codecs (appChain codecs log) 0 (st.syncHeight - 1)) st.syncHeight dkg S := by
  obtain ⟨S', inv⟩ := (kinv_reach hL hr).dkgs dkg hd
  have h1 := announced_started h fit sane few an (le_refl _)
  have h2 := inv.started
  rw [he] at h2
  obtain ⟨hb, rfl⟩ := started_unique_chain h1 h2
  obtain ⟨seen, q1, q2, q3⟩ := Decide.Props.C54_parameters hL hr hd inv.started
  rw [← hb, announced_config h fit sane few an settled q1] at q3
  obtain ⟨ops, thr, i, hrun, hi, _⟩ := inv.ran
  have hown : cx.own ∈ dkg.keypers := by
    rw [findAddressIndex_eq] at hi
    exact List.mem_of_getElem? (idxOf_get hi)
  split at q3
  · simp only [Option.getD_none, Prod.mk.injEq] at q3
    rw [← q3.1] at hown
    cases hown
  · next hc =>
    simp only [Option.getD_some, Prod.mk.injEq] at q3
    exact ⟨q3.1.symm, q3.2.symm, hc, by rw [q3.1]; exact hown, hb.symm, inv.before, inv⟩

theorem mem_said {α : Type} {f : Action G1 G2 → List α} {rs : List (Round G1 G2)} {n : Int} {y : α} :
    (n, y) ∈ said f rs ↔ ∃ x ∈ rs, ∃ act ∈ x.sent, y ∈ f act ∧ x.next = n := by
  unfold said
  simp only [List.mem_flatMap, List.mem_map, Prod.mk.injEq]
  constructor
  · rintro ⟨x, hx, z, ⟨act, h1, h2⟩, h3, rfl⟩
    exact ⟨x, hx, act, h1, h2, h3⟩
  · rintro ⟨x, hx, act, h1, h2, h3⟩
    exact ⟨x, hx, y, ⟨act, h1, h2⟩, h3, rfl⟩

theorem pick_nodup {ks : List Addr} (hk : ks.Nodup) : ∀ {is : List Nat}, is.Nodup → (pick ks is).Nodup := by
  intro is his
  unfold pick
  refine his.filterMap ?_
  intro i j a hi hj
  simp only [Option.mem_def] at hi hj
  obtain ⟨h1, h2⟩ := List.getElem?_eq_some_iff.1 hi
  obtain ⟨h3, h4⟩ := List.getElem?_eq_some_iff.1 hj
  exact (List.Nodup.getElem_inj_iff hk).1 (h2.trans h4.symm)

theorem mem_pick {ks : List Addr} {is : List Nat} {a : Addr} : a ∈ pick ks is ↔ ∃ i ∈ is, ks[i]? = some a := by
  unfold pick; exact List.mem_filterMap

open Shutter.App.Props (dkgEvent dkgParties Msg.isDkg)

theorem event_parties {a : Addr} {m : Msg} {ev : Event} (h : dkgEvent ps a m = some ev) :
    ∃ e tos, dkgEon m = some e ∧ dkgParties ev = some (e, a, tos) := by
  cases m with
  | polyEval e rs es => cases h; exact ⟨e, rs, rfl, rfl⟩
  | polyCommitment e gs =>
    simp only [dkgEvent, Option.map_eq_some_iff] at h
    obtain ⟨l, _, rfl⟩ := h
    exact ⟨e, [], rfl, rfl⟩
  | accusation e as => cases h; exact ⟨e, as, rfl, rfl⟩
  | apology e as es => cases h; exact ⟨e, as, rfl, rfl⟩
  | _ => cases h

theorem once_parties {ev ev' : Event} {e : Nat} {a : Addr} {tos : List Addr} (h : dkgParties ev = some (e, a, tos)) {key : Once}
    (h1 : key ∈ ev.once) (h2 : key ∈ ev'.once) : ∃ tos', dkgParties ev' = some (e, a, tos') := by
  cases ev <;> simp only [dkgParties, reduceCtorEq, Option.some.injEq, Prod.mk.injEq] at h <;> obtain ⟨rfl, rfl, rfl⟩ := h <;>
    simp only [Event.once, List.mem_singleton, List.mem_map] at h1
  all_goals
    first
    | (obtain ⟨a1, _, rfl⟩ := h1)
    | subst h1
    cases ev' <;> simp [Event.once, dkgParties] at h2 ⊢ <;> tauto

/-- A message published in the name of the keyper is one it sent. -/
theorem event_origin (h : Exec ps dev log s) {w : Wire G1 G2} {own : Addr} {e : Nat} {rs : List (Round G1 G2)}
    (gen : Genuine w log own e rs) {pre r post} (hl : log = pre ++ r :: post) {ev : Event} (hev : ev ∈ r.events) {tos : List Addr}
    (hp : dkgParties ev = some (e, own, tos)) :
    ∃ x ∈ rs, ∃ act ∈ x.sent, ∃ m, message w act = some m ∧ dkgEvent ps own m = some ev ∧ x.next ≤ heightAfter pre := by
  obtain ⟨a, msg, acc, _, hd⟩ := (App.Props.C29_published_exactly h (r := r) (by rw [hl]; simp)).2 ev hev (by rw [hp]; rfl)
  obtain ⟨e', tos', h1, h2⟩ := event_parties hd
  rw [hp] at h2
  simp only [Option.some.injEq, Prod.mk.injEq] at h2
  obtain ⟨rfl, rfl, rfl⟩ := h2
  obtain ⟨m, rfl, hop, _⟩ := acc
  obtain ⟨x, hx, act, hact, q1, q2⟩ := gen pre r post m hl hop h1
  exact ⟨x, hx, act, hact, m.msg, q1, hd, q2⟩

theorem origin (h : Exec ps dev log s) (fit : Codecs.Fit ps codecs) (sane : Sane log) (few : s.eonCounter + 1 < 2 ^ 64) {w : Wire G1 G2}
    {own : Addr} {e : Nat} {rs : List (Round G1 G2)} (gen : Genuine w log own e rs) {ht : Int} {ev : Event}
    (hev : Published codecs (appChain codecs log) ht ev) {tos : List Addr} (hp : dkgParties ev = some (e, own, tos)) :
    ∃ x ∈ rs, ∃ act ∈ x.sent, ∃ m, message w act = some m ∧ dkgEvent ps own m = some ev ∧ x.next ≤ ht := by
  obtain ⟨_, pre, r, post, hl, h1, rfl⟩ := (published_app h fit sane few ht ev).1 hev
  exact event_origin h gen hl h1 hp

theorem earlier_pre {pre pre' post post' : List Rec} {r r' : Rec} (h : pre ++ r :: post = pre' ++ r' :: post')
    (hh : heightAfter pre < heightAfter pre') : ∃ mid, pre' = pre ++ r :: mid := by
  rcases List.append_eq_append_iff.1 h with ⟨l, h1, h2⟩ | ⟨l, h1, h2⟩
  · cases l with
    | nil => simp only [List.append_nil] at h1; rw [h1] at hh; omega
    | cons x l =>
      simp only [List.cons_append, List.cons.injEq] at h2
      exact ⟨l, by rw [h1, h2.1]⟩
  · have := heightAfter_append pre' l
    rw [← h1] at this
    omega

theorem inPhase_between {L S k a b n : Int} (ha : inPhase L S k a = true) (hb : inPhase L S k b = true) (h1 : a ≤ n) (h2 : n ≤ b) :
    inPhase L S k n = true := by
  unfold inPhase at *
  rw [decide_eq_true_iff] at *
  omega

/-- A message that is delivered in time is published in time. -/
theorem arrival (h : Exec ps dev log s) (fit : Codecs.Fit ps codecs) (sane : Sane log) (few : s.eonCounter + 1 < 2 ^ 64) {w : Wire G1 G2}
    {own : Addr} {e b : Nat} {c : BatchConfig} {S : Nat} (an : Announced log e b c S) {rs : List (Round G1 G2)} {L : Int}
    (gen : Genuine w log own e rs) (intime : InTime w log own e L S rs) {x : Round G1 G2} {act : Action G1 G2} {m : Msg} {ev : Event}
    (hx : x ∈ rs) (ha : act ∈ x.sent) (hm : message w act = some m) (hev : dkgEvent ps own m = some ev) (he : dkgEon m = some e)
    (hS : (S : Int) < x.next) {k : Int} (hk : inPhase L S k x.next = true) (vis : hidden ev = false) (hone : ev.once ≠ [])
    (acc : ∀ (t : App.State) d, t.dkgMap e = some d → d.eon = e → d.config = c → (∀ key ∈ ev.once, ¬ seen t key) →
      ∀ ord, ∃ t', deliverMessage ps ord t m own = some (t', ⟨true, [ev]⟩))
    (uniq : ∀ x' ∈ rs, ∀ act' ∈ x'.sent, ∀ m' ev', message w act' = some m' → dkgEvent ps own m' = some ev' →
      (∃ key ∈ ev.once, key ∈ ev'.once) → x'.next = x.next ∧ ev' = ev) :
    ∃ ht, (S : Int) < ht ∧ inPhase L S k ht = true ∧ Published codecs (appChain codecs log) ht ev := by
  obtain ⟨pre, r, post, hl, ⟨nonce, del, fresh⟩, hph⟩ := intime x hx act ha m hm he
  obtain ⟨x₂, hx₂, act₂, ha₂, hm₂, hle⟩ := gen pre r post _ hl del he
  obtain ⟨key₀, hkey₀⟩ := List.exists_mem_of_ne_nil _ hone
  obtain ⟨hnext, _⟩ := uniq x₂ hx₂ act₂ ha₂ m ev hm₂ hev ⟨key₀, hkey₀, hkey₀⟩
  rw [hnext] at hle
  obtain ⟨pre₀, r₀, post₀, hl₀, hev₀, hst₀, hS₀⟩ := an
  obtain ⟨mid, hmid⟩ := earlier_pre (hl₀.symm.trans hl) (by omega)
  have hE := (h.at hl).1
  obtain ⟨_, _, d, hd, hdc⟩ := h.starts hl₀ hev₀ hst₀
  obtain ⟨d', hd', hle'⟩ := hE.dkg_mono r₀ (by rw [hmid]; simp) e d (Or.inr hd)
  have hd'e : d'.eon = e := ((hE.eons.2 e).1 d' hd').2.2
  obtain ⟨o, dr, hresp, hdel⟩ := h.delivered hl del rfl fresh
  simp only at hdel
  by_cases hseen : ∀ key ∈ ev.once, ¬ seen (withNonce r.before own nonce) key
  · obtain ⟨t', ht'⟩ := acc (withNonce r.before own nonce) d' hd' hd'e (hle'.config.trans hdc) hseen o.idx
    rw [ht'] at hdel
    simp only [Option.some.injEq, Prod.mk.injEq] at hdel
    refine ⟨heightAfter pre, by omega, hph k hk, (published_app h fit sane few _ ev).2 ⟨vis, pre, r, post, hl, ?_, rfl⟩⟩
    simp [Rec.events, hresp, ← hdel.2]
  · push Not at hseen
    obtain ⟨key, hkey, hs⟩ := hseen
    have hs' : seen r.before key := (seen_congr rfl rfl rfl key).1 hs
    have := hE.seen_published key hs'
    rw [List.mem_flatMap] at this
    obtain ⟨ev₁, h1, h2⟩ := this
    unfold allEvents at h1
    obtain ⟨r₁, hr₁, h1⟩ := List.mem_flatMap.1 h1
    obtain ⟨pre₁, post₁, hl₁⟩ := List.append_of_mem hr₁
    obtain ⟨e', tos, q1, q2⟩ := event_parties hev
    rw [he] at q1
    cases q1
    obtain ⟨tos', q3⟩ := once_parties q2 hkey h2
    have hl₁' : log = pre₁ ++ r₁ :: (post₁ ++ r :: post) := by rw [hl, hl₁]; simp
    obtain ⟨x', hx', act', ha', m', p1, p2, p3⟩ := event_origin h gen hl₁' h1 q3
    obtain ⟨u1, u2⟩ := uniq x' hx' act' ha' m' ev₁ p1 p2 ⟨key, hkey, h2⟩
    have hmono : heightAfter pre₁ ≤ heightAfter pre := by rw [hl₁]; exact heightAfter_append _ _
    refine ⟨heightAfter pre₁, by omega, inPhase_between hk (hph k hk) (by omega) (by omega), ?_⟩
    exact (published_app h fit sane few _ ev).2 ⟨vis, pre₁, r₁, _, hl₁', u2 ▸ h1, rfl⟩

end Shutter.Net
