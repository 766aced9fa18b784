import Verif.Spec.Sign
import Verif.Proofs.TurnLife
import Verif.Proofs.Keys

/-! # One key for each eon and batch -/

namespace Shutter.Decide
open Shutter.Crypto Shutter.Dkg Shutter.Observe Shutter.Main Shutter.Decide.Spec
open Shutter.Sol (World)

variable {G1 G2 GT R : Type} [AddCommGroup G1] [AddCommGroup G2] [DecidableEq G2] [DecidableEq GT]
variable {cx : Cfg G1 G2 GT R} {codecs : Events.Codecs} {chain : Observe.Chain} {E : Sol.Env} {fd : Nat}
variable {s : Observe.Shutter} {st : State G1 G2} {mc : MainChain} {hist : Nat → World} {log : List (Moment G1 G2)}

/-- The EKGs of a keyper belong to different eons, of key generations that are over. -/
structure EkgInv (st : State G1 G2) : Prop where
  inc : (st.dkgs.map (·.eon)).Pairwise (· < ·)
  last : ∀ dkg ∈ st.dkgs, dkg.eon ≤ st.lastEonStarted
  nodup : (st.ekgs.map (·.eon)).Nodup
  done : ∀ ekg ∈ st.ekgs, ∃ dkg ∈ st.dkgs, dkg.eon = ekg.eon ∧ dkg.pure.state.phase = finalized

theorem handleDKGs_eons {sh : Observe.Shutter} {h : Int} : ∀ {l l' : List (DKG G2)} {ekgs : List (EKG G1 G2)} {acts : List (Action G1 G2)},
    handleDKGs cx sh h l = some (l', ekgs, acts) → (l.map (·.eon)).Nodup →
    l'.map (·.eon) = l.map (·.eon) ∧ (ekgs.map (·.eon)).Nodup ∧
    (∀ e ∈ ekgs, (∃ a ∈ l, a.eon = e.eon ∧ a.pure.state.phase ≠ finalized) ∧ ∃ b ∈ l', b.eon = e.eon ∧ b.pure.state.phase = finalized) ∧
    ∀ a ∈ l, a.pure.state.phase = finalized → a ∈ l' := by
  intro l
  induction l with
  | nil => intro l' ekgs acts hr _; cases hr; simp
  | cons a l ih =>
    intro l' ekgs acts hr nd
    simp only [handleDKGs, Option.bind_eq_bind, Option.bind_eq_some_iff, Prod.exists, Option.some.injEq] at hr
    obtain ⟨b, e1, a1, h1, l2, e2, a2, h2, hx⟩ := hr
    cases hx
    rw [List.map_cons, List.nodup_cons] at nd
    obtain ⟨i1, i2, i3, i4⟩ := ih h2 nd.2
    have hbe : b.eon = a.eon := (handleDKG_params h1).1.eon
    have hone : ∀ e ∈ e1, e.eon = b.eon ∧ b.pure.state.phase = finalized := by
      intro e he
      obtain ⟨res, _, rfl, _, hf⟩ := handleDKG_ekg h1 he
      exact ⟨rfl, hf⟩
    have hlen : e1.length ≤ 1 := by
      rcases handleDKG_calls h1 with ⟨hf, rfl⟩ | ⟨hf, _⟩
      · unfold handleDKG at h1
        rw [if_pos hf] at h1
        cases h1; simp
      · cases e1 with
        | nil => simp
        | cons e t =>
          obtain ⟨res, h3, _, _, h4⟩ := handleDKG_ekg h1 (List.mem_cons_self)
          have := handleDKG_gives h1 hf h4 h3
          rw [this]; simp
    have hnf : e1 ≠ [] → a.pure.state.phase ≠ finalized := by
      intro hne hf
      unfold handleDKG at h1
      rw [if_pos hf] at h1
      cases h1; exact hne rfl
    refine ⟨by rw [List.map_cons, List.map_cons, i1, hbe], ?_, ?_, ?_⟩
    · rw [List.map_append, List.nodup_append]
      refine ⟨?_, i2, ?_⟩
      · match e1, hlen with
        | [], _ => simp
        | [e], _ => simp
      · intro x hx y hy hxy
        subst hxy
        obtain ⟨e, he, rfl⟩ := List.mem_map.1 hx
        obtain ⟨e', he', heq⟩ := List.mem_map.1 hy
        obtain ⟨⟨a', ha', g1, _⟩, _⟩ := i3 e' he'
        apply nd.1
        rw [List.mem_map]
        exact ⟨a', ha', by rw [g1, heq, (hone e he).1, hbe]⟩
    · intro e he
      rcases List.mem_append.1 he with he | he
      · exact ⟨⟨a, by simp, by rw [(hone e he).1, hbe], hnf (List.ne_nil_of_mem he)⟩, b, by simp, (hone e he).1.symm, (hone e he).2⟩
      · obtain ⟨⟨a', g1, g2⟩, b', g3, g4⟩ := i3 e he
        exact ⟨⟨a', by simp [g1], g2⟩, b', by simp [g3], g4⟩
    · intro x hx hf
      rcases List.mem_cons.1 hx with rfl | hx
      · unfold handleDKG at h1
        rw [if_pos hf] at h1
        cases h1; simp
      · simp [i4 x hx hf]

theorem ekgs_keep_eons {l l' : List (EKG G1 G2)} (h : List.Forall₂ Keeps l l') : l'.map (·.eon) = l.map (·.eon) := by
  induction h with
  | nil => rfl
  | cons h _ ih => rw [List.map_cons, List.map_cons, ih, h.eon]

theorem ekgInv_round {sh : Observe.Shutter} {keys : List Nat} {st' : State G1 G2} {acts : List (Action G1 G2)} (inv : EkgInv st)
    (h : decideStep cx sh mc keys st = some (st', acts)) : EkgInv st' := by
  rcases decide_stages h with ⟨rfl, _⟩ | ⟨dkg, sync, pub, sigs, exec, app, acc, ekgs, g⟩
  · exact inv
  · have hf := g.hfirst
    simp only [decideDKGs, Option.bind_eq_bind, Option.bind_eq_some_iff, Prod.exists, Option.some.injEq] at hf
    obtain ⟨dkgs, new, a, hh, hd⟩ := hf
    have hst0 : (maybeSendBatchConfig sh mc (maybeSendCheckIn cx sh ⟨st, []⟩)).st.ekgs = st.ekgs := by
      rw [(batchConfig_stage sh mc _).2, (checkIn_stage cx sh _).2]
    have hst1 : (maybeSendBatchConfig sh mc (maybeSendCheckIn cx sh ⟨st, []⟩)).st.dkgs = st.dkgs := by
      rw [(batchConfig_stage sh mc _).2, (checkIn_stage cx sh _).2]
    have hdk : st'.dkgs = dkgs := by
      have e0 : sync.st.dkgs = dkg.st.dkgs := by rw [(syncEKGs_stage g.hsync).2]
      have e1 : pub.st.dkgs = sync.st.dkgs := by rw [(publish_emits g.hpub).2]
      have e2 : sigs.st.dkgs = pub.st.dkgs := by rw [(handleSigs_stage g.hsigs).2]
      have e3 : exec.st.dkgs = sigs.st.dkgs := by rw [(exec_stage g.hexec).2]
      have e4 : app.st.dkgs = exec.st.dkgs := by rw [(appeal_stage g.happ).2]
      have e5 : acc.st.dkgs = app.st.dkgs := by rw [(accuse_stage g.hacc).2]
      rw [g.final, ← show dkg.st.dkgs = dkgs by rw [← hd], ← e0, ← e1, ← e2, ← e3, ← e4, ← e5]
    have hek : dkg.st.ekgs = st.ekgs ++ new := by rw [← hd]; simp only [hst0]
    rw [hst1] at hh
    have hst2 : (maybeSendBatchConfig sh mc (maybeSendCheckIn cx sh ⟨st, []⟩)).st.lastEonStarted = st.lastEonStarted := by
      rw [(batchConfig_stage sh mc _).2, (checkIn_stage cx sh _).2]
    rw [hst2] at hh
    have hlast : st'.lastEonStarted = (maybeStartDKG cx sh st.lastEonStarted sh.eons : List (DKG G2) × Nat).2 := by
      have e0 : sync.st.lastEonStarted = dkg.st.lastEonStarted := by rw [(syncEKGs_stage g.hsync).2]
      have e1 : pub.st.lastEonStarted = sync.st.lastEonStarted := by rw [(publish_emits g.hpub).2]
      have e2 : sigs.st.lastEonStarted = pub.st.lastEonStarted := by rw [(handleSigs_stage g.hsigs).2]
      have e3 : exec.st.lastEonStarted = sigs.st.lastEonStarted := by rw [(exec_stage g.hexec).2]
      have e4 : app.st.lastEonStarted = exec.st.lastEonStarted := by rw [(appeal_stage g.happ).2]
      have e5 : acc.st.lastEonStarted = app.st.lastEonStarted := by rw [(accuse_stage g.hacc).2]
      have e6 : dkg.st.lastEonStarted = (maybeStartDKG cx sh st.lastEonStarted sh.eons : List (DKG G2) × Nat).2 := by
        rw [← hd]; simp only [hst2]
      rw [g.final, ← e6, ← e0, ← e1, ← e2, ← e3, ← e4, ← e5]
    obtain ⟨m1, _, m3, m4⟩ := maybeStartDKG_spec (G2 := G2) cx sh sh.eons st.lastEonStarted
    have kinc : ((st.dkgs ++ (maybeStartDKG cx sh st.lastEonStarted sh.eons).1).map (·.eon)).Pairwise (· < ·) := by
      have := inv.inc
      rw [List.pairwise_map] at this
      rw [List.pairwise_map, List.pairwise_append]
      exact ⟨this, m4, fun x hx y hy => lt_of_le_of_lt (inv.last x hx) (m3 y hy).2.1⟩
    have k : ((st.dkgs ++ (maybeStartDKG cx sh st.lastEonStarted sh.eons).1).map (·.eon)).Nodup := kinc.imp (fun h => by omega)
    obtain ⟨heons, k2, k3, k4⟩ := handleDKGs_eons hh k
    have hkeep := ekgs_keep_eons (syncEKGs_keeps g.hsync)
    rw [hek] at hkeep
    have hfin := ekgs_final g
    refine ⟨by rw [hdk, heons]; exact kinc, ?_, ?_, ?_⟩
    · intro x hx
      have : x.eon ∈ st'.dkgs.map (·.eon) := List.mem_map.2 ⟨x, hx, rfl⟩
      rw [hdk, heons] at this
      obtain ⟨y, hy, hye⟩ := List.mem_map.1 this
      rw [← hye, hlast]
      rcases List.mem_append.1 hy with h | h
      · exact le_trans (inv.last y h) m1
      · exact (m3 y h).2.2
    · rw [hfin, hkeep, List.map_append, List.nodup_append]
      refine ⟨inv.nodup, k2, ?_⟩
      intro x hx y hy hxy
      subst hxy
      obtain ⟨e, he, rfl⟩ := List.mem_map.1 hx
      obtain ⟨e', he', heq⟩ := List.mem_map.1 hy
      obtain ⟨d, hd1, hd2, hd3⟩ := inv.done e he
      obtain ⟨⟨d', g1, g2, g3⟩, _⟩ := k3 e' he'
      have : d = d' := List.inj_on_of_nodup_map k (List.mem_append_left _ hd1) g1 (by rw [hd2, g2, heq])
      subst this
      exact g3 hd3
    · intro ekg he
      rw [hfin] at he
      have : ekg.eon ∈ ekgs.map (·.eon) := List.mem_map.2 ⟨ekg, he, rfl⟩
      rw [hkeep, List.map_append, List.mem_append] at this
      rw [hdk]
      rcases this with h | h
      · obtain ⟨e, he, heq⟩ := List.mem_map.1 h
        obtain ⟨d, hd1, hd2, hd3⟩ := inv.done e he
        exact ⟨d, k4 d (List.mem_append_left _ hd1) hd3, by rw [hd2, heq], hd3⟩
      · obtain ⟨e, he, heq⟩ := List.mem_map.1 h
        obtain ⟨_, b, hb1, hb2, hb3⟩ := k3 e he
        exact ⟨b, hb1, by rw [hb2, heq], hb3⟩

theorem life_ekgInv {log : List (MainChain × List (Action G1 G2))} (h : Life cx codecs chain E fd s st mc hist log) : EkgInv st := by
  induction h with
  | init => exact ⟨by simp [State.new], by simp [State.new], by simp [State.new], by simp [State.new]⟩
  | round _ _ _ _ _ _ h ih => exact ekgInv_round ih h
  | restart f _ ih =>
    unfold loadState
    split <;> exact ⟨ih.inc, ih.last, ih.nodup, ih.done⟩

/-- A keyper has at most one key for a batch and an eon. -/
theorem eonKey_unique (inv : EkgInv st) {e b : Nat} {key key' : G1} (h : HasEonKey st e b key) (h' : HasEonKey st e b key') : key = key' := by
  obtain ⟨x, hx, rfl, hk⟩ := h
  obtain ⟨y, hy, he, hk'⟩ := h'
  obtain rfl := List.inj_on_of_nodup_map inv.nodup hx hy he.symm
  rw [hk] at hk'
  simpa using hk'

end Shutter.Decide
