import Verif.Proofs.Keys
import Verif.Proofs.Exec

/-! The shares a keyper publishes. -/

namespace Shutter.Decide
open Shutter.Crypto Shutter.Crypto.Spec Shutter.Dkg Shutter.Observe Shutter.Main Shutter.Decide.Spec
open Shutter.App (Addr findAddressIndex)
open Shutter.Events (Codecs)
open Shutter.Observe.Props
open Shutter.Sol (World)

variable {G1 G2 GT R : Type}

section
variable [AddCommGroup G1]

/-- A share is published. -/
def Publishes (cx : Cfg G1 G2 GT R) (sh : Observe.Shutter) (mc : MainChain) (st : State G1 G2) (b : Nat) (a : Action G1 G2) : Prop :=
  executionTimeoutReachedOrInactive mc b = some false ∧ cx.own ∈ (findBatchConfigByBatchIndex sh b).keypers ∧
  ∃ eon ekg, findEonByBatchIndex sh b = some eon ∧ findEKG st eon.eon = some ekg ∧ ekg.kg.secretKeys b = none ∧
    a = .epochSecretKeyShare ekg.kg.eon b (ekg.kg.computeShare cx.crypto b)

theorem publishStep_exact {cx : Cfg G1 G2 GT R} {sh : Observe.Shutter} {mc : MainChain} {d d' : Decider G1 G2} {b : Nat}
    (h : publishStep cx sh mc d b = some d') : d'.st = d.st ∧ ∃ new, d'.actions = d.actions ++ new ∧ ∀ a, a ∈ new ↔ Publishes cx sh mc d.st b a := by
  unfold publishStep at h
  rw [Option.map_eq_some_iff] at h
  obtain ⟨t, ht, rfl⟩ := h
  cases t with
  | true =>
    rw [if_pos rfl]
    refine ⟨rfl, [], by simp, fun a => ?_⟩
    simp only [List.not_mem_nil, false_iff]
    rintro ⟨h1, _⟩
    rw [ht] at h1
    cases h1
  | false =>
    rw [if_neg (by simp)]
    unfold publishEpochSecretKeyShare
    have hk : (findBatchConfigByBatchIndex sh b).keypers.any (fun k => k == cx.own) = true ↔ cx.own ∈ (findBatchConfigByBatchIndex sh b).keypers := by
      simp
    split
    · next hn =>
      refine ⟨rfl, [], by simp, fun a => ?_⟩
      simp only [List.not_mem_nil, false_iff]
      rintro ⟨_, h1, _⟩
      rw [hk.2 h1] at hn
      cases hn
    · next hn =>
      have hown : cx.own ∈ (findBatchConfigByBatchIndex sh b).keypers := by
        rw [← hk]
        simpa using hn
      split
      · next he =>
        refine ⟨rfl, [], by simp, fun a => ?_⟩
        simp only [List.not_mem_nil, false_iff]
        rintro ⟨_, _, _, _, h1, _⟩
        rw [he] at h1
        cases h1
      · next eon he =>
        split
        · next hf =>
          refine ⟨rfl, [], by simp, fun a => ?_⟩
          simp only [List.not_mem_nil, false_iff]
          rintro ⟨_, _, _, _, h1, h2, _⟩
          rw [he] at h1
          cases h1
          rw [hf] at h2
          cases h2
        · next ekg hf =>
          split
          · next hs =>
            refine ⟨rfl, [], by simp, fun a => ?_⟩
            simp only [List.not_mem_nil, false_iff]
            rintro ⟨_, _, _, _, h1, h2, h3, _⟩
            rw [he] at h1
            cases h1
            rw [hf] at h2
            cases h2
            rw [h3] at hs
            cases hs
          · next hs =>
            refine ⟨rfl, [_], rfl, fun a => ?_⟩
            rw [List.mem_singleton]
            constructor
            · rintro rfl
              exact ⟨ht, hown, eon, ekg, he, hf, by simpa using hs, rfl⟩
            · rintro ⟨_, _, _, _, h1, h2, _, h4⟩
              rw [he] at h1
              cases h1
              rw [hf] at h2
              cases h2
              exact h4

theorem publishLoop_exact {cx : Cfg G1 G2 GT R} {sh : Observe.Shutter} {mc : MainChain} : ∀ {l : List Nat} {d d' : Decider G1 G2},
    l.foldlM (publishStep cx sh mc) d = some d' → d'.st = d.st ∧ ∃ new, d'.actions = d.actions ++ new ∧
      ∀ a, a ∈ new ↔ ∃ b ∈ l, Publishes cx sh mc d.st b a := by
  intro l
  induction l with
  | nil => intro d d' h; cases h; exact ⟨rfl, [], by simp, by simp⟩
  | cons b l ih =>
    intro d d' h
    rw [List.foldlM_cons] at h
    simp only [Option.bind_eq_bind, Option.bind_eq_some_iff] at h
    obtain ⟨d1, h1, h2⟩ := h
    obtain ⟨s1, n1, a1, m1⟩ := publishStep_exact h1
    obtain ⟨s2, n2, a2, m2⟩ := ih h2
    refine ⟨s2.trans s1, n1 ++ n2, by rw [a2, a1, List.append_assoc], fun a => ?_⟩
    rw [List.mem_append, m1, m2, s1]
    simp

theorem publishLoop_some {cx : Cfg G1 G2 GT R} {sh : Observe.Shutter} {mc : MainChain} : ∀ {l : List Nat} {d d' : Decider G1 G2},
    l.foldlM (publishStep cx sh mc) d = some d' → ∀ b ∈ l, ∃ t, executionTimeoutReachedOrInactive mc b = some t := by
  intro l
  induction l with
  | nil => simp
  | cons x l ih =>
    intro d d' h b hb
    rw [List.foldlM_cons] at h
    simp only [Option.bind_eq_bind, Option.bind_eq_some_iff] at h
    obtain ⟨d1, h1, h2⟩ := h
    rcases List.mem_cons.1 hb with rfl | hb
    · unfold publishStep at h1
      rw [Option.map_eq_some_iff] at h1
      obtain ⟨t, ht, _⟩ := h1
      exact ⟨t, ht⟩
    · exact ih h2 b hb

theorem publish_exact {cx : Cfg G1 G2 GT R} {sh : Observe.Shutter} {mc : MainChain} {d d' : Decider G1 G2}
    (h : publishEpochSecretKeyShares cx sh mc d = some d') : d'.st = { d.st with nextEpochSecretShare := d'.st.nextEpochSecretShare } ∧
      (∀ b, d.st.nextEpochSecretShare ≤ b → b < d'.st.nextEpochSecretShare → ∃ t, executionTimeoutReachedOrInactive mc b = some t) ∧
      ∃ new, d'.actions = d.actions ++ new ∧
        ∀ a, a ∈ new ↔ ∃ b, d.st.nextEpochSecretShare ≤ b ∧ b < d'.st.nextEpochSecretShare ∧ Publishes cx sh mc d.st b a := by
  unfold publishEpochSecretKeyShares at h
  simp only [Option.bind_eq_bind, Option.bind_eq_some_iff] at h
  obtain ⟨i, _, bc, _, h⟩ := h
  split at h
  · cases h
    exact ⟨rfl, fun b _ _ => by omega, [], by simp, fun a => by simp; omega⟩
  · simp only [Option.bind_eq_some_iff, Option.some.injEq] at h
    obtain ⟨current, _, d1, h1, rfl⟩ := h
    obtain ⟨s1, n1, a1, m1⟩ := publishLoop_exact h1
    refine ⟨by simp only [s1], fun b h2 h3 => publishLoop_some h1 b (by simp only [List.mem_range'_1]; simp only at h3; omega), n1, a1, fun a => ?_⟩
    rw [m1]
    simp only [List.mem_range'_1]
    constructor
    · rintro ⟨b, ⟨h1, h2⟩, h3⟩
      exact ⟨b, h1, by omega, h3⟩
    · rintro ⟨b, h1, h2, h3⟩
      exact ⟨b, ⟨h1, by omega⟩, h3⟩

theorem findEKG_congr {st st' : State G1 G2} (h : st.ekgs = st'.ekgs) (e : Nat) : findEKG st e = findEKG st' e := by
  unfold findEKG
  rw [h]

end

section
variable [AddCommGroup G1] [AddCommGroup G2] [DecidableEq G2] [DecidableEq GT]

theorem share_round {cx : Cfg G1 G2 GT R} {sh : Observe.Shutter} {mc : MainChain} {keys : List Nat} {st st' : State G1 G2}
    {acts : List (Action G1 G2)} (h : decideStep cx sh mc keys st = some (st', acts)) (e b : Nat) (share : G1) :
    (.epochSecretKeyShare e b share ∈ acts ↔ st.nextEpochSecretShare ≤ b ∧ b < st'.nextEpochSecretShare ∧
      Publishes cx sh mc st' b (.epochSecretKeyShare e b share)) ∧
    (st.nextEpochSecretShare ≤ b → b < st'.nextEpochSecretShare → ∃ t, executionTimeoutReachedOrInactive mc b = some t) := by
  rcases decide_stages h with ⟨rfl, rfl⟩ | ⟨dkg, sync, pub, sigs, exec, app, acc, ekgs, g⟩
  · refine ⟨?_, fun _ _ => by omega⟩
    simp only [List.not_mem_nil, false_iff]
    rintro ⟨h1, h2, _⟩
    omega
  · obtain ⟨p1, pt, new, p2, p3⟩ := publish_exact g.hpub
    have hek := ekgs_final g
    have hnext : st'.nextEpochSecretShare = pub.st.nextEpochSecretShare := by
      rw [g.final]
      show acc.st.nextEpochSecretShare = _
      rw [(accuse_stage g.hacc).2, (appeal_stage g.happ).2, (exec_stage g.hexec).2, (handleSigs_stage g.hsigs).2]
    have hold : sync.st.nextEpochSecretShare = st.nextEpochSecretShare := by
      rw [(syncEKGs_stage g.hsync).2]
      obtain ⟨_, _, _, _, _, h⟩ := g.hdkg
      rw [h]
    have hf := g.filter .share
    simp only at hf
    have hsy : ∀ a ∈ sync.actions, a.kind ≠ .share := by
      have e1 := (syncEKGs_stage g.hsync).1
      intro a ha hk
      have : a ∈ sync.actions.filter (fun a => a.kind = .share) := by simp [ha, hk]
      rw [e1.filter_ne (by decide)] at this
      simp only [List.mem_filter, decide_eq_true_eq] at this
      rcases g.hkind a this.1 with h | h | h <;> rw [h] at hk <;> cases hk
    have hm : .epochSecretKeyShare e b share ∈ acts ↔ .epochSecretKeyShare e b share ∈ new := by
      have a1 : .epochSecretKeyShare e b share ∈ acts ↔ .epochSecretKeyShare e b share ∈ acts.filter (fun a => a.kind = .share) := by
        simp only [List.mem_filter, decide_eq_true_eq]
        exact ⟨fun h => ⟨h, rfl⟩, fun h => h.1⟩
      rw [a1, hf]
      simp only [List.mem_filter, decide_eq_true_eq, p2, List.mem_append]
      constructor
      · rintro ⟨h | h, _⟩
        · exact absurd rfl (hsy _ h)
        · exact h
      · intro h
        exact ⟨Or.inr h, rfl⟩
    refine ⟨?_, by rw [hnext, ← hold]; exact pt b⟩
    rw [hm, p3]
    simp only [hold, hnext]
    constructor
    · rintro ⟨b', h1, h2, h3, h4, eon, ekg, h5, h6, h7, h8⟩
      have : b' = b := by cases h8; rfl
      subst this
      exact ⟨h1, h2, h3, h4, eon, ekg, h5, Eq.trans (findEKG_congr hek eon.eon) h6, h7, h8⟩
    · rintro ⟨h1, h2, h3, h4, eon, ekg, h5, h6, h7, h8⟩
      exact ⟨b, h1, h2, h3, h4, eon, ekg, h5, Eq.trans (findEKG_congr hek.symm eon.eon) h6, h7, h8⟩

end

open Shutter.Sol (NoneTakenBack BatchConfig Responsible two64) in
/-- Whether a batch has timed out, in terms of the contracts. -/
theorem timeout_world {E : Sol.Env} {fd : Nat} {mc : MainChain} {hist : Nat → World} (o : Observed E fd false mc hist)
    (hn : NoneTakenBack hist mc.currentBlock) {b : Nat} (hf : (hist mc.currentBlock).Fits b) {t : Bool}
    (h : executionTimeoutReachedOrInactive mc b = some t) :
    t = false ↔ ∃ bc start stop timeout, (hist mc.currentBlock).HasBatch b bc start stop timeout ∧ mc.currentBlock + 1 < timeout := by
  have hinv := (o.chain.reach o.current).preach.inv
  unfold executionTimeoutReachedOrInactive at h
  rw [Option.bind_eq_bind, Option.bind_eq_some_iff] at h
  obtain ⟨oc, hc, h⟩ := h
  cases oc with
  | none =>
    cases h
    simp only [Bool.true_eq_false, false_iff, not_exists, not_and]
    rintro bc start stop timeout ⟨i, h1, h2, h3⟩
    obtain ⟨bc', g1, g2, _⟩ := Sol.Config.boundary_iff.1 h3
    exfalso
    have hr := (hinv.lookup_iff _ i).1 h1
    obtain ⟨⟨x, hx, hx'⟩, hlast⟩ := hr
    have hil := (List.getElem?_eq_some_iff.1 hx).1
    rw [Sol.Config.configs_get hil, hx] at g1
    obtain rfl : x = bc' := Option.some.inj g1
    unfold configForBatchIndex configIndexForBatchIndex at hc
    rw [Option.map_eq_some_iff] at hc
    obtain ⟨o', k1, k2⟩ := hc
    split at k1
    · cases k1
    · next j hj =>
      have g := Sol.last_find mc.configs (fun c => decide (c.startBatchIndex ≤ b))
      rw [hj] at g
      obtain ⟨⟨c, q1, q1'⟩, q2⟩ := g
      rcases configView o hn with hv | hv
      · rw [hv] at q1; simp at q1
      · have hcj := q1
        rw [hv, List.getElem?_map, Option.map_eq_some_iff] at q1
        obtain ⟨y, hy, rfl⟩ := q1
        have hij : j = i := by
          rcases Nat.lt_trichotomy j i with hlt | rfl | hlt
          · have := q2 i (known x) hlt (by rw [hv, List.getElem?_map, hx]; rfl)
            exact absurd hx' (of_decide_eq_false this)
          · rfl
          · have := hlast j y hlt hy
            exact absurd (of_decide_eq_true q1') (by show ¬ y.startBatchIndex ≤ b; omega)
        subst hij
        rw [hx] at hy
        cases hy
        rw [if_pos (by rw [hcj]; simp only [Option.any_some, GoConfig.isActive, known]; exact decide_eq_true g2)] at k1
        cases k1
        simp [hcj] at k2
  | some config =>
    simp only [Option.bind_eq_bind, Option.bind_eq_some_iff, Option.some.injEq] at h
    obtain ⟨e, he, rfl⟩ := h
    obtain ⟨i, bc, hr, hbc, rfl, hact⟩ := config_of o hn hc
    obtain ⟨hk, hfit⟩ := hf i bc hr hbc
    have hstart : bc.startBatchIndex ≤ b := by
      obtain ⟨⟨x, hx, hx'⟩, _⟩ := hr
      rw [hbc] at hx; cases hx; exact hx'
    have he' := endBlock_of hstart (by omega) he
    subst he'
    have hil : i < (hist mc.currentBlock).config.scheduled.length := (List.getElem?_eq_some_iff.1 hbc).1
    have hg : (hist mc.currentBlock).config.configs[i]? = some bc := by rw [Sol.Config.configs_get hil]; exact hbc
    have hB : (hist mc.currentBlock).HasBatch b bc (if b = bc.startBatchIndex then bc.nominalStart b else bc.nominalStart b - bc.batchSpan) (bc.nominalEnd b)
        (bc.nominalEnd b + bc.executionTimeout) := by
      refine ⟨i, (hinv.lookup_iff _ i).2 hr, ?_, Sol.Config.boundary_iff.2 ⟨bc, hg, hact, hstart, rfl, rfl, hfit, rfl⟩⟩
      unfold Sol.Config.scheduledConfig
      simp only [Option.bind_eq_bind, Option.bind_eq_some_iff, Sol.require_eq_some]
      exact ⟨(), by simp only [Sol.Config.numConfigs, Sol.Config.configs, List.length_append, List.length_singleton]; omega, hg⟩
    have hpos : 0 < bc.nominalEnd b := by
      unfold BatchConfig.nominalEnd
      omega
    have ht : GoConfig.wadd (GoConfig.wadd (bc.nominalEnd b) (known bc).executionTimeout) (two64 - 1) = bc.nominalEnd b + bc.executionTimeout - 1 := by
      rw [(known_fields bc).2.2.2.1]
      unfold GoConfig.wadd
      rw [Nat.mod_eq_of_lt hfit]
      have : bc.nominalEnd b + bc.executionTimeout + (two64 - 1) = bc.nominalEnd b + bc.executionTimeout - 1 + two64 := by
        have : 1 ≤ two64 := by unfold two64; norm_num
        omega
      rw [this, Nat.add_mod_right, Nat.mod_eq_of_lt (by omega)]
    rw [ht, decide_eq_false_iff_not]
    constructor
    · intro h
      exact ⟨bc, _, _, _, hB, by omega⟩
    · rintro ⟨bc', s', e', t', hB', hlt⟩
      obtain ⟨_, _, _, rfl⟩ := Sol.HasBatch.unique hB hB'
      omega

end Shutter.Decide
