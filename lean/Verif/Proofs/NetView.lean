import Verif.Proofs.NetApp
import Verif.Props.Driver

/-! # The keypers' view of the eons and configs of the application -/

namespace Shutter.Net
open Shutter.App Shutter.Events Shutter.Observe Shutter.Decide Shutter.Decide.Spec

variable {ps : Parsers} {dev : Bool} {log : List Rec} {s : State} {codecs : Codecs}

theorem stamp_append (a b : List Rec) : ∀ h, stamp h (a ++ b) = stamp h a ++ stamp (h + a.countP (fun r => isEndBlock r.op)) b := by
  induction a with
  | nil => intro h; simp [stamp]
  | cons r a ih =>
    intro h
    simp only [List.cons_append, stamp, ih, List.countP_cons]
    split
    · next hh => rw [show h + 1 + a.countP (fun r => isEndBlock r.op) = h + (a.countP (fun r => isEndBlock r.op) + 1) by omega]
    · next hh => simp

theorem stamp_pre {pre : List Rec} {p : Nat × Rec} (hp : p ∈ stamp 1 pre) : p.1 ≤ heightAfter pre := by
  obtain ⟨a, b, rfl, h⟩ := mem_stamp_one.1 hp
  rw [h]
  exact heightAfter_append _ _

/-- The events below a height, from a call on. -/
theorem chain_split (h : Exec ps dev log s) (fit : Codecs.Fit ps codecs) (sane : Sane log) (few : s.eonCounter + 1 < 2 ^ 64)
    {pre r post} (hl : log = pre ++ r :: post) {hi : Int} (hh : (heightAfter pre : Int) ≤ hi) :
    ∃ rest : List (Nat × Rec), (∀ p ∈ rest, p.2 ∈ post) ∧ chainEvents codecs (appChain codecs log) 0 hi =
      (stamp 1 pre).flatMap seenOf ++ (seenOf (heightAfter pre, r) ++ rest.flatMap seenOf) := by
  have h0 : 0 ≤ hi := by omega
  refine ⟨(stamp (if isEndBlock r.op then heightAfter pre + 1 else heightAfter pre) post).filter (fun p => decide (p.1 < hi.toNat + 1)), ?_, ?_⟩
  · intro p hp
    obtain ⟨a, b, h1, _⟩ := mem_stamp.1 (List.mem_filter.1 hp).1
    rw [h1]
    simp
  · rw [chain_seen h fit sane few hi h0]
    have e : stamp 1 log = stamp 1 pre ++ ((heightAfter pre, r) ::
        stamp (if isEndBlock r.op then heightAfter pre + 1 else heightAfter pre) post) := by
      rw [hl, stamp_append, show 1 + pre.countP (fun r => isEndBlock r.op) = heightAfter pre by unfold heightAfter; omega]
      rfl
    rw [e, List.filter_append, List.filter_cons_of_pos (by simp; omega), List.flatMap_append, List.flatMap_cons,
      List.filter_eq_self.2 (fun p hp => by have := stamp_pre hp; simp; omega)]

theorem seen_events (l : List Rec) : ∀ h, ((stamp h l).flatMap seenOf).map (·.ev) = (allEvents l).filter (fun ev => !hidden ev) := by
  induction l with
  | nil => intro h; rfl
  | cons r l ih =>
    intro h
    simp only [stamp, List.flatMap_cons, List.map_append, ih, allEvents, List.filter_append]
    congr 1
    unfold seenOf
    simp [Function.comp_def]

theorem announced_visible (l : List Event) : announcedConfigs (l.filter (fun ev => !hidden ev)) = announcedConfigs l := by
  induction l with
  | nil => rfl
  | cons ev l ih =>
    by_cases hh : hidden ev = true
    · rw [List.filter_cons_of_neg (by simp [hh]), ih]
      unfold hidden at hh
      split at hh
      · rfl
      · cases hh
    · rw [List.filter_cons_of_pos (by simp [hh])]
      unfold announcedConfigs at ih ⊢
      rw [List.filterMap_cons, List.filterMap_cons, ih]

theorem configFor_announced (evs : List Stamped) (b : Nat) : configFor evs b =
    (((announcedConfigs (evs.map (·.ev))).filter (fun x => decide (x.1 ≤ b))).getLast?).map (fun x => (x.2.2.1, x.2.1)) := by
  unfold configFor announcedConfigs
  rw [← List.getLast?_map]
  congr 1
  induction evs with
  | nil => rfl
  | cons x evs ih =>
    rw [List.map_cons, List.filterMap_cons, List.filterMap_cons]
    cases hx : x.ev with
    | batchConfig start t ks i =>
      simp only
      by_cases hb : start ≤ b
      · rw [if_pos hb, List.filter_cons_of_pos (by simpa using hb)]
        simp only [List.map_cons, ih]
      · rw [if_neg hb, List.filter_cons_of_neg (by simpa using hb)]
        simp only [ih]
    | _ => simp only [ih]

/-- The config in force, if it was announced. -/
theorem inForce_announced {s : State} (inv : Inv s) {b : Nat} {c : BatchConfig} (hf : InForce s.configs b c) (hc : c.configIndex ≠ 0) :
    (((ids s).tail.map announcement).filter (fun x => decide (x.1 ≤ b))).getLast? = some (announcement c) := by
  obtain ⟨a, z, h1, h2, h3⟩ := hf
  have hids : ids s = a.map BatchConfig.erase ++ c.erase :: z.map BatchConfig.erase := by simp [ids, h1]
  have ha : a.map BatchConfig.erase ≠ [] := by
    intro h0
    obtain ⟨c', rest, q1, _, q2⟩ := inv.cfg.first
    rw [hids, h0, List.nil_append, List.cons.injEq] at q1
    rw [← q1.1] at q2
    exact hc q2
  rw [hids, List.tail_append_of_ne_nil ha, List.map_append, List.map_cons, List.filter_append,
    List.filter_cons_of_pos (by exact decide_eq_true (show c.startBatchIndex ≤ b from h2))]
  have : ((z.map BatchConfig.erase).map announcement).filter (fun x => decide (x.1 ≤ b)) = [] := by
    rw [List.filter_eq_nil_iff]
    intro x hx
    simp only [List.map_map, List.mem_map, Function.comp] at hx
    obtain ⟨d, hd, rfl⟩ := hx
    have := h3 d hd
    rw [decide_eq_true_eq]
    show ¬ d.startBatchIndex ≤ b
    omega
  rw [this, List.getLast?_append, List.getLast?_singleton]
  rfl

/-- The config in force, if it was not. -/
theorem inForce_genesis {s : State} (inv : Inv s) {b : Nat} {c : BatchConfig} (hf : InForce s.configs b c) (hc : c.configIndex = 0) :
    ((ids s).tail.map announcement).filter (fun x => decide (x.1 ≤ b)) = [] := by
  obtain ⟨a, z, h1, h2, h3⟩ := hf
  have hids : ids s = a.map BatchConfig.erase ++ c.erase :: z.map BatchConfig.erase := by simp [ids, h1]
  have ha : a.map BatchConfig.erase = [] := by
    by_contra h0
    have hp := inv.cfg.index
    rw [hids, List.pairwise_append] at hp
    obtain ⟨x, hx⟩ := List.exists_mem_of_ne_nil _ h0
    have := hp.2.2 x hx c.erase (by simp)
    simp [hc] at this
  rw [hids, ha, List.nil_append, List.tail_cons, List.filter_eq_nil_iff]
  intro x hx
  simp only [List.map_map, List.mem_map, Function.comp] at hx
  obtain ⟨d, hd, rfl⟩ := hx
  have := h3 d hd
  rw [decide_eq_true_eq]
  show ¬ d.startBatchIndex ≤ b
  omega

theorem configFor_pre (h : Exec ps dev log s) {pre r post} (hl : log = pre ++ r :: post) (b : Nat) :
    configFor ((stamp 1 pre).flatMap seenOf ++ seenOf (heightAfter pre, r)) b =
      ((((ids r.after).tail.map announcement).filter (fun x => decide (x.1 ≤ b))).getLast?).map (fun x => (x.2.2.1, x.2.1)) := by
  have hx : Exec ps dev (pre ++ [r]) r.after := by
    obtain ⟨hE, o, ho, hst⟩ := h.at hl
    exact Exec.step o r.op r.after r.resp hE ho hst
  have e : ((stamp 1 pre).flatMap seenOf ++ seenOf (heightAfter pre, r)).map (·.ev) =
      (allEvents (pre ++ [r])).filter (fun ev => !hidden ev) := by
    rw [← seen_events (pre ++ [r]) 1, stamp_append, List.flatMap_append,
      show 1 + pre.countP (fun r => isEndBlock r.op) = heightAfter pre by unfold heightAfter; omega]
    simp [stamp]
  rw [configFor_announced, e, announced_visible, hx.announced]

theorem after_exec (h : Exec ps dev log s) {pre r post} (hl : log = pre ++ r :: post) : Exec ps dev (pre ++ [r]) r.after := by
  obtain ⟨hE, o, ho, hst⟩ := h.at hl
  exact Exec.step o r.op r.after r.resp hE ho hst

/-- The config the keypers find for an announced eon. -/
theorem announced_config (h : Exec ps dev log s) (fit : Codecs.Fit ps codecs) (sane : Sane log) (few : s.eonCounter + 1 < 2 ^ 64)
    {e b : Nat} {c : BatchConfig} {S : Nat} (an : Announced log e b c S) (settled : Settled log e) {seen : Int} (hs : (S : Int) ≤ seen) :
    configFor (chainEvents codecs (appChain codecs log) 0 seen) b = if c.configIndex = 0 then none else some (c.keypers, c.threshold) := by
  obtain ⟨pre, r, post, hl, hev, hst, rfl⟩ := an
  obtain ⟨_, hf, _⟩ := h.starts hl hev hst
  obtain ⟨rest, h1, h2⟩ := chain_split h fit sane few hl hs
  rw [h2, ← List.append_assoc, configFor_append, configFor_pre h hl]
  · split
    · next hc => rw [inForce_genesis (after_exec h hl).inv hf hc]; rfl
    · next hc => rw [inForce_announced (after_exec h hl).inv hf hc]; rfl
  · intro x hx start t ks i hxe
    obtain ⟨p, hp, hm⟩ := List.mem_flatMap.1 hx
    unfold seenOf at hm
    obtain ⟨ev, hev', rfl⟩ := List.mem_map.1 hm
    simp only at hxe
    subst hxe
    exact settled pre r post b hl hev p.2 (h1 p hp) start t ks i (List.mem_filter.1 hev').1

/-- The keypers see the announcement. -/
theorem announced_started (h : Exec ps dev log s) (fit : Codecs.Fit ps codecs) (sane : Sane log) (few : s.eonCounter + 1 < 2 ^ 64)
    {e b : Nat} {c : BatchConfig} {S : Nat} (an : Announced log e b c S) {hi : Int} (hs : (S : Int) ≤ hi) :
    Started (chainEvents codecs (appChain codecs log) 0 hi) e b S := by
  obtain ⟨pre, r, post, hl, hev, hst, rfl⟩ := an
  obtain ⟨rest, h1, h2⟩ := chain_split h fit sane few hl hs
  obtain ⟨l1, l2, hr⟩ := List.append_of_mem hev
  refine ⟨(stamp 1 pre).flatMap seenOf ++ (l1.filter (fun ev => !hidden ev)).map (fun ev => ⟨(heightAfter pre : Int), ev⟩),
    (l2.filter (fun ev => !hidden ev)).map (fun ev => ⟨(heightAfter pre : Int), ev⟩) ++ rest.flatMap seenOf, ?_, ?_⟩
  · rw [h2]
    unfold seenOf
    simp only [hr, List.filter_append, List.map_append]
    rw [List.filter_cons_of_pos (by rfl), List.map_cons]
    simp only [List.append_assoc, List.cons_append]
  · intro y hy e' b' hye
    have hin : Event.eonStarted e' b' ∈ allEvents pre ++ l1 := by
      rcases List.mem_append.1 hy with hy | hy
      · have : y.ev ∈ ((stamp 1 pre).flatMap seenOf).map (·.ev) := List.mem_map_of_mem hy
        rw [seen_events, hye] at this
        exact List.mem_append_left _ (List.mem_filter.1 this).1
      · obtain ⟨ev, he, rfl⟩ := List.mem_map.1 hy
        simp only at hye
        subst hye
        exact List.mem_append_right _ (List.mem_filter.1 he).1
    have he := (after_exec h hl).eons.1
    rw [events_concat, hr, ← List.append_assoc, eonsOf_append] at he
    have hsort : (eonsOf (allEvents pre ++ l1) ++ eonsOf (.eonStarted e b :: l2)).Pairwise (· < ·) := by
      rw [he]
      exact List.pairwise_lt_range'
    refine (List.pairwise_append.1 hsort).2.2 e' ?_ e ?_
    · unfold eonsOf
      exact List.mem_filterMap.2 ⟨_, hin, rfl⟩
    · unfold eonsOf
      exact List.mem_filterMap.2 ⟨.eonStarted e b, by simp, rfl⟩

theorem later_post {pre pre' post post' : List Rec} {r r' : Rec} (h : pre ++ r :: post = pre' ++ r' :: post')
    (hh : heightAfter pre < heightAfter pre') : r' ∈ post := by
  rcases List.append_eq_append_iff.1 h with ⟨l, h1, h2⟩ | ⟨l, h1, h2⟩
  · cases l with
    | nil => simp only [List.append_nil] at h1; rw [h1] at hh; omega
    | cons x l =>
      simp only [List.cons_append, List.cons.injEq] at h2
      rw [h2.2]
      simp
  · have := heightAfter_append pre' l
    rw [← h1] at this
    omega

/-- No config for the eon follows. -/
theorem announced_settled (h : Exec ps dev log s) (fit : Codecs.Fit ps codecs) (sane : Sane log) (few : s.eonCounter + 1 < 2 ^ 64)
    {e b : Nat} {c : BatchConfig} {S : Nat} (an : Announced log e b c S) (settled : Settled log e) :
    Decide.Props.ConfigSettled codecs (appChain codecs log) b S := by
  obtain ⟨pre, r, post, hl, hev, hst, rfl⟩ := an
  intro n x hx hxs start t ks i hxe
  obtain ⟨_, hp⟩ := published_iff.1 hx
  rw [hxe] at hp
  obtain ⟨_, pre', r', post', hl', hev', hh⟩ := (published_app h fit sane few _ _).1 hp
  exact settled pre r post b hl hev r' (later_post (hl.symm.trans hl') (by omega)) start t ks i hev'

end Shutter.Net
