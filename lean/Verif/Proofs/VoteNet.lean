import Verif.Proofs.VoteApp

set_option linter.unusedSectionVars false

/-! # What the keypers see of the configs of the application -/

namespace Shutter.Net
open Shutter.App Shutter.Events Shutter.Observe Shutter.Decide Shutter.Decide.Spec

variable {ps : Parsers} {dev : Bool} {log : List Rec} {s : App.State} {codecs : Codecs}

/-- The calls of the blocks below `next`. -/
def below (log : List Rec) (next : Int) : List Rec := ((stamp 1 log).takeWhile (fun p => decide ((p.1 : Int) < next))).map (·.2)

theorem stamp_snd (l : List Rec) : ∀ h, (stamp h l).map (·.2) = l := by
  induction l with
  | nil => intro h; rfl
  | cons r l ih => intro h; simp [stamp, ih]

theorem below_prefix (log : List Rec) (next : Int) : below log next <+: log := by
  have := (List.takeWhile_prefix (l := stamp 1 log) (fun p => decide ((p.1 : Int) < next))).map (·.2)
  rwa [stamp_snd] at this

theorem takeWhile_mono {α : Type} {p q : α → Bool} (h : ∀ x, p x = true → q x = true) (l : List α) : l.takeWhile p <+: l.takeWhile q := by
  induction l with
  | nil => exact List.prefix_rfl
  | cons a l ih =>
    by_cases ha : p a = true
    · rw [List.takeWhile_cons_of_pos ha, List.takeWhile_cons_of_pos (h a ha)]
      exact (List.prefix_cons_inj a).2 ih
    · rw [List.takeWhile_cons_of_neg ha]
      exact List.nil_prefix

theorem below_mono (log : List Rec) {n m : Int} (h : n ≤ m) : below log n <+: below log m := by
  unfold below
  refine List.IsPrefix.map _ (takeWhile_mono ?_ _)
  intro x hx
  simp only [decide_eq_true_eq] at hx ⊢
  omega

theorem below_before {x y : List Rec} {r : Rec} (hl : log = x ++ r :: y) {next : Int} (hn : next ≤ (heightAfter x : Int)) :
    below log next <+: x := by
  unfold below
  rw [hl, stamp_append, show 1 + x.countP (fun r => isEndBlock r.op) = heightAfter x by unfold heightAfter; omega]
  have : (stamp 1 x ++ stamp (heightAfter x) (r :: y)).takeWhile (fun p => decide ((p.1 : Int) < next)) <+: stamp 1 x := by
    generalize stamp 1 x = a
    induction a with
    | nil =>
      simp only [List.nil_append, stamp]
      rw [List.takeWhile_cons_of_neg (by simp; omega)]
    | cons b a ih =>
      rw [List.cons_append]
      by_cases hb : (b.1 : Int) < next
      · rw [List.takeWhile_cons_of_pos (by simpa using hb)]
        exact (List.prefix_cons_inj b).2 ih
      · rw [List.takeWhile_cons_of_neg (by simpa using hb)]
        exact List.nil_prefix
  have := this.map (·.2)
  rwa [stamp_snd] at this

theorem filter_takeWhile {α : Type} (f : α → Nat) (l : List α) (hs : l.Pairwise (fun p q => f p ≤ f q)) (n : Int) :
    l.filter (fun p => decide ((f p : Int) < n)) = l.takeWhile (fun p => decide ((f p : Int) < n)) := by
  induction l with
  | nil => rfl
  | cons a l ih =>
    rw [List.pairwise_cons] at hs
    by_cases ha : (f a : Int) < n
    · rw [List.filter_cons_of_pos (by simpa using ha), List.takeWhile_cons_of_pos (by simpa using ha), ih hs.2]
    · rw [List.filter_cons_of_neg (by simpa using ha), List.takeWhile_cons_of_neg (by simpa using ha), List.filter_eq_nil_iff]
      intro b hb
      have := hs.1 b hb
      simp only [decide_eq_true_eq]
      omega

theorem flatMap_seen (l : List (Nat × Rec)) : (l.flatMap seenOf).map (·.ev) = (allEvents (l.map (·.2))).filter (fun ev => !hidden ev) := by
  induction l with
  | nil => rfl
  | cons p l ih =>
    simp only [List.flatMap_cons, List.map_append, ih, allEvents, List.filter_append, List.map_cons]
    congr 1
    unfold seenOf
    simp [Function.comp_def]

theorem chainEvents_empty (chain : Observe.Chain) {n : Int} (h : n < 0) : chainEvents codecs chain 0 n = [] := by
  rw [List.eq_nil_iff_forall_not_mem]
  intro x hx
  have := chainEvents_heights _ _ hx
  omega

/-- The latest config a keyper has seen. -/
theorem latest_below (h : Exec ps dev log s) (fit : Codecs.Fit ps codecs) (sane : Sane log) (few : s.eonCounter + 1 < 2 ^ 64) (next : Int) :
    latestConfig codecs (appChain codecs log) next =
      ((announcedConfigs (allEvents (below log next))).getLast?).map (fun x => x.2.2.2) := by
  unfold latestConfig
  by_cases h0 : next - 1 < 0
  · rw [chainEvents_empty _ h0]
    have : below log next = [] := by
      unfold below
      rw [← filter_takeWhile (fun p : Nat × Rec => p.1) _ (stamp_sorted log 1)]
      have : (stamp 1 log).filter (fun p => decide ((p.1 : Int) < next)) = [] := by
        rw [List.filter_eq_nil_iff]
        intro p hp
        have := stamp_le hp
        simp only [decide_eq_true_eq]
        omega
      rw [this]
      rfl
    rw [this]
    rfl
  · rw [chain_seen h fit sane few _ (by omega)]
    have e : (stamp 1 log).filter (fun p => decide (p.1 < (next - 1).toNat + 1)) = (stamp 1 log).filter (fun p => decide ((p.1 : Int) < next)) := by
      congr 1
      funext p
      rw [decide_eq_decide]
      omega
    rw [e, filter_takeWhile (fun p : Nat × Rec => p.1) _ (stamp_sorted log 1), flatMap_seen, announced_visible]
    rfl

/-- The state after the first calls. -/
theorem Exec.prefix (h : Exec ps dev log s) {pre : List Rec} (hp : pre <+: log) : ∃ s1, Exec ps dev pre s1 ∧
    ((∃ c ∈ s1.configs, c.keypers ≠ []) → App.ids s1 <+: App.ids s) := by
  obtain ⟨t, rfl⟩ := hp
  cases t with
  | nil =>
    rw [List.append_nil] at h
    exact ⟨s, h, fun _ => List.prefix_rfl⟩
  | cons r t =>
    obtain ⟨h1, _⟩ := h.at rfl
    exact ⟨r.before, h1, (h.ids_mono r (by simp)).1⟩

/-- The latest config a keyper has seen is one of the application's, now and later. -/
theorem latest_config (h : Exec ps dev log s) (fit : Codecs.Fit ps codecs) (sane : Sane log) (few : s.eonCounter + 1 < 2 ^ 64) {next : Int}
    {j : Nat} (hj : latestConfig codecs (appChain codecs log) next = some j) {pre : List Rec} {t : App.State} (ht : Exec ps dev pre t)
    (hp : below log next <+: pre) : ∃ c ∈ (App.ids t).tail, c.configIndex = j := by
  rw [latest_below h fit sane few, Option.map_eq_some_iff] at hj
  obtain ⟨x, hx, rfl⟩ := hj
  obtain ⟨s1, h1, h2⟩ := Exec.prefix ht hp
  rw [h1.announced, List.getLast?_map, Option.map_eq_some_iff] at hx
  obtain ⟨c, hc, rfl⟩ := hx
  have hc' := List.mem_of_getLast? hc
  have hk : ∃ c ∈ s1.configs, c.keypers ≠ [] := by
    have inv := h1.inv
    have hm := List.mem_of_mem_tail hc'
    rcases inv.cfg.valid c hm with hv | ⟨hv, _⟩
    · obtain ⟨d, hd, rfl⟩ := List.mem_map.1 hm
      refine ⟨d, hd, fun h0 => ?_⟩
      simp [BatchConfig.ensureValid, h0] at hv
    · rw [hv] at hc'
      simp at hc'
  obtain ⟨rest, he⟩ := h2 hk
  refine ⟨c, ?_, rfl⟩
  rw [← he, List.tail_append_of_ne_nil (by rintro h0; rw [h0] at hc'; simp at hc')]
  exact List.mem_append_left _ hc'

variable {G1 G2 GT R : Type} [AddCommGroup G1] [AddCommGroup G2] [DecidableEq G2] [DecidableEq GT] {w : Wire G1 G2}
variable {cx : Cfg G1 G2 GT R} {E : Sol.Env} {fd : Nat} {sh : Observe.Shutter} {st : Decide.State G1 G2} {mc : Main.MainChain}
  {hist : Nat → Sol.World} {rounds : List (Main.MainChain × Round G1 G2)}

theorem vote_message {act : Action G1 G2} {v : BatchConfigMsg} (h : message w act = some (.batchConfig v)) :
    ∃ start ks t i, act = .batchConfig start ks t i ∧ v = ⟨start, ks, t, w.configContract, i, false, false⟩ := by
  cases act <;> simp [message] at h
  exact ⟨_, _, _, _, rfl, h.symm⟩

theorem Voter.round (V : Voter w cx codecs log E fd sh st mc hist rounds) {x : Main.MainChain × Round G1 G2} (hx : x ∈ rounds) :
    x.1.currentBlock ≤ mc.currentBlock ∧ Sol.NoneTakenBack hist x.1.currentBlock ∧
      (hist x.1.currentBlock).config.scheduled <+: (hist mc.currentBlock).config.scheduled := by
  have h := ((life_observed V.career.life).2 (x.1, x.2.sent) (List.mem_map.2 ⟨x, hx, rfl⟩)).2
  exact ⟨h, fun k m hk hm => V.kept k m hk (le_trans hm h), V.kept _ _ h le_rfl⟩

/-- A vote of the keyper, as sent. -/
theorem Voter.sent (V : Voter w cx codecs log E fd sh st mc hist rounds) {x : Main.MainChain × Round G1 G2} (hx : x ∈ rounds)
    {start : Nat} {ks : List Addr} {t i : Nat} (ha : .batchConfig start ks t i ∈ x.2.sent) :
    ∃ bc j, (hist mc.currentBlock).config.scheduled[i]? = some bc ∧ start = bc.startBatchIndex ∧ ks = keypersOf bc ∧ t = bc.threshold ∧
      latestConfig codecs (appChain codecs log) x.2.next = some j ∧ i = j + 1 := by
  obtain ⟨_, h2, h3⟩ := V.round hx
  obtain ⟨bc, j, g1, g2, g3, g4⟩ := vote_of V.career hx ha h2
  unfold voteFor at g2
  cases g2
  exact ⟨bc, j, App.prefix_getElem? h3 g1, rfl, rfl, rfl, g3, g4⟩

/-- A vote of the keyper, as accepted by the application. -/
theorem Voter.voted (V : Voter w cx codecs log E fd sh st mc hist rounds) (h : Exec ps dev log s) (fit : Codecs.Fit ps codecs) (sane : Sane log)
    (few : s.eonCounter + 1 < 2 ^ 64) {r : Rec} (hr : r ∈ log) {c : BatchConfig} (hv : r.ConfigVote cx.own c) (one : 1 < c.configIndex) :
    ∃ i bc, (hist mc.currentBlock).config.scheduled[i]? = some bc ∧
      c = ⟨bc.startBatchIndex, keypersOf bc, bc.threshold, w.configContract, i, false, false⟩ ∧ ∃ d ∈ (App.ids r.before).tail, d.configIndex + 1 = i := by
  obtain ⟨v, ⟨m, hm, hop, _⟩, asks⟩ := hv
  obtain ⟨pre, post, hl⟩ := List.append_of_mem hr
  obtain ⟨y, hy, act, hact, hmsg, hn⟩ := V.genuine pre r post m v hl hop hm (by rw [asks.index]; exact one)
  obtain ⟨x, hx, rfl⟩ := List.mem_map.1 hy
  rw [hm] at hmsg
  obtain ⟨start, ks, t, i, rfl, rfl⟩ := vote_message hmsg
  obtain ⟨bc, j, g1, rfl, rfl, rfl, g5, rfl⟩ := V.sent hx hact
  refine ⟨j + 1, bc, g1, ?_, ?_⟩
  · cases c
    obtain ⟨a1, a2, _, _, a3, a4, a5, a6, a7⟩ := asks
    simp only at a1 a2 a3 a4 a5 a6 a7
    rw [← a1, ← a2, ← a3, ← a4.1, ← a5, ← a6, ← a7]
  · obtain ⟨d, hd, he⟩ := latest_config h fit sane few g5 (h.at hl).1 (below_before hl hn)
    exact ⟨d, hd, by rw [he]⟩

/-- The call that accepted the config number `k + 1` (counting from zero). -/
theorem Exec.growth (h : Exec ps dev log s) {k : Nat} (hk : 1 ≤ k) (hlen : k + 1 ≤ s.configs.length) :
    ∃ pre r post, log = pre ++ r :: post ∧ r.before.configs.length = k ∧ r.after.configs.length = k + 1 := by
  induction h with
  | start => simp [newApp] at hlen; omega
  | @step log s o op s' r hE ho hs ih =>
    by_cases hl : k + 1 ≤ s.configs.length
    · obtain ⟨pre, r', post, h1, h2⟩ := ih hl
      exact ⟨pre, r', post ++ [⟨s, op, r, s'⟩], by rw [h1]; simp, h2⟩
    · have hle : s'.configs.length ≤ s.configs.length + 1 := by
        rcases step_frame hs with ⟨hf, _, _⟩ | ⟨a, m, d, _, _, _, _, he⟩
        · rw [hf.length]; omega
        · generalize m.msg = msg at he
          cases he with
          | configAdded m bc => simp [added, updateCheckTxMembers, withNonce]
          | configAddedDKG m bc => simp [added, updateCheckTxMembers, withNonce, App.startDKG]
          | _ => exact Nat.le_succ _
      exact ⟨log, ⟨s, op, r, s'⟩, [], by simp, by simp only; omega, by simp only; omega⟩

/-- Only the config of the genesis has number 0. -/
theorem Exec.index_one (h : Exec ps dev log s) {k : Nat} (hk : 1 ≤ k) {L : BatchConfig} (hL : s.configs[k]? = some L) : 1 ≤ L.configIndex := by
  have hL' : (App.ids s)[k]? = some L.erase := by simp [App.ids, hL]
  obtain ⟨x1, x2⟩ := List.getElem?_eq_some_iff.1 hL'
  have := List.pairwise_iff_getElem.1 h.inv.cfg.index 0 k (by omega) x1 (by omega)
  rw [x2] at this
  simp only [erase_index] at this
  omega

/-- A config but the first has keypers, is valid, and stays. -/
theorem Exec.stays (h : Exec ps dev log s) {r : Rec} (hr : r ∈ log) {k : Nat} (hk : 1 ≤ k) (hlen : k < r.before.configs.length) :
    App.ids r.before <+: App.ids s := by
  obtain ⟨pre, post, hl⟩ := List.append_of_mem hr
  have inv := (h.at hl).1.inv
  refine (h.ids_mono r hr).1 ?_
  have hk0 : k < (App.ids r.before).length := by simpa [App.ids] using hlen
  rcases inv.cfg.valid _ (List.getElem_mem hk0) with hv | ⟨hv, _⟩
  · refine ⟨r.before.configs[k], List.getElem_mem _, fun h0 => ?_⟩
    simp [App.ids, BatchConfig.ensureValid, h0] at hv
  · rw [hv] at hk0
    simp at hk0
    omega

end Shutter.Net
