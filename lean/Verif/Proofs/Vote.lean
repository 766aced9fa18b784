import Verif.Spec.Vote
import Verif.Proofs.Life
import Verif.Proofs.DriverReach
import Verif.Proofs.NetView
import Verif.Proofs.AppQuorum

set_option linter.unusedSectionVars false

/-! # The votes of a keyper for batch configs -/

namespace Shutter.Main
open Shutter.GoConfig (dedupGo)

theorem dedup_snoc {α : Type} [DecidableEq α] (l : List α) (a : α) : (l ++ [a]).dedup = (l.filter (fun x => decide (x ≠ a))).dedup ++ [a] := by
  induction l with
  | nil => simp
  | cons b l ih =>
    rw [List.cons_append]
    by_cases hb : b = a
    · subst hb
      rw [List.dedup_cons_of_mem (by simp), ih, List.filter_cons_of_neg (by simp)]
    · rw [List.filter_cons_of_pos (by simpa using hb)]
      by_cases hm : b ∈ l
      · rw [List.dedup_cons_of_mem (by simp [hm]), ih, List.dedup_cons_of_mem (by simp [hm, hb])]
      · rw [List.dedup_cons_of_notMem (by simp [hm, hb]), ih, List.dedup_cons_of_notMem (by simp [hm])]
        rfl

theorem dedupGo_eq (l : List Sol.Address) : ∀ seen, dedupGo seen l = ((l.filter (fun x => decide (x ∉ seen))).reverse.dedup).reverse := by
  induction l with
  | nil => intro seen; simp [dedupGo]
  | cons a l ih =>
    intro seen
    unfold dedupGo
    by_cases h : a ∈ seen
    · rw [if_pos (by simpa using h), ih, List.filter_cons_of_neg (by simpa using h)]
    · rw [if_neg (by simpa using h), ih, List.filter_cons_of_pos (by simpa using h), List.reverse_cons, dedup_snoc]
      simp only [List.reverse_append, List.reverse_cons, List.reverse_nil, List.nil_append, List.singleton_append, List.cons.injEq, true_and]
      rw [← List.filter_reverse, ← List.filter_reverse, List.filter_filter]
      congr 2
      congr 1
      funext x
      by_cases h1 : x = a <;> by_cases h2 : x ∈ seen <;> simp [h1, h2]

end Shutter.Main

namespace Shutter.Decide
open Shutter.Crypto Shutter.Dkg Shutter.Observe Shutter.Main Shutter.Sol
open Shutter.Events (Codecs)
open Shutter.App (announcedConfigs)
open Shutter.Observe.Props (seenEvents runLoop_inv_some)

variable {G1 G2 GT R : Type} [AddCommGroup G1] [AddCommGroup G2] [DecidableEq G2] [DecidableEq GT]
variable {cx : Cfg G1 G2 GT R} {codecs : Codecs} {chain : Observe.Chain} {E : Sol.Env} {fd : Nat}

theorem known_vote (bc : BatchConfig) : (known bc).keypers.map (World.beBytes · 20) = keypersOf bc := by
  unfold known keypersOf
  simp only
  rw [dedupGo_eq]
  simp

theorem Career.life {s : Observe.Shutter} {st : State G1 G2} {mc : MainChain} {hist : Nat → World}
    {rounds : List (MainChain × Round G1 G2)} (l : Career cx codecs chain E fd s st mc hist rounds) :
    Life cx codecs chain E fd s st mc hist (rounds.map (fun e => (e.1, e.2.sent))) := by
  induction l with
  | init h => exact .init h
  | round _ h1 h2 h3 h4 h5 h6 ih =>
    rw [List.map_append]
    exact .round ih h1 h2 h3 h4 h5 h6
  | restart f _ ih => exact .restart f ih

theorem Career.loop {s : Observe.Shutter} {st : State G1 G2} {mc : MainChain} {hist : Nat → World}
    {rounds : List (MainChain × Round G1 G2)} (l : Career cx codecs chain E fd s st mc hist rounds) :
    ∃ xs, runLoop codecs chain newShutter xs = some s := by
  induction l with
  | init h => exact ⟨[], rfl⟩
  | round _ h1 _ _ _ _ _ ih =>
    obtain ⟨xs, hx⟩ := ih
    exact ⟨xs ++ _, runLoop_append hx h1⟩
  | restart f _ ih => exact ih

theorem configs_seen (evs : List Stamped) : (configEvents evs).filterMap Stamped.config =
    (announcedConfigs (evs.map (·.ev))).map (fun x => ⟨x.1, x.2.1, x.2.2.1, x.2.2.2⟩) := by
  unfold configEvents announcedConfigs
  induction evs with
  | nil => rfl
  | cons x evs ih =>
    rw [List.map_cons, List.filterMap_cons, List.filter_cons]
    rcases x with ⟨ht, ev⟩
    cases ev <;> simp [Stamped.config, ih]

/-- What the keyper takes for the latest config. -/
theorem latest_seen {s : Observe.Shutter} {xs : List LoopStep} (h : runLoop codecs chain newShutter xs = some s) :
    ((Observe.configs s).getLast?).map (·.configIndex) = latestConfig codecs chain (s.currentBlock + 1) := by
  obtain ⟨thr, b0, inv⟩ := runLoop_inv_some h
  unfold Observe.configs latestConfig
  rw [inv.configs, configs_seen, List.getLast?_map, Option.map_map]
  unfold seenEvents
  rw [show s.currentBlock + 1 - 1 = s.currentBlock by omega]
  rfl

/-- The config the keyper should vote for in a round. -/
def dueVote (sh : Observe.Shutter) (mc : MainChain) (st : State G1 G2) : Option (Nat × BatchConfig) :=
  ((Observe.configs sh).getLast?).bind (fun last =>
    if GoConfig.wadd 1 last.configIndex ≤ st.lastSentBatchConfigIndex then none
    else (mc.configs[GoConfig.wadd 1 last.configIndex]?).map (fun bc => (GoConfig.wadd 1 last.configIndex, bc)))

theorem batchConfig_due (sh : Observe.Shutter) (mc : MainChain) (d : Decider G1 G2) :
    maybeSendBatchConfig sh mc d = match dueVote sh mc d.st with
      | none => d
      | some (i, bc) => { (d.add (.batchConfig bc.startBatchIndex (bc.keypers.map (World.beBytes · 20)) bc.threshold i)) with
          st := { d.st with lastSentBatchConfigIndex := i } } := by
  unfold maybeSendBatchConfig dueVote
  cases (Observe.configs sh).getLast? with
  | none => rfl
  | some last =>
    simp only [Option.bind_some]
    split
    · rfl
    · cases mc.configs[GoConfig.wadd 1 last.configIndex]? <;> rfl

theorem dueVote_congr {sh : Observe.Shutter} {mc : MainChain} {st st' : State G1 G2}
    (h : st'.lastSentBatchConfigIndex = st.lastSentBatchConfigIndex) : dueVote sh mc st' = dueVote sh mc st := by
  unfold dueVote
  rw [h]

/-- The votes of a round. -/
theorem votes_round {sh : Observe.Shutter} {mc : MainChain} {keys : List Nat} {st st' : State G1 G2} {acts : List (Action G1 G2)}
    (h : decideStep cx sh mc keys st = some (st', acts)) :
    match decides cx sh mc, dueVote sh mc st with
    | true, some (i, bc) => st'.lastSentBatchConfigIndex = i ∧ acts.filter (fun a => a.kind = .vote) =
        [.batchConfig bc.startBatchIndex (bc.keypers.map (World.beBytes · 20)) bc.threshold i]
    | _, _ => st'.lastSentBatchConfigIndex = st.lastSentBatchConfigIndex ∧ acts.filter (fun a => a.kind = .vote) = [] := by
  by_cases g : decides cx sh mc = true
  · have g' := g
    unfold decides at g'
    simp only [Bool.and_eq_true] at g'
    obtain ⟨dkg, sync, pub, sigs, exec, app, acc, ekgs, S⟩ := decide_ready h g'.1.1 g'.1.2 g'.2
    have hf := S.filter .vote
    simp only at hf
    have hs : st'.lastSentBatchConfigIndex = dkg.st.lastSentBatchConfigIndex := by
      rw [S.final, (accuse_stage S.hacc).2, (appeal_stage S.happ).2, (exec_stage S.hexec).2, (handleSigs_stage S.hsigs).2,
        (publish_emits S.hpub).2]
      simp only
      rw [(syncEKGs_stage S.hsync).2]
    obtain ⟨k1, x, y, z, k2⟩ := decideDKGs_stage S.hfirst
    obtain ⟨c1, c2⟩ := checkIn_stage cx sh ⟨st, []⟩
    have hlast : (maybeSendCheckIn cx sh ⟨st, []⟩).st.lastSentBatchConfigIndex = st.lastSentBatchConfigIndex := by rw [c2]
    have hnil : (maybeSendCheckIn cx sh ⟨st, []⟩).actions.filter (fun a => a.kind = .vote) = [] := by
      rw [c1.filter_ne (by decide)]
      rfl
    rw [hs, hf, k1.filter_ne (by decide), k2, batchConfig_due, dueVote_congr hlast, g]
    cases dueVote sh mc st with
    | none => exact ⟨hlast, hnil⟩
    | some p =>
      refine ⟨rfl, ?_⟩
      simp only [Decider.add]
      rw [List.filter_append, hnil]
      rfl
  · have g0 : decides cx sh mc = false := by simpa using g
    rw [g0]
    rcases decide_stages h with ⟨rfl, rfl⟩ | ⟨_, _, _, _, _, _, _, _, S⟩
    · exact ⟨rfl, rfl⟩
    · exfalso
      apply g
      obtain ⟨a, b, c⟩ := S.ready
      simp [decides, a, b, c]

theorem numbersVoted_filter (acts : List (Action G1 G2)) : numbersVoted acts = numbersVoted (acts.filter (fun a => a.kind = .vote)) := by
  unfold numbersVoted
  induction acts with
  | nil => rfl
  | cons a acts ih => cases a <;> simpa [List.filterMap_cons, List.filter_cons, Action.kind] using ih

theorem mem_vote {acts : List (Action G1 G2)} {start : Nat} {ks : List App.Addr} {t i : Nat}
    (h : .batchConfig start ks t i ∈ acts) : .batchConfig start ks t i ∈ acts.filter (fun a => a.kind = .vote) := by
  rw [List.mem_filter]
  exact ⟨h, rfl⟩

/-- What is known of the votes so far. -/
theorem career_votes {s : Observe.Shutter} {st : State G1 G2} {mc : MainChain} {hist : Nat → World}
    {rounds : List (MainChain × Round G1 G2)} (l : Career cx codecs chain E fd s st mc hist rounds) :
    (rounds.flatMap (fun e => numbersVoted e.2.sent)).Pairwise (· < ·) ∧
    (∀ i ∈ rounds.flatMap (fun e => numbersVoted e.2.sent), i ≤ st.lastSentBatchConfigIndex) ∧
    (st.lastSentBatchConfigIndex = 0 ∨ st.lastSentBatchConfigIndex ∈ rounds.flatMap (fun e => numbersVoted e.2.sent)) := by
  induction l with
  | init h => exact ⟨.nil, by simp, .inl rfl⟩
  | @round s s' st st' mc mc' hist hist' rounds ys keys acts _ h1 h2 h3 h4 h5 h6 ih =>
    obtain ⟨i1, i2, i3⟩ := ih
    have hv := votes_round h6
    rw [List.flatMap_append, List.flatMap_singleton]
    have hempty : st'.lastSentBatchConfigIndex = st.lastSentBatchConfigIndex ∧ acts.filter (fun a => a.kind = .vote) = [] →
        (rounds.flatMap (fun e => numbersVoted e.2.sent) ++ numbersVoted acts).Pairwise (· < ·) ∧
        (∀ i ∈ rounds.flatMap (fun e => numbersVoted e.2.sent) ++ numbersVoted acts, i ≤ st'.lastSentBatchConfigIndex) ∧
        (st'.lastSentBatchConfigIndex = 0 ∨ st'.lastSentBatchConfigIndex ∈ rounds.flatMap (fun e => numbersVoted e.2.sent) ++ numbersVoted acts) := by
      intro ⟨a, b⟩
      rw [numbersVoted_filter acts, b, a]
      simp only [numbersVoted, List.filterMap_nil, List.append_nil]
      exact ⟨i1, i2, i3⟩
    cases hd : decides cx s' mc' with
    | false =>
      rw [hd] at hv
      exact hempty hv
    | true =>
      rw [hd] at hv
      cases hdue : dueVote s' mc' st with
      | none =>
        rw [hdue] at hv
        exact hempty hv
      | some p =>
        obtain ⟨i, bc⟩ := p
        rw [hdue] at hv
        simp only at hv
        have hlt : st.lastSentBatchConfigIndex < i := by
          unfold dueVote at hdue
          rw [Option.bind_eq_some_iff] at hdue
          obtain ⟨last, _, hdue⟩ := hdue
          split at hdue
          · cases hdue
          · next hh =>
            rw [Option.map_eq_some_iff] at hdue
            obtain ⟨_, _, he⟩ := hdue
            cases he
            omega
        rw [numbersVoted_filter acts, hv.2, hv.1]
        simp only [numbersVoted, List.filterMap_cons, List.filterMap_nil]
        refine ⟨?_, ?_, by simp⟩
        · rw [List.pairwise_append]
          refine ⟨i1, by simp, ?_⟩
          intro a ha b hb
          simp only [List.mem_singleton] at hb
          subst hb
          exact lt_of_le_of_lt (i2 a ha) hlt
        · intro j hj
          rw [List.mem_append, List.mem_singleton] at hj
          rcases hj with hj | rfl
          · exact le_of_lt (lt_of_le_of_lt (i2 j hj) hlt)
          · exact le_refl _
  | restart f _ ih =>
    obtain ⟨i1, i2, i3⟩ := ih
    unfold loadState
    split
    · exact ⟨i1, i2, i3⟩
    · exact ⟨i1, i2, i3⟩

/-- Where the rounds of a career come from. -/
theorem career_round {s : Observe.Shutter} {st : State G1 G2} {mc : MainChain} {hist : Nat → World}
    {rounds : List (MainChain × Round G1 G2)} (l : Career cx codecs chain E fd s st mc hist rounds) {before : List (MainChain × Round G1 G2)}
    {e : MainChain × Round G1 G2} {after : List (MainChain × Round G1 G2)} (h : rounds = before ++ e :: after) :
    ∃ s0 st0 mc0 hist0 s1 st1 keys, Career cx codecs chain E fd s0 st0 mc0 hist0 before ∧
      (∃ xs, runLoop codecs chain newShutter xs = some s1) ∧ decideStep cx s1 e.1 keys st0 = some (st1, e.2.sent) ∧
      e.2.next = s1.currentBlock + 1 ∧ e.2.deciding = decides cx s1 e.1 := by
  induction l generalizing after with
  | init _ => simp at h
  | @round s s' st st' mc mc' hist hist' rounds ys keys acts l h1 h2 h3 h4 h5 h6 ih =>
    rcases List.eq_nil_or_concat after with rfl | ⟨after', x, rfl⟩
    · obtain ⟨hb, he⟩ := List.append_inj' h rfl
      cases he
      subst hb
      obtain ⟨xs, hx⟩ := l.loop
      exact ⟨_, _, _, _, _, _, _, l, ⟨_, runLoop_append hx h1⟩, h6, rfl, rfl⟩
    · have : rounds ++ [(mc', (⟨decides cx s' mc', s'.currentBlock + 1, acts⟩ : Round G1 G2))] = (before ++ e :: after') ++ [x] := by
        rw [h]; simp
      have := List.append_inj' this rfl
      exact ih this.1
  | restart _ _ ih => exact ih h

theorem parseUint_lt {t : Events.Text} {n : Nat} (h : Events.parseUint t = some n) : n < 2 ^ 64 := by
  unfold Events.parseUint at h
  split at h
  · cases h
  · split at h
    · cases h
    · split at h
      · next hlt => cases h; exact hlt
      · cases h

theorem makeEvent_index {x : Events.AbciEvent} {b t i : Nat} {ks : List App.Addr} (h : Events.makeEvent codecs x = some (.batchConfig b t ks i)) :
    i < 2 ^ 64 := by
  unfold Events.makeEvent at h
  repeat' split at h
  all_goals
    simp only [Option.bind_eq_bind, Option.bind_eq_some_iff, Option.pure_def, Option.some.injEq, reduceCtorEq, and_false, exists_false] at h
  obtain ⟨_, _, _, _, _, _, i', h1, h2⟩ := h
  cases h2
  exact parseUint_lt h1

theorem latest_lt {next : Int} {j : Nat} (h : latestConfig codecs chain next = some j) : j < 2 ^ 64 := by
  unfold latestConfig at h
  rw [Option.map_eq_some_iff] at h
  obtain ⟨x, hx, rfl⟩ := h
  have := List.mem_of_getLast? hx
  unfold announcedConfigs at this
  rw [List.mem_filterMap] at this
  obtain ⟨ev, hev, he⟩ := this
  obtain ⟨y, hy, rfl⟩ := List.mem_map.1 hev
  cases hh : y.ev <;> rw [hh] at he <;> simp only [reduceCtorEq, Option.some.injEq] at he
  subst he
  obtain ⟨h1, x, hx1, hx2⟩ := (published_iff.1 hy).2
  rw [hh] at hx2
  exact makeEvent_index hx2

/-- A vote is for the config after the latest one seen, as scheduled on the main chain. -/
theorem vote_of {s : Observe.Shutter} {st : State G1 G2} {mc : MainChain} {hist : Nat → World}
    {rounds : List (MainChain × Round G1 G2)} (l : Career cx codecs chain E fd s st mc hist rounds) {e : MainChain × Round G1 G2}
    (he : e ∈ rounds) {start : Nat} {ks : List App.Addr} {t i : Nat} (hv : .batchConfig start ks t i ∈ e.2.sent)
    (kept : NoneTakenBack hist e.1.currentBlock) :
    ∃ bc j, (hist e.1.currentBlock).config.scheduled[i]? = some bc ∧ Action.batchConfig start ks t i = (voteFor i bc : Action G1 G2) ∧
      latestConfig codecs chain e.2.next = some j ∧ i = j + 1 := by
  obtain ⟨before, after, hr⟩ := List.append_of_mem he
  obtain ⟨s0, st0, mc0, hist0, s1, st1, keys, l0, ⟨xs, hx⟩, hd, hn, hdec⟩ := career_round l hr
  have hobs := ((life_observed l.life).2 (e.1, e.2.sent) (List.mem_map.2 ⟨e, he, rfl⟩)).1
  have hvr := votes_round hd
  have hm := mem_vote hv
  have hcases : ∃ bc, decides cx s1 e.1 = true ∧ dueVote s1 e.1 st0 = some (i, bc) ∧
      Action.batchConfig start ks t i = (Action.batchConfig bc.startBatchIndex (bc.keypers.map (World.beBytes · 20)) bc.threshold i : Action G1 G2) := by
    cases hdd : decides cx s1 e.1 with
    | false =>
      rw [hdd] at hvr
      rw [hvr.2] at hm
      cases hm
    | true =>
      cases hdue : dueVote s1 e.1 st0 with
      | none =>
        rw [hdd, hdue] at hvr
        rw [hvr.2] at hm
        cases hm
      | some p =>
        obtain ⟨i', bc⟩ := p
        rw [hdd, hdue] at hvr
        simp only at hvr
        rw [hvr.2, List.mem_singleton] at hm
        cases hm
        exact ⟨bc, rfl, rfl, rfl⟩
  obtain ⟨bc, _, hdue, heq⟩ := hcases
  unfold dueVote at hdue
  rw [Option.bind_eq_some_iff] at hdue
  obtain ⟨last, hlast, hdue⟩ := hdue
  split at hdue
  · cases hdue
  · next hnle =>
    rw [Option.map_eq_some_iff] at hdue
    obtain ⟨bc', hbc, hp⟩ := hdue
    cases hp
    have hls := latest_seen hx
    rw [hlast, ← hn, Option.map_some] at hls
    have hlt := latest_lt hls.symm
    rcases configView hobs kept with h0 | h0
    · rw [h0] at hbc
      simp at hbc
    · rw [h0, List.getElem?_map, Option.map_eq_some_iff] at hbc
      obtain ⟨b0, hb0, rfl⟩ := hbc
      refine ⟨b0, last.configIndex, hb0, ?_, hls.symm, ?_⟩
      · rw [heq]
        unfold voteFor
        rw [known_vote]
        rfl
      · unfold GoConfig.wadd two64 at hnle ⊢
        by_cases hz : last.configIndex + 1 < 2 ^ 64
        · rw [Nat.mod_eq_of_lt (by omega)]
          omega
        · exfalso
          apply hnle
          have : 1 + last.configIndex = 2 ^ 64 := by omega
          rw [this]
          simp

/-- Rounds see more and more. -/
theorem next_mono {s : Observe.Shutter} {st : State G1 G2} {mc : MainChain} {hist : Nat → World}
    {rounds : List (MainChain × Round G1 G2)} (l : Career cx codecs chain E fd s st mc hist rounds) :
    rounds.Pairwise (fun e e' => e.2.next ≤ e'.2.next) ∧ ∀ e ∈ rounds, e.2.next ≤ s.currentBlock + 1 := by
  induction l with
  | init _ => simp
  | @round s s' st st' mc mc' hist hist' rounds ys keys acts l h1 h2 h3 h4 h5 h6 ih =>
    have hm := runLoop_mono h1
    refine ⟨?_, ?_⟩
    · rw [List.pairwise_append]
      refine ⟨ih.1, by simp, ?_⟩
      intro a ha b hb
      simp only [List.mem_singleton] at hb
      subst hb
      have := ih.2 a ha
      simp only
      omega
    · intro e he
      rw [List.mem_append, List.mem_singleton] at he
      rcases he with he | rfl
      · have := ih.2 e he
        omega
      · exact le_refl _
  | restart _ _ ih => exact ih

/-- The view of the main chain goes forward. -/
theorem block_mono {s : Observe.Shutter} {st : State G1 G2} {mc : MainChain} {hist : Nat → World}
    {rounds : List (MainChain × Round G1 G2)} (l : Career cx codecs chain E fd s st mc hist rounds) :
    rounds.Pairwise (fun e e' => e.1.currentBlock ≤ e'.1.currentBlock) := by
  induction l with
  | init _ => simp
  | @round s s' st st' mc mc' hist hist' rounds ys keys acts l h1 h2 h3 h4 h5 h6 ih =>
    rw [List.pairwise_append]
    refine ⟨ih, by simp, ?_⟩
    intro a ha b hb
    simp only [List.mem_singleton] at hb
    subst hb
    have o := life_observed l.life
    exact le_trans (o.2 (a.1, a.2.sent) (List.mem_map.2 ⟨a, ha, rfl⟩)).2 (follows_spec h3 o.1).2.1
  | restart _ _ ih => exact ih

/-- When a vote is due it is sent, unless one for this or a later config was sent before. -/
theorem vote_due {s : Observe.Shutter} {st : State G1 G2} {mc : MainChain} {hist : Nat → World}
    {rounds : List (MainChain × Round G1 G2)} (l : Career cx codecs chain E fd s st mc hist rounds) {before after : List (MainChain × Round G1 G2)}
    {e : MainChain × Round G1 G2} (hr : rounds = before ++ e :: after) (hdec : e.2.deciding = true) {j : Nat}
    (hj : latestConfig codecs chain e.2.next = some j) (hlt : j + 1 < 2 ^ 64) {bc : BatchConfig} (hbc : e.1.configs[j + 1]? = some bc) :
    ∃ e' ∈ before ++ [e], ∃ start ks t i, .batchConfig start ks t i ∈ e'.2.sent ∧ j + 1 ≤ i := by
  obtain ⟨s0, st0, mc0, hist0, s1, st1, keys, l0, ⟨xs, hx⟩, hd, hn, hdd⟩ := career_round l hr
  have hvr := votes_round hd
  have hls := latest_seen hx
  rw [← hn, hj, Option.map_eq_some_iff] at hls
  obtain ⟨last, hlast, rfl⟩ := hls
  have hw : GoConfig.wadd 1 last.configIndex = last.configIndex + 1 := by
    unfold GoConfig.wadd two64
    rw [Nat.mod_eq_of_lt (by omega)]
    omega
  rw [hdec] at hdd
  have hdue : dueVote s1 e.1 st0 = if last.configIndex + 1 ≤ st0.lastSentBatchConfigIndex then none else some (last.configIndex + 1, bc) := by
    unfold dueVote
    rw [hlast, Option.bind_some, hw, hbc]
    rfl
  rw [← hdd, hdue] at hvr
  by_cases hle : last.configIndex + 1 ≤ st0.lastSentBatchConfigIndex
  · obtain ⟨_, _, i3⟩ := career_votes l0
    rcases i3 with i3 | i3
    · omega
    · rw [List.mem_flatMap] at i3
      obtain ⟨e', he', hm⟩ := i3
      unfold numbersVoted at hm
      rw [List.mem_filterMap] at hm
      obtain ⟨act, hact, hm⟩ := hm
      cases act <;> simp at hm
      subst hm
      exact ⟨e', List.mem_append_left _ he', _, _, _, _, hact, hle⟩
  · rw [if_neg hle] at hvr
    simp only at hvr
    refine ⟨e, by simp, bc.startBatchIndex, bc.keypers.map (World.beBytes · 20), bc.threshold, last.configIndex + 1, ?_, le_refl _⟩
    have : (Action.batchConfig bc.startBatchIndex (bc.keypers.map (World.beBytes · 20)) bc.threshold (last.configIndex + 1) : Action G1 G2) ∈
        e.2.sent.filter (fun a => a.kind = .vote) := by rw [hvr.2]; simp
    exact (List.mem_filter.1 this).1

end Shutter.Decide
