import Verif.Spec.Bootstrap
import Verif.Proofs.Validators
import Verif.Proofs.AppStarted
import Verif.Proofs.AppMono

/-! # Bootstrapping, and configs that are never started -/

namespace Shutter.App
open Shutter.Bootstrap

/-- The latest config is started, or `g` has reported that it is. -/
def StartedOr (g : Addr) (s : State) : Prop := ∃ last, lastConfig s = some last ∧ (last.started = true ∨ g ∈ s.startedVotes)

theorem Eff.startedVotes {ps ord s a m s' d} (h : Eff ps ord s a m s' d) : ∀ g ∈ s.startedVotes, g ∈ s'.startedVotes := by
  intro g hg
  cases h with
  | startedVote last prev h1 h2 h3 h4 h5 =>
    simp only
    split
    · exact hg
    · exact List.mem_append_left _ hg
  | configAdded => exact hg
  | configAddedDKG => exact hg
  | eonStarted => exact hg
  | _ => exact hg

/-- As long as no config is added, a report is not forgotten before the config is started. -/
theorem Exec.startedOr {ps dev log s} {g : Addr} (h : Exec ps dev log s) {r : Rec} (hr : r ∈ log) (h2 : 2 ≤ r.after.configs.length)
    (calm : s.configs.length = r.after.configs.length) (hs : StartedOr g r.after) : StartedOr g s := by
  have := (Exec.mono (fun s t => 2 ≤ s.configs.length → s.configs.length ≤ t.configs.length ∧
      (t.configs.length = s.configs.length → StartedOr g s → StartedOr g t)) (fun _ _ => ⟨le_refl _, fun _ h => h⟩)
    (fun s t u h1 h2 h => by
      obtain ⟨a1, a2⟩ := h1 h
      obtain ⟨b1, b2⟩ := h2 (by omega)
      exact ⟨by omega, fun e hh => b2 (by omega) (a2 (by omega) hh)⟩) (by
      intro log s o op s' rr hE ho hs hlen
      cases op with
      | initChain req =>
        simp only [App.step, Option.map_eq_some_iff] at hs
        obtain ⟨s₁, hi, he⟩ := hs
        simp only [Prod.mk.injEq] at he
        obtain ⟨rfl, rfl⟩ := he
        rcases initChain_cases hi with ⟨ks, t, c, pm, _, _, hc, _⟩ | ⟨rfl, _⟩
        · rw [hc] at hlen; simp at hlen
        · exact ⟨le_refl _, fun _ h => h⟩
      | checkTx tx =>
        simp only [App.step, Option.some.injEq, Prod.mk.injEq] at hs
        obtain ⟨rfl, rfl⟩ := hs
        obtain ⟨c, hc⟩ := checkTx_eq (s := s) (tx := tx)
        rw [hc]; exact ⟨le_refl _, fun _ h => h⟩
      | commit =>
        simp only [App.step, Option.some.injEq, Prod.mk.injEq] at hs
        obtain ⟨rfl, rfl⟩ := hs
        exact ⟨le_refl _, fun _ h => h⟩
      | deliverTx tx =>
        rcases deliver_eff hs with rfl | ⟨a, m, d, hE', _, _⟩
        · exact ⟨le_refl _, fun _ h => h⟩
        · rcases eff_configs hE' with h | ⟨bc, last, _, _, h⟩
          · refine ⟨by rw [h]; exact le_refl _, fun _ ⟨last, hl, hv⟩ => ⟨last, ?_, ?_⟩⟩
            · unfold lastConfig at hl ⊢; rw [h]; exact hl
            · rcases hv with hv | hv
              · exact Or.inl hv
              · exact Or.inr (hE'.startedVotes g hv)
          · refine ⟨by rw [h]; simp [withNonce], fun e => ?_⟩
            rw [h] at e
            simp [withNonce] at e
      | endBlock ht =>
        simp only [App.step, Option.map_eq_some_iff] at hs
        obtain ⟨⟨s₁, ups⟩, hi, he⟩ := hs
        simp only [Prod.mk.injEq] at he
        obtain ⟨rfl, rfl⟩ := he
        obtain ⟨last, last', hl, _, hst, hcf, _, hv⟩ := endBlock_cases hi
        refine ⟨by rw [hcf]; simp; omega, fun _ ⟨x, hx, hv'⟩ => ⟨last', by unfold lastConfig; rw [hcf]; simp, ?_⟩⟩
        have : x = last := by have := hx.symm.trans hl; simpa using this
        subst this
        rcases hv' with hv' | hv'
        · exact Or.inl (hst hv')
        · rcases hv with ⟨e, _⟩ | ⟨_, e, _⟩
          · rw [e]; exact Or.inr hv'
          · exact Or.inl e) h r hr).2
  exact (this h2).2 calm hs

/-- `EndBlock`, when enough reports are there or the config is started already. -/
theorem endBlock_starts {o s h s' ups} (he : endBlock o s h = some (s', ups)) {last : BatchConfig} (hl : lastConfig s = some last) (hlen : 2 ≤ s.configs.length)
    {prev : BatchConfig} (hp : s.configs[s.configs.length - 2]? = some prev) (hv : last.started = true ∨ prev.threshold ≤ s.startedVotes.length) :
    ∃ last', lastConfig s' = some last' ∧ last'.erase = last.erase ∧ last'.started = true ∧
      s'.identities = s.identities ∧
      (last.threshold ≤ registeredOf s last.keypers → s'.configs.reverse.find? (fun c => c.started && c.validatorsUpdated) = some last') := by
  unfold endBlock at he
  simp only [hl] at he
  obtain ⟨p, hm, hst, hk⟩ : ∃ p : State × BatchConfig, maybeStartConfig s last = some p ∧ p.2.started = true ∧
      p.2.erase = last.erase ∧ p.1.identities = s.identities ∧ p.1.configs = s.configs.dropLast ++ [p.2] := by
    unfold maybeStartConfig
    rw [if_pos hlen]
    simp only [hp]
    split
    · exact ⟨_, rfl, rfl, rfl, rfl, rfl⟩
    · next hn =>
      rcases hv with hv | hv
      · exact ⟨_, rfl, hv, rfl, rfl, getLast?_eq_some_concat hl⟩
      · exact absurd hv hn
  obtain ⟨s₁, last₁⟩ := p
  simp only at hst hk
  obtain ⟨hk1, hk2, hk3⟩ := hk
  simp only [hm] at he
  have hfin : s' = { maybeUpdateValidators s₁ last₁ with
      validators := currentValidators (maybeUpdateValidators s₁ last₁), lastBlockHeight := h } := by
    split at he <;> simp at he <;> exact he.1.symm
  have hthr : last₁.threshold = last.threshold := by have := congrArg BatchConfig.threshold hk1; exact this
  have hkp : last₁.keypers = last.keypers := by have := congrArg BatchConfig.keypers hk1; exact this
  have hcount : countCheckedInKeypers s₁ last₁.keypers = registeredOf s last.keypers := by
    unfold countCheckedInKeypers registeredOf
    rw [hk2, hkp]
  rw [hfin]
  unfold maybeUpdateValidators
  split
  · next hc =>
    refine ⟨{ last₁ with validatorsUpdated := true }, by simp [lastConfig], by rw [← hk1]; rfl, hst, hk2, fun _ => ?_⟩
    simp [hst]
  · next hc =>
    refine ⟨last₁, by simp [lastConfig, hk3], hk1, hst, hk2, fun hreg => ?_⟩
    have : last₁.validatorsUpdated = true := by
      by_contra hne
      apply hc
      simp only [Bool.not_eq_true] at hne
      simp [hst, hne, hcount, hthr, hreg]
    simp [hk3, hst, this]

/-! ## The messages of the keyper programs -/

theorem program_message {G1 G2 : Type} {w : Decide.Wire G1 G2} {act : Decide.Action G1 G2} {m : Msg} (h : Decide.message w act = some m) :
    (∀ ci, m ≠ .batchConfigStarted ci) ∧ ∀ x, m = .batchConfig x → x.started = false ∧ x.validatorsUpdated = false := by
  cases act <;> simp only [Decide.message, Option.some.injEq, reduceCtorEq] at h <;> subst h <;> simp

/-- What does not change when only keyper programs send messages. `n` is a number of configs. -/
structure Frozen (t s : State) : Prop where
  votes : s.startedVotes = []
  ids : ids t <+: ids s
  later : ∀ (i : Nat) (c : BatchConfig), t.configs.length ≤ i → s.configs[i]? = some c → c.started = false

theorem Frozen.refl {t : State} (h : t.startedVotes = []) : Frozen t t :=
  ⟨h, List.prefix_refl _, fun i c hi hc => by have := (List.getElem?_eq_some_iff.1 hc).1; omega⟩

theorem endBlock_frozen {o t s h s' ups} (he : endBlock o s h = some (s', ups)) (inv : Inv s) (f : Frozen t s) :
    Frozen t s' ∧ ∀ c c', s.configs.getLast? = some c → s'.configs.getLast? = some c' → c'.started = c.started := by
  obtain ⟨last, last', hl, hee, _, hcf, _, hv⟩ := endBlock_cases he
  have hst : s'.startedVotes = s.startedVotes ∧ last'.started = last.started := by
    rcases hv with h | ⟨_, _, hlen, prev, hp, hthr⟩
    · exact h
    · exfalso
      rw [f.votes] at hthr
      simp only [List.length_nil, Nat.le_zero] at hthr
      have hm : prev.erase ∈ ids s := List.mem_map_of_mem (List.mem_of_getElem? hp)
      rcases inv.cfg.valid _ hm with h1 | ⟨h1, _⟩
      · rw [erase_valid, ensureValid_iff] at h1
        exact h1.2.1 hthr
      · have := congrArg List.length h1
        rw [length_ids] at this
        simp at this
        omega
  refine ⟨⟨by rw [hst.1, f.votes], by rw [ids_endBlock he]; exact f.ids, fun i c hi hc => ?_⟩, fun c c' h1 h2 => ?_⟩
  · have e := getLast?_eq_some_concat hl
    rw [hcf] at hc
    have hlen := congrArg List.length e
    rw [List.length_append, List.length_singleton] at hlen
    by_cases hlt : i < s.configs.dropLast.length
    · rw [List.getElem?_append_left hlt] at hc
      refine f.later i c hi ?_
      rw [e, List.getElem?_append_left hlt]; exact hc
    · rw [List.getElem?_append_right (by omega)] at hc
      have h0 : i - s.configs.dropLast.length = 0 := by
        by_contra hne
        rw [List.getElem?_eq_none (by simp only [List.length_singleton]; omega)] at hc
        cases hc
      rw [h0] at hc
      simp at hc
      subst hc
      rw [hst.2]
      refine f.later i last hi ?_
      rw [e, List.getElem?_append_right (by omega), h0]; simp
  · have h3 : c = last := by have := h1.symm.trans hl; simpa using this
    rw [hcf] at h2
    simp at h2
    rw [← h2, h3, hst.2]

theorem deliver_frozen {ps o t s tx s' r} (hs : App.step ps o s (.deliverTx tx) = some (s', r))
    (prog : ∀ a m, tx = some (a, m) → ∃ (G1 G2 : Type) (w : Decide.Wire G1 G2) (act : Decide.Action G1 G2), Decide.message w act = some m.msg)
    (f : Frozen t s) : Frozen t s' := by
  rcases deliver_eff hs with rfl | ⟨a, m, d, hE, htx, _⟩
  · exact f
  · obtain ⟨G1, G2, w, act, hw⟩ := prog a m htx
    obtain ⟨p1, p2⟩ := program_message hw
    have f' : Frozen t (withNonce s a m.randomNonce) := ⟨f.votes, f.ids, f.later⟩
    have hadd : ∀ (x : BatchConfigMsg) (bc : BatchConfig), m.msg = .batchConfig x → batchConfigFromMessage x = some bc → ∀ s₂ : State,
        s₂.configs = s.configs ++ [bc] → s₂.startedVotes = s.startedVotes → Frozen t s₂ := by
      intro x bc hx hbc s₂ h1 h2
      have hb : bc.started = false := by rw [← (asks_iff.1 hbc).started]; exact (p2 x hx).1
      refine ⟨by rw [h2, f.votes], f.ids.trans (by simp [App.ids, h1]), fun i c hi hc => ?_⟩
      rw [h1] at hc
      by_cases hlt : i < s.configs.length
      · rw [List.getElem?_append_left hlt] at hc
        exact f.later i c hi hc
      · rw [List.getElem?_append_right (by omega)] at hc
        have : c ∈ [bc] := List.mem_of_getElem? hc
        simp at this
        rw [this, hb]
    generalize hm : m.msg = msg at hE
    cases hE with
    | configAdded x bc last cv i h1 => exact hadd x bc hm h1 _ (by simp [added, updateCheckTxMembers, withNonce]) rfl
    | configAddedDKG x bc last cv i h1 => exact hadd x bc hm h1 _ (by simp [added, updateCheckTxMembers, withNonce, startDKG]) rfl
    | startedVote last prev => exact absurd hm (p1 _)
    | eonStarted => exact ⟨f.votes, f.ids, f.later⟩
    | _ => exact ⟨f.votes, f.ids, f.later⟩

theorem Exec.final {ps dev log s} (h : Exec ps dev log s) : s = (log.getLast?.map (·.after)).getD (newApp dev) := by
  cases h <;> simp

theorem Exec.state_unique {ps dev log s t} (h : Exec ps dev log s) (h' : Exec ps dev log t) : s = t := by
  rw [h.final, h'.final]

/-- Induction over the calls after a certain moment. -/
theorem Exec.after_ind {ps dev} {pre post : List Rec} {t s : State} (P : State → Prop) (h0 : Exec ps dev pre t)
    (h : Exec ps dev (pre ++ post) s) (start : P t)
    (hstep : ∀ pre' r' post', post = pre' ++ r' :: post' → Exec ps dev (pre ++ pre') r'.before →
      (∃ o : Orders, o.Lawful ∧ App.step ps o r'.before r'.op = some (r'.after, r'.resp)) → P r'.before → P r'.after) : P s := by
  induction post using List.reverseRecOn generalizing s with
  | nil =>
    rw [List.append_nil] at h
    rwa [h.state_unique h0]
  | append_singleton post x ih =>
    have hl : pre ++ (post ++ [x]) = (pre ++ post) ++ x :: [] := by simp
    obtain ⟨hE, o, ho, hst⟩ := h.at hl
    have hx := ih hE (fun pre' r' post' hp => hstep pre' r' (post' ++ [x]) (by rw [hp]; simp))
    have : s = x.after := by
      have h2 : Exec ps dev (pre ++ (post ++ [x])) x.after := by rw [hl]; exact hE.step o _ _ _ ho hst
      exact h.state_unique h2
    rw [this]
    exact hstep post x [] rfl hE ⟨o, ho, hst⟩ hx

end Shutter.App

namespace Shutter.App
open Shutter.Bootstrap

theorem Exec.not_pending {ps dev log s} (h : Exec ps dev log s) (quiet : NoReportPending log) : s.startedVotes = [] := by
  rw [List.eq_nil_iff_forall_not_mem]
  intro v hv
  obtain ⟨pre, r, post, n, cur, prev, hl, hr, hn, _⟩ := (h.started.2 v hv).vote
  obtain ⟨x, hx, hs⟩ := quiet pre r post v _ hl hr
  exact hn x hx hs

theorem not_initChain {log : List Rec} {req : InitRequest} (hb : Begins log req) {pre post : List Rec} (hl : log = pre ++ post) (hp : pre ≠ [])
    {r : Rec} (hr : r ∈ post) (req' : InitRequest) : r.op ≠ .initChain req' := by
  obtain ⟨r0, rest, h1, _, h3⟩ := hb
  cases pre with
  | nil => exact absurd rfl hp
  | cons x pre =>
    rw [h1] at hl
    simp only [List.cons_append, List.cons.injEq] at hl
    exact h3 r (by rw [hl.2]; exact List.mem_append_right _ hr) req'

/-- If after `pre` (where no report is pending) only keyper programs send messages, then nothing is started any more. -/
theorem Exec.frozen {ps dev} {pre post : List Rec} {t s : State} {req : InitRequest} (h0 : Exec ps dev pre t) (h : Exec ps dev (pre ++ post) s)
    (hb : Begins (pre ++ post) req) (hp : pre ≠ []) (quiet : NoReportPending pre) (prog : OnlyPrograms post) :
    Frozen t s := by
  refine Exec.after_ind (Frozen t) h0 h (Frozen.refl (h0.not_pending quiet)) ?_
  intro pre' r post' hpost hE ⟨o, ho, hst⟩ f
  have hr : r ∈ post := by rw [hpost]; simp
  obtain ⟨s₀, op, resp, s₁⟩ := r
  simp only at hst f hE ⊢
  cases op with
  | initChain req' => exact absurd rfl (not_initChain hb rfl hp hr req')
  | checkTx tx =>
    simp only [App.step, Option.some.injEq, Prod.mk.injEq] at hst
    obtain ⟨rfl, rfl⟩ := hst
    obtain ⟨c, hc⟩ := checkTx_eq (s := s₀) (tx := tx)
    rw [hc]
    exact ⟨f.votes, f.ids, f.later⟩
  | commit =>
    simp only [App.step, Option.some.injEq, Prod.mk.injEq] at hst
    obtain ⟨rfl, rfl⟩ := hst
    exact ⟨f.votes, f.ids, f.later⟩
  | deliverTx tx => exact deliver_frozen hst (fun a m htx => prog _ hr a m (by rw [htx]; rfl)) f
  | endBlock ht =>
    simp only [App.step, Option.map_eq_some_iff] at hst
    obtain ⟨⟨s₂, ups⟩, hi, he⟩ := hst
    simp only [Prod.mk.injEq] at he
    obtain ⟨rfl, rfl⟩ := he
    exact (endBlock_frozen hi hE.inv f).1

theorem OnlyPrograms.left {l l' : List Rec} (h : OnlyPrograms (l ++ l')) : OnlyPrograms l :=
  fun r hr => h r (List.mem_append_left _ hr)

theorem Begins.left {l l' : List Rec} {req : InitRequest} (h : Begins (l ++ l') req) (hl : l ≠ []) : Begins l req := by
  obtain ⟨r, rest, h1, h2, h3⟩ := h
  cases l with
  | nil => exact absurd rfl hl
  | cons x l =>
    simp only [List.cons_append, List.cons.injEq] at h1
    obtain ⟨rfl, rfl⟩ := h1
    exact ⟨x, l, rfl, h2, fun r' hr' => h3 r' (List.mem_append_left _ hr')⟩

/-- A config followed by another never changes again. -/
theorem Exec.superseded {ps dev log s} (h : Exec ps dev log s) {r : Rec} (hr : r ∈ log) {c : BatchConfig} (hk : r.before.configs ≠ [])
    (added : r.after.configs = r.before.configs ++ [c]) : r.before.configs <+: s.configs := by
  have := (Exec.mono (fun s t => 2 ≤ s.configs.length → 2 ≤ t.configs.length ∧ s.configs.dropLast <+: t.configs.dropLast)
    (fun _ h => ⟨h, List.prefix_refl _⟩) (fun s t u h1 h2 h => ⟨(h2 (h1 h).1).1, (h1 h).2.trans (h2 (h1 h).1).2⟩) (by
      intro log s o op s' rr hE ho hs hlen
      cases op with
      | initChain req =>
        simp only [App.step, Option.map_eq_some_iff] at hs
        obtain ⟨s₁, hi, he⟩ := hs
        simp only [Prod.mk.injEq] at he
        obtain ⟨rfl, rfl⟩ := he
        rcases initChain_cases hi with ⟨ks, t, c, pm, _, _, hc, _⟩ | ⟨rfl, _⟩
        · rw [hc] at hlen; simp at hlen
        · exact ⟨hlen, List.prefix_refl _⟩
      | checkTx tx =>
        simp only [App.step, Option.some.injEq, Prod.mk.injEq] at hs
        obtain ⟨rfl, rfl⟩ := hs
        obtain ⟨c, hc⟩ := checkTx_eq (s := s) (tx := tx)
        rw [hc]; exact ⟨hlen, List.prefix_refl _⟩
      | commit =>
        simp only [App.step, Option.some.injEq, Prod.mk.injEq] at hs
        obtain ⟨rfl, rfl⟩ := hs
        exact ⟨hlen, List.prefix_refl _⟩
      | deliverTx tx =>
        rcases deliver_eff hs with rfl | ⟨a, m, d, hE', _, _⟩
        · exact ⟨hlen, List.prefix_refl _⟩
        · rcases eff_configs hE' with h | ⟨bc, last, _, _, h⟩
          · rw [h]; exact ⟨hlen, List.prefix_refl _⟩
          · rw [h]
            simp only [withNonce, List.length_append, List.length_singleton, List.dropLast_concat]
            exact ⟨by omega, List.dropLast_prefix _⟩
      | endBlock ht =>
        simp only [App.step, Option.map_eq_some_iff] at hs
        obtain ⟨⟨s₁, ups⟩, hi, he⟩ := hs
        simp only [Prod.mk.injEq] at he
        obtain ⟨rfl, rfl⟩ := he
        obtain ⟨last, last', hl, _, _, hcf, _⟩ := endBlock_cases hi
        rw [hcf, List.dropLast_concat]
        refine ⟨?_, List.prefix_refl _⟩
        simp only [List.length_append, List.length_dropLast, List.length_singleton]
        omega) h r hr).2
  have hpos := List.length_pos_iff.2 hk
  have h2 := (this (by rw [added]; simp; omega)).2
  rw [added, List.dropLast_concat] at h2
  exact h2.trans (List.dropLast_prefix _)

/-- Every config but the first was asked for. -/
theorem Exec.config_origin {ps dev log s} (h : Exec ps dev log s) : ∀ c ∈ ids s, c.configIndex ≠ 0 →
    ∃ r ∈ log, ∃ a m b, r.Accepts a (.batchConfig m) ∧ Asks m b ∧ b.erase = c := by
  induction h with
  | start => intro c hc h0; simp [ids, newApp, BatchConfig.zero, BatchConfig.erase] at hc; subst hc; exact absurd rfl h0
  | @step log s o op s' r hE ho hs ih =>
    intro c hc h0
    have old : c ∈ ids s → ∃ r' ∈ log ++ [⟨s, op, r, s'⟩], ∃ a m b, r'.Accepts a (.batchConfig m) ∧ Asks m b ∧ b.erase = c := by
      intro hm
      obtain ⟨x, hx, y⟩ := ih c hm h0
      exact ⟨x, List.mem_append_left _ hx, y⟩
    cases op with
    | initChain req =>
      simp only [App.step, Option.map_eq_some_iff] at hs
      obtain ⟨s₁, hi, he⟩ := hs
      simp only [Prod.mk.injEq] at he
      obtain ⟨rfl, rfl⟩ := he
      rcases initChain_cases hi with ⟨ks, t, c', pm, _, _, _, _, _, rfl⟩ | ⟨rfl, _⟩
      · simp [ids, BatchConfig.erase] at hc; subst hc; exact absurd rfl h0
      · exact old hc
    | checkTx tx =>
      simp only [App.step, Option.some.injEq, Prod.mk.injEq] at hs
      obtain ⟨rfl, rfl⟩ := hs
      obtain ⟨x, hx⟩ := checkTx_eq (s := s) (tx := tx)
      rw [hx] at hc; exact old hc
    | commit =>
      simp only [App.step, Option.some.injEq, Prod.mk.injEq] at hs
      obtain ⟨rfl, rfl⟩ := hs
      exact old hc
    | deliverTx tx =>
      rcases deliver_eff hs with rfl | ⟨a, m, d, hE', htx, hr⟩
      · exact old hc
      · subst htx hr
        generalize hm : m.msg = msg at hE'
        have new : ∀ x b, msg = .batchConfig x → Asks x b → d.ok = true → c = b.erase →
            ∃ r' ∈ log ++ [⟨s, .deliverTx (some (a, m)), .deliverTx d, s'⟩], ∃ a m b, r'.Accepts a (.batchConfig m) ∧ Asks m b ∧ b.erase = c := by
          intro x b h1 h2 h3 h4
          refine ⟨_, List.mem_append_right _ (List.mem_singleton.2 rfl), a, x, b, ⟨m, by rw [hm, h1], rfl, d.events, ?_⟩, h2, h4.symm⟩
          rw [← h3]
        generalize hsa : s' = sa at hE' hc
        cases hE' with
        | configAdded x b last cv i h1 h2 =>
          simp only [ids, added, updateCheckTxMembers, withNonce, List.map_append, List.mem_append, List.map_cons, List.map_nil,
            List.mem_singleton] at hc
          rcases hc with hc | hc
          · exact hsa ▸ old hc
          · exact hsa ▸ new x b rfl (asks_iff.1 h1) rfl hc
        | configAddedDKG x b last cv i h1 h2 =>
          simp only [ids, added, updateCheckTxMembers, withNonce, startDKG, List.map_append, List.mem_append, List.map_cons, List.map_nil,
            List.mem_singleton] at hc
          rcases hc with hc | hc
          · exact hsa ▸ old hc
          · exact hsa ▸ new x b rfl (asks_iff.1 h1) rfl hc
        | _ => exact hsa ▸ old hc
    | endBlock ht =>
      simp only [App.step, Option.map_eq_some_iff] at hs
      obtain ⟨⟨s₁, ups⟩, hi, he⟩ := hs
      simp only [Prod.mk.injEq] at he
      obtain ⟨rfl, rfl⟩ := he
      rw [ids_endBlock hi] at hc
      exact old hc

/-- What an accepted report says. -/
theorem Exec.report {ps dev log s} (h : Exec ps dev log s) {pre post : List Rec} {r : Rec} (hl : log = pre ++ r :: post) {g : Addr} {index : Nat}
    (ha : r.Accepts g (.batchConfigStarted index)) :
    2 ≤ r.after.configs.length ∧ (∃ last, lastConfig r.before = some last ∧ last.configIndex = index) ∧
      r.after.configs = r.before.configs ∧ StartedOr g r.after := by
  obtain ⟨_, o2, m2, d2, _, _, _, _, hok2, _, _, eff2⟩ := h.eff hl ha
  generalize hmsg : Msg.batchConfigStarted index = msg at eff2
  generalize hsa : r.after = sa at eff2
  cases eff2 with
  | rejected => simp [errorResponse] at hok2
  | alreadyStarted last prev h1 h2 h3 h4 h5 =>
    simp only [Msg.batchConfigStarted.injEq] at hmsg
    exact ⟨h2, ⟨last, h1, hmsg.symm⟩, rfl, last, h1, Or.inl h5⟩
  | startedVote last prev h1 h2 h3 h4 h5 =>
    simp only [Msg.batchConfigStarted.injEq] at hmsg
    refine ⟨h2, ⟨last, h1, hmsg.symm⟩, rfl, last, h1, Or.inr ?_⟩
    simp only
    split
    · next hc => simpa using hc
    · simp
  | _ => simp at hmsg

end Shutter.App
