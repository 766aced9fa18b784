import Verif.Proofs.Net

/-! # The application: announced configs and eons, and what becomes of delivered messages -/

namespace Shutter.App

/-- What is announced of a config. -/
def announcement (c : BatchConfig) : Nat × Nat × List Addr × Nat := (c.startBatchIndex, c.threshold, c.keypers, c.configIndex)

theorem announcedConfigs_append (l l' : List Event) : announcedConfigs (l ++ l') = announcedConfigs l ++ announcedConfigs l' := by
  simp [announcedConfigs]

theorem Frame.tail {s s' : State} (hf : Frame s s') (inv : Inv s) : (App.ids s').tail = (App.ids s).tail := by
  by_cases h : ∃ a, a ∈ s.configs.flatMap (·.keypers)
  · rw [hf.ids h]
  · have hk : ∀ c ∈ App.ids s, c.keypers = [] := by
      intro c hc
      obtain ⟨c', h1, rfl⟩ := List.mem_map.1 hc
      rw [List.eq_nil_iff_forall_not_mem]
      intro a ha
      exact h ⟨a, List.mem_flatMap.2 ⟨c', h1, ha⟩⟩
    obtain ⟨c, rest, h1, _⟩ := inv.cfg.first
    have hone : App.ids s = [c] := by
      rcases inv.cfg.valid c (by rw [h1]; simp) with hv | hv
      · exact absurd (hk c (by rw [h1]; simp)) (ensureValid_keypers hv)
      · exact hv.1
    have hlen : (App.ids s').length = 1 := by
      rw [length_ids, hf.length, ← length_ids, hone]; rfl
    obtain ⟨c', hc'⟩ := List.length_eq_one_iff.1 hlen
    rw [hone, hc']
    rfl

/-- The configs announced so far are those the application has, without the one of the genesis. -/
theorem Exec.announced {ps dev log s} (h : Exec ps dev log s) : announcedConfigs (allEvents log) = (ids s).tail.map announcement := by
  induction h with
  | start => rfl
  | @step log s o op s' r hE ho hs ih =>
    have inv := hE.inv
    rw [events_concat, announcedConfigs_append, ih]
    have hne : ids s ≠ [] := by
      obtain ⟨c, rest, h1, _⟩ := inv.cfg.first
      rw [h1]
      simp
    rcases step_frame hs with ⟨hf, hev, _⟩ | ⟨a, m, d, rfl, _, _, rfl, he⟩
    · rw [hev, hf.tail inv]
      simp [announcedConfigs]
    · rw [events_deliver]
      generalize m.msg = msg at he
      cases he with
      | configAdded m' bc last cv i hbc =>
        have : ids (added (withNonce s a m.randomNonce) bc) = ids s ++ [bc.erase] := by simp [ids, added, updateCheckTxMembers, withNonce]
        rw [this, List.tail_append_of_ne_nil hne, List.map_append]
        rfl
      | configAddedDKG m' bc last cv i hbc =>
        have : ids (startDKG (added (withNonce s a m.randomNonce) bc) bc).1 = ids s ++ [bc.erase] := by
          simp [ids, added, updateCheckTxMembers, withNonce, startDKG]
        rw [this, List.tail_append_of_ne_nil hne, List.map_append]
        rfl
      | _ => simp [announcedConfigs, errorResponse, ids, withNonce, startDKG]

/-- The eon a call announces. -/
theorem Exec.starts {ps dev log s} (h : Exec ps dev log s) {pre r post} (hl : log = pre ++ r :: post) {e b : Nat} {c : BatchConfig}
    (hev : .eonStarted e b ∈ r.events) (hst : r.StartsEon e c) :
    e = r.before.eonCounter + 1 ∧ InForce r.after.configs b c ∧ ∃ d, r.after.dkgMap e = some d ∧ d.config = c := by
  obtain ⟨a, msg, acc⟩ := h.accepted_of_event hl (List.ne_nil_of_mem hev)
  obtain ⟨hE, o, m, d, ho, hm, hop, hresp, hok, _, _, he⟩ := h.eff hl acc
  have hone : ∀ a' msg', r.Accepts a' msg' → a' = a ∧ msg' = msg := by
    rintro a' msg' ⟨m', rfl, h1, _⟩
    rw [hop] at h1
    simp at h1
    exact ⟨h1.1.symm, by rw [← h1.2, hm]⟩
  rw [show r.events = d.events by simp [Rec.events, hresp]] at hev
  cases msg with
  | eonStartVote b₀ =>
    obtain ⟨⟨e', hq⟩, _⟩ := Props.C27_eon_quorum h hl acc (by rw [Rec.events, hresp]; exact List.ne_nil_of_mem hev)
    rw [show r.events = d.events by simp [Rec.events, hresp]] at hq
    generalize hs : r.after = sa at he
    cases he with
    | eonStarted b' c' i start hc hk hout hcand =>
      simp only [List.cons.injEq, Event.eonStarted.injEq, and_true] at hq
      simp only [List.mem_singleton, Event.eonStarted.injEq] at hev
      obtain ⟨rfl, rfl⟩ := hev
      have hbb := hq.2
      have hcc : c = c' := by
        rcases hst.2 with ⟨a', m', hv, _⟩ | ⟨a', b', hv, hf⟩
        · exact absurd (hone _ _ hv).2 (by simp)
        · have := (hone _ _ hv).2
          simp at this
          subst this
          exact hf.unique (getConfig_iff.1 hc)
      subst hcc
      refine ⟨by simp [withNonce], ?_, newDKGInstance c (r.before.eonCounter + 1), by simp [startDKG, withNonce], rfl⟩
      rw [hbb]
      exact getConfig_iff.1 hc
    | rejected => simp [errorResponse] at hev
    | _ => simp at hev
  | batchConfig m' =>
    generalize hs : r.after = sa at he
    cases he with
    | configAddedDKG m' bc last cv i hbc =>
      simp only [List.mem_cons, configEvent, reduceCtorEq, List.not_mem_nil, or_false, false_or, Event.eonStarted.injEq] at hev
      obtain ⟨rfl, rfl⟩ := hev
      have hcc : c = bc := by
        rcases hst.2 with ⟨a', m'', hv, hask⟩ | ⟨a', b', hv, _⟩
        · have := (hone _ _ hv).2
          simp only [Msg.batchConfig.injEq] at this
          subst this
          have := asks_iff.2 hask
          rw [hbc] at this
          simpa using this.symm
        · exact absurd (hone _ _ hv).2 (by simp)
      subst hcc
      refine ⟨by simp [withNonce], ?_, newDKGInstance c (r.before.eonCounter + 1), by simp [startDKG, withNonce, added, updateCheckTxMembers], rfl⟩
      exact ⟨r.before.configs, [], by simp [startDKG, added, updateCheckTxMembers, withNonce], le_refl _, by simp⟩
    | rejected => simp [errorResponse] at hev
    | configAdded => simp [configEvent] at hev
    | _ => simp at hev
  | _ =>
    exfalso
    generalize r.after = sa at he
    cases he <;> simp [errorResponse] at hev

/-! ## What the application remembers -/

theorem Eff.seen_new {ps ord s a m s' r} (h : Eff ps ord s a m s' r) {k} (hk : seen s' k) :
    seen s k ∨ k ∈ r.events.flatMap Event.once := by
  have dkgs : ∀ {e₀ d₀ d₁} {evs : List Event}, s.dkgMap e₀ = some d₀ → seen { s with dkgMap := Function.update s.dkgMap e₀ (some d₁) } k →
      (∀ e' a', k = .commitment e' a' → a' ∈ d₁.polyCommitmentsSeen → a' ∈ d₀.polyCommitmentsSeen ∨ (e' = e₀ → k ∈ evs.flatMap Event.once)) →
      (∀ e' a' r', k = .eval e' a' r' → (a', r') ∈ d₁.polyEvalsSeen → (a', r') ∈ d₀.polyEvalsSeen ∨ (e' = e₀ → k ∈ evs.flatMap Event.once)) →
      (∀ e' a', k = .accusation e' a' → a' ∈ d₁.accusationsSeen → a' ∈ d₀.accusationsSeen ∨ (e' = e₀ → k ∈ evs.flatMap Event.once)) →
      (∀ e' a', k = .apology e' a' → a' ∈ d₁.apologiesSeen → a' ∈ d₀.apologiesSeen ∨ (e' = e₀ → k ∈ evs.flatMap Event.once)) →
      seen s k ∨ k ∈ evs.flatMap Event.once := by
    intro e₀ d₀ d₁ evs h0 hk c1 c2 c3 c4
    cases k with
    | checkIn b => left; exact hk
    | signature b c => left; exact hk
    | commitment e' a' =>
      obtain ⟨d, h1, h2⟩ := hk
      by_cases hee : e' = e₀
      · subst hee
        simp only [Function.update_self, Option.some.injEq] at h1
        subst h1
        rcases c1 _ _ rfl h2 with h | h
        · left; exact ⟨_, h0, h⟩
        · right; exact h rfl
      · simp only [Function.update_of_ne hee] at h1
        left; exact ⟨d, h1, h2⟩
    | eval e' a' r' =>
      obtain ⟨d, h1, h2⟩ := hk
      by_cases hee : e' = e₀
      · subst hee
        simp only [Function.update_self, Option.some.injEq] at h1
        subst h1
        rcases c2 _ _ _ rfl h2 with h | h
        · left; exact ⟨_, h0, h⟩
        · right; exact h rfl
      · simp only [Function.update_of_ne hee] at h1
        left; exact ⟨d, h1, h2⟩
    | accusation e' a' =>
      obtain ⟨d, h1, h2⟩ := hk
      by_cases hee : e' = e₀
      · subst hee
        simp only [Function.update_self, Option.some.injEq] at h1
        subst h1
        rcases c3 _ _ rfl h2 with h | h
        · left; exact ⟨_, h0, h⟩
        · right; exact h rfl
      · simp only [Function.update_of_ne hee] at h1
        left; exact ⟨d, h1, h2⟩
    | apology e' a' =>
      obtain ⟨d, h1, h2⟩ := hk
      by_cases hee : e' = e₀
      · subst hee
        simp only [Function.update_self, Option.some.injEq] at h1
        subst h1
        rcases c4 _ _ rfl h2 with h | h
        · left; exact ⟨_, h0, h⟩
        · right; exact h rfl
      · simp only [Function.update_of_ne hee] at h1
        left; exact ⟨d, h1, h2⟩
  have start : ∀ (t : State) c, t.identities = s.identities → t.batchStates = s.batchStates → t.dkgMap = s.dkgMap →
      seen (startDKG t c).1 k → seen s k := by
    intro t c h1 h2 h3 hk
    have same : ∀ e d, (startDKG t c).1.dkgMap e = some d → (d.polyCommitmentsSeen = [] ∧ d.polyEvalsSeen = [] ∧ d.accusationsSeen = [] ∧
        d.apologiesSeen = []) ∨ s.dkgMap e = some d := by
      intro e d hd
      simp only [startDKG] at hd
      by_cases hee : e = t.eonCounter + 1
      · subst hee
        simp only [Function.update_self, Option.some.injEq] at hd
        left
        rw [← hd]
        exact ⟨rfl, rfl, rfl, rfl⟩
      · rw [Function.update_of_ne hee, h3] at hd
        exact .inr hd
    cases k with
    | checkIn b => simpa only [seen, startDKG, h1] using hk
    | signature b c => simpa only [seen, startDKG, h2] using hk
    | commitment e' a' =>
      obtain ⟨d, h4, h5⟩ := hk
      rcases same _ _ h4 with h | h
      · rw [h.1] at h5; cases h5
      · exact ⟨d, h, h5⟩
    | eval e' a' r' =>
      obtain ⟨d, h4, h5⟩ := hk
      rcases same _ _ h4 with h | h
      · rw [h.2.1] at h5; cases h5
      · exact ⟨d, h, h5⟩
    | accusation e' a' =>
      obtain ⟨d, h4, h5⟩ := hk
      rcases same _ _ h4 with h | h
      · rw [h.2.2.1] at h5; cases h5
      · exact ⟨d, h, h5⟩
    | apology e' a' =>
      obtain ⟨d, h4, h5⟩ := hk
      rcases same _ _ h4 with h | h
      · rw [h.2.2.2] at h5; cases h5
      · exact ⟨d, h, h5⟩
  cases h with
  | rejected => exact .inl hk
  | configKnown => exact .inl hk
  | configVoted => exact .inl ((seen_congr rfl rfl rfl k).1 hk)
  | configAdded => exact .inl ((seen_congr rfl rfl rfl k).1 hk)
  | configAddedDKG => left; refine start _ _ ?_ ?_ ?_ hk <;> rfl
  | alreadyStarted => exact .inl hk
  | startedVote => exact .inl ((seen_congr rfl rfl rfl k).1 hk)
  | checkIn vk ek pk hn =>
    cases k with
    | checkIn b =>
      by_cases hb : b = a
      · right; simp [Event.once, hb]
      · left
        simp only [seen, Function.update_of_ne hb] at hk
        exact hk
    | _ => exact .inl hk
  | eonVoted => exact .inl ((seen_congr rfl rfl rfl k).1 hk)
  | eonStarted => left; refine start _ _ ?_ ?_ ?_ hk <;> rfl
  | decSig b sig bs bs' hb hadd =>
    obtain ⟨_, _, rfl⟩ := addDecryptionSignature_some hadd
    cases k with
    | signature b' a' =>
      obtain ⟨bs₁, h1, d, h2, h3⟩ := hk
      by_cases hbb : b' = b
      · subst hbb
        simp only [Function.update_self, Option.some.injEq] at h1
        subst h1
        rcases List.mem_append.1 h2 with h2 | h2
        · left
          unfold getBatchState at hb
          split at hb
          · next bs₀ h0 =>
            simp only [Option.some.injEq] at hb
            subst hb
            exact ⟨_, h0, d, h2, h3⟩
          · split at hb
            · cases hb
            · simp only [Option.some.injEq] at hb
              subst hb
              cases h2
        · right
          rw [List.mem_singleton] at h2
          subst h2
          simp [Event.once, ← h3]
      · simp only [Function.update_of_ne hbb] at h1
        left; exact ⟨bs₁, h1, d, h2, h3⟩
    | _ => exact .inl hk
  | polyEval eon rs es d d' hd _ _ hr =>
    obtain ⟨_, _, _, rfl⟩ := registerPolyEval_some hr
    refine dkgs hd hk (fun _ _ _ h => .inl h) (fun e' a' r' hk' h => ?_) (fun _ _ _ h => .inl h) (fun _ _ _ h => .inl h)
    rcases List.mem_append.1 h with h | h
    · right
      rintro rfl
      obtain ⟨x, hx, hxe⟩ := List.mem_map.1 h
      simp only [Prod.mk.injEq] at hxe
      rw [hk', ← hxe.1, ← hxe.2]
      simp [Event.once, hx]
    · exact .inl h
  | polyCommitment eon gs gs' d d' hd _ hr =>
    obtain ⟨_, _, _, rfl⟩ := registerPolyCommitment_some hr
    refine dkgs hd hk (fun e' a' hk' h => ?_) (fun _ _ _ _ h => .inl h) (fun _ _ _ h => .inl h) (fun _ _ _ h => .inl h)
    rcases List.mem_cons.1 h with rfl | h
    · right; rintro rfl; rw [hk']; simp [Event.once]
    · exact .inl h
  | accusation eon as d d' hd _ hr =>
    obtain ⟨_, _, _, _, rfl⟩ := registerAccusation_some hr
    refine dkgs hd hk (fun _ _ _ h => .inl h) (fun _ _ _ _ h => .inl h) (fun e' a' hk' h => ?_) (fun _ _ _ h => .inl h)
    rcases List.mem_cons.1 h with rfl | h
    · right; rintro rfl; rw [hk']; simp [Event.once]
    · exact .inl h
  | apology eon as es d d' hd _ _ hr =>
    obtain ⟨_, _, _, _, rfl⟩ := registerApology_some hr
    refine dkgs hd hk (fun _ _ _ h => .inl h) (fun _ _ _ _ h => .inl h) (fun _ _ _ h => .inl h) (fun e' a' hk' h => ?_)
    rcases List.mem_cons.1 h with rfl | h
    · right; rintro rfl; rw [hk']; simp [Event.once]
    · exact .inl h
  | share => exact .inl hk

/-- What the application remembers was published. -/
theorem Exec.seen_published {ps dev log s} (h : Exec ps dev log s) : ∀ k, seen s k → k ∈ (allEvents log).flatMap Event.once := by
  induction h with
  | start => intro k hk; cases k <;> simp [seen, newApp] at hk
  | @step log s o op s' r hE ho hs ih =>
    intro k hk
    rw [events_concat, List.flatMap_append]
    rcases step_frame hs with ⟨hf, _, _⟩ | ⟨a, m, d, rfl, _, _, rfl, he⟩
    · exact List.mem_append_left _ (ih k ((seen_congr hf.identities hf.batchStates hf.dkgMap k).1 hk))
    · rw [events_deliver]
      rcases he.seen_new hk with h | h
      · exact List.mem_append_left _ (ih k h)
      · exact List.mem_append_right _ h

/-- A nonce that is used up was delivered. -/
theorem Exec.nonce_used {ps dev log s} (h : Exec ps dev log s) : ∀ a n, s.nonceTracker a n = true →
    ∃ r ∈ log, ∃ m, r.Delivers a m ∧ m.randomNonce = n := by
  induction h with
  | start => intro a n hn; simp [newApp, newNonceTracker] at hn
  | @step log s o op s' r hE ho hs ih =>
    intro a n hn
    rcases step_frame hs with ⟨hf, _, _⟩ | ⟨a', m, d, rfl, _, _, rfl, he⟩
    · rw [hf.nonceTracker] at hn
      obtain ⟨r, hr, m, h1⟩ := ih a n hn
      exact ⟨r, List.mem_append_left _ hr, m, h1⟩
    · rw [he.nonce] at hn
      by_cases hx : a = a' ∧ n = m.randomNonce
      · obtain ⟨rfl, rfl⟩ := hx
        exact ⟨_, List.mem_append_right _ (List.mem_singleton_self _), m, rfl, rfl⟩
      · have : s.nonceTracker a n = true := by
          simp only [withNonce, NonceTracker.add] at hn
          by_cases h1 : a = a'
          · subst h1
            rw [Function.update_self, Function.update_of_ne (by intro h2; exact hx ⟨rfl, h2⟩)] at hn
            exact hn
          · rw [Function.update_of_ne h1] at hn
            exact hn
        obtain ⟨r, hr, m, h1⟩ := ih a n this
        exact ⟨r, List.mem_append_left _ hr, m, h1⟩

/-- What becomes of a message with a fresh nonce and the right chain id. -/
theorem Exec.delivered {ps dev log s} (h : Exec ps dev log s) {pre r post} (hl : log = pre ++ r :: post) {a : Addr} {m : MessageWithNonce}
    (del : r.Delivers a m) (id : m.chainId = r.before.chainID) (fresh : ∀ r' ∈ pre, ∀ m', r'.Delivers a m' → m'.randomNonce ≠ m.randomNonce) :
    ∃ (o : Orders) (d : DeliverResponse), r.resp = .deliverTx d ∧
      deliverMessage ps o.idx (withNonce r.before a m.randomNonce) m.msg a = some (r.after, d) := by
  obtain ⟨hE, o, ho, hst⟩ := h.at hl
  have hn : r.before.nonceTracker a m.randomNonce = false := by
    rw [Bool.eq_false_iff]
    intro h1
    obtain ⟨r', hr', m', h2, h3⟩ := hE.nonce_used a _ h1
    exact fresh r' hr' m' h2 h3
  rw [show r.op = .deliverTx (some (a, m)) from del] at hst
  simp only [App.step, Option.map_eq_some_iff, Prod.mk.injEq] at hst
  obtain ⟨⟨s₁, d⟩, h1, h2, h3⟩ := hst
  simp only [deliverTx] at h1
  rw [if_neg (by simpa using id), if_neg (by simp [NonceTracker.check, hn])] at h1
  simp only at h2
  subst h2
  exact ⟨o, d, h3.symm, h1⟩

end Shutter.App
