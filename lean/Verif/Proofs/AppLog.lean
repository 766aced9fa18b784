import Verif.Proofs.AppInv

/-! # Invariants relating the state to the history of calls -/

namespace Shutter.App

/-- What every call except a processed message leaves alone. -/
structure Frame (s s' : State) : Prop where
  batchStates : s'.batchStates = s.batchStates
  dkgMap : s'.dkgMap = s.dkgMap
  configVoting : s'.configVoting = s.configVoting
  eonStartVotings : s'.eonStartVotings = s.eonStartVotings
  identities : s'.identities = s.identities
  eonCounter : s'.eonCounter = s.eonCounter
  nonceTracker : s'.nonceTracker = s.nonceTracker
  length : s'.configs.length = s.configs.length
  ids : (∃ a, a ∈ s.configs.flatMap (·.keypers)) → ids s' = ids s

theorem Frame.refl (s) : Frame s s := ⟨rfl, rfl, rfl, rfl, rfl, rfl, rfl, rfl, fun _ => rfl⟩

def processed (o : Orders) (ps : Parsers) (s : State) (op : Op) (s' : State) (r : Resp) : Prop :=
  ∃ a m d, op = .deliverTx (some (a, m)) ∧ m.chainId = s.chainID ∧ s.nonceTracker a m.randomNonce = false ∧
      r = .deliverTx d ∧ Eff ps o.idx (withNonce s a m.randomNonce) a m.msg s' d

theorem length_ids (s : State) : (ids s).length = s.configs.length := by simp [ids]

theorem step_frame {ps o s op s' r} (h : step ps o s op = some (s', r)) :
    (Frame s s' ∧ (Rec.mk s op r s').events = [] ∧ (∀ d, r = .deliverTx d → d = errorResponse ∧ s' = s)) ∨
    processed o ps s op s' r := by
  cases op with
  | initChain req =>
    left
    simp only [step, Option.map_eq_some_iff] at h
    obtain ⟨s₁, h₁, h₂⟩ := h
    simp at h₂; obtain ⟨rfl, rfl⟩ := h₂
    refine ⟨?_, rfl, by simp⟩
    rcases initChain_cases h₁ with ⟨keypers, threshold, c, pm, hg, hv, hc, hk, hpm, rfl⟩ | ⟨rfl, _⟩
    · refine ⟨rfl, rfl, rfl, rfl, rfl, rfl, rfl, by simp [hc], ?_⟩
      rintro ⟨a, ha⟩
      simp [hc, hk] at ha
    · exact ⟨rfl, rfl, rfl, rfl, rfl, rfl, rfl, rfl, fun _ => rfl⟩
  | checkTx tx =>
    left
    simp [step] at h
    obtain ⟨rfl, rfl⟩ := h
    obtain ⟨c, hc⟩ := checkTx_eq (s := s) (tx := tx)
    rw [hc]
    exact ⟨⟨rfl, rfl, rfl, rfl, rfl, rfl, rfl, rfl, fun _ => rfl⟩, rfl, by simp⟩
  | deliverTx tx =>
    simp only [step, Option.map_eq_some_iff] at h
    obtain ⟨⟨s₁, d⟩, h₁, h₂⟩ := h
    simp at h₂; obtain ⟨rfl, rfl⟩ := h₂
    rcases deliverTx_cases h₁ with ⟨rfl, rfl⟩ | ⟨a, m, rfl, h3, h4, he⟩
    · left
      exact ⟨Frame.refl _, rfl, by simp⟩
    · right; exact ⟨a, m, d, rfl, h3, h4, rfl, he⟩
  | endBlock ht =>
    left
    simp only [step, Option.map_eq_some_iff] at h
    obtain ⟨⟨s₁, d⟩, h₁, h₂⟩ := h
    simp at h₂; obtain ⟨rfl, rfl⟩ := h₂
    have hids := ids_endBlock h₁
    obtain ⟨_, _, _, _, _, _, hs', _⟩ := endBlock_cases h₁
    refine ⟨⟨?_, ?_, ?_, ?_, ?_, ?_, ?_, ?_, fun _ => hids⟩, rfl, by simp⟩
    all_goals first
      | (rw [hs']; done)
      | (rw [← length_ids, hids, length_ids])
  | commit =>
    left
    simp [step] at h
    obtain ⟨rfl, rfl⟩ := h
    exact ⟨⟨rfl, rfl, rfl, rfl, rfl, rfl, rfl, rfl, fun _ => rfl⟩, rfl, by simp⟩

theorem events_concat (log : List Rec) (r : Rec) : allEvents (log ++ [r]) = allEvents log ++ r.events := by
  simp [allEvents]

theorem events_deliver (s op d s') : (Rec.mk s op (.deliverTx d) s').events = d.events := rfl

/-! ## Nonces -/

theorem Eff.nonce {ps ord s a m s' r} (h : Eff ps ord s a m s' r) : s'.nonceTracker = s.nonceTracker := by
  cases h <;> rfl

theorem nonce_add (t : NonceTracker) (a n b k) :
    t.add a n b k = true ↔ (b = a ∧ k = n) ∨ t b k = true := by
  unfold NonceTracker.add
  by_cases hb : b = a
  · subst hb
    by_cases hk : k = n
    · subst hk; simp
    · simp [hk]
  · simp [hb]

theorem Exec.nonces {ps dev log s} (h : Exec ps dev log s) :
    ∀ r ∈ log, ∀ a m, r.Delivers a m → m.chainId = r.before.chainID → s.nonceTracker a m.randomNonce = true := by
  induction h with
  | start => simp
  | @step log s o op s' r hE ho hs ih =>
    have hmono : ∀ a n, s.nonceTracker a n = true → s'.nonceTracker a n = true := by
      intro a n hn
      rcases step_frame hs with ⟨hf, _⟩ | ⟨a', m', d, _, _, _, _, he⟩
      · rw [hf.nonceTracker]; exact hn
      · rw [he.nonce]; exact (nonce_add _ _ _ _ _).2 (Or.inr hn)
    intro r' hr' a m hd hch
    rcases List.mem_append.1 hr' with h' | h'
    · exact hmono _ _ (ih r' h' a m hd hch)
    · simp at h'; subst h'
      unfold Rec.Delivers at hd
      simp only at hd hch
      subst hd
      simp only [App.step, Option.map_eq_some_iff] at hs
      obtain ⟨⟨s₁, d⟩, h₁, h₂⟩ := hs
      simp at h₂; obtain ⟨rfl, rfl⟩ := h₂
      by_cases hn : s.nonceTracker a m.randomNonce = true
      · exact hmono _ _ hn
      · rcases deliverTx_cases h₁ with ⟨rfl, rfl⟩ | ⟨a', m', he, h3, h4, heff⟩
        · exfalso
          unfold deliverTx at h₁
          simp [hch, NonceTracker.check, hn] at h₁
          have := (eff_of_deliver h₁).nonce
          have h2 := congrFun (congrFun this a) m.randomNonce
          exact hn (h2.trans ((nonce_add _ _ _ _ _).2 (Or.inl ⟨rfl, rfl⟩)))
        · simp at he; obtain ⟨rfl, rfl⟩ := he
          rw [heff.nonce]
          exact (nonce_add _ _ _ _ _).2 (Or.inl ⟨rfl, rfl⟩)

/-! ## Eons -/

/-- The eon numbers published in a list of events. -/
def eonsOf (evs : List Event) : List Nat :=
  evs.filterMap (fun e => match e with | .eonStarted eon _ => some eon | _ => none)

theorem eonsOf_append (l l') : eonsOf (l ++ l') = eonsOf l ++ eonsOf l' := by simp [eonsOf]

theorem Exec.eons {ps dev log s} (h : Exec ps dev log s) :
    eonsOf (allEvents log) = List.range' 1 s.eonCounter ∧
    ∀ e, (∀ d, s.dkgMap e = some d → 1 ≤ e ∧ e ≤ s.eonCounter ∧ d.eon = e) ∧
      (1 ≤ e ∧ e ≤ s.eonCounter → ∃ d, s.dkgMap e = some d) := by
  induction h with
  | start => exact ⟨rfl, fun e => ⟨by simp [newApp], by simp [newApp]; omega⟩⟩
  | @step log s o op s' r hE ho hs ih =>
    obtain ⟨ih1, ih2⟩ := ih
    rw [events_concat, eonsOf_append]
    rcases step_frame hs with ⟨hf, hev, _⟩ | ⟨a, m, d, rfl, _, _, rfl, he⟩
    · rw [hev, hf.eonCounter, hf.dkgMap, ih1]
      exact ⟨by simp [eonsOf], ih2⟩
    · rw [events_deliver, ih1]
      have hrange : ∀ n, List.range' 1 n ++ [n + 1] = List.range' 1 (n + 1) := by
        intro n; rw [List.range'_concat]; simp; omega
      have hupd : ∀ (f : Nat → Option DKGInstance) n d,
          (∀ e, (∀ d, f e = some d → 1 ≤ e ∧ e ≤ n ∧ d.eon = e) ∧ (1 ≤ e ∧ e ≤ n → ∃ d, f e = some d)) →
          d.eon = n + 1 →
          (∀ e, (∀ d', Function.update f (n+1) (some d) e = some d' → 1 ≤ e ∧ e ≤ n + 1 ∧ d'.eon = e) ∧
            (1 ≤ e ∧ e ≤ n + 1 → ∃ d', Function.update f (n+1) (some d) e = some d')) := by
        intro f n d hf hd e
        by_cases he : e = n + 1
        · subst he; simp; exact hd
        · simp only [Function.update_of_ne he]
          refine ⟨fun d' hd' => ?_, fun hb => (hf e).2 (by omega)⟩
          have := (hf e).1 d' hd'; exact ⟨this.1, by omega, this.2.2⟩
      have hupd' : ∀ (f : Nat → Option DKGInstance) n e₀ d d₀, f e₀ = some d₀ → d.eon = d₀.eon →
          (∀ e, (∀ d, f e = some d → 1 ≤ e ∧ e ≤ n ∧ d.eon = e) ∧ (1 ≤ e ∧ e ≤ n → ∃ d, f e = some d)) →
          (∀ e, (∀ d', Function.update f e₀ (some d) e = some d' → 1 ≤ e ∧ e ≤ n ∧ d'.eon = e) ∧
            (1 ≤ e ∧ e ≤ n → ∃ d', Function.update f e₀ (some d) e = some d')) := by
        intro f n e₀ d d₀ h0 hd hf e
        by_cases he : e = e₀
        · subst he; simp; have := (hf e).1 d₀ h0; exact ⟨this.1, this.2.1, by rw [hd]; exact this.2.2⟩
        · simp only [Function.update_of_ne he]; exact hf e
      generalize m.msg = msg at he
      cases he with
      | rejected => exact ⟨by simp [eonsOf, errorResponse, withNonce], ih2⟩
      | configKnown => exact ⟨by simp [eonsOf, withNonce], ih2⟩
      | configVoted => exact ⟨by simp [eonsOf, withNonce], ih2⟩
      | configAdded m bc => exact ⟨by simp [eonsOf, configEvent, added, updateCheckTxMembers, withNonce], ih2⟩
      | configAddedDKG m bc =>
        refine ⟨?_, hupd _ _ _ ih2 rfl⟩
        simp only [eonsOf, configEvent, List.filterMap_cons, List.filterMap_nil]
        exact hrange _
      | alreadyStarted => exact ⟨by simp [eonsOf, withNonce], ih2⟩
      | startedVote => exact ⟨by simp [eonsOf, withNonce], ih2⟩
      | checkIn => exact ⟨by simp [eonsOf, withNonce], ih2⟩
      | eonVoted => exact ⟨by simp [eonsOf, withNonce], ih2⟩
      | eonStarted b c =>
        refine ⟨?_, hupd _ _ _ ih2 rfl⟩
        simp only [eonsOf, List.filterMap_cons, List.filterMap_nil]
        exact hrange _
      | decSig => exact ⟨by simp [eonsOf, withNonce], ih2⟩
      | polyEval eon rs es d d' hd _ _ hr =>
        refine ⟨by simp [eonsOf, withNonce], hupd' _ _ _ _ _ hd ?_ ih2⟩
        unfold registerPolyEval at hr; split_ifs at hr; simp at hr; rw [← hr]
      | polyCommitment eon gs gs' d d' hd _ hr =>
        refine ⟨by simp [eonsOf, withNonce], hupd' _ _ _ _ _ hd ?_ ih2⟩
        unfold registerPolyCommitment at hr; split_ifs at hr; simp at hr; rw [← hr]
      | accusation eon as d d' hd _ hr =>
        refine ⟨by simp [eonsOf, withNonce], hupd' _ _ _ _ _ hd ?_ ih2⟩
        unfold registerAccusation at hr; split_ifs at hr; simp at hr; rw [← hr]
      | apology eon as es d d' hd _ _ hr =>
        refine ⟨by simp [eonsOf, withNonce], hupd' _ _ _ _ _ hd ?_ ih2⟩
        unfold registerApology at hr; split_ifs at hr; simp at hr; rw [← hr]
      | share => exact ⟨by simp [eonsOf, withNonce], ih2⟩

end Shutter.App
