import Verif.Proofs.AppValidators

/-! # The application never panics on a reachable state -/

namespace Shutter.App

theorem Inv.last {s : State} (h : Inv s) : ∃ last, lastConfig s = some last := by
  obtain ⟨c, rest, hc, _⟩ := h.cfg.first
  have : s.configs ≠ [] := by
    intro h0; simp [ids, h0] at hc
  exact ⟨s.configs.getLast this, by simp [lastConfig, List.getLast?_eq_getLast_of_ne_nil this]⟩

theorem Inv.getConfig {s : State} (h : Inv s) (b) : ∃ c, getConfig s.configs b = some c := by
  obtain ⟨c, rest, hc, h0, _⟩ := h.cfg.first
  cases hs : s.configs with
  | nil => simp [ids, hs] at hc
  | cons d ds =>
    have hd : d.startBatchIndex = 0 := by
      simp [ids, hs] at hc
      have := congrArg BatchConfig.startBatchIndex hc.1
      simp [BatchConfig.erase] at this; rw [this, h0]
    have : (App.getConfig (d :: ds) b).isSome = true := by
      unfold App.getConfig
      rw [List.find?_isSome]
      exact ⟨d, by simp, by simp [hd]⟩
    exact Option.isSome_iff_exists.1 this

theorem deliverMessage_total {ps} {o : Orders} (ho : o.Lawful) {s} (h : Inv s) (m a) :
    ∃ p, deliverMessage ps o.idx s m a = some p := by
  cases m with
  | batchConfig m =>
    obtain ⟨last, hl⟩ := h.last
    simp only [deliverMessage, deliverBatchConfig, hl]
    cases hb : batchConfigFromMessage m with
    | none => exact ⟨_, rfl⟩
    | some bc =>
      simp only
      split; · exact ⟨_, rfl⟩
      split; · exact ⟨_, rfl⟩
      split; · exact ⟨_, rfl⟩
      cases hv : s.configVoting.addVote a bc with
      | none => exact ⟨_, rfl⟩
      | some cv =>
        obtain ⟨_, i, hvotes, hcand, _⟩ := ConfigVoting.addVote_cases hv
        have hI := h.cv _ (ids_getLast? hl)
        have hidx := outcomeIndex_setVote ho.idx (a := a) (i := i) hI
        simp only [BatchConfig.erase] at hidx
        rw [← hvotes] at hidx
        have hadd : ∃ x, addConfig { s with configVoting := ⟨[], []⟩ } bc = some x := by
          have : lastConfig { s with configVoting := ⟨[], []⟩ } = some last := hl
          simp only [addConfig, this]
          split <;> exact ⟨_, rfl⟩
        obtain ⟨x, hx⟩ := hadd
        simp only [ConfigVoting.outcome, hidx]
        by_cases hthr : toInt64 last.threshold ≤ (countVotes cv.votes i : Int)
        · simp only [hthr, if_true, hcand, hx]
          cases x with
          | none => exact ⟨_, rfl⟩
          | some s₁ =>
            simp only
            split
            · have : s₁.configs ≠ [] := by
                have : lastConfig { s with configVoting := ⟨[], []⟩ } = some last := hl
                simp only [addConfig, this] at hx
                split at hx
                · simp at hx
                · simp at hx; rw [← hx]; simp [updateCheckTxMembers]
              have : lastConfig (startDKG s₁ bc).1 = some (s₁.configs.getLast this) := by
                simp [lastConfig, startDKG, List.getLast?_eq_getLast_of_ne_nil this]
              simp only [this]; exact ⟨_, rfl⟩
            · exact ⟨_, rfl⟩
        · simp only [hthr, if_false]; exact ⟨_, rfl⟩
  | batchConfigStarted i =>
    obtain ⟨last, hl⟩ := h.last
    simp only [deliverMessage, deliverBatchConfigStarted, hl]
    split; · exact ⟨_, rfl⟩
    split; · exact ⟨_, rfl⟩
    next hlen =>
    obtain ⟨x, hx⟩ := length_sub_two (l := s.configs) (by omega)
    simp only [hx]
    split; · exact ⟨_, rfl⟩
    split <;> exact ⟨_, rfl⟩
  | eonStartVote b =>
    obtain ⟨c, hc⟩ := h.getConfig b
    simp only [deliverMessage, deliverEonStartVote, hc]
    split; · exact ⟨_, rfl⟩
    have hI := h.ev_getD (getConfig_mem hc)
    obtain ⟨i, hvotes, hcand, _⟩ := EonStartVoting.addVote_cases
      (v := (s.eonStartVotings c.configIndex).getD ⟨[], []⟩) (a := a) (b := b)
    have hidx := outcomeIndex_setVote ho.idx (a := a) (i := i) hI
    rw [← hvotes] at hidx
    simp only [EonStartVoting.outcome, countEonStartVote, hidx]
    split_ifs with hthr
    · simp only [hcand]; exact ⟨_, rfl⟩
    · exact ⟨_, rfl⟩
  | decryptionSignature b sig =>
    have : ∃ bs, getBatchState s b = some bs := by
      unfold getBatchState
      cases s.batchStates b with
      | some bs => exact ⟨_, rfl⟩
      | none => obtain ⟨c, hc⟩ := h.getConfig b; simp only [hc]; exact ⟨_, rfl⟩
    obtain ⟨bs, hbs⟩ := this
    simp only [deliverMessage, deliverDecryptionSignature, hbs]
    cases bs.addDecryptionSignature a sig <;> exact ⟨_, rfl⟩
  | _ => exact ⟨_, rfl⟩

theorem Inv.withNonce {s : State} (h : Inv s) (a n) : Inv (withNonce s a n) := ⟨h.cfg, h.cv, h.ev⟩

theorem step_total {ps} {o : Orders} (ho : o.Lawful) {s} (h : Inv s) (op) (hop : ∀ r, op ≠ .initChain r) :
    ∃ p, step ps o s op = some p := by
  cases op with
  | initChain r => exact absurd rfl (hop r)
  | checkTx tx => exact ⟨_, rfl⟩
  | commit => exact ⟨_, rfl⟩
  | deliverTx tx =>
    have : ∃ p, deliverTx ps o.idx s tx = some p := by
      unfold deliverTx
      split
      · exact ⟨_, rfl⟩
      · split; · exact ⟨_, rfl⟩
        split; · exact ⟨_, rfl⟩
        exact deliverMessage_total ho (h.withNonce _ _) _ _
    obtain ⟨p, hp⟩ := this
    simp only [step, hp]; exact ⟨_, rfl⟩
  | endBlock ht =>
    obtain ⟨last, hl⟩ := h.last
    have : ∃ p, endBlock o s ht = some p := by
      have hm : ∃ q, maybeStartConfig s last = some q := by
        unfold maybeStartConfig
        split
        · next hlen =>
          obtain ⟨x, hx⟩ := length_sub_two (l := s.configs) hlen
          simp only [hx]
          split <;> exact ⟨_, rfl⟩
        · exact ⟨_, rfl⟩
      obtain ⟨q, hq⟩ := hm
      simp only [endBlock, hl, hq]
      split <;> exact ⟨_, rfl⟩
    obtain ⟨p, hp⟩ := this
    simp only [step, hp]; exact ⟨_, rfl⟩

end Shutter.App
