import Verif.Proofs.AppValidators

/-! # CheckTx does not matter; crash and replay -/

namespace Shutter.App

/-- Replace the bookkeeping of CheckTx, keeping the members. -/
def setC (c : CheckTxState) (s : State) : State :=
  { s with checkTxState := { c with members := s.checkTxState.members } }

theorem sameButCheckTx_iff {s t} : SameButCheckTx s t ↔ ∃ c, t = setC c s := by
  constructor
  · rintro ⟨h1, h2⟩
    refine ⟨t.checkTxState, ?_⟩
    unfold setC
    rw [h1]; exact h2.symm
  · rintro ⟨c, rfl⟩
    exact ⟨rfl, rfl⟩

theorem SameButCheckTx.refl (s) : SameButCheckTx s s := ⟨rfl, rfl⟩

theorem SameButCheckTx.symm {s t} (h : SameButCheckTx s t) : SameButCheckTx t s := by
  obtain ⟨c, rfl⟩ := sameButCheckTx_iff.1 h
  exact ⟨rfl, rfl⟩

theorem SameButCheckTx.trans {s t u} (h : SameButCheckTx s t) (h' : SameButCheckTx t u) : SameButCheckTx s u := by
  obtain ⟨c, rfl⟩ := sameButCheckTx_iff.1 h
  obtain ⟨c', rfl⟩ := sameButCheckTx_iff.1 h'
  exact ⟨rfl, rfl⟩

abbrev mapC (c : CheckTxState) {α} (x : Option (State × α)) : Option (State × α) := x.map (fun p => (setC c p.1, p.2))

theorem deliverBatchConfig_setC (c ord s m a) :
    deliverBatchConfig ord (setC c s) m a = mapC c (deliverBatchConfig ord s m a) := by
  unfold deliverBatchConfig
  cases h1 : batchConfigFromMessage m with
  | none => rfl
  | some bc =>
    have hl : lastConfig (setC c s) = lastConfig s := rfl
    have hcv : (setC c s).configVoting = s.configVoting := rfl
    simp only [hl, hcv]
    cases h2 : lastConfig s with
    | none => rfl
    | some last =>
      simp only
      split_ifs
      · rfl
      · rfl
      · rfl
      cases h3 : s.configVoting.addVote a bc with
      | none => rfl
      | some cv =>
        simp only
        cases h4 : cv.outcome ord (toInt64 last.threshold) with
        | none => rfl
        | some x =>
          cases x with
          | none => rfl
          | some y =>
            simp only
            have hadd : addConfig { setC c s with configVoting := ⟨[], []⟩ } bc =
                (addConfig { s with configVoting := ⟨[], []⟩ } bc).map (fun o => o.map (setC c)) := by
              unfold addConfig
              have h1 : lastConfig { setC c s with configVoting := ⟨[], []⟩ } = some last := h2
              have h2 : lastConfig { s with configVoting := ⟨[], []⟩ } = some last := h2
              rw [h1, h2]
              simp only
              split <;> rfl
            rw [hadd]
            cases h5 : addConfig { s with configVoting := ⟨[], []⟩ } bc with
            | none => rfl
            | some z =>
              cases z with
              | none => rfl
              | some s₁ =>
                simp only [Option.map_some]
                have : shouldStartDKG (setC c s₁) bc = shouldStartDKG s₁ bc := rfl
                rw [this]
                split_ifs
                · have : lastConfig (startDKG (setC c s₁) bc).1 = lastConfig (startDKG s₁ bc).1 := rfl
                  rw [this]
                  cases lastConfig (startDKG s₁ bc).1 with
                  | none => rfl
                  | some l => rfl
                · rfl

theorem registerDKG_setC (c s eon reg ev) :
    registerDKG (setC c s) eon reg ev = (setC c (registerDKG s eon reg ev).1, (registerDKG s eon reg ev).2) := by
  unfold registerDKG
  have : (setC c s).dkgMap = s.dkgMap := rfl
  rw [this]
  cases s.dkgMap eon with
  | none => rfl
  | some d =>
    simp only
    cases reg d with
    | none => rfl
    | some d' => rfl

theorem deliverMessage_setC (c ps ord s m a) :
    deliverMessage ps ord (setC c s) m a = mapC c (deliverMessage ps ord s m a) := by
  cases m with
  | batchConfig m => exact deliverBatchConfig_setC c ord s m a
  | batchConfigStarted i =>
    simp only [deliverMessage, deliverBatchConfigStarted]
    have hl : lastConfig (setC c s) = lastConfig s := rfl
    have hc : (setC c s).configs = s.configs := rfl
    rw [hl, hc]
    cases lastConfig s with
    | none => rfl
    | some last =>
      simp only
      by_cases h1 : i ≠ last.configIndex
      · rw [if_pos h1, if_pos h1]; rfl
      rw [if_neg h1, if_neg h1]
      by_cases h2 : s.configs.length ≤ 1
      · rw [if_pos h2, if_pos h2]; rfl
      rw [if_neg h2, if_neg h2]
      cases s.configs[s.configs.length - 2]? with
      | none => rfl
      | some prev =>
        simp only
        cases prev.isKeyper a <;> cases last.started <;> rfl
  | checkIn vk ek =>
    simp only [deliverMessage, deliverCheckIn]
    have h1 : (setC c s).identities = s.identities := rfl
    have h2 : isKeyper (setC c s) a = isKeyper s a := rfl
    rw [h1, h2]
    split_ifs <;> try rfl
    cases ps.pubkey ek <;> rfl
  | eonStartVote b =>
    simp only [deliverMessage, deliverEonStartVote]
    have hc : (setC c s).configs = s.configs := rfl
    rw [hc]
    cases getConfig s.configs b with
    | none => rfl
    | some cfg =>
      simp only
      split_ifs
      · rfl
      have : countEonStartVote (setC c s) a cfg b = countEonStartVote s a cfg b := rfl
      rw [this]
      cases (countEonStartVote s a cfg b).outcome ord (toInt64 cfg.threshold) with
      | none => rfl
      | some x => cases x <;> rfl
  | decryptionSignature b sig =>
    simp only [deliverMessage, deliverDecryptionSignature]
    have : getBatchState (setC c s) b = getBatchState s b := rfl
    rw [this]
    cases getBatchState s b with
    | none => rfl
    | some bs =>
      simp only
      cases bs.addDecryptionSignature a sig <;> rfl
  | polyEval eon rs es =>
    simp only [deliverMessage, handlePolyEval, registerDKG_setC]
    split_ifs
    · rfl
    cases parseAddresses rs <;> rfl
  | polyCommitment eon gs =>
    simp only [deliverMessage, handlePolyCommitment, registerDKG_setC]
    cases gs.mapM ps.g2 <;> rfl
  | accusation eon as =>
    simp only [deliverMessage, handleAccusation, registerDKG_setC]
    cases parseAddresses as <;> rfl
  | apology eon as es =>
    simp only [deliverMessage, handleApology, registerDKG_setC]
    split_ifs
    · rfl
    cases parseAddresses as <;> rfl
  | epochSecretKeyShare eon epoch sh =>
    simp only [deliverMessage, handleEpochSecretKeyShare]
    cases ps.share sh <;> rfl
  | unknown => rfl

theorem deliverTx_setC (c ps ord s tx) :
    deliverTx ps ord (setC c s) tx = mapC c (deliverTx ps ord s tx) := by
  unfold deliverTx
  cases tx with
  | none => rfl
  | some x =>
    obtain ⟨a, m⟩ := x
    simp only
    have h1 : (setC c s).chainID = s.chainID := rfl
    have h2 : (setC c s).nonceTracker = s.nonceTracker := rfl
    rw [h1, h2]
    split_ifs
    · rfl
    · rfl
    · exact deliverMessage_setC c ps ord { s with nonceTracker := s.nonceTracker.add a m.randomNonce } m.msg a

theorem endBlock_setC (c o s h) : endBlock o (setC c s) h = mapC c (endBlock o s h) := by
  unfold endBlock
  have hl : lastConfig (setC c s) = lastConfig s := rfl
  rw [hl]
  cases lastConfig s with
  | none => rfl
  | some last =>
    simp only
    have hm : maybeStartConfig (setC c s) last = mapC c (maybeStartConfig s last) := by
      unfold maybeStartConfig
      have hc : (setC c s).configs = s.configs := rfl
      have hv : (setC c s).startedVotes = s.startedVotes := rfl
      rw [hc, hv]
      split_ifs
      · cases s.configs[s.configs.length - 2]? with
        | none => rfl
        | some p => simp only; split_ifs <;> rfl
      · rfl
    rw [hm]
    cases maybeStartConfig s last with
    | none => rfl
    | some x =>
      obtain ⟨s₁, last₁⟩ := x
      simp only [Option.map_some]
      have hu : maybeUpdateValidators (setC c s₁) last₁ = setC c (maybeUpdateValidators s₁ last₁) := by
        unfold maybeUpdateValidators
        have : countCheckedInKeypers (setC c s₁) last₁.keypers = countCheckedInKeypers s₁ last₁.keypers := rfl
        rw [this]
        split_ifs <;> rfl
      rw [hu]
      generalize maybeUpdateValidators s₁ last₁ = s₂
      have h1 : currentValidators (setC c s₂) = currentValidators s₂ := rfl
      have h2 : (setC c s₂).validators = s₂.validators := rfl
      have h3 : (setC c s₂).devMode = s₂.devMode := rfl
      rw [h1, h2, h3]
      split_ifs <;> rfl

theorem checkTx_same (s tx) : SameButCheckTx s (checkTx s tx).1 := by
  unfold checkTx
  split
  · exact .refl s
  · split
    · exact .refl s
    · split
      · exact .refl s
      · next a m _ _ =>
        have : (s.checkTxState.addTx a m).2.members = s.checkTxState.members := by
          unfold CheckTxState.addTx
          split_ifs <;> rfl
        exact ⟨this.symm, rfl⟩

/-- A call on two states differing only in CheckTx bookkeeping. -/
theorem step_same {ps o s t op} (h : SameButCheckTx s t) (hop : ∀ tx, op ≠ .checkTx tx) :
    (step ps o s op = none ∧ step ps o t op = none) ∨
    ∃ s' t' r, step ps o s op = some (s', r) ∧ step ps o t op = some (t', r) ∧ SameButCheckTx s' t' ∧
      (op = .commit → s' = t') := by
  obtain ⟨c, rfl⟩ := sameButCheckTx_iff.1 h
  cases op with
  | checkTx tx => exact absurd rfl (hop tx)
  | initChain req =>
    simp only [step]
    have : initChain (setC c s) req = (initChain s req) ∨
        initChain (setC c s) req = (initChain s req).map (setC c) := by
      unfold initChain
      have hc : (setC c s).configs = s.configs := rfl
      rw [hc]
      cases req.genesis with
      | none => left; rfl
      | some g =>
        obtain ⟨keypers, threshold⟩ := g
        simp only
        split_ifs
        · left; rfl
        · cases s.configs with
          | nil => left; rfl
          | cons c₀ rest =>
            simp only
            split_ifs
            · left
              cases genesisPowermap req.validators [] <;> rfl
            · left; rfl
            · right; rfl
    cases hi : initChain s req with
    | none =>
      left
      rcases this with h | h <;> simp [h, hi]
    | some s' =>
      right
      rcases this with h | h
      · exact ⟨s', s', .none, rfl, by simp [h, hi], .refl _, by simp⟩
      · exact ⟨s', setC c s', .none, rfl, by simp [h, hi], sameButCheckTx_iff.2 ⟨c, rfl⟩, by simp⟩
  | deliverTx tx =>
    simp only [step, deliverTx_setC]
    cases deliverTx ps o.idx s tx with
    | none => left; exact ⟨rfl, rfl⟩
    | some p => right; exact ⟨p.1, setC c p.1, .deliverTx p.2, rfl, rfl, sameButCheckTx_iff.2 ⟨c, rfl⟩, by simp⟩
  | endBlock ht =>
    simp only [step, endBlock_setC]
    cases endBlock o s ht with
    | none => left; exact ⟨rfl, rfl⟩
    | some p => right; exact ⟨p.1, setC c p.1, .endBlock p.2, rfl, rfl, sameButCheckTx_iff.2 ⟨c, rfl⟩, by simp⟩
  | commit =>
    right
    exact ⟨_, _, .none, rfl, rfl, ⟨rfl, rfl⟩, fun _ => rfl⟩

end Shutter.App
