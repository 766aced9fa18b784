import Verif.Spec.App
import Mathlib.Tactic

/-! # Case analysis of message delivery, shared by all proofs about the app -/

namespace Shutter.App

/-- The state after adding a config. -/
def added (s : State) (bc : BatchConfig) : State :=
  updateCheckTxMembers { s with configVoting := ⟨[], []⟩, configs := s.configs ++ [bc] }

def configEvent (bc : BatchConfig) : Event :=
  Event.batchConfig bc.startBatchIndex bc.threshold bc.keypers bc.configIndex

/-- Everything a delivered message can do. -/
inductive Eff (ps : Parsers) (ord : List Nat → List Nat) (s : State) (a : Addr) : Msg → State → DeliverResponse → Prop
  | rejected (m) : Eff ps ord s a m s errorResponse
  | configKnown (m bc) : batchConfigFromMessage m = some bc → lastConfig s = some bc →
      Eff ps ord s a (.batchConfig m) s ⟨true, []⟩
  | configVoted (m bc last cv) : batchConfigFromMessage m = some bc → lastConfig s = some last →
      checkConfig last bc = true → last.isKeyper a = true → s.configVoting.addVote a bc = some cv →
      outcomeIndex ord cv.votes (toInt64 last.threshold) = none →
      Eff ps ord s a (.batchConfig m) { s with configVoting := cv } ⟨true, []⟩
  | configAdded (m bc last cv i) : batchConfigFromMessage m = some bc → lastConfig s = some last →
      checkConfig last bc = true → last.isKeyper a = true → s.configVoting.addVote a bc = some cv →
      outcomeIndex ord cv.votes (toInt64 last.threshold) = some i → i < cv.candidates.length →
      shouldStartDKG s bc = false →
      Eff ps ord s a (.batchConfig m) (added s bc) ⟨true, [configEvent bc]⟩
  | configAddedDKG (m bc last cv i) : batchConfigFromMessage m = some bc → lastConfig s = some last →
      checkConfig last bc = true → last.isKeyper a = true → s.configVoting.addVote a bc = some cv →
      outcomeIndex ord cv.votes (toInt64 last.threshold) = some i → i < cv.candidates.length →
      shouldStartDKG s bc = true →
      Eff ps ord s a (.batchConfig m) (startDKG (added s bc) bc).1
        ⟨true, [configEvent bc, .eonStarted (s.eonCounter + 1) bc.startBatchIndex]⟩
  | alreadyStarted (last prev) : lastConfig s = some last → 2 ≤ s.configs.length →
      s.configs[s.configs.length - 2]? = some prev → prev.isKeyper a = true → last.started = true →
      Eff ps ord s a (.batchConfigStarted last.configIndex) s ⟨true, []⟩
  | startedVote (last prev) : lastConfig s = some last → 2 ≤ s.configs.length →
      s.configs[s.configs.length - 2]? = some prev → prev.isKeyper a = true → last.started = false →
      Eff ps ord s a (.batchConfigStarted last.configIndex)
        { s with startedVotes := if s.startedVotes.contains a then s.startedVotes else s.startedVotes ++ [a] } ⟨true, []⟩
  | checkIn (vk ek pk) : s.identities a = none → isKeyper s a = true → vk.length = 32 → ps.pubkey ek = some pk →
      Eff ps ord s a (.checkIn vk ek) { s with identities := Function.update s.identities a (some vk) }
        ⟨true, [.checkIn a pk]⟩
  | eonVoted (b c) : getConfig s.configs b = some c → c.isKeyper a = true →
      outcomeIndex ord (countEonStartVote s a c b).votes (toInt64 c.threshold) = none →
      Eff ps ord s a (.eonStartVote b)
        { s with eonStartVotings := Function.update s.eonStartVotings c.configIndex (some (countEonStartVote s a c b)) }
        ⟨true, []⟩
  | eonStarted (b c i start) : getConfig s.configs b = some c → c.isKeyper a = true →
      outcomeIndex ord (countEonStartVote s a c b).votes (toInt64 c.threshold) = some i →
      (countEonStartVote s a c b).candidates[i]? = some start →
      Eff ps ord s a (.eonStartVote b)
        (startDKG { s with eonStartVotings := Function.update s.eonStartVotings c.configIndex none } c).1
        ⟨true, [.eonStarted (s.eonCounter + 1) start]⟩
  | decSig (b sig bs bs') : getBatchState s b = some bs → bs.addDecryptionSignature a sig = some bs' →
      Eff ps ord s a (.decryptionSignature b sig)
        { s with batchStates := Function.update s.batchStates b (some bs') } ⟨true, [.decryptionSignature b a sig]⟩
  | polyEval (eon rs es d d') : s.dkgMap eon = some d → rs.length = es.length → parseAddresses rs = some rs →
      registerPolyEval d a eon rs = some d' →
      Eff ps ord s a (.polyEval eon rs es) { s with dkgMap := Function.update s.dkgMap eon (some d') }
        ⟨true, [.polyEval a eon rs es]⟩
  | polyCommitment (eon gs gs' d d') : s.dkgMap eon = some d → gs.mapM ps.g2 = some gs' →
      registerPolyCommitment d a eon = some d' →
      Eff ps ord s a (.polyCommitment eon gs) { s with dkgMap := Function.update s.dkgMap eon (some d') }
        ⟨true, [.polyCommitment a eon gs']⟩
  | accusation (eon as d d') : s.dkgMap eon = some d → parseAddresses as = some as →
      registerAccusation d a eon as = some d' →
      Eff ps ord s a (.accusation eon as) { s with dkgMap := Function.update s.dkgMap eon (some d') }
        ⟨true, [.accusation a eon as]⟩
  | apology (eon as es d d') : s.dkgMap eon = some d → as.length = es.length → parseAddresses as = some as →
      registerApology d a eon as = some d' →
      Eff ps ord s a (.apology eon as es) { s with dkgMap := Function.update s.dkgMap eon (some d') }
        ⟨true, [.apology a eon as (es.map bigOfBytes)]⟩
  | share (eon epoch sh sh') : ps.share sh = some sh' →
      Eff ps ord s a (.epochSecretKeyShare eon epoch sh) s ⟨true, [.epochSecretKeyShare a eon epoch sh']⟩

theorem parseAddresses_eq {bs as} (h : parseAddresses bs = some as) : as = bs := by
  unfold parseAddresses validateAddresses at h
  split at h
  · simp at h
  · next h' => split at h' <;> simp_all

theorem registerDKG_cases {s : State} {eon reg ev s' r} (h : registerDKG s eon reg ev = (s', r)) :
    (s' = s ∧ r = errorResponse) ∨
    ∃ d d', s.dkgMap eon = some d ∧ reg d = some d' ∧
      s' = { s with dkgMap := Function.update s.dkgMap eon (some d') } ∧ r = ⟨true, [ev]⟩ := by
  unfold registerDKG at h
  split at h
  · simp_all
  · next d hd =>
    split at h
    · simp_all
    · next d' hd' =>
      right
      exact ⟨d, d', hd, hd', by simp_all, by simp_all⟩

theorem ConfigVoting.outcome_cases {ord} {v : ConfigVoting} {n r} (h : v.outcome ord n = some r) :
    (outcomeIndex ord v.votes n = none ∧ r = none) ∨
    ∃ i c, outcomeIndex ord v.votes n = some i ∧ v.candidates[i]? = some c ∧ r = some c := by
  unfold ConfigVoting.outcome at h
  split at h
  · left; simp_all
  · next i hi =>
    right
    split at h
    · simp at h
    · next c hc => exact ⟨i, c, hi, hc, by simpa using h.symm⟩

theorem EonStartVoting.outcome_cases {ord} {v : EonStartVoting} {n r} (h : v.outcome ord n = some r) :
    (outcomeIndex ord v.votes n = none ∧ r = none) ∨
    ∃ i c, outcomeIndex ord v.votes n = some i ∧ v.candidates[i]? = some c ∧ r = some c := by
  unfold EonStartVoting.outcome at h
  split at h
  · left; simp_all
  · next i hi =>
    right
    split at h
    · simp at h
    · next c hc => exact ⟨i, c, hi, hc, by simpa using h.symm⟩

theorem eff_of_deliver {ps ord s m a s' r} (h : deliverMessage ps ord s m a = some (s', r)) :
    Eff ps ord s a m s' r := by
  cases m with
  | batchConfig m =>
    simp only [deliverMessage, deliverBatchConfig] at h
    split at h
    · simp at h; rw [← h.1, ← h.2]; exact .rejected _
    next bc hbc =>
    split at h
    · simp at h
    next last hl =>
    split at h
    · next he => simp at h; rw [← h.1, ← h.2]; subst he; exact .configKnown _ _ hbc hl
    split at h
    · simp at h; rw [← h.1, ← h.2]; exact .rejected _
    next hck =>
    split at h
    · simp at h; rw [← h.1, ← h.2]; exact .rejected _
    next hk =>
    have hck : checkConfig last bc = true := by simpa using hck
    have hk : last.isKeyper a = true := by simpa using hk
    split at h
    · simp at h; rw [← h.1, ← h.2]; exact .rejected _
    next cv hcv =>
    split at h
    · simp at h
    · next ho =>
      simp at h; rw [← h.1, ← h.2]
      rcases ConfigVoting.outcome_cases ho with ⟨h1, _⟩ | ⟨_, _, _, _, h3⟩
      · exact .configVoted _ _ _ _ hbc hl hck hk hcv h1
      · simp at h3
    · next c ho =>
      rcases ConfigVoting.outcome_cases ho with ⟨_, h3⟩ | ⟨i, c', hi, hc', _⟩
      · simp at h3
      have hi' : i < cv.candidates.length := by
        by_contra hcon
        rw [List.getElem?_eq_none (by omega)] at hc'; simp at hc'
      have hadd : addConfig { s with configVoting := ⟨[], []⟩ } bc = some (some (added s bc)) := by
        have : lastConfig { s with configVoting := ⟨[], []⟩ } = some last := hl
        simp [addConfig, this, hck, added]
      rw [hadd] at h
      have hsh : shouldStartDKG (added s bc) bc = shouldStartDKG s bc := rfl
      simp only [hsh] at h
      cases hs : shouldStartDKG s bc with
      | false =>
        simp [hs] at h; rw [← h.1, ← h.2]
        exact .configAdded _ _ _ _ _ hbc hl hck hk hcv hi hi' hs
      | true =>
        have hlast : lastConfig (startDKG (added s bc) bc).1 = some bc := by
          simp [lastConfig, startDKG, added, updateCheckTxMembers]
        simp [hs, hlast] at h; rw [← h.1, ← h.2]
        exact .configAddedDKG _ _ _ _ _ hbc hl hck hk hcv hi hi' hs
  | batchConfigStarted i =>
    simp only [deliverMessage, deliverBatchConfigStarted] at h
    split at h
    · simp at h
    next last hl =>
    split at h
    · simp at h; rw [← h.1, ← h.2]; exact .rejected _
    next hci =>
    split at h
    · simp at h; rw [← h.1, ← h.2]; exact .rejected _
    next hlen =>
    split at h
    · simp at h
    next prev hp =>
    split at h
    · simp at h; rw [← h.1, ← h.2]; exact .rejected _
    next hk =>
    have hk : prev.isKeyper a = true := by simpa using hk
    have hci : i = last.configIndex := by simpa using hci
    subst hci
    split at h
    · next hst =>
      simp at h; rw [← h.1, ← h.2]
      have := Eff.startedVote (ps := ps) (ord := ord) last prev hl (by omega) hp hk (by simpa using hst)
      simpa using this
    · next hst =>
      simp at h; rw [← h.1, ← h.2]
      exact .alreadyStarted last prev hl (by omega) hp hk (by simpa using hst)
  | checkIn vk ek =>
    simp only [deliverMessage, deliverCheckIn, Option.some.injEq] at h
    split at h
    · simp at h; rw [← h.1, ← h.2]; exact .rejected _
    next h1 =>
    split at h
    · simp at h; rw [← h.1, ← h.2]; exact .rejected _
    next h2 =>
    split at h
    · simp at h; rw [← h.1, ← h.2]; exact .rejected _
    next h3 =>
    split at h
    · simp at h; rw [← h.1, ← h.2]; exact .rejected _
    next pk h4 =>
    simp at h; rw [← h.1, ← h.2]
    exact .checkIn _ _ _ (by simpa using h1) (by simpa using h2) (by simpa using h3) h4
  | eonStartVote b =>
    simp only [deliverMessage, deliverEonStartVote] at h
    split at h
    · simp at h
    next c hc =>
    split at h
    · simp at h; rw [← h.1, ← h.2]; exact .rejected _
    next hk =>
    have hk : c.isKeyper a = true := by simpa using hk
    split at h
    · simp at h
    · next ho =>
      rcases EonStartVoting.outcome_cases ho with ⟨h1, _⟩ | ⟨_, _, _, _, h3⟩
      · simp at h; rw [← h.1, ← h.2]; exact .eonVoted _ _ hc hk h1
      · simp at h3
    · next st ho =>
      rcases EonStartVoting.outcome_cases ho with ⟨_, h3⟩ | ⟨i, c', hi, hc', h3⟩
      · simp at h3
      simp at h3; subst h3
      simp at h; rw [← h.1, ← h.2]
      exact .eonStarted _ _ _ _ hc hk hi hc'
  | decryptionSignature b sig =>
    simp only [deliverMessage, deliverDecryptionSignature] at h
    split at h
    · simp at h
    next bs hbs =>
    split at h
    · simp at h; rw [← h.1, ← h.2]; exact .rejected _
    next bs' hbs' =>
    simp at h; rw [← h.1, ← h.2]
    exact .decSig _ _ _ _ hbs hbs'
  | polyEval eon rs es =>
    simp only [deliverMessage, handlePolyEval, Option.some.injEq] at h
    split at h
    · simp at h; rw [← h.1, ← h.2]; exact .rejected _
    next h1 =>
    split at h
    · simp at h; rw [← h.1, ← h.2]; exact .rejected _
    next rs' h2 =>
    have := parseAddresses_eq h2; subst this
    rcases registerDKG_cases h with ⟨rfl, rfl⟩ | ⟨d, d', hd, hd', rfl, rfl⟩
    · exact .rejected _
    · exact .polyEval _ _ _ _ _ hd (by simpa using h1) h2 hd'
  | polyCommitment eon gs =>
    simp only [deliverMessage, handlePolyCommitment, Option.some.injEq] at h
    split at h
    · simp at h; rw [← h.1, ← h.2]; exact .rejected _
    next gs' h2 =>
    rcases registerDKG_cases h with ⟨rfl, rfl⟩ | ⟨d, d', hd, hd', rfl, rfl⟩
    · exact .rejected _
    · exact .polyCommitment _ _ _ _ _ hd h2 hd'
  | accusation eon as =>
    simp only [deliverMessage, handleAccusation, Option.some.injEq] at h
    split at h
    · simp at h; rw [← h.1, ← h.2]; exact .rejected _
    next as' h2 =>
    have := parseAddresses_eq h2; subst this
    rcases registerDKG_cases h with ⟨rfl, rfl⟩ | ⟨d, d', hd, hd', rfl, rfl⟩
    · exact .rejected _
    · exact .accusation _ _ _ _ hd h2 hd'
  | apology eon as es =>
    simp only [deliverMessage, handleApology, Option.some.injEq] at h
    split at h
    · simp at h; rw [← h.1, ← h.2]; exact .rejected _
    next h1 =>
    split at h
    · simp at h; rw [← h.1, ← h.2]; exact .rejected _
    next as' h2 =>
    have := parseAddresses_eq h2; subst this
    rcases registerDKG_cases h with ⟨rfl, rfl⟩ | ⟨d, d', hd, hd', rfl, rfl⟩
    · exact .rejected _
    · exact .apology _ _ _ _ _ hd (by simpa using h1) h2 hd'
  | epochSecretKeyShare eon epoch sh =>
    simp only [deliverMessage, handleEpochSecretKeyShare, Option.some.injEq] at h
    split at h
    · simp at h; rw [← h.1, ← h.2]; exact .rejected _
    next sh' h2 =>
    simp at h; rw [← h.1, ← h.2]; exact .share _ _ _ _ h2
  | unknown =>
    simp [deliverMessage] at h; rw [← h.1, ← h.2]; exact .rejected _

/-- The state with the nonce marked. -/
def withNonce (s : State) (a : Addr) (n : Nat) : State := { s with nonceTracker := s.nonceTracker.add a n }

theorem deliverTx_cases {ps ord s tx s' r} (h : deliverTx ps ord s tx = some (s', r)) :
    (s' = s ∧ r = errorResponse) ∨
    ∃ a m, tx = some (a, m) ∧ m.chainId = s.chainID ∧ s.nonceTracker a m.randomNonce = false ∧
      Eff ps ord (withNonce s a m.randomNonce) a m.msg s' r := by
  unfold deliverTx at h
  split at h
  · simp at h; left; exact ⟨h.1.symm, h.2.symm⟩
  next a m =>
  split at h
  · simp at h; left; exact ⟨h.1.symm, h.2.symm⟩
  next h1 =>
  split at h
  · simp at h; left; exact ⟨h.1.symm, h.2.symm⟩
  next h2 =>
  right
  refine ⟨a, m, rfl, by simpa using h1, ?_, eff_of_deliver h⟩
  simpa [NonceTracker.check] using h2

end Shutter.App
