import Verif.Proofs.AppOnce
import Verif.Proofs.AppQuorum

/-! # The config of a DKG instance and of a batch -/

namespace Shutter.App

theorem Exec.dkgConfig {ps dev log s} (h : Exec ps dev log s) :
    ∀ e d, s.dkgMap e = some d → ∃ r ∈ log, r.StartsEon e d.config := by
  induction h with
  | start => simp [newApp]
  | @step log s o op s' r hE ho hs ih =>
    have keep : s'.dkgMap = s.dkgMap → ∀ e d, s'.dkgMap e = some d →
        ∃ r' ∈ log ++ [⟨s, op, r, s'⟩], r'.StartsEon e d.config := by
      intro h0 e d hd
      rw [h0] at hd
      obtain ⟨r, hr, h1⟩ := ih e d hd
      exact ⟨r, List.mem_append_left _ hr, h1⟩
    rcases step_frame hs with ⟨hf, hev, _⟩ | ⟨a, m, d, rfl, _, _, rfl, he⟩
    · exact keep hf.dkgMap
    · have upd : ∀ e₀ d₀ d₁, s.dkgMap e₀ = some d₀ → d₁.config = d₀.config →
          s'.dkgMap = Function.update s.dkgMap e₀ (some d₁) → ∀ e d', s'.dkgMap e = some d' →
          ∃ r' ∈ log ++ [⟨s, .deliverTx (some (a, m)), .deliverTx d, s'⟩], r'.StartsEon e d'.config := by
        intro e₀ d₀ d₁ h0 h1 h2 e d' hd'
        rw [h2] at hd'
        have : ∃ d'', s.dkgMap e = some d'' ∧ d''.config = d'.config := by
          by_cases hee : e = e₀
          · subst hee; simp at hd'; subst hd'; exact ⟨d₀, h0, h1.symm⟩
          · rw [Function.update_of_ne hee] at hd'; exact ⟨d', hd', rfl⟩
        obtain ⟨d'', h3, h4⟩ := this
        obtain ⟨r, hr, h5⟩ := ih e d'' h3
        exact ⟨r, List.mem_append_left _ hr, h4 ▸ h5⟩
      generalize hm : m.msg = msg at he
      cases he with
      | configAddedDKG m' bc last cv i hbc =>
        intro e d' hd'
        simp only [startDKG, added, updateCheckTxMembers] at hd'
        by_cases hee : e = s.eonCounter + 1
        · subst hee
          simp [withNonce, newDKGInstance] at hd'
          subst hd'
          refine ⟨_, List.mem_append_right _ (List.mem_singleton_self _), ?_⟩
          refine ⟨⟨bc.startBatchIndex, ?_⟩, .inl ⟨a, m', ⟨m, hm, rfl, _, rfl⟩, asks_iff.1 hbc⟩⟩
          simp [Rec.events, withNonce]
        · rw [Function.update_of_ne (by exact hee)] at hd'
          obtain ⟨r, hr, h5⟩ := ih e d' hd'
          exact ⟨r, List.mem_append_left _ hr, h5⟩
      | eonStarted b c i start hc hk hout hcand =>
        intro e d' hd'
        simp only [startDKG] at hd'
        by_cases hee : e = s.eonCounter + 1
        · subst hee
          simp [withNonce, newDKGInstance] at hd'
          subst hd'
          refine ⟨_, List.mem_append_right _ (List.mem_singleton_self _), ?_⟩
          refine ⟨⟨start, ?_⟩, .inr ⟨a, b, ⟨m, hm, rfl, _, rfl⟩, getConfig_iff.1 hc⟩⟩
          simp [Rec.events, withNonce]
        · rw [Function.update_of_ne (by exact hee)] at hd'
          obtain ⟨r, hr, h5⟩ := ih e d' hd'
          exact ⟨r, List.mem_append_left _ hr, h5⟩
      | polyEval eon rs es d₀ d₁ h1 _ _ h2 =>
        exact upd _ _ _ h1 (by rw [(registerPolyEval_some h2).2.2.2]) rfl
      | polyCommitment eon gs gs' d₀ d₁ h1 _ h2 =>
        exact upd _ _ _ h1 (by rw [(registerPolyCommitment_some h2).2.2.2]) rfl
      | accusation eon as d₀ d₁ h1 _ h2 =>
        exact upd _ _ _ h1 (by rw [(registerAccusation_some h2).2.2.2.2]) rfl
      | apology eon as es d₀ d₁ h1 _ _ h2 =>
        exact upd _ _ _ h1 (by rw [(registerApology_some h2).2.2.2.2]) rfl
      | _ => exact keep rfl

theorem Exec.batchConfigs {ps dev log s} (h : Exec ps dev log s) :
    ∀ b, (s.batchStates b = none → ∀ r ∈ log, ¬ r.Signs b) ∧
      ∀ bs, s.batchStates b = some bs → ∃ r, FirstSignature log b r ∧ InForce r.before.configs b bs.config := by
  induction h with
  | start => intro b; simp [newApp]
  | @step log s o op s' r hE ho hs ih =>
    have keep : ∀ b, s'.batchStates b = s.batchStates b → ¬ (Rec.mk s op r s').Signs b →
        (s'.batchStates b = none → ∀ r' ∈ log ++ [⟨s, op, r, s'⟩], ¬ r'.Signs b) ∧
        ∀ bs, s'.batchStates b = some bs →
          ∃ r', FirstSignature (log ++ [⟨s, op, r, s'⟩]) b r' ∧ InForce r'.before.configs b bs.config := by
      intro b h0 h1
      rw [h0]
      refine ⟨fun h2 r' hr' => ?_, fun bs h2 => ?_⟩
      · rcases List.mem_append.1 hr' with hr' | hr'
        · exact (ih b).1 h2 r' hr'
        · simp at hr'; rw [hr']; exact h1
      · obtain ⟨r', ⟨pre, post, rfl, h3, h4⟩, h5⟩ := (ih b).2 bs h2
        exact ⟨r', ⟨pre, post ++ [⟨s, op, r, s'⟩], by simp, h3, h4⟩, h5⟩
    rcases step_frame hs with ⟨hf, hev, _⟩ | ⟨a, m, d, rfl, _, _, rfl, he⟩
    · intro b
      refine keep b (by rw [hf.batchStates]) ?_
      rintro ⟨a, sig, h⟩; rw [hev] at h; simp at h
    · generalize hm : m.msg = msg at he
      cases he with
      | decSig b₀ sig bs bs' h1 h2 =>
        intro b
        by_cases hb : b = b₀
        · subst hb
          refine ⟨fun h => by simp at h, fun bs₁ hbs₁ => ?_⟩
          simp at hbs₁; subst hbs₁
          have hcfg : bs'.config = bs.config := by rw [(addDecryptionSignature_some h2).2.2]
          cases hb : s.batchStates b with
          | some bs₀ =>
            have : bs = bs₀ := by
              simp only [getBatchState, withNonce, hb] at h1; simpa using h1.symm
            subst this
            obtain ⟨r', ⟨pre, post, rfl, h3, h4⟩, h5⟩ := (ih b).2 bs hb
            exact ⟨r', ⟨pre, _, List.append_assoc _ _ _, h3, h4⟩, hcfg ▸ h5⟩
          | none =>
            simp only [getBatchState, withNonce, hb] at h1
            split at h1
            · simp at h1
            next c hc =>
            simp at h1
            refine ⟨_, ⟨log, [], rfl, ⟨a, sig, by simp [Rec.events]⟩, (ih b).1 hb⟩, ?_⟩
            rw [hcfg, ← h1]
            exact getConfig_iff.1 hc
        · refine keep b ?_ ?_
          · simp [Function.update_of_ne hb, withNonce]
          · rintro ⟨a', sig', h'⟩
            simp [Rec.events] at h'
            exact hb h'.1
      | _ =>
        intro b
        refine keep b rfl ?_
        rintro ⟨a', sig', h'⟩
        simp [Rec.events, errorResponse, configEvent] at h'

end Shutter.App
