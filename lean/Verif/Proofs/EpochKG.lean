import Mathlib.Data.Finset.Card
import Mathlib.Data.Finset.Dedup
import Verif.Spec.Dkg
import Verif.Proofs.Shares
import Verif.Props.Crypto

/-! Invariant of epoch key generation. -/

namespace Shutter.Dkg
open Shutter.Crypto Shutter.Crypto.Spec Shutter.Dkg.Spec

variable {G1 G2 GT : Type} [AddCommGroup G1] [AddCommGroup G2] [CommGroup GT] [DecidableEq GT] [DecidableEq G1]

/-- Invariant relating the state to the messages processed so far. -/
structure KGInv (env : Env G1 G2 GT) (P : List Nat) (pks : List G2) (hist : List (EpochShare G1))
    (kg : EpochKG G1 G2) : Prop where
  thr : kg.threshold = P.length
  pksEq : kg.publicKeyShares = pks
  pending : ∀ e, kg.secretKeys e = none →
    ((kg.secretShares e).map (·.sender)).Nodup ∧
    ((kg.secretShares e).map (·.sender)).toFinset = correctSenders env (fun j => polyValue P (j + 1)) hist e ∧
    (∀ s ∈ kg.secretShares e, s.share = polyValue P (s.sender + 1) • epochIDOf env e ∧ s.sender < pks.length) ∧
    (kg.secretShares e).length < kg.threshold
  done : ∀ e k, kg.secretKeys e = some k →
    k = some (secret P • epochIDOf env e) ∧
    kg.threshold ≤ (correctSenders env (fun j => polyValue P (j + 1)) hist e).card

theorem correctSenders_append (env : Env G1 G2 GT) (val : Nat → Nat) (msgs : List (EpochShare G1))
    (m : EpochShare G1) (e : Nat) :
    correctSenders env val (msgs ++ [m]) e =
      if m.epoch = e ∧ m.share = val m.sender • epochIDOf env e then insert m.sender (correctSenders env val msgs e)
      else correctSenders env val msgs e := by
  unfold correctSenders
  rw [List.filter_append, List.map_append]
  by_cases h : m.epoch = e ∧ m.share = val m.sender • epochIDOf env e
  · rw [if_pos h]
    ext x
    simp [h, or_comm]
  · rw [if_neg h]
    simp [h]

theorem correctSenders_mono (env : Env G1 G2 GT) (val : Nat → Nat) (msgs : List (EpochShare G1))
    (m : EpochShare G1) (e : Nat) :
    correctSenders env val msgs e ⊆ correctSenders env val (msgs ++ [m]) e := by
  rw [correctSenders_append]
  split
  · exact Finset.subset_insert _ _
  · exact fun _ h => h

theorem kg_step (env : Env G1 G2 GT) (law : Lawful env) (P : List Nat) (pks : List G2)
    (hpks : ∀ j (h : j < pks.length), pks[j] = polyValue P (j + 1) • env.g2) (hsize : pks.length ≤ 2 ^ 63)
    (hist : List (EpochShare G1)) (kg kg' : EpochKG G1 G2) (m : EpochShare G1) (ok : Bool)
    (inv : KGInv env P pks hist kg) (h : kg.handleShare env m = some (kg', ok)) :
    KGInv env P pks (hist ++ [m]) kg' := by
  unfold EpochKG.handleShare at h
  split at h
  · -- key already known
    next hk =>
    simp only [Option.some.injEq, Prod.mk.injEq] at h
    obtain ⟨rfl, _⟩ := h
    refine ⟨inv.thr, inv.pksEq, ?_, ?_⟩
    · intro e he
      have hne : m.epoch ≠ e := by rintro rfl; simp [he] at hk
      rw [correctSenders_append, if_neg (by rintro ⟨h1, _⟩; exact hne h1)]
      exact inv.pending e he
    · intro e k he
      obtain ⟨h1, h2⟩ := inv.done e k he
      exact ⟨h1, h2.trans (Finset.card_le_card (correctSenders_mono _ _ _ _ _))⟩
  · next hk =>
    have hk0 : kg.secretKeys m.epoch = none := by simpa using hk
    split at h
    · simp at h
    · next pk hpk =>
      rw [inv.pksEq] at hpk
      obtain ⟨hlt, hpk⟩ := List.getElem?_eq_some_iff.1 hpk
      rw [hpks _ hlt] at hpk
      split at h
      · -- invalid share
        next hv =>
        simp only [Option.some.injEq, Prod.mk.injEq] at h
        obtain ⟨rfl, _⟩ := h
        have hbad : ∀ e, ¬ (m.epoch = e ∧ m.share = polyValue P (m.sender + 1) • epochIDOf env e) := by
          rintro e ⟨rfl, hs⟩
          rw [← hpk] at hv
          have := (Props.C05_share_verification_exact env law (polyValue P (m.sender + 1)) m.share
            (epochIDOf env m.epoch)).2 hs
          rw [this] at hv
          simp at hv
        refine ⟨inv.thr, inv.pksEq, ?_, ?_⟩
        · intro e he
          rw [correctSenders_append, if_neg (hbad e)]
          exact inv.pending e he
        · intro e k he
          rw [correctSenders_append, if_neg (hbad e)]
          exact inv.done e k he
      · next hv =>
        have hgood : m.share = polyValue P (m.sender + 1) • epochIDOf env m.epoch := by
          have hv' : verifyEpochSecretKeyShare env m.share pk (epochIDOf env m.epoch) = true := by simpa using hv
          rw [← hpk] at hv'
          exact (Props.C05_share_verification_exact env law _ _ _).1 hv'
        obtain ⟨p1, p2, p3, p4⟩ := inv.pending m.epoch hk0
        unfold EpochKG.addShare at h
        simp only at h
        split at h
        · -- duplicate sender
          next hdup =>
          simp only [Option.some.injEq, Prod.mk.injEq] at h
          obtain ⟨rfl, _⟩ := h
          have hmem : m.sender ∈ correctSenders env (fun j => polyValue P (j + 1)) hist m.epoch := by
            rw [← p2]
            simp only [List.any_eq_true, decide_eq_true_eq] at hdup
            obtain ⟨s, hs, he⟩ := hdup
            simp only [List.mem_toFinset, List.mem_map]
            exact ⟨s, hs, he⟩
          have hsame : ∀ e, correctSenders env (fun j => polyValue P (j + 1)) (hist ++ [m]) e =
              correctSenders env (fun j => polyValue P (j + 1)) hist e := by
            intro e
            rw [correctSenders_append]
            split
            · next hc => obtain ⟨rfl, _⟩ := hc; exact Finset.insert_eq_of_mem hmem
            · rfl
          refine ⟨inv.thr, inv.pksEq, ?_, ?_⟩
          · intro e he; rw [hsame]; exact inv.pending e he
          · intro e k he; rw [hsame]; exact inv.done e k he
        · next hdup =>
          have hnew : m.sender ∉ (kg.secretShares m.epoch).map (·.sender) := by
            intro hm
            obtain ⟨s, hs, he⟩ := List.mem_map.1 hm
            apply hdup
            simp only [List.any_eq_true, decide_eq_true_eq]
            exact ⟨s, hs, he⟩
          have q1 : ((kg.secretShares m.epoch ++ [m]).map (·.sender)).Nodup := by
            rw [List.map_append, List.nodup_append]
            refine ⟨p1, by simp, ?_⟩
            intro a ha b hb
            simp at hb
            subst hb
            rintro rfl
            exact hnew ha
          have q2 : ((kg.secretShares m.epoch ++ [m]).map (·.sender)).toFinset =
              correctSenders env (fun j => polyValue P (j + 1)) (hist ++ [m]) m.epoch := by
            rw [correctSenders_append, if_pos ⟨rfl, hgood⟩, ← p2]
            ext x; simp [or_comm]
          have q3 : ∀ s ∈ kg.secretShares m.epoch ++ [m],
              s.share = polyValue P (s.sender + 1) • epochIDOf env m.epoch ∧ s.sender < pks.length := by
            intro s hs
            rcases List.mem_append.1 hs with h1 | h1
            · exact p3 s h1
            · simp at h1; subst h1; exact ⟨hgood, hlt⟩
          have hother : ∀ e, e ≠ m.epoch → correctSenders env (fun j => polyValue P (j + 1)) (hist ++ [m]) e =
              correctSenders env (fun j => polyValue P (j + 1)) hist e := by
            intro e he
            rw [correctSenders_append, if_neg (by rintro ⟨h1, _⟩; exact he h1.symm)]
          split at h
          · -- not enough yet
            next hlen =>
            simp only [Option.some.injEq, Prod.mk.injEq] at h
            obtain ⟨rfl, _⟩ := h
            refine ⟨inv.thr, inv.pksEq, ?_, ?_⟩
            · intro e he
              by_cases hee : e = m.epoch
              · subst hee
                simp only [if_true]
                refine ⟨q1, q2, q3, ?_⟩
                simp at hlen ⊢
                omega
              · simp only [hee, if_false]
                rw [hother e hee]
                exact inv.pending e he
            · intro e k he
              have hee : e ≠ m.epoch := by rintro rfl; simp only at he; rw [hk0] at he; simp at he
              rw [hother e hee]
              exact inv.done e k he
          · -- threshold reached
            next hlen =>
            rw [not_not] at hlen
            have hkey : kg.computeKey (kg.secretShares m.epoch ++ [m]) = some (secret P • epochIDOf env m.epoch) := by
              unfold EpochKG.computeKey
              have hshares : (kg.secretShares m.epoch ++ [m]).map (·.share) =
                  ((kg.secretShares m.epoch ++ [m]).map (·.sender)).map
                    fun j => polyValue P (j + 1) • epochIDOf env m.epoch := by
                rw [List.map_map]
                apply List.map_congr_left
                intro s hs
                exact (q3 s hs).1
              rw [hshares, ← hlen]
              have hl : ((kg.secretShares m.epoch ++ [m]).map (·.sender)).length =
                  (kg.secretShares m.epoch ++ [m]).length := by rw [List.length_map]
              rw [← hl]
              apply reconstruct law.order_smul_G1 P _ q1
              · intro i hi
                obtain ⟨s, hs, rfl⟩ := List.mem_map.1 hi
                have := (q3 s hs).2
                have ho : 2 ^ 63 + 1 < order := by decide +kernel
                omega
              · rw [hl, hlen, inv.thr]
              · intro i _
                rw [polyValue_cast, keyperX, add_comm]
            rw [hkey] at h
            simp only [Option.some.injEq, Prod.mk.injEq] at h
            obtain ⟨rfl, _⟩ := h
            refine ⟨inv.thr, inv.pksEq, ?_, ?_⟩
            · intro e he
              by_cases hee : e = m.epoch
              · subst hee; simp at he
              · simp only [hee, if_false] at he ⊢
                rw [hother e hee]
                exact inv.pending e he
            · intro e k he
              by_cases hee : e = m.epoch
              · subst hee
                simp only [if_true, Option.some.injEq] at he
                refine ⟨he.symm, ?_⟩
                show kg.threshold ≤ _
                rw [← q2, List.toFinset_card_of_nodup q1, List.length_map, hlen]
              · simp only [hee, if_false] at he
                rw [hother e hee]
                exact inv.done e k he

theorem kg_run (env : Env G1 G2 GT) (law : Lawful env) (P : List Nat) (pks : List G2)
    (hpks : ∀ j (h : j < pks.length), pks[j] = polyValue P (j + 1) • env.g2) (hsize : pks.length ≤ 2 ^ 63) :
    ∀ (msgs hist : List (EpochShare G1)) (kg kg' : EpochKG G1 G2),
    KGInv env P pks hist kg → kg.handleAll env msgs = some kg' → KGInv env P pks (hist ++ msgs) kg' := by
  intro msgs
  induction msgs with
  | nil => intro hist kg kg' inv h; simp [EpochKG.handleAll] at h; subst h; simpa
  | cons m ms ih =>
    intro hist kg kg' inv h
    rw [EpochKG.handleAll] at h
    split at h
    · simp at h
    · next kg1 ok h1 =>
      have := ih (hist ++ [m]) kg1 kg' (kg_step env law P pks hpks hsize hist kg kg1 m ok inv h1) h
      simpa using this

theorem kg_init (env : Env G1 G2 GT) (r : Result G2) (P : List Nat) (ht : r.threshold = P.length)
    (hp : 0 < P.length) : KGInv env P r.publicKeyShares [] (newEpochKG r : EpochKG G1 G2) := by
  refine ⟨ht, rfl, ?_, ?_⟩
  · intro e _
    refine ⟨by simp [newEpochKG], by simp [newEpochKG, correctSenders], by simp [newEpochKG], ?_⟩
    simpa [newEpochKG, ht] using hp
  · intro e k h
    simp [newEpochKG] at h

theorem kg_total (env : Env G1 G2 GT) : ∀ (msgs : List (EpochShare G1)) (kg : EpochKG G1 G2),
    (∀ m ∈ msgs, m.sender < kg.publicKeyShares.length) → ∃ kg', kg.handleAll env msgs = some kg' := by
  intro msgs
  induction msgs with
  | nil => intro kg _; exact ⟨kg, rfl⟩
  | cons m ms ih =>
    intro kg h
    rw [EpochKG.handleAll]
    have hm := h m (by simp)
    have hpres : ∃ kg1 ok, kg.handleShare env m = some (kg1, ok) ∧ kg1.publicKeyShares = kg.publicKeyShares := by
      unfold EpochKG.handleShare
      split
      · exact ⟨kg, true, rfl, rfl⟩
      · rw [List.getElem?_eq_getElem hm]
        simp only
        split
        · exact ⟨kg, false, rfl, rfl⟩
        · unfold EpochKG.addShare
          simp only
          split
          · exact ⟨_, _, rfl, rfl⟩
          · split
            · exact ⟨_, _, rfl, rfl⟩
            · exact ⟨_, _, rfl, rfl⟩
    obtain ⟨kg1, ok, h1, h2⟩ := hpres
    rw [h1]
    exact ih kg1 (by intro x hx; rw [h2]; exact h x (by simp [hx]))

end Shutter.Dkg
