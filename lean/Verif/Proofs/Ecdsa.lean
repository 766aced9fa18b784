import Verif.Spec.Ecdsa
import Verif.Model.Decide
import Verif.Proofs.Bytes

/-! # The two ways to recover a signer -/

namespace Shutter.Ecdsa
open Shutter.Crypto Shutter.Decide

theorem split_set (sig : Bytes) (hl : sig.length = 65) (v : UInt8) :
    split (sig.set 64 v) = (beNat (sig.take 32), beNat ((sig.drop 32).take 32), v.toNat) := by
  unfold split
  have h1 : (sig.set 64 v).take 32 = sig.take 32 := by
    rw [List.take_set, List.set_eq_of_length_le]; simp [hl]
  have h2 : ((sig.set 64 v).drop 32).take 32 = (sig.drop 32).take 32 := by
    rw [List.drop_set, if_neg (by omega), List.take_set, List.set_eq_of_length_le]; simp [hl]
  rw [h1, h2]
  simp [List.getElem?_set, hl]

/-- A canonical signature is understood alike. -/
theorem recover_of_go {core : Core} (law : core.Lawful) {h sig c : Bytes} {a : Sol.Address} (hgo : goRecover core h sig = some a)
    (hc : toContractFormat sig = some c) (can : Canonical c) : recover core h c = some a := by
  unfold goRecover at hgo
  split at hgo
  · cases hgo
  · next hl =>
    have hl : sig.length = 65 := by simpa using hl
    simp only at hgo
    split at hgo
    · cases hgo
    · next hv =>
      unfold toContractFormat at hc
      rw [Option.map_eq_some_iff] at hc
      obtain ⟨v, hv', rfl⟩ := hc
      have hsp := split_set sig hl (v + 27)
      unfold recover
      rw [if_neg (by simp [hl])]
      rw [hsp]
      have hs : split sig = (beNat (sig.take 32), beNat ((sig.drop 32).take 32), v.toNat) := by unfold split; rw [hv']; rfl
      rw [hs] at hgo hv
      simp only at hgo hv ⊢
      obtain ⟨can1, can2⟩ := can
      have h2 : (((sig.set 64 (v + 27)).drop 32).take 32) = (sig.drop 32).take 32 := by
        rw [List.drop_set, if_neg (by omega), List.take_set, List.set_eq_of_length_le]; simp [hl]
      rw [h2] at can1
      have hget : (sig.set 64 (v + 27))[64]? = some (v + 27) := by simp [hl]
      rw [hget] at can2
      rw [if_neg (by omega)]
      have hvn : (v + 27).toNat = v.toNat + 27 := by
        rw [UInt8.toNat_add]
        show (v.toNat + 27) % 256 = _
        omega
      have hor : (v + 27).toNat = 27 ∨ (v + 27).toNat = 28 := by
        rcases can2 with h | h
        · left; rw [Option.some.inj h]; rfl
        · right; rw [Option.some.inj h]; rfl
      rw [if_neg (by omega), hvn, Nat.add_sub_cancel, hgo]
      have : a ≠ 0 := fun h0 => law.zero _ _ _ _ (by rw [hgo, h0])
      simp [this]

theorem mirrored_length {sig : Bytes} (hl : sig.length = 65) : (mirrored sig).length = 65 := by
  simp [mirrored, hl]

theorem split_mirrored {sig : Bytes} (hl : sig.length = 65) (v : UInt8) :
    split ((mirrored sig).set 64 v) = (beNat (sig.take 32), (order - beNat ((sig.drop 32).take 32)) % 256 ^ 32, v.toNat) := by
  rw [split_set _ (mirrored_length hl)]
  unfold mirrored
  have h1 : (sig.take 32).length = 32 := by simp [hl]
  have h2 := Crypto.beBytes_length (order - beNat ((sig.drop 32).take 32)) 32
  rw [List.append_assoc, List.take_left' h1, List.drop_left' h1, List.take_left' h2, Crypto.beNat_beBytes]

/-- The keyper takes the other signature for valid, the contract refuses it. -/
theorem mirrored_refused {core : Core} (law : core.Lawful) {h sig : Bytes} {a : Sol.Address} (hgo : goRecover core h sig = some a)
    (low : beNat ((sig.drop 32).take 32) ≤ halfOrder) (hv : sig[64]? = some 0 ∨ sig[64]? = some 1) :
    goRecover core h (mirrored sig) = some a ∧ ∃ c, toContractFormat (mirrored sig) = some c ∧ recover core h c = none := by
  unfold goRecover at hgo
  split at hgo
  · cases hgo
  · next hl =>
    have hl : sig.length = 65 := by simpa using hl
    simp only at hgo
    split at hgo
    · cases hgo
    · have hlast : (mirrored sig)[64]? = some (1 - (sig[64]?).getD 0) := by
        unfold mirrored
        rw [List.getElem?_append_right (by simp [hl])]
        simp [hl]
      have hsame : (mirrored sig).set 64 (1 - (sig[64]?).getD 0) = mirrored sig := by
        apply List.ext_getElem? 
        intro i
        by_cases hi : i = 64
        · subst hi; rw [hlast]; simp [mirrored_length hl]
        · simp [Ne.symm hi]
      obtain ⟨s0, s1⟩ := law.range _ _ _ _ _ hgo
      simp only [split] at s0 s1 hgo
      have hmod : (order - beNat ((sig.drop 32).take 32)) % 256 ^ 32 = order - beNat ((sig.drop 32).take 32) := by
        apply Nat.mod_eq_of_lt
        have : order < 256 ^ 32 := by unfold order; norm_num
        omega
      constructor
      · unfold goRecover
        rw [if_neg (by simp [mirrored_length hl]), ← hsame, split_mirrored hl]
        simp only [hmod]
        rcases hv with hv | hv
        · rw [hv] at hgo ⊢
          have := law.mirror h (beNat (sig.take 32)) (beNat ((sig.drop 32).take 32)) 0 s0 s1 (by omega)
          simp only [Option.getD_some] at hgo ⊢
          rw [if_neg (by decide), ← hgo]
          exact this
        · rw [hv] at hgo ⊢
          have := law.mirror h (beNat (sig.take 32)) (beNat ((sig.drop 32).take 32)) 1 s0 s1 (by omega)
          simp only [Option.getD_some] at hgo ⊢
          rw [if_neg (by decide), ← hgo]
          exact this
      · refine ⟨_, by unfold toContractFormat; rw [hlast]; rfl, ?_⟩
        unfold recover
        rw [if_neg (by simp [mirrored_length hl]), split_mirrored hl, hmod]
        simp only
        rw [if_pos]
        have : 2 * halfOrder < order := by unfold order halfOrder; norm_num
        omega

/-- What the contracts accept is a canonical signature of an account other than the zero address. -/
theorem recover_some {core : Core} {h sig : Bytes} {a : Sol.Address} (hr : recover core h sig = some a) :
    a ≠ 0 ∧ sig.length = 65 ∧ Canonical sig ∧ ∃ v < 2, sig[64]? = some (UInt8.ofNat (27 + v)) ∧
      core h (beNat (sig.take 32)) (beNat ((sig.drop 32).take 32)) v = some a := by
  unfold recover at hr
  split at hr
  · cases hr
  · next hl =>
    have hl : sig.length = 65 := by simpa using hl
    have hsp : split sig = (beNat (sig.take 32), beNat ((sig.drop 32).take 32), ((sig[64]?).getD 0).toNat) := rfl
    rw [hsp] at hr
    dsimp only at hr
    split at hr
    · cases hr
    · next hlow =>
      split at hr
      · cases hr
      · next hv =>
        have h64 : sig[64]? = some sig[64] := List.getElem?_eq_getElem (by omega)
        rw [h64] at hv hr ⊢
        simp only [Option.getD_some] at hv hr
        rw [Option.bind_eq_some_iff] at hr
        obtain ⟨a', hc, hr⟩ := hr
        split at hr
        · cases hr
        · next h0 =>
          cases hr
          have hv : sig[64].toNat = 27 ∨ sig[64].toNat = 28 := by omega
          have hb : sig[64] = 27 ∨ sig[64] = 28 := by
            rcases hv with hv | hv
            · exact Or.inl (UInt8.toNat_inj.1 hv)
            · exact Or.inr (UInt8.toNat_inj.1 hv)
          refine ⟨h0, hl, ⟨by omega, by rw [h64]; simpa using hb⟩, sig[64].toNat - 27, by omega, ?_, hc⟩
          rw [show 27 + (sig[64].toNat - 27) = sig[64].toNat by omega]
          simp

end Shutter.Ecdsa
