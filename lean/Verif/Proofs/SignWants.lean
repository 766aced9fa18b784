import Verif.Proofs.Sign

/-! # When a signature is wanted -/

namespace Shutter.Decide
open Shutter.Crypto Shutter.Dkg Shutter.Observe Shutter.Observe.Props Shutter.Main Shutter.GoConfig Shutter.Decide.Spec
open Shutter.Sol (BatchConfig zeroHash World two64 NoneTakenBack)

variable {G1 G2 GT R : Type} [AddCommGroup G1] [AddCommGroup G2] [DecidableEq G2] [DecidableEq GT]
variable {cx : Cfg G1 G2 GT R} {codecs : Events.Codecs} {chain : Observe.Chain} {E : Sol.Env} {fd : Nat}
variable {sh : Observe.Shutter} {mc : MainChain} {hist : Nat → World}

omit [AddCommGroup G1] [AddCommGroup G2] [DecidableEq G2] [DecidableEq GT] in
theorem syncSignatures_source (cx : Cfg G1 G2 GT R) (config : BatchConfig) {a : Sol.Address} {sig : Bytes} : ∀ (xs : List Stamped) (b : Batch),
    (a, sig) ∈ (syncSignatures cx config b xs).verifiedSignatures → (a, sig) ∈ b.verifiedSignatures ∨
      ∃ x ∈ xs, ∃ b' sender, x.ev = .decryptionSignature b' sender sig ∧ addrNat sender = a := by
  intro xs
  induction xs with
  | nil => intro b h; exact .inl h
  | cons x xs ih =>
    intro b h
    have up : ((a, sig) ∈ b.verifiedSignatures ∨ ∃ x ∈ xs, ∃ b' sender, x.ev = .decryptionSignature b' sender sig ∧ addrNat sender = a) →
        ((a, sig) ∈ b.verifiedSignatures ∨ ∃ y ∈ x :: xs, ∃ b' sender, y.ev = .decryptionSignature b' sender sig ∧ addrNat sender = a) := by
      rintro (h | ⟨y, hy, k⟩)
      · exact .inl h
      · exact .inr ⟨y, by simp [hy], k⟩
    unfold syncSignatures at h
    split at h
    · next e sender signature heq =>
      simp only at h
      split_ifs at h
      · exact up (ih b h)
      · exact up (ih b h)
      · exact up (ih b h)
      · simp only [List.mem_append, List.mem_singleton, Prod.mk.injEq] at h
        rcases h with h | ⟨rfl, rfl⟩
        · exact .inl h
        · exact .inr ⟨x, by simp, e, sender, heq, rfl⟩
      · rcases ih _ h with h | ⟨y, hy, k⟩
        · simp only [List.mem_append, List.mem_singleton, Prod.mk.injEq] at h
          rcases h with h | ⟨rfl, rfl⟩
          · exact .inl h
          · exact .inr ⟨x, by simp, e, sender, heq, rfl⟩
        · exact .inr ⟨y, by simp [hy], k⟩
    · exact up (ih b h)

omit [AddCommGroup G1] [AddCommGroup G2] [DecidableEq G2] [DecidableEq GT] in
theorem keyperIndex_isSome (bc : BatchConfig) (nd : bc.keypers.Nodup) (a : Sol.Address) : (keyperIndex (known bc) a).isSome ↔ a ∈ bc.keypers := by
  unfold keyperIndex
  rw [(known_fields bc).2.2.2.2.2.2, dedupGo_nodup _ _ (by simp) nd]
  simp only
  constructor
  · intro h
    split at h
    · next hlt =>
      rw [List.findIdx_lt_length] at hlt
      obtain ⟨x, hx, he⟩ := hlt
      rw [beq_iff_eq] at he
      subst he
      exact hx
    · cases h
  · intro h
    rw [if_pos (List.findIdx_lt_length_of_exists ⟨_, h, by simp⟩)]
    rfl

/-- A fresh batch is short of signatures exactly if there are not enough. -/
theorem fresh_few {bc : BatchConfig} {b : Nat} {key : G1} {bt : Batch} {hash : Bytes} (nd : bc.keypers.Nodup)
    (hc : configForBatchIndex mc b = some (some (known bc))) (hg : getBatchData sh b = signaturesFor b (seenEvents codecs chain sh))
    (hf : (freshBatch cx mc b key).isEmpty = false) (hs : syncBatch cx sh mc (freshBatch cx mc b key) = some bt)
    (hh : (freshBatch cx mc b key).decryptionSignatureHash =
      decryptionSignatureHash cx b hash (transactionsHash cx (freshBatch cx mc b key).decryptedTransactions)) :
    bt.verifiedSignatures.length < bc.threshold ↔
      ¬ EnoughSignatures cx codecs chain sh.currentBlock bc b hash (freshBatch cx mc b key).decryptedTransactions := by
  have inv0 : SigInv cx (known bc) b (getBatchData sh b) (freshBatch cx mc b key) := ⟨rfl, Nat.zero_le _, .inr (by simp [freshBatch])⟩
  obtain ⟨inv, he, hall⟩ := syncBatch_inv hc inv0 hs
  rw [he] at hall
  have hall := hall hf
  have hall' := hall
  rw [hg] at inv hall'
  -- what is verified
  have hver : (bt.verifiedSignatures.map Prod.fst).Nodup ∧ bt.decryptionSignatureHash = (freshBatch cx mc b key).decryptionSignatureHash ∧
      ∀ a sig, (a, sig) ∈ bt.verifiedSignatures → (keyperIndex (known bc) a).isSome ∧
      cx.goRecover (freshBatch cx mc b key).decryptionSignatureHash sig = some a ∧
      ∃ x ∈ getBatchData sh b, ∃ b' sender, x.ev = .decryptionSignature b' sender sig ∧ addrNat sender = a := by
    unfold syncBatch at hs
    split at hs
    · cases hs; simp [freshBatch]
    · next sigs hsg =>
      have hbi : (freshBatch cx mc b key).batchIndex = b := rfl
      rw [hbi] at hsg hs
      rw [hc] at hs
      simp only [hf, Bool.false_eq_true, if_false, Option.some.injEq] at hs
      have hgb : getBatchData sh b = sigs := by unfold getBatchData; rw [hsg]; rfl
      have hd0 : (freshBatch cx mc b key).decryptionSignatureIndex = 0 := rfl
      rw [hd0, List.drop_zero] at hs
      obtain ⟨new, g1, g2, g3⟩ := syncSignatures_spec cx (known bc) sigs (freshBatch cx mc b key)
      have hv : (freshBatch cx mc b key).verifiedSignatures = [] := rfl
      subst hs
      refine ⟨?_, by rw [g1], fun a sig hm => ?_⟩
      · rw [g1]; exact g2 (by rw [hv]; simp)
      · have hm' := hm
        simp only [g1, hv, List.nil_append] at hm'
        obtain ⟨k1, k2⟩ := g3 a sig hm'
        refine ⟨k1, k2, ?_⟩
        rw [hgb]
        rcases syncSignatures_source cx (known bc) sigs _ hm with h | h
        · rw [hv] at h; cases h
        · exact h
  obtain ⟨v1, v2, v3⟩ := hver
  constructor
  · intro hlt hen
    have := enough_counted nd hen inv hall' (by rw [v2]; exact hh)
    omega
  · intro hno
    by_contra hle
    apply hno
    refine ⟨(bt.verifiedSignatures.map Prod.fst).toFinset, ?_, ?_⟩
    · rw [List.toFinset_card_of_nodup v1, List.length_map]; omega
    · intro a ha
      rw [List.mem_toFinset, List.mem_map] at ha
      obtain ⟨⟨a', sig⟩, hm, rfl⟩ := ha
      obtain ⟨k1, k2, x, hx, b', sender, hev, hadd⟩ := v3 a' sig hm
      refine ⟨(keyperIndex_isSome bc nd a').1 k1, x.height, sender, sig, ?_⟩
      rw [hg] at hx
      unfold signaturesFor seenEvents at hx
      rw [List.mem_filter, published_iff] at hx
      obtain ⟨⟨p1, p2⟩, p3⟩ := hx
      rw [hev] at p2 p3
      simp only [decide_eq_true_eq] at p3
      subst p3
      exact ⟨p1, p2, hadd, by rw [← hh]; exact k2⟩

omit [AddCommGroup G1] [AddCommGroup G2] [DecidableEq G2] [DecidableEq GT] in
/-- The signature would come too late, from one block before the timeout on. -/
theorem timeout_eq (o : Observed E fd false mc hist) (hn : NoneTakenBack hist mc.currentBlock) (hne : mc.configs ≠ []) {b : Nat}
    {bc : BatchConfig} {start stop timeout : Nat} (hb : (hist mc.currentBlock).HasBatch b bc start stop timeout) :
    executionTimeoutReachedOrInactive mc b = some (decide (timeout ≤ mc.currentBlock + 1)) := by
  obtain ⟨c1, c2, c3, c4, c5, i, _, _, c6⟩ := configFor_of o hn hne hb
  have hpos : 0 < stop := by
    rw [c6]
    unfold BatchConfig.nominalEnd
    omega
  unfold executionTimeoutReachedOrInactive
  rw [c1]
  simp only [c2, (known_fields bc).2.2.2.1, Option.bind_eq_bind, Option.bind_some, Option.some.injEq]
  have h1 : wadd stop bc.executionTimeout = timeout := by
    unfold wadd; rw [Nat.mod_eq_of_lt (by omega)]; exact c3.symm
  have h2 : wadd timeout (two64 - 1) = timeout - 1 := by
    unfold wadd two64 at *
    omega
  rw [h1, h2]
  exact decide_eq_decide.2 ⟨fun h => by omega, fun h => by omega⟩

end Shutter.Decide
