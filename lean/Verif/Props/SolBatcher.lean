import Verif.Proofs.SolBatcher
import Verif.Proofs.SolDemo

/-! Property theorems C45: the batcher contract. Called contracts may call back at will. -/

namespace Shutter.Sol.Props
open Shutter.Sol World

/-- **C45** In every history: every accepted transaction was accepted at a block `n` inside the window of its batch, and
it is neither empty nor too large. The window is the one the config contract still reports. -/
theorem C45_window {E : Env} {w : World} (h : WorldReach E w) {n b : Nat} {ty : TxType} {tx hash : Bytes} {v : Nat}
    (hm : (n, Event.transactionAdded b ty tx hash v) ∈ w.log) :
    ∃ bc start stop timeout, w.HasBatch b bc start stop timeout ∧ start ≤ n ∧ n < stop ∧ n ≤ w.block ∧
      1 ≤ tx.length ∧ tx.length ≤ bc.transactionSizeLimit := by
  obtain ⟨bc, st, e, t, h1, h2, h3, h4, h5⟩ := (batcherInv h.preach).entry n b ty tx hash v hm
  exact ⟨bc, st, e, t, h1, h2, h3, preach_log_block h.preach _ hm, h4, h5⟩

/-- **C45** The transactions of a batch, encrypted and plain together, never exceed the batch size limit. -/
theorem C45_batch_size {E : Env} {w : World} (h : WorldReach E w) {b : Nat} {bc : BatchConfig} {start stop timeout : Nat}
    (hb : w.HasBatch b bc start stop timeout) : w.acceptedSize b ≤ bc.batchSizeLimit := by
  have inv := batcherInv h.preach
  rw [← inv.size]
  by_cases hp : 0 < w.batcher.sizes b
  · obtain ⟨bc', st, e, t, h1, _, h3⟩ := inv.limit b hp
    obtain ⟨rfl, _⟩ := HasBatch.unique hb h1
    exact h3
  · omega

/-- **C45** In every history a submission succeeds if and only if its batch is open, the sizes and the fee are right, and
the fee bank can book the fee. -/
theorem C45_accepts_iff {E : Env} {w : World} (h : WorldReach E w) (sender : Address) (b : Nat) (ty : TxType) (tx : Bytes)
    (value : Nat) :
    (∃ w', w.step E (.addTransaction sender b ty tx value) = some w') ↔
    b < two64 ∧ ∃ bc start stop timeout, w.HasBatch b bc start stop timeout ∧ start ≤ w.block ∧ w.block < stop ∧
      1 ≤ tx.length ∧ tx.length ≤ bc.transactionSizeLimit ∧ w.acceptedSize b + tx.length ≤ bc.batchSizeLimit ∧
      w.batcher.minFee ≤ value ∧
      (0 < value → bc.feeReceiver ≠ 0 → w.feeBank.deposits bc.feeReceiver + value < two64) := by
  have inv := batcherInv h.preach
  have hsz := inv.size b
  constructor
  · rintro ⟨w', hw⟩
    rw [World.step, World.atomic] at hw
    simp only [addTransaction, Option.bind_eq_bind, Option.bind_eq_some_iff, require_eq_some, Option.some.injEq, u64_eq_some,
      addU64_eq_some] at hw
    obtain ⟨_, ⟨rfl, hb⟩, i, hi, bc, hbc, _, _, _, _, ⟨st, e, t⟩, hbd, _, hst, _, he, _, hl, _, hl', _, hs, _, hf, _, ⟨rfl, _⟩,
      w2, hpay, rfl⟩ := hw
    refine ⟨hb, bc, st, e, t, ⟨i, hi, hbc, hbd⟩, hst, he, hl, hl', by rw [← hsz]; exact hs, hf, ?_⟩
    intro hv hr
    unfold payFee at hpay
    rw [if_pos ⟨hv, hr⟩] at hpay
    simp only [feeDeposit, Option.bind_eq_bind, Option.bind_eq_some_iff, require_eq_some] at hpay
    obtain ⟨_, _, _, _, _, h3, _⟩ := hpay
    omega
  · rintro ⟨hb, bc, st, e, t, hB, hst, he, hl, hl', hs, hf, hpay⟩
    have hsmall := HasBatch.small h.preach hB
    obtain ⟨i, hi, hbc, hbd⟩ := hB
    have hact : w.config.batchingActive i = some true := by
      obtain ⟨bc', g1, g2, _⟩ := Config.boundary_iff.1 hbd
      exact active_iff.2 ⟨bc', g1, g2⟩
    rw [World.step, World.atomic]
    have hp : ∀ w1 : World, w1.feeBank = w.feeBank → ∃ w2, w1.payFee bc.feeReceiver value = some w2 := by
      intro w1 h1
      unfold payFee
      split
      · next hc =>
        have := hpay hc.1 hc.2
        rw [← Option.isSome_iff_exists]
        have g : value ≤ two64 - 1 - w1.feeBank.deposits bc.feeReceiver := by rw [h1]; omega
        simp [feeDeposit, require, hc.1, hc.2, g]
      · exact ⟨_, rfl⟩
    obtain ⟨w2, hw2⟩ := hp ({ w with batcher :=
      { w.batcher with
        sizes := upd w.batcher.sizes b (w.batcher.sizes b + tx.length)
        hashes := upd w.batcher.hashes b (upd (w.batcher.hashes b) ty (chainHash E tx (w.batcher.hashes b ty))) } }) rfl
    refine ⟨w2.emit (.transactionAdded b ty tx (chainHash E tx (w.batcher.hashes b ty)) value), ?_⟩
    simp only [addTransaction, Option.bind_eq_bind, Option.bind_eq_some_iff, require_eq_some, Option.some.injEq, u64_eq_some,
      addU64_eq_some]
    exact ⟨b, ⟨rfl, hb⟩, i, hi, bc, hbc, true, hact, (), rfl, (st, e, t), hbd, (), hst, (), he, (), hl, (), hl', (),
      by omega, (), hf, _, ⟨rfl, by omega⟩, w2, hw2, rfl⟩

/-- **C45** A successful submission appends the transaction to its batch and pays the fee to the receiver's account in the
fee bank; without a receiver the batcher keeps it. -/
theorem C45_effect {E : Env} {w w' : World} {sender : Address} {b : Nat} {ty : TxType} {tx : Bytes} {value : Nat}
    (hw : w.step E (.addTransaction sender b ty tx value) = some w') :
    w'.accepted b ty = w.accepted b ty ++ [tx] ∧
    (∀ b' ty', (b', ty') ≠ (b, ty) → w'.accepted b' ty' = w.accepted b' ty') ∧
    w'.batcher.balance + w'.feeBank.balance = w.batcher.balance + w.feeBank.balance + value ∧
    ∃ bc start stop timeout, w.HasBatch b bc start stop timeout ∧
      (bc.feeReceiver = 0 → w'.batcher.balance = w.batcher.balance + value ∧ w'.feeBank = w.feeBank) ∧
      (bc.feeReceiver ≠ 0 → w'.batcher.balance = w.batcher.balance ∧
        ∀ a, w'.feeBank.deposits a = w.feeBank.deposits a + (if a = bc.feeReceiver then value else 0)) := by
  rw [World.step, World.atomic] at hw
  simp only [addTransaction, Option.bind_eq_bind, Option.bind_eq_some_iff, require_eq_some, Option.some.injEq, u64_eq_some,
    addU64_eq_some] at hw
  obtain ⟨_, ⟨rfl, hb⟩, i, hi, bc, hbc, _, _, _, _, ⟨st, e, t⟩, hbd, _, hst, _, he, _, hl, _, hl', _, hs, _, hf, _, ⟨rfl, _⟩,
    w2, hpay, rfl⟩ := hw
  unfold payFee at hpay
  split at hpay
  · next hc =>
    simp only [feeDeposit, Option.bind_eq_bind, Option.bind_eq_some_iff, require_eq_some, Option.some.injEq] at hpay
    obtain ⟨_, _, _, _, _, h3, rfl⟩ := hpay
    refine ⟨?_, ?_, ?_, bc, st, e, t, ⟨i, hi, hbc, hbd⟩, fun h0 => absurd h0 hc.2, fun _ => ⟨rfl, ?_⟩⟩
    · rw [accepted_emit, accepted_emit]; simp; rfl
    · intro b' ty' hne
      rw [accepted_emit, accepted_emit]
      simp only [List.append_nil]
      rw [if_neg (by rintro ⟨rfl, rfl⟩; exact hne rfl), List.append_nil]; rfl
    · simp [World.emit]; omega
    · intro a
      simp only [World.emit, upd]
      split <;> simp_all
  · next hc =>
    simp at hpay; subst hpay
    refine ⟨?_, ?_, ?_, bc, st, e, t, ⟨i, hi, hbc, hbd⟩, fun h0 => ⟨rfl, rfl⟩, fun h0 => ?_⟩
    · rw [accepted_emit]; simp; rfl
    · intro b' ty' hne
      rw [accepted_emit]
      simp only
      rw [if_neg (by rintro ⟨rfl, rfl⟩; exact hne rfl), List.append_nil]; rfl
    · simp [World.emit]; omega
    · have : value = 0 := by
        by_contra hv
        exact hc ⟨by omega, h0⟩
      subst this
      simp [World.emit]

/-- **C45** The batch hash is the hash chain over the accepted transactions in their order. -/
theorem C45_hash_chain {E : Env} {w : World} (h : WorldReach E w) (b : Nat) (ty : TxType) :
    w.batcher.hashes b ty = (w.accepted b ty).foldl (fun prev tx => E.keccak (tx ++ prev)) zeroHash :=
  (batcherInv h.preach).hash b ty

/-- **C45** The hash chain identifies the transactions: two different lists with the same batch hash exhibit two different
strings with the same keccak hash, or a string with hash zero, among the strings hashed. -/
theorem C45_hash_identifies {E : Env} (h32 : ∀ x, (E.keccak x).length = 32) {l1 l2 : List Bytes}
    (he : l1.foldl (fun prev tx => E.keccak (tx ++ prev)) zeroHash = l2.foldl (fun prev tx => E.keccak (tx ++ prev)) zeroHash)
    (hne : l1 ≠ l2) :
    (∃ x ∈ chainPreimages E l1, ∃ y ∈ chainPreimages E l2, x ≠ y ∧ E.keccak x = E.keccak y) ∨
    (∃ x ∈ chainPreimages E l1 ++ chainPreimages E l2, E.keccak x = zeroHash) :=
  (chainHash_inj_aux E h32 l1 l2 he).resolve_left hne

/-- **C45** Once a batch is over, its transactions and its hash never change, whatever happens. -/
theorem C45_frozen {E : Env} {w w' : World} (h : WorldReach E w) (l : WorldLater E w w') {b : Nat} (ho : w.BatchOver b)
    (ty : TxType) : w'.accepted b ty = w.accepted b ty ∧ w'.batcher.hashes b ty = w.batcher.hashes b ty ∧ w'.BatchOver b :=
  accepted_later h.preach.inv (worldLater_plater h.preach.inv l) ho ty

/-- The hypotheses are met: a history with six submissions to two batches. -/
example : WorldReach Demo.env Demo.submitted ∧
    Demo.submitted.accepted 0 .cipher = [[1, 2], [4]] ∧ Demo.submitted.accepted 0 .plain = [[3], [5]] ∧
    Demo.submitted.accepted 1 .cipher = [[8]] ∧ Demo.submitted.acceptedSize 0 = 5 ∧ Demo.submitted.block = 112 ∧
    Demo.submitted.feeBank.deposits 50 = 21 ∧ Demo.submitted.HasBatch 0 Demo.config 100 110 140 :=
  ⟨Demo.submitted_reach, by decide +kernel, by decide +kernel, by decide +kernel, by decide +kernel, by decide +kernel,
    by decide +kernel, 1, by decide +kernel, by decide +kernel, by decide +kernel⟩

example : ∀ x, (Demo.env.keccak x).length = 32 := by intro x; simp [Demo.env, Demo.keccak]

/-- Batch 0 is over, batch 1 is open. -/
example : Demo.submitted.BatchOver 0 ∧
    ∃ w', Demo.submitted.step Demo.env (.addTransaction 20 1 .plain [7, 7, 7] 3) = some w' := by
  refine ⟨⟨Demo.config, 100, 110, 140, ⟨1, by decide +kernel, by decide +kernel, by decide +kernel⟩, by decide +kernel⟩, ?_⟩
  rw [← Option.isSome_iff_exists]
  decide +kernel

end Shutter.Sol.Props
