import Verif.Proofs.SolWorld

/-!
# Every call is a sequence of primitive changes

`Prim` lists the changes the contracts can make to the world, each with the facts that were checked.
-/

namespace Shutter.Sol
open World

/-- An event that accompanies no change. -/
inductive Noted : Event → Prop
  | feeWithdrawn {s r a t} : Noted (.feeWithdrawn s r a t)
  | targetCalled {t sel tx} : Noted (.targetCalled t sel tx)
  | withdrawn {a m} : Noted (.depositChanged a 0 0 0 true false m)

/-- The primitive changes. With `tame`, the executor was not called back during an execution. -/
inductive Prim (tame : Bool) (E : Env) (w : World) : World → Prop
  | noted {e} : Noted e → Prim tame E w (w.emit e)
  | config {s c c'} : w.config.call w.block s c = some c' → Prim tame E w { w with config := c' }
  | minFee {n} : Prim tame E w { w with batcher := { w.batcher with minFee := n } }
  | kept {v} : Prim tame E w { w with batcher := { w.batcher with balance := w.batcher.balance + v } }
  | added {b ty tx v bc st e t} : b < two64 → w.HasBatch b bc st e t → st ≤ w.block → w.block < e → 0 < tx.length →
      tx.length ≤ bc.transactionSizeLimit → w.batcher.sizes b + tx.length ≤ bc.batchSizeLimit → w.batcher.minFee ≤ v →
      Prim tame E w (World.emit { w with batcher :=
        { w.batcher with
          sizes := upd w.batcher.sizes b (w.batcher.sizes b + tx.length)
          hashes := upd w.batcher.hashes b (upd (w.batcher.hashes b) ty (chainHash E tx (w.batcher.hashes b ty))) } }
        (.transactionAdded b ty tx (chainHash E tx (w.batcher.hashes b ty)) v))
  | feeDeposited {s r v} : r ≠ 0 → 0 < v → w.feeBank.deposits r + v < two64 →
      Prim tame E w (World.emit { w with feeBank :=
        ⟨upd w.feeBank.deposits r (w.feeBank.deposits r + v), w.feeBank.balance + v⟩ }
        (.feeDeposited s r v (w.feeBank.deposits r + v)))
  | feePaid {s r a} : r ≠ 0 → 0 < w.feeBank.deposits s → a ≤ w.feeBank.deposits s → a ≤ w.feeBank.balance →
      Prim tame E w (World.emit { w with feeBank :=
        ⟨upd w.feeBank.deposits s (w.feeBank.deposits s - a), w.feeBank.balance - a⟩ } (.etherPaid s r a))
  | forced {v} : Prim tame E w (World.emit { w with feeBank := { w.feeBank with balance := w.feeBank.balance + v } }
      (.etherForced v))
  | halfStepsSet {n} : w.executor.halfSteps < n → n < two64 → w.TimedOut (w.executor.halfSteps / 2) → w.BatchOver (n / 2) →
      Prim tame E w (World.emit { w with executor := { w.executor with halfSteps := n } } (.halfStepsSet n))
  | cipherSkipped : w.executor.halfSteps % 2 = 0 → w.executor.halfSteps + 1 < two64 →
      w.BatchOver (w.executor.halfSteps / 2) →
      (w.TimedOut (w.executor.halfSteps / 2) ∨ w.batcher.hashes (w.executor.halfSteps / 2) .cipher = zeroHash) →
      Prim tame E w (World.emit { w with executor := { w.executor with halfSteps := w.executor.halfSteps + 1 } }
        (.cipherSkipped (w.executor.halfSteps + 1)))
  | plainSkipped : w.executor.halfSteps % 2 = 1 → w.executor.halfSteps + 1 < two64 →
      w.batcher.hashes (w.executor.halfSteps / 2) .plain = zeroHash →
      Prim tame E w (World.emit { w with executor := { w.executor with halfSteps := w.executor.halfSteps + 1 } }
        (.batchExecuted (w.executor.halfSteps + 1) zeroHash))
  | cipherDone {s b h txs bc st e t} {k : Nat} : w.executor.halfSteps + 1 < two64 → w.HasBatch b bc st e t → e ≤ w.block →
      w.block < t → bc.keypers[k]? = some s → h = w.batcher.hashes b .cipher → (h ≠ zeroHash ∨ txs = []) → (tame = true → w.executor.halfSteps = 2 * b) →
      Prim tame E w (World.emit (World.emit { w with executor :=
        { w.executor with
          receipts := upd w.executor.receipts w.executor.halfSteps ⟨true, s, w.executor.halfSteps, h, chainHashes E txs⟩
          halfSteps := w.executor.halfSteps + 1 } }
        (.batchExecuted (w.executor.halfSteps + 1) (chainHashes E txs))) (.cipherDone s b h txs))
  | plainDone {s b txs} : w.executor.halfSteps + 1 < two64 → w.BatchOver b →
      chainHashes E txs = w.batcher.hashes b .plain → (tame = true → w.executor.halfSteps = 2 * b + 1) →
      Prim tame E w (World.emit (World.emit { w with executor := { w.executor with halfSteps := w.executor.halfSteps + 1 } }
        (.batchExecuted (w.executor.halfSteps + 1) (chainHashes E txs))) (.plainDone s b txs))
  | tokens {a n d} : d < two64 → (w.deposit.deposits a).delay ≤ d → (w.deposit.deposits a).requested = 0 →
      (w.deposit.deposits a).slashed = false →
      Prim tame E w (World.emit { w with deposit :=
        { w.deposit with
          deposits := upd w.deposit.deposits a ⟨(w.deposit.deposits a).amount + n, d, 0, false⟩
          tokens := w.deposit.tokens + n } }
        (.depositChanged a ((w.deposit.deposits a).amount + n) d 0 false false n))
  | requested {a} : 0 < (w.deposit.deposits a).amount → (w.deposit.deposits a).slashed = false →
      (w.deposit.deposits a).requested = 0 →
      Prim tame E w (World.emit { w with deposit :=
        { w.deposit with
          deposits := upd w.deposit.deposits a { w.deposit.deposits a with requested := w.block } } }
        (.depositChanged a (w.deposit.deposits a).amount (w.deposit.deposits a).delay w.block false false 0))
  | paid {a r} : 0 < (w.deposit.deposits a).amount → (w.deposit.deposits a).slashed = false →
      0 < (w.deposit.deposits a).requested → (w.deposit.deposits a).requested + (w.deposit.deposits a).delay ≤ w.block →
      (w.deposit.deposits a).amount ≤ w.deposit.tokens →
      Prim tame E w (World.emit { w with deposit :=
        { w.deposit with
          deposits := upd w.deposit.deposits a Deposit.zero
          tokens := w.deposit.tokens - (w.deposit.deposits a).amount } }
        (.tokensPaid a r (w.deposit.deposits a).amount))
  | slashedDeposit {a} : (w.deposit.deposits a).amount ≤ w.deposit.tokens →
      ((∃ h acc, w.slashPre h = some acc ∧ acc.executor = a) ∨ w.deposit.slasher ≠ w.slasherAddr) →
      Prim tame E w (World.emit { w with deposit :=
        { w.deposit with
          deposits := upd w.deposit.deposits a ⟨0, 0, 0, true⟩
          tokens := w.deposit.tokens - (w.deposit.deposits a).amount } }
        (.depositChanged a 0 0 0 false true (w.deposit.deposits a).amount))
  | setSlasher {a} : w.deposit.slasher = 0 → Prim tame E w { w with deposit := { w.deposit with slasher := a } }
  | setReceiver {a} : Prim tame E w { w with deposit := { w.deposit with slashingReceiver := a } }
  | accused {s h i bc} {k : Nat} : h % 2 = 0 → h < two64 → (w.slasher.accusations h).accused = false →
      w.config.configIndexForBatchIndex (h / 2) = some i → w.config.scheduledConfig i = some bc → bc.keypers[k]? = some s →
      (w.executor.receipts h).executed = true → (w.executor.receipts h).cipherBatchHash ≠ zeroHash →
      Prim tame E w (World.emit { w with slasher :=
        { w.slasher with
          accusations := upd w.slasher.accusations h ⟨true, false, false, (w.executor.receipts h).executor, h, w.block⟩ } }
        (.accused h (w.executor.receipts h).executor s))
  | appealed {a} : (w.slasher.accusations a.halfStep).accused = true → (w.slasher.accusations a.halfStep).appealed = false →
      verifyAuthorization E w a (w.executor.receipts a.halfStep) = some () →
      Prim tame E w (World.emit { w with slasher :=
        { w.slasher with
          accusations := upd w.slasher.accusations a.halfStep
            { w.slasher.accusations a.halfStep with appealed := true } } }
        (.appealed a.halfStep (w.executor.receipts a.halfStep).executor))
  | slashedMark {h} : (w.slasher.accusations h).accused = true →
      (w.deposit.deposits (w.slasher.accusations h).executor).slashed = true →
      Prim tame E w (World.emit { w with slasher :=
        { w.slasher with
          accusations := upd w.slasher.accusations h { w.slasher.accusations h with slashed := true } } }
        (.slashed (w.slasher.accusations h).halfStep (w.slasher.accusations h).executor))
  | voted {s b key i bc} {k : Nat} : b < two64 → w.config.configIndexForBatchIndex b = some i →
      w.config.scheduledConfig i = some bc → 0 < bc.batchSpan → bc.keypers[k]? = some s →
      w.keyBroadcast.voted b s = false → w.keyBroadcast.numVotes b (E.keccak key) + 1 < two64 →
      Prim tame E w (World.emit { w with keyBroadcast :=
        { voted := upd w.keyBroadcast.voted b (upd (w.keyBroadcast.voted b) s true)
          numVotes := upd w.keyBroadcast.numVotes b
            (upd (w.keyBroadcast.numVotes b) (E.keccak key) (w.keyBroadcast.numVotes b (E.keccak key) + 1))
          keys := if (w.keyBroadcast.keys (E.keccak key)).length = 0 then upd w.keyBroadcast.keys (E.keccak key) key
            else w.keyBroadcast.keys
          bestHash := if w.keyBroadcast.numVotes b (E.keccak key) + 1 > w.keyBroadcast.bestVotes b then
            upd w.keyBroadcast.bestHash b (E.keccak key) else w.keyBroadcast.bestHash
          bestVotes := if w.keyBroadcast.numVotes b (E.keccak key) + 1 > w.keyBroadcast.bestVotes b then
            upd w.keyBroadcast.bestVotes b (w.keyBroadcast.numVotes b (E.keccak key) + 1)
            else w.keyBroadcast.bestVotes } }
        (.voted s b key (w.keyBroadcast.numVotes b (E.keccak key) + 1)))

abbrev Prims (tame : Bool) (E : Env) : World → World → Prop := Relation.ReflTransGen (Prim tame E)

/-! ## The atomic calls -/

theorem feeDeposit_prim {tame E} {w w' : World} {s r v} (h : w.feeDeposit s r v = some w') : Prim tame E w w' := by
  simp only [feeDeposit, Option.bind_eq_bind, Option.bind_eq_some_iff, require_eq_some, Option.some.injEq] at h
  obtain ⟨_, h1, _, h2, _, h3, rfl⟩ := h
  exact .feeDeposited h1 h2 (by omega)

theorem payFee_spec {tame E} {w w' : World} {r v} (h : w.payFee r v = some w') :
    Prim tame E w w' ∧ ∃ fb l bal, w' = { w with feeBank := fb, log := l, batcher := { w.batcher with balance := bal } } := by
  unfold payFee at h
  split at h
  · refine ⟨feeDeposit_prim h, ?_⟩
    simp only [feeDeposit, Option.bind_eq_bind, Option.bind_eq_some_iff, require_eq_some, Option.some.injEq] at h
    obtain ⟨_, h1, _, h2, _, h3, rfl⟩ := h
    exact ⟨_, _, _, rfl⟩
  · simp at h; subst h
    exact ⟨.kept, _, _, _, rfl⟩

theorem active_iff {c : Config} {i} : c.batchingActive i = some true ↔ ∃ bc, c.configs[i]? = some bc ∧ 0 < bc.batchSpan := by
  simp [Config.batchingActive]

theorem addTransaction_prims {tame E} {w w' : World} {b ty tx v} (h : w.addTransaction E b ty tx v = some w') :
    Prims tame E w w' := by
  simp only [addTransaction, Option.bind_eq_bind, Option.bind_eq_some_iff, require_eq_some, Option.some.injEq, u64_eq_some,
    addU64_eq_some] at h
  obtain ⟨_, ⟨rfl, hb⟩, i, hi, bc, hbc, _, _, _, _, ⟨st, e, t⟩, hbd, _, hst, _, he, _, hl, _, hl', _, hs, _, hf, _, ⟨rfl, _⟩,
    w2, hpay, rfl⟩ := h
  -- paying first gives the same result
  have hpay' : ∃ w1, w.payFee bc.feeReceiver v = some w1 ∧ w2 = { w1 with batcher :=
      { w1.batcher with
        sizes := upd w.batcher.sizes b (w.batcher.sizes b + tx.length)
        hashes := upd w.batcher.hashes b (upd (w.batcher.hashes b) ty (chainHash E tx (w.batcher.hashes b ty))) } } := by
    unfold payFee at hpay ⊢
    split at hpay
    · next hc =>
      rw [if_pos hc]
      simp only [feeDeposit, Option.bind_eq_bind, Option.bind_eq_some_iff, require_eq_some, Option.some.injEq] at hpay ⊢
      obtain ⟨_, h1, _, h2, _, h3, rfl⟩ := hpay
      exact ⟨_, ⟨(), h1, (), h2, (), h3, rfl⟩, rfl⟩
    · next hc =>
      rw [if_neg hc]
      simp at hpay; subst hpay
      exact ⟨_, rfl, rfl⟩
  obtain ⟨w1, h1, rfl⟩ := hpay'
  obtain ⟨hp, fb, l, bal, rfl⟩ := payFee_spec (tame := tame) (E := E) h1
  refine (Relation.ReflTransGen.single hp).tail ?_
  exact Prim.added (b := b) (ty := ty) (tx := tx) (v := v) (bc := bc) (st := st) (e := e) (t := t) hb
    ⟨i, hi, hbc, hbd⟩ hst he hl hl' hs hf

theorem setHalfSteps_prim {tame E} {w w' : World} {s n} (hinv : w.config.Inv) (h : w.setHalfSteps s n = some w') :
    Prim tame E w w' := by
  simp only [setHalfSteps, Option.bind_eq_bind, Option.bind_eq_some_iff, require_eq_some, Option.some.injEq, u64_eq_some] at h
  obtain ⟨_, _, _, ⟨rfl, hn⟩, i, hi, ⟨st, e, t⟩, hbd, _, ht, _, hlt, j, hj, ⟨st', e', t'⟩, hbd', _, he, rfl⟩ := h
  have sched : ∀ {b i}, w.config.configIndexForBatchIndex b = some i → ∃ bc, w.config.scheduledConfig i = some bc := by
    intro b i hi
    obtain ⟨k, hk, hkl, ⟨⟨bc, hbc, _⟩, _⟩⟩ := hinv.lookup b
    rw [hi] at hk; simp at hk; subst hk
    refine ⟨bc, ?_⟩
    rw [Config.scheduledConfig, show require (i < w.config.numConfigs) = some () by
      rw [require_eq_some, Config.numConfigs, Config.configs_len]; omega]
    exact (Config.configs_get hkl).trans hbc
  obtain ⟨bc, hbc⟩ := sched hi
  obtain ⟨bc', hbc'⟩ := sched hj
  exact .halfStepsSet hlt hn ⟨bc, st, e, t, ⟨i, hi, hbc, hbd⟩, ht⟩ ⟨bc', st', e', t', ⟨j, hj, hbc', hbd'⟩, le_of_lt he⟩

theorem scheduled_of_index {c : Config} (hinv : c.Inv) {b i} (hi : c.configIndexForBatchIndex b = some i) :
    ∃ bc, c.scheduledConfig i = some bc ∧ c.configs[i]? = some bc ∧ c.scheduled[i]? = some bc := by
  obtain ⟨k, hk, hkl, ⟨⟨bc, hbc, _⟩, _⟩⟩ := hinv.lookup b
  rw [hi] at hk; simp at hk; subst hk
  refine ⟨bc, ?_, (Config.configs_get hkl).trans hbc, hbc⟩
  rw [Config.scheduledConfig, show require (i < c.numConfigs) = some () by
    rw [require_eq_some, Config.numConfigs, Config.configs_len]; omega]
  exact (Config.configs_get hkl).trans hbc

theorem boundary_end_le {c : Config} {i b st e t} (h : c.batchBoundaryBlocks i b = some (st, e, t)) : st ≤ e ∧ e ≤ t := by
  obtain ⟨bc, _, _, _, rfl, rfl, _, rfl⟩ := Config.boundary_iff.1 h
  refine ⟨?_, by omega⟩
  unfold BatchConfig.nominalEnd
  split <;> omega

theorem skipCipherPost_prim {tame E} {w w' : World} (h : w.skipCipherPost = some w')
    (h0 : w.executor.halfSteps % 2 = 0) (h1 : w.BatchOver (w.executor.halfSteps / 2))
    (h2 : w.TimedOut (w.executor.halfSteps / 2) ∨ w.batcher.hashes (w.executor.halfSteps / 2) .cipher = zeroHash) :
    Prim tame E w w' := by
  simp only [skipCipherPost, incHalfSteps, Option.bind_eq_bind, Option.bind_eq_some_iff, Option.some.injEq,
    addU64_eq_some] at h
  obtain ⟨_, ⟨_, ⟨rfl, hlt⟩, rfl⟩, rfl⟩ := h
  exact .cipherSkipped h0 hlt h1 h2

theorem skipCipherExecution_prim {tame E} {w w' : World} {b} (hinv : w.config.Inv) (h : w.skipCipherExecution b = some w') :
    Prim tame E w w' := by
  simp only [skipCipherExecution, Option.bind_eq_bind, Option.bind_eq_some_iff, require_eq_some, u64_eq_some] at h
  obtain ⟨_, ⟨rfl, _⟩, _, hb, _, hev, i, hi, _, _, _, _, ⟨st, e, t⟩, hbd, _, ht, h⟩ := h
  subst hb
  obtain ⟨bc, hbc, _⟩ := scheduled_of_index hinv hi
  have := (boundary_end_le hbd).2
  exact skipCipherPost_prim h hev ⟨bc, st, e, t, ⟨i, hi, hbc, hbd⟩, le_trans this ht⟩
    (.inl ⟨bc, st, e, t, ⟨i, hi, hbc, hbd⟩, ht⟩)

theorem skipPlain_prim {tame E} {w w' : World} (h : w.skipPlain w.executor.halfSteps (w.executor.halfSteps / 2) = some w')
    (h0 : w.executor.halfSteps % 2 = 1) (h1 : w.executor.halfSteps + 1 < two64) : Prim tame E w w' := by
  unfold skipPlain at h
  split at h
  · next hz =>
    simp at h; subst h
    exact .plainSkipped h0 h1 hz
  · simp at h

theorem skipPlain_config {w w' : World} {n b} (h : w.skipPlain n b = some w') : w'.config = w.config := by
  unfold skipPlain at h
  split at h
  · simp at h; subst h; rfl
  · simp at h

theorem skipCipherPost_spec {w w' : World} (h : w.skipCipherPost = some w') :
    w'.config = w.config ∧ w'.executor.halfSteps = w.executor.halfSteps + 1 := by
  simp only [skipCipherPost, incHalfSteps, Option.bind_eq_bind, Option.bind_eq_some_iff, Option.some.injEq,
    addU64_eq_some] at h
  obtain ⟨_, ⟨_, ⟨rfl, hlt⟩, rfl⟩, rfl⟩ := h
  exact ⟨rfl, rfl⟩

theorem maySkip_true {w : World} {b} (hinv : w.config.Inv) (h : w.maySkipCipher b = some true) :
    w.BatchOver b ∧ (w.TimedOut b ∨ w.batcher.hashes b .cipher = zeroHash) := by
  simp only [maySkipCipher, Option.bind_eq_bind, Option.bind_eq_some_iff] at h
  obtain ⟨i, hi, act, _, h⟩ := h
  split at h
  · simp at h
  · simp only [Option.bind_eq_some_iff, Option.some.injEq, decide_eq_true_eq] at h
    obtain ⟨⟨st, e, t⟩, hbd, h1, h2⟩ := h
    obtain ⟨bc, hbc, _⟩ := scheduled_of_index hinv hi
    refine ⟨⟨bc, st, e, t, ⟨i, hi, hbc, hbd⟩, h1⟩, ?_⟩
    rcases h2 with h2 | h2
    · exact .inl ⟨bc, st, e, t, ⟨i, hi, hbc, hbd⟩, h2⟩
    · exact .inr h2

theorem skipLoop_prims {tame E} {n : Nat} {w w' : World} (hinv : w.config.Inv) (h : w.skipLoop n = some w') :
    Prims tame E w w' := by
  induction n generalizing w with
  | zero => simp [skipLoop] at h; subst h; exact .refl
  | succ n ih =>
    rw [skipLoop] at h
    split at h
    · next hev =>
      split at h
      · simp at h
      · simp at h; subst h; exact .refl
      · next hm =>
        obtain ⟨g1, g2⟩ := maySkip_true hinv hm
        split at h
        · simp at h
        · next w1 h1 =>
          obtain ⟨c1, c2⟩ := skipCipherPost_spec h1
          have p1 := Relation.ReflTransGen.single (skipCipherPost_prim (tame := tame) (E := E) h1 hev g1 g2)
          split at h
          · next hlt =>
            split at h
            · simp at h; subst h; exact p1
            · next w2 h2 =>
              rw [show w.executor.halfSteps / 2 = w1.executor.halfSteps / 2 by omega] at h2
              exact (p1.tail (skipPlain_prim h2 (by omega) hlt)).trans
                (ih (by rw [skipPlain_config h2, c1]; exact hinv) h)
          · split at h
            · simp at h
            · simp at h; subst h; exact p1
    · next hodd =>
      split at h
      · next hlt =>
        split at h
        · simp at h; subst h; exact .refl
        · next w2 h2 =>
          exact (Relation.ReflTransGen.single (skipPlain_prim h2 (by omega) hlt)).trans
            (ih (by rw [skipPlain_config h2]; exact hinv) h)
      · split at h
        · simp at h
        · simp at h; subst h; exact .refl

theorem accuse_prim {tame E} {w w' : World} {s h k} (hh : w.accuse s h k = some w') : Prim tame E w w' := by
  simp only [accuse, Option.bind_eq_bind, Option.bind_eq_some_iff, require_eq_some, u64_eq_some, Option.some.injEq] at hh
  obtain ⟨_, ⟨rfl, h64⟩, _, ⟨rfl, _⟩, _, hev, _, hna, i, hi, bc, hbc, s', hs, _, rfl, _, hex, _, hz, rfl⟩ := hh
  exact .accused hev h64 hna hi hbc hs hex hz

theorem appeal_prim {tame E} {w w' : World} {a} (hh : w.appeal E a = some w') : Prim tame E w w' := by
  simp only [appeal, Option.bind_eq_bind, Option.bind_eq_some_iff, require_eq_some, u64_eq_some, Option.some.injEq] at hh
  obtain ⟨_, ⟨rfl, h64⟩, _, h1, _, h2, _, h3, rfl⟩ := hh
  exact .appealed h1 h2 h3

theorem vote_prim {tame E} {w w' : World} {s k b key} (hh : w.vote E s k b key = some w') : Prim tame E w w' := by
  simp only [vote, Option.bind_eq_bind, Option.bind_eq_some_iff, require_eq_some, u64_eq_some, Option.some.injEq,
    addU64_eq_some] at hh
  obtain ⟨_, ⟨rfl, _⟩, _, ⟨rfl, h64⟩, i, hi, bc, hbc, _, hsp, s', hs, _, rfl, _, hv, _, ⟨rfl, hn⟩, rfl⟩ := hh
  exact .voted h64 hi hbc hsp hs hv hn

theorem tokens_prim {tame E} {w w' : World} {s a d} (hh : w.tokensReceived s a d = some w') : Prim tame E w w' := by
  simp only [tokensReceived, Option.bind_eq_bind, Option.bind_eq_some_iff, require_eq_some, u64_eq_some,
    Option.some.injEq] at hh
  obtain ⟨_, ⟨rfl, h64⟩, _, h1, _, h2, _, h3, rfl⟩ := hh
  rw [h2, h3]
  exact .tokens h64 h1 h2 h3

theorem atomic_prims {tame E} {w w' : World} {op : Op} (hinv : w.config.Inv) (h : w.atomic E op = some w') :
    Prims tame E w w' := by
  cases op with
  | config s c =>
    simp only [atomic, Option.map_eq_some_iff] at h
    obtain ⟨c', hc, rfl⟩ := h
    exact .single (.config hc)
  | addTransaction s b ty tx v => exact addTransaction_prims h
  | setMinFee s n =>
    simp only [atomic, setMinFee, Option.bind_eq_bind, Option.bind_eq_some_iff, require_eq_some, u64_eq_some,
      Option.some.injEq] at h
    obtain ⟨_, _, _, _, rfl⟩ := h
    exact .single .minFee
  | feeDeposit s r v => exact .single (feeDeposit_prim h)
  | forceEther v =>
    simp only [atomic, Option.some.injEq] at h
    subst h
    exact .single .forced
  | setHalfSteps s n => exact .single (setHalfSteps_prim hinv h)
  | skipEmptyOrTimedOutBatches s n =>
    simp only [atomic, skipEmptyOrTimedOutBatches, Option.bind_eq_bind, Option.bind_eq_some_iff] at h
    obtain ⟨_, _, h⟩ := h
    exact skipLoop_prims hinv h
  | skipCipherExecution s b => exact .single (skipCipherExecution_prim hinv h)
  | sendTokens s a d => exact .single (tokens_prim h)
  | requestWithdrawal s =>
    simp only [atomic, requestWithdrawal, Option.bind_eq_bind, Option.bind_eq_some_iff, require_eq_some,
      Option.some.injEq] at h
    obtain ⟨_, h1, _, h2, _, h3, rfl⟩ := h
    exact .single (.requested h1 h2 h3)
  | setSlasher s a =>
    simp only [atomic, setSlasher, Option.bind_eq_bind, Option.bind_eq_some_iff, require_eq_some, Option.some.injEq] at h
    obtain ⟨_, h1, rfl⟩ := h
    exact .single (.setSlasher h1)
  | setSlashingReceiver s a =>
    simp only [atomic, setSlashingReceiver, Option.bind_eq_bind, Option.bind_eq_some_iff, require_eq_some,
      Option.some.injEq] at h
    obtain ⟨_, h1, rfl⟩ := h
    exact .single .setReceiver
  | accuse s h k => exact .single (accuse_prim (by assumption))
  | appeal s a => exact .single (appeal_prim h)
  | vote s k b key => exact .single (vote_prim h)
  | _ => simp [atomic] at h

/-! ## Persistence -/

/-- The config contract of a world. -/
def World.configAt (w : World) : ConfigAt := ⟨w.block, w.config⟩

theorem prim_config {tame E} {w w' : World} (p : Prim tame E w w') : w'.block = w.block ∧ ConfigLater w.configAt w'.configAt := by
  cases p
  case config h => exact ⟨rfl, .single (.call h)⟩
  all_goals exact ⟨rfl, .refl⟩

theorem prims_config {tame E} {w w' : World} (p : Prims tame E w w') :
    w'.block = w.block ∧ ConfigLater w.configAt w'.configAt := by
  induction p with
  | refl => exact ⟨rfl, .refl⟩
  | tail _ p ih =>
    obtain ⟨h1, h2⟩ := prim_config p
    exact ⟨h1.trans ih.1, ih.2.trans h2⟩

theorem prims_inv {tame E} {w w' : World} (h : w.config.Inv) (p : Prims tame E w w') : w'.config.Inv :=
  Config.inv_later (s := w.configAt) h (prims_config p).2

/-- The batch data of a started batch stay. -/
theorem hasBatch_later {s s' : ConfigAt} (h : s.config.Inv) (l : ConfigLater s s') {b : Nat}
    (started : Started s.config s.block b) {b' i bc x} (hb : b' ≤ b) (h1 : s.config.configIndexForBatchIndex b' = some i)
    (h2 : s.config.scheduledConfig i = some bc) (h3 : s.config.batchBoundaryBlocks i b' = x) :
    s'.config.configIndexForBatchIndex b' = some i ∧ s'.config.scheduledConfig i = some bc ∧
      s'.config.batchBoundaryBlocks i b' = x := by
  have hi' := Config.inv_later h l
  obtain ⟨i0, bc0, g1, g2, g3, g4, g5, _⟩ := Config.started_config h started
  have hr := (h.lookup_iff b i0).1 g1
  have fz := Config.frozen_later h g2 g3 g4 g5 hr l
  obtain ⟨j, bcj, _, e1, e2, e3, e4⟩ := Config.frozen_lookup h hi' hr fz b' hb
  rw [h1] at e1; simp at e1; subst e1
  obtain ⟨bc1, k1, k2, k3⟩ := scheduled_of_index h h1
  obtain ⟨bc2, k4, k5, k6⟩ := scheduled_of_index hi' e2
  rw [h2] at k1; simp at k1; subst k1
  rw [e3] at k3; simp at k3; subst k3
  rw [e4] at k6; simp at k6; subst k6
  refine ⟨e2, k4, ?_⟩
  rw [← h3]
  unfold Config.batchBoundaryBlocks
  rw [k2, k5]

theorem hasBatch_mono {s : World} {s' : World} (h : s.config.Inv) (l : ConfigLater s.configAt s'.configAt) {b bc st e t}
    (hb : s.HasBatch b bc st e t) (hst : st ≤ s.block) : s'.HasBatch b bc st e t := by
  obtain ⟨i, h1, h2, h3⟩ := hb
  obtain ⟨g1, g2, g3⟩ := hasBatch_later (s := s.configAt) (s' := s'.configAt) h l (b := b) ⟨i, st, e, t, h1, h3, hst⟩
    (le_refl b) h1 h2 h3
  exact ⟨i, g1, g2, g3⟩

theorem HasBatch.order {w : World} {b bc st e t} (h : w.HasBatch b bc st e t) : st ≤ e ∧ e ≤ t := by
  obtain ⟨i, _, _, h⟩ := h
  exact boundary_end_le h

theorem HasBatch.unique {w : World} {b bc st e t bc' st' e' t'} (h : w.HasBatch b bc st e t)
    (h' : w.HasBatch b bc' st' e' t') : bc' = bc ∧ st' = st ∧ e' = e ∧ t' = t := by
  obtain ⟨i, h1, h2, h3⟩ := h
  obtain ⟨j, g1, g2, g3⟩ := h'
  rw [h1] at g1; simp at g1; subst g1
  rw [h2] at g2; simp at g2; subst g2
  rw [h3] at g3; simp at g3
  obtain ⟨rfl, rfl, rfl⟩ := g3
  simp

theorem batchOver_mono {w w' : World} (h : w.config.Inv) (hb : w.block ≤ w'.block)
    (l : ConfigLater w.configAt w'.configAt) {b} (ho : w.BatchOver b) : w'.BatchOver b := by
  obtain ⟨bc, st, e, t, h1, h2⟩ := ho
  exact ⟨bc, st, e, t, hasBatch_mono h l h1 (le_trans (HasBatch.order h1).1 h2), le_trans h2 hb⟩

theorem timedOut_mono {w w' : World} (h : w.config.Inv) (hb : w.block ≤ w'.block)
    (l : ConfigLater w.configAt w'.configAt) {b} (ho : w.TimedOut b) : w'.TimedOut b := by
  obtain ⟨bc, st, e, t, h1, h2⟩ := ho
  have := HasBatch.order h1
  exact ⟨bc, st, e, t, hasBatch_mono h l h1 (by omega), le_trans h2 hb⟩

theorem keyperOf_mono {w w' : World} (h : w.config.Inv)
    (l : ConfigLater w.configAt w'.configAt) {b} (ho : w.BatchOver b) {a k} (hk : w.KeyperOf b a k) : w'.KeyperOf b a k := by
  obtain ⟨bc, st, e, t, h1, h2⟩ := ho
  obtain ⟨bc', st', e', t', g1, g2⟩ := hk
  obtain ⟨rfl, rfl, rfl, rfl⟩ := HasBatch.unique h1 g1
  exact ⟨_, _, _, _, hasBatch_mono h l h1 (le_trans (HasBatch.order h1).1 h2), g2⟩

/-- After a batch is over, its hashes stay. -/
theorem hashes_prim {tame E} {w w' : World} (p : Prim tame E w w') {b} (ho : w.BatchOver b) (ty : TxType) :
    w'.batcher.hashes b ty = w.batcher.hashes b ty := by
  cases p
  case added b' ty' tx v bc st e t _ hb _ he _ _ _ _ =>
    have : b ≠ b' := by
      rintro rfl
      obtain ⟨bc', st', e', t', h1, h2⟩ := ho
      obtain ⟨-, -, rfl, -⟩ := HasBatch.unique h1 hb
      omega
    simp [World.emit, upd, this]
  all_goals rfl

theorem hashes_prims {tame E} {w w' : World} (h : w.config.Inv) (p : Prims tame E w w') {b} (ho : w.BatchOver b) (ty : TxType) :
    w'.batcher.hashes b ty = w.batcher.hashes b ty := by
  induction p with
  | refl => rfl
  | tail ps p ih =>
    obtain ⟨h1, h2⟩ := prims_config ps
    rw [hashes_prim p (batchOver_mono h (le_of_eq h1.symm) h2 ho), ih]

/-- Accusations stay, and slashed accounts stay slashed. -/
theorem accused_prim {tame E} {w w' : World} (p : Prim tame E w w') {h} (ha : (w.slasher.accusations h).accused = true) :
    (w'.slasher.accusations h).accused = true ∧ (w'.slasher.accusations h).executor = (w.slasher.accusations h).executor ∧
    (w'.slasher.accusations h).halfStep = (w.slasher.accusations h).halfStep ∧
    (w'.slasher.accusations h).blockNumber = (w.slasher.accusations h).blockNumber := by
  cases p
  case accused h' _ _ _ _ _ hn _ _ _ _ _ =>
    have : h ≠ h' := by rintro rfl; simp [ha] at hn
    simp [World.emit, upd, this, ha]
  case appealed a _ _ _ =>
    by_cases he : h = a.halfStep
    · subst he; simp [World.emit, upd, ha]
    · simp [World.emit, upd, he, ha]
  case slashedMark h' _ _ =>
    by_cases he : h = h'
    · subst he; simp [World.emit, upd, ha]
    · simp [World.emit, upd, he, ha]
  all_goals exact ⟨ha, rfl, rfl, rfl⟩

theorem slashed_prim {tame E} {w w' : World} (p : Prim tame E w w') {a} (ha : (w.deposit.deposits a).slashed = true) :
    (w'.deposit.deposits a).slashed = true := by
  cases p
  case tokens a' _ _ _ _ _ hs =>
    have : a ≠ a' := by rintro rfl; simp [ha] at hs
    simp [World.emit, upd, this, ha]
  case requested a' _ hs _ =>
    have : a ≠ a' := by rintro rfl; simp [ha] at hs
    simp [World.emit, upd, this, ha]
  case paid a' _ _ hs _ _ _ =>
    have : a ≠ a' := by rintro rfl; simp [ha] at hs
    simp [World.emit, upd, this, ha]
  case slashedDeposit a' _ _ =>
    by_cases he : a = a' <;> simp [World.emit, upd, he, ha]
  all_goals exact ha

theorem accused_prims {tame E} {w w' : World} (p : Prims tame E w w') {h} (ha : (w.slasher.accusations h).accused = true) :
    (w'.slasher.accusations h).accused = true ∧ (w'.slasher.accusations h).executor = (w.slasher.accusations h).executor ∧
    (w'.slasher.accusations h).halfStep = (w.slasher.accusations h).halfStep ∧
    (w'.slasher.accusations h).blockNumber = (w.slasher.accusations h).blockNumber := by
  induction p with
  | refl => exact ⟨ha, rfl, rfl, rfl⟩
  | tail _ p ih =>
    obtain ⟨h1, h2, h3, h4⟩ := accused_prim p ih.1
    exact ⟨h1, h2.trans ih.2.1, h3.trans ih.2.2.1, h4.trans ih.2.2.2⟩

theorem slashed_prims {tame E} {w w' : World} (p : Prims tame E w w') {a} (ha : (w.deposit.deposits a).slashed = true) :
    (w'.deposit.deposits a).slashed = true := by
  induction p with
  | refl => exact ha
  | tail _ p ih => exact slashed_prim p ih

/-! ## All calls -/

theorem throughout_p {p : Op → Prop} {op : Op} (h : op.Throughout p) : p op := by cases h; assumption
theorem throughout_nested {p : Op → Prop} {op op' : Op} (ho : op' ∈ op.nested) (h : op.Throughout p) : op'.Throughout p := by
  cases h with | mk _ h => exact h _ ho

/-- Events of the executor. -/
def Event.ofExecutor : Event → Bool
  | .batchExecuted _ _ => true
  | .cipherSkipped _ => true
  | .targetCalled _ _ _ => true
  | .cipherDone _ _ _ _ => true
  | .plainDone _ _ _ => true
  | .halfStepsSet _ => true
  | _ => false

/-- The events of the executor so far. -/
def World.execTrace (w : World) : List Event := (w.log.map Prod.snd).filter Event.ofExecutor

theorem execTrace_emit (w : World) (e : Event) : (w.emit e).execTrace = w.execTrace ++ (if e.ofExecutor then [e] else []) := by
  simp only [World.execTrace, World.emit, List.map_append, List.map_cons, List.map_nil, List.filter_append]
  congr 1
  cases h : e.ofExecutor <;> simp [h]

theorem execTrace_other {w w' : World} {e : Event} (h : w'.log = w.log ++ [(w.block, e)]) (he : e.ofExecutor = false) :
    w'.execTrace = w.execTrace := by
  simp [World.execTrace, h, he]

theorem payFee_trace {w w' : World} {r v} (h : w.payFee r v = some w') :
    w'.executor = w.executor ∧ w'.execTrace = w.execTrace := by
  unfold payFee at h
  split at h
  · simp only [feeDeposit, Option.bind_eq_bind, Option.bind_eq_some_iff, require_eq_some, Option.some.injEq] at h
    obtain ⟨_, h1, _, h2, _, h3, rfl⟩ := h
    exact ⟨rfl, execTrace_other rfl rfl⟩
  · simp at h; subst h
    exact ⟨rfl, rfl⟩

/-- Calls that do not touch the executor leave it as it is, apart from the calls of the targets in an execution. -/
theorem noExec_cases (E : Env) :
    StepCases E (Op.Throughout (fun o => o.callsExecutor = false)) (fun w w' => w'.executor = w.executor ∧ w'.execTrace = w.execTrace)
      (fun w t txs w' => w'.executor = w.executor ∧
        w'.execTrace = w.execTrace ++ txs.map (fun tx => Event.targetCalled t.1 t.2 tx)) where
  refl _ := ⟨rfl, rfl⟩
  trans h h' := ⟨h'.1.trans h.1, h'.2.trans h.2⟩
  closed ho h := throughout_nested ho h
  atomic := by
    intro w op w' hp h
    have hp := throughout_p hp
    cases op with
    | config s c =>
      simp only [atomic, Option.map_eq_some_iff] at h
      obtain ⟨c', hc, rfl⟩ := h; exact ⟨rfl, rfl⟩
    | addTransaction s b ty tx v =>
      simp only [atomic, addTransaction, Option.bind_eq_bind, Option.bind_eq_some_iff, require_eq_some,
        Option.some.injEq, u64_eq_some, addU64_eq_some] at h
      obtain ⟨_, ⟨rfl, hb⟩, i, hi, bc, hbc, _, _, _, _, _, _, _, _, _, _, _, _, _, _, _, _, _, _, _, _, w2, hpay, rfl⟩ := h
      have := payFee_trace hpay
      exact ⟨this.1, by rw [execTrace_emit, this.2]; simp [Event.ofExecutor]; rfl⟩
    | setMinFee s n =>
      simp only [atomic, setMinFee, Option.bind_eq_bind, Option.bind_eq_some_iff, require_eq_some, u64_eq_some,
        Option.some.injEq] at h
      obtain ⟨_, _, _, _, rfl⟩ := h; exact ⟨rfl, rfl⟩
    | feeDeposit s r v =>
      simp only [atomic, feeDeposit, Option.bind_eq_bind, Option.bind_eq_some_iff, require_eq_some, Option.some.injEq] at h
      obtain ⟨_, h1, _, h2, _, h3, rfl⟩ := h; exact ⟨rfl, execTrace_other rfl rfl⟩
    | forceEther v => simp only [atomic, Option.some.injEq] at h; subst h; exact ⟨rfl, execTrace_other rfl rfl⟩
    | setHalfSteps s n => simp [Op.callsExecutor] at hp
    | skipEmptyOrTimedOutBatches s n => simp [Op.callsExecutor] at hp
    | skipCipherExecution s b => simp [Op.callsExecutor] at hp
    | sendTokens s a d =>
      simp only [atomic, tokensReceived, Option.bind_eq_bind, Option.bind_eq_some_iff, require_eq_some, u64_eq_some,
        Option.some.injEq] at h
      obtain ⟨_, ⟨rfl, h64⟩, _, h1, _, h2, _, h3, rfl⟩ := h; exact ⟨rfl, execTrace_other rfl rfl⟩
    | requestWithdrawal s =>
      simp only [atomic, requestWithdrawal, Option.bind_eq_bind, Option.bind_eq_some_iff, require_eq_some,
        Option.some.injEq] at h
      obtain ⟨_, h1, _, h2, _, h3, rfl⟩ := h; exact ⟨rfl, execTrace_other rfl rfl⟩
    | setSlasher s a =>
      simp only [atomic, setSlasher, Option.bind_eq_bind, Option.bind_eq_some_iff, require_eq_some, Option.some.injEq] at h
      obtain ⟨_, h1, rfl⟩ := h; exact ⟨rfl, rfl⟩
    | setSlashingReceiver s a =>
      simp only [atomic, setSlashingReceiver, Option.bind_eq_bind, Option.bind_eq_some_iff, require_eq_some,
        Option.some.injEq] at h
      obtain ⟨_, h1, rfl⟩ := h; exact ⟨rfl, rfl⟩
    | accuse s hs k =>
      simp only [atomic, accuse, Option.bind_eq_bind, Option.bind_eq_some_iff, require_eq_some, u64_eq_some,
        Option.some.injEq] at h
      obtain ⟨_, ⟨rfl, h64⟩, _, ⟨rfl, _⟩, _, hev, _, hna, i, hi, bc, hbc, s', hs, _, rfl, _, hex, _, hz, rfl⟩ := h; exact ⟨rfl, execTrace_other rfl rfl⟩
    | appeal s a =>
      simp only [atomic, appeal, Option.bind_eq_bind, Option.bind_eq_some_iff, require_eq_some, u64_eq_some,
        Option.some.injEq] at h
      obtain ⟨_, ⟨rfl, h64⟩, _, h1, _, h2, _, h3, rfl⟩ := h; exact ⟨rfl, execTrace_other rfl rfl⟩
    | vote s k b key =>
      simp only [atomic, vote, Option.bind_eq_bind, Option.bind_eq_some_iff, require_eq_some, u64_eq_some, Option.some.injEq,
        addU64_eq_some] at h
      obtain ⟨_, ⟨rfl, _⟩, _, ⟨rfl, h64⟩, i, hi, bc, hbc, _, hsp, s', hs, _, rfl, _, hv, _, ⟨rfl, hn⟩, rfl⟩ := h; exact ⟨rfl, execTrace_other rfl rfl⟩
    | _ => simp [atomic] at h
  done _ _ := by simp
  called := by
    rintro w t tx txs w1 w2 ⟨h1, h2⟩ ⟨h3, h4⟩
    refine ⟨h3.trans h1, ?_⟩
    rw [h4, h2, World.callTarget, execTrace_emit]
    simp [Event.ofExecutor]
  fee := by
    intro w s r a w1 w2 h h2
    simp only [feeWithdrawPre, Option.bind_eq_bind, Option.bind_eq_some_iff, require_eq_some, Option.some.injEq] at h
    obtain ⟨_, _, _, _, _, _, _, _, rfl⟩ := h
    refine ⟨h2.1, ?_⟩
    rw [World.feeWithdrawPost, execTrace_emit, h2.2, execTrace_emit]; simp [Event.ofExecutor]; rfl
  cipherSkip := by intro w s b h txs k inner w' hp; exact absurd (throughout_p hp) (by simp [Op.callsExecutor])
  cipher := by intro w s b h txs k inner t sel w' hp; exact absurd (throughout_p hp) (by simp [Op.callsExecutor])
  plain := by intro w s b txs inner t w' hp; exact absurd (throughout_p hp) (by simp [Op.callsExecutor])
  withdraw := by
    intro w s r w1 a w2 h h2
    simp only [withdrawPre, Option.bind_eq_bind, Option.bind_eq_some_iff, require_eq_some, Option.some.injEq,
      Prod.mk.injEq] at h
    obtain ⟨_, _, _, _, _, _, _, _, _, _, _, _, _, _, _, _, rfl, rfl⟩ := h
    refine ⟨h2.1, ?_⟩
    rw [World.withdrawPost, execTrace_emit, h2.2, execTrace_emit]; simp [Event.ofExecutor]; rfl
  slashDeposit := by
    intro w s a w1 w2 _ _ h h2
    simp only [World.slashDeposit, Option.bind_eq_bind, Option.bind_eq_some_iff, require_eq_some, Option.some.injEq] at h
    obtain ⟨_, _, _, _, rfl⟩ := h
    refine ⟨h2.1, ?_⟩
    rw [h2.2, execTrace_emit]; simp [Event.ofExecutor]; rfl
  slash := by
    intro w hs acc w1 w2 _ _ h h2
    simp only [World.slashDeposit, Option.bind_eq_bind, Option.bind_eq_some_iff, require_eq_some, Option.some.injEq] at h
    obtain ⟨_, _, _, _, rfl⟩ := h
    refine ⟨h2.1, ?_⟩
    rw [World.slashPost, execTrace_emit]
    simp only [Event.ofExecutor, Bool.false_eq_true, if_false, List.append_nil]
    exact h2.2.trans (execTrace_other rfl rfl)

theorem noExec_trace {E : Env} {w : World} {t txs inner}
    (h : ∀ o ∈ List.flatten inner, Op.Throughout (fun o => o.callsExecutor = false) o) :
    (w.runTargets E t txs inner).executor = w.executor ∧
      (w.runTargets E t txs inner).execTrace = w.execTrace ++ txs.map (fun tx => Event.targetCalled t.1 t.2 tx) :=
  targets_cases (noExec_cases E) inner w t txs h

theorem noExec_targets {E : Env} {w : World} {t txs inner}
    (h : ∀ o ∈ List.flatten inner, Op.Throughout (fun o => o.callsExecutor = false) o) :
    (w.runTargets E t txs inner).executor = w.executor := (noExec_trace h).1

theorem cipherPre_spec {w : World} (hinv : w.config.Inv) {s b h txs k x} (hp : w.cipherPre s b h txs k = some x) :
    w.executor.halfSteps = 2 * b ∧
    match x with
    | .skip => w.BatchOver b ∧ w.TimedOut b
    | .execute t sel => w.BatchOver b ∧ w.KeyperOf b s k ∧ h = w.batcher.hashes b .cipher ∧ (h ≠ zeroHash ∨ txs = []) ∧
        (w.deposit.deposits s).slashed = false ∧
        ∃ bc st e t', w.HasBatch b bc st e t' ∧ t = bc.targetAddress ∧ sel = bc.targetFunctionSelector ∧ w.block < t' := by
  simp only [cipherPre, Option.bind_eq_bind, Option.bind_eq_some_iff, require_eq_some, u64_eq_some] at hp
  obtain ⟨_, ⟨rfl, _⟩, _, ⟨rfl, _⟩, _, hb, _, hev, i, hi, bc, hbc, _, _, _, _, ⟨st, e, t⟩, hbd, hp⟩ := hp
  refine ⟨by omega, ?_⟩
  have hB : w.HasBatch b bc st e t := ⟨i, hi, hbc, hbd⟩
  split at hp
  · next ht =>
    simp at hp; subst hp
    exact ⟨⟨bc, st, e, t, hB, le_trans (HasBatch.order hB).2 ht⟩, bc, st, e, t, hB, ht⟩
  · next ht =>
    simp only [Option.bind_eq_some_iff, require_eq_some, Option.some.injEq] at hp
    obtain ⟨_, he, s', hs, _, rfl, _, hsl, _, hh, _, hz, rfl⟩ := hp
    exact ⟨⟨bc, st, e, t, hB, he⟩, ⟨bc, st, e, t, hB, hs⟩, hh, hz, hsl, bc, st, e, t, hB, rfl, rfl,
      by simpa using ht⟩

theorem plainPre_spec {w : World} {b t} (hp : w.plainPre b = some t) :
    w.executor.halfSteps = 2 * b + 1 ∧ w.BatchOver b ∧
      ∃ bc st e t', w.HasBatch b bc st e t' ∧ t = (bc.targetAddress, bc.targetFunctionSelector) := by
  simp only [plainPre, Option.bind_eq_bind, Option.bind_eq_some_iff, require_eq_some, u64_eq_some, Option.some.injEq] at hp
  obtain ⟨_, ⟨rfl, _⟩, _, hb, _, hev, i, hi, bc, hbc, _, _, _, _, ⟨st, e, t'⟩, hbd, _, he, rfl⟩ := hp
  exact ⟨by omega, ⟨bc, st, e, t', ⟨i, hi, hbc, hbd⟩, he⟩, bc, st, e, t', ⟨i, hi, hbc, hbd⟩, rfl⟩

theorem slashPre_spec {w : World} {h acc} (hp : w.slashPre h = some acc) :
    acc = w.slasher.accusations h ∧ acc.accused = true ∧ acc.appealed = false ∧ acc.slashed = false ∧
      acc.blockNumber + w.slasher.appealBlocks ≤ w.block := by
  simp only [slashPre, Option.bind_eq_bind, Option.bind_eq_some_iff, require_eq_some, u64_eq_some, Option.some.injEq] at hp
  obtain ⟨_, ⟨rfl, _⟩, _, h1, _, h2, _, h3, _, h4, rfl⟩ := hp
  exact ⟨rfl, h1, h2, h3, h4⟩

theorem slashDeposit_prim {tame E} {w w' : World} {a} (h : w.slashDeposit a = some w')
    (hj : (∃ h acc, w.slashPre h = some acc ∧ acc.executor = a) ∨ w.deposit.slasher ≠ w.slasherAddr) :
    Prim tame E w w' ∧ (w'.deposit.deposits a).slashed = true := by
  simp only [World.slashDeposit, Option.bind_eq_bind, Option.bind_eq_some_iff, require_eq_some, Option.some.injEq] at h
  obtain ⟨_, h1, _, _, rfl⟩ := h
  exact ⟨.slashedDeposit h1 hj, by simp [World.emit, upd]⟩

/-- Which calls are considered. -/
def Considered (tame : Bool) (op : Op) : Prop := tame = true → op.Tame

/-- Every call is a sequence of primitive changes. -/
theorem prims_cases (tame : Bool) (E : Env) :
    StepCases E (Considered tame) (fun w w' => w.config.Inv → Prims tame E w w')
      (fun w _ _ w' => w.config.Inv → Prims tame E w w') where
  refl _ _ := .refl
  trans h h' hi := (h hi).trans (h' (prims_inv hi (h hi)))
  closed ho h ht := throughout_nested ho (h ht)
  atomic _ h hi := atomic_prims hi h
  done _ _ _ := .refl
  called := by
    intro w t tx txs w1 w2 h1 h2 hi
    have h1' := h1 hi
    exact ((Relation.ReflTransGen.single (Prim.noted .targetCalled)).trans h1').trans (h2 (prims_inv (w := w.callTarget t tx) hi h1'))
  fee := by
    intro w s r a w1 w2 h h2 hi
    simp only [feeWithdrawPre, Option.bind_eq_bind, Option.bind_eq_some_iff, require_eq_some, Option.some.injEq] at h
    obtain ⟨_, g1, _, g2, _, g3, _, g4, rfl⟩ := h
    exact ((Relation.ReflTransGen.single (Prim.feePaid g1 g2 g3 g4)).trans (h2 hi)).tail (.noted .feeWithdrawn)
  cipherSkip := by
    intro w s b h txs k inner w' _ hp hs hi
    obtain ⟨g1, g2, g3⟩ := cipherPre_spec hi hp
    have hb : w.executor.halfSteps / 2 = b := by omega
    exact .single (skipCipherPost_prim hs (by omega) (by rw [hb]; exact g2) (.inl (by rw [hb]; exact g3)))
  cipher := by
    intro w s b h txs k inner t sel w' hp hpre hR hpost hi
    obtain ⟨g1, g2, g3, g4, g5, _, bc, st, e, t', g6, _, _, g7⟩ := cipherPre_spec hi hpre
    have ps := hR hi
    obtain ⟨c1, c2⟩ := prims_config ps
    simp only [cipherPost, incHalfSteps, Option.bind_eq_bind, Option.bind_eq_some_iff, Option.some.injEq,
      addU64_eq_some] at hpost
    obtain ⟨_, ⟨_, ⟨rfl, hlt⟩, rfl⟩, rfl⟩ := hpost
    obtain ⟨_, _, _, _, g8, g9⟩ := g2
    obtain ⟨rfl, rfl, rfl, rfl⟩ := HasBatch.unique g6 g8
    obtain ⟨_, _, _, _, g10, g11⟩ := g3
    obtain ⟨rfl, rfl, rfl, rfl⟩ := HasBatch.unique g6 g10
    refine ps.tail (Prim.cipherDone (k := k) hlt (hasBatch_mono hi c2 g6 (le_trans (HasBatch.order g6).1 g9)) (by rw [c1]; exact g9)
      (by rw [c1]; exact g7) g11 ?_ g5 ?_)
    · rw [hashes_prims hi ps ⟨_, _, _, _, g6, g9⟩]; exact g4
    · intro ht
      rw [noExec_targets (throughout_p (hp ht) rfl)]
      exact g1
  plain := by
    intro w s b txs inner t w' hp hpre hR hpost hi
    obtain ⟨g1, g2, _⟩ := plainPre_spec hpre
    have ps := hR hi
    obtain ⟨c1, c2⟩ := prims_config ps
    simp only [plainPost, incHalfSteps, Option.bind_eq_bind, Option.bind_eq_some_iff, Option.some.injEq, require_eq_some,
      addU64_eq_some] at hpost
    obtain ⟨_, hh, _, ⟨_, ⟨rfl, hlt⟩, rfl⟩, rfl⟩ := hpost
    refine ps.tail (Prim.plainDone hlt (batchOver_mono hi (le_of_eq c1.symm) c2 g2) hh ?_)
    intro ht
    rw [noExec_targets (throughout_p (hp ht) rfl)]
    exact g1
  withdraw := by
    intro w s r w1 a w2 h h2 hi
    simp only [withdrawPre, Option.bind_eq_bind, Option.bind_eq_some_iff, require_eq_some, Option.some.injEq,
      Prod.mk.injEq, addU64_eq_some] at h
    obtain ⟨_, g1, _, g2, _, g3, _, ⟨rfl, _⟩, _, g4, _, _, _, _, _, g5, rfl, rfl⟩ := h
    exact ((Relation.ReflTransGen.single (Prim.paid g1 g2 g3 g4 g5)).trans (h2 hi)).tail (.noted .withdrawn)
  slashDeposit := by
    intro w s a w1 w2 h0 h1 h h2 hi
    obtain ⟨p, _⟩ := slashDeposit_prim (tame := tame) (E := E) h (.inr (by rw [← h0]; exact h1))
    exact (Relation.ReflTransGen.single p).trans (h2 (prims_inv hi (.single p)))
  slash := by
    intro w hs acc w1 w2 h0 h1 h h2 hi
    obtain ⟨p, psl⟩ := slashDeposit_prim (tame := tame) (E := E) h (.inl ⟨hs, acc, h0, rfl⟩)
    have ps := h2 (prims_inv hi (.single p))
    have hall := (Relation.ReflTransGen.single p).trans ps
    obtain ⟨g1, g2, _⟩ := slashPre_spec h0
    subst g1
    obtain ⟨k1, k2, k3, _⟩ := accused_prims hall g2
    refine hall.tail ?_
    unfold World.slashPost
    rw [← k2, ← k3]
    exact .slashedMark k1 (by rw [k2]; exact slashed_prims ps psl)

theorem step_prims {E : Env} {w w' : World} {op : Op} (hi : w.config.Inv) (h : w.step E op = some w') :
    Prims false E w w' :=
  step_cases (prims_cases false E) op w w' (by simp [Considered]) h hi

theorem step_prims_tame {E : Env} {w w' : World} {op : Op} (ht : op.Tame) (hi : w.config.Inv) (h : w.step E op = some w') :
    Prims true E w w' :=
  step_cases (prims_cases true E) op w w' (fun _ => ht) h hi

/-! ## Histories -/

/-- Time passes or a primitive change. -/
inductive PStep (tame : Bool) (E : Env) : World → World → Prop
  | mine {w : World} {b : Nat} : w.block ≤ b → b < two64 → PStep tame E w { w with block := b }
  | prim {w w' : World} : Prim tame E w w' → PStep tame E w w'

abbrev PLater (tame : Bool) (E : Env) : World → World → Prop := Relation.ReflTransGen (PStep tame E)

theorem prims_later {tame E} {w w' : World} (p : Prims tame E w w') : PLater tame E w w' :=
  Relation.ReflTransGen.mono (fun _ _ h => PStep.prim h) _ _ p

theorem pstep_config {tame E} {w w' : World} (p : PStep tame E w w') : ConfigLater w.configAt w'.configAt := by
  cases p with
  | mine h1 h2 => exact .single (.mine h1 h2)
  | prim p => exact (prim_config p).2

theorem plater_config {tame E} {w w' : World} (p : PLater tame E w w') : ConfigLater w.configAt w'.configAt := by
  induction p with
  | refl => exact .refl
  | tail _ p ih => exact ih.trans (pstep_config p)

theorem plater_inv {tame E} {w w' : World} (h : w.config.Inv) (p : PLater tame E w w') : w'.config.Inv :=
  Config.inv_later (s := w.configAt) h (plater_config p)

theorem plater_block {tame E} {w w' : World} (p : PLater tame E w w') : w.block ≤ w'.block :=
  Config.block_mono (plater_config p)

theorem worldLater_plater {E} {w w' : World} (hi : w.config.Inv) (l : WorldLater E w w') : PLater false E w w' := by
  induction l with
  | refl => exact .refl
  | tail _ st ih =>
    cases st with
    | mine h1 h2 => exact ih.tail (.mine h1 h2)
    | tx h => exact ih.trans (prims_later (step_prims (plater_inv hi ih) h))

theorem tameLater_plater {E} {w w' : World} (hi : w.config.Inv) (l : Relation.ReflTransGen (TameStep E) w w') :
    PLater true E w w' := by
  induction l with
  | refl => exact .refl
  | tail _ st ih =>
    cases st with
    | mine h1 h2 => exact ih.tail (.mine h1 h2)
    | tx ht h => exact ih.trans (prims_later (step_prims_tame ht (plater_inv hi ih) h))

theorem deployed_inv {w : World} (h : Deployed w) : w.config.Inv := by
  obtain ⟨_, _, _, _, _, _, _, _, _, _, rfl⟩ := h
  exact Config.inv_init _ _

/-- All histories, tame or not. -/
def PReach (tame : Bool) (E : Env) (w : World) : Prop := ∃ w0, Deployed w0 ∧ PLater tame E w0 w

theorem WorldReach.preach {E w} (h : WorldReach E w) : PReach false E w := by
  obtain ⟨w0, h0, h1⟩ := h
  exact ⟨w0, h0, worldLater_plater (deployed_inv h0) h1⟩

theorem TameReach.preach {E w} (h : TameReach E w) : PReach true E w := by
  obtain ⟨w0, h0, h1⟩ := h
  exact ⟨w0, h0, tameLater_plater (deployed_inv h0) h1⟩

theorem TameReach.reach {E w} (h : TameReach E w) : WorldReach E w := by
  obtain ⟨w0, h0, h1⟩ := h
  refine ⟨w0, h0, Relation.ReflTransGen.mono (p := WorldStep E) (fun _ _ h => ?_) _ _ h1⟩
  cases h with
  | mine h1 h2 => exact .mine h1 h2
  | tx _ h => exact .tx h

theorem PReach.inv {tame E w} (h : PReach tame E w) : w.config.Inv := by
  obtain ⟨w0, h0, h1⟩ := h
  exact plater_inv (deployed_inv h0) h1

/-- Induction over histories. -/
theorem PReach.induct {tame E} {I : World → Prop} (base : ∀ w, Deployed w → I w)
    (mine : ∀ (w : World) b, I w → w.block ≤ b → b < two64 → I { w with block := b })
    (prim : ∀ w w', PReach tame E w → I w → Prim tame E w w' → I w') {w : World} (h : PReach tame E w) : I w := by
  obtain ⟨w0, h0, h1⟩ := h
  induction h1 with
  | refl => exact base _ h0
  | tail l st ih =>
    cases st with
    | mine h1 h2 => exact mine _ _ ih h1 h2
    | prim p => exact prim _ _ ⟨w0, h0, l⟩ ih p

end Shutter.Sol
