import Verif.Proofs.Bytes
import Verif.Proofs.SolSlash
import Verif.Proofs.SolDemo

/-! Property theorems C48: the slasher contract.

The log lists the events of all contracts with their blocks, oldest first; `w.log = pre ++ (n, e) :: post` says that event
`e` happened at block `n` after the events `pre`. -/

namespace Shutter.Sol.Props
open Shutter.Sol World

/-- **C48** Every slashing of a deposit was preceded by an accusation of that account, the appeal period passed in between,
and there had been no successful appeal. Any history. -/
theorem C48_slashing_justified {E : Env} {w : World} (h : WorldReach E w) {pre post : List (Nat × Event)} {n : Nat}
    {account : Address} {amount delay requested moved : Nat} {withdrawn : Bool}
    (hl : w.log = pre ++ (n, .depositChanged account amount delay requested withdrawn true moved) :: post) :
    ∃ halfStep m accuser, (m, Event.accused halfStep account accuser) ∈ pre ∧ m + w.slasher.appealBlocks ≤ n ∧
      ∀ k x, (k, Event.appealed halfStep x) ∉ pre :=
  (slashJust h.preach _ _ _ hl _ _ _ _ _ _ rfl).1

/-- **C48** A deposit is taken at most once: a slashing that takes tokens from an account is the first one of the
account. Any history. -/
theorem C48_taken_once {E : Env} {w : World} (h : WorldReach E w) {pre post : List (Nat × Event)} {n : Nat}
    {account : Address} {amount delay requested moved : Nat} {withdrawn : Bool}
    (hl : w.log = pre ++ (n, .depositChanged account amount delay requested withdrawn true moved) :: post)
    (hm : 0 < moved) : ∀ y ∈ pre, ∀ a d r wd m, y.2 ≠ .depositChanged account a d r wd true m :=
  (slashJust h.preach _ _ _ hl _ _ _ _ _ _ rfl).2 hm

/-- **C48** A half step is accused at most once, appealed at most once and only after the accusation, and reported as
slashed only if accused and after the deposit of the accused was slashed. Any history. -/
theorem C48_accused_once {E : Env} {w : World} (h : WorldReach E w) {pre post : List (Nat × Event)} {n : Nat} {e : Event}
    (hl : w.log = pre ++ (n, e) :: post) :
    (∀ half a s, e = .accused half a s → ∀ m a' s', (m, Event.accused half a' s') ∉ pre) ∧
    (∀ half a, e = .appealed half a → (∃ m s, (m, Event.accused half a s) ∈ pre) ∧
      ∀ m a', (m, Event.appealed half a') ∉ pre) ∧
    (∀ half a, e = .slashed half a → (∃ m s, (m, Event.accused half a s) ∈ pre) ∧
      ∃ m am d r wd v, (m, Event.depositChanged a am d r wd true v) ∈ pre) :=
  accuseJust h.preach _ _ _ hl

/-- **C48** (any history) The accused is the keyper named by the receipt of the half step, which is that of an execution
of a non-empty encrypted batch. -/
theorem C48_accused_executor {E : Env} {w : World} (h : WorldReach E w) {n half : Nat} {executor accuser : Address}
    (hm : (n, Event.accused half executor accuser) ∈ w.log) :
    half % 2 = 0 ∧ (w.executor.receipts half).executed = true ∧ (w.executor.receipts half).executor = executor ∧
      (w.executor.receipts half).cipherBatchHash ≠ zeroHash := by
  have inv := accInv h.preach
  obtain ⟨h1, h2, _⟩ := inv.logged _ _ _ _ hm
  obtain ⟨_, h3, h4, h5, h6, _⟩ := inv.acc _ h1
  exact ⟨h3, h4, by rw [← h5, h2], h6⟩

/-- **C48** (tame targets) An accused keyper executed the encrypted part of the batch in question, for which encrypted
transactions had been accepted; the accuser is a keyper of that batch. -/
theorem C48_accused_acted {E : Env} {w : World} (h : TameReach E w) {n half : Nat} {executor accuser : Address}
    (hm : (n, Event.accused half executor accuser) ∈ w.log) :
    half % 2 = 0 ∧ w.accepted (half / 2) .cipher ≠ [] ∧ (∃ k, w.KeyperOf (half / 2) accuser k) ∧
      (∃ k, w.KeyperOf (half / 2) executor k) ∧
      ∃ m hash txs, (m, Event.cipherDone executor (half / 2) hash txs) ∈ w.log := by
  obtain ⟨h1, h2, h3, h4⟩ := C48_accused_executor h.reach hm
  have inv := execInv h.preach
  obtain ⟨m, s, b, hh, txs, k1, rfl⟩ := inv.receipts _ h2
  obtain ⟨_, k2, bc, st, e, t, k3, _, _, k4, k5, _⟩ := inv.cipher _ _ _ _ _ k1
  rw [k2] at h3 h4
  simp only at h3 h4
  subst h3
  rw [show 2 * b / 2 = b by omega]
  refine ⟨h1, ?_, ?_, ?_, m, hh, txs, k1⟩
  · intro ha
    apply h4
    rw [k5, (batcherInv h.preach).hash, ha]
    rfl
  · have := (accuserInv h.preach _ _ _ _ hm).2
    rwa [show 2 * b / 2 = b by omega] at this
  · obtain ⟨k, hk⟩ := List.mem_iff_getElem?.1 k4
    exact ⟨k, bc, st, e, t, k3, hk⟩

/-- **C48** `accuse` succeeds only for the keyper of the batch with the given index. Any history. -/
theorem C48_accuse_call {E : Env} {w w' : World} {sender : Address} {half k : Nat}
    (hs : w.step E (.accuse sender half k) = some w') :
    ∃ i bc, w.config.configIndexForBatchIndex (half / 2) = some i ∧ w.config.scheduledConfig i = some bc ∧
      bc.keypers[k]? = some sender := by
  rw [World.step, World.atomic] at hs
  simp only [accuse, Option.bind_eq_bind, Option.bind_eq_some_iff, require_eq_some, u64_eq_some, Option.some.injEq] at hs
  obtain ⟨_, ⟨rfl, _⟩, _, ⟨rfl, _⟩, _, _, _, _, i, hi, bc, hbc, s', hs, _, rfl, _⟩ := hs
  exact ⟨i, bc, hi, hbc, hs⟩

/-- **C48** An appeal succeeds exactly if the half step is accused, has not been appealed, and the authorization is one
by at least threshold many keypers of the batch's config for the execution in the receipt. Any history. -/
theorem C48_appeal_iff {E : Env} {w : World} (sender : Address) (a : Authorization) (h64 : a.halfStep < two64) :
    (∃ w', w.step E (.appeal sender a) = some w') ↔
      (w.slasher.accusations a.halfStep).accused = true ∧ (w.slasher.accusations a.halfStep).appealed = false ∧
      ∃ i bc, w.config.configIndexForBatchIndex ((w.executor.receipts a.halfStep).halfStep / 2) = some i ∧
        w.config.scheduledConfig i = some bc ∧ w.Authorized E bc (w.executor.receipts a.halfStep) a := by
  rw [← verifyAuthorization_iff]
  constructor
  · rintro ⟨w', hs⟩
    rw [World.step, World.atomic] at hs
    simp only [appeal, Option.bind_eq_bind, Option.bind_eq_some_iff, require_eq_some, u64_eq_some, Option.some.injEq] at hs
    obtain ⟨_, ⟨rfl, _⟩, _, h1, _, h2, _, h3, _⟩ := hs
    exact ⟨h1, h2, h3⟩
  · rintro ⟨h1, h2, h3⟩
    rw [World.step, World.atomic]
    simp only [appeal, Option.bind_eq_bind, Option.bind_eq_some_iff, require_eq_some, u64_eq_some, Option.some.injEq]
    exact ⟨_, a.halfStep, ⟨rfl, h64⟩, (), h1, (), h2, (), h3, rfl⟩

/-- **C48** If the keypers of the config are distinct, threshold many of them signed a successful appeal. -/
theorem C48_appeal_quorum {E : Env} {w : World} {bc : BatchConfig} {r : Receipt} {a : Authorization}
    (ha : w.Authorized E bc r a) (hn : bc.keypers.Nodup) :
    ∃ signers : List Address, signers.Nodup ∧ bc.threshold ≤ signers.length ∧ ∀ s ∈ signers, s ∈ bc.keypers ∧
      ∃ sig ∈ a.signatures, E.recover (E.keccak (signaturePreimage w.batcherAddr r)) sig = some s := by
  obtain ⟨h1, h2, h3, h4⟩ := ha
  have hall : ∀ i ∈ a.signerIndices, ∃ s, bc.keypers[i]? = some s ∧
      ∃ sig ∈ a.signatures, E.recover (E.keccak (signaturePreimage w.batcherAddr r)) sig = some s := by
    intro i hi
    obtain ⟨j, hj⟩ := List.mem_iff_getElem?.1 hi
    have hlt : j < a.signatures.length := by
      rw [h2]; exact (List.getElem?_eq_some_iff.1 hj).1
    obtain ⟨k, g1, g2⟩ := h4 j i _ hj (List.getElem?_eq_getElem hlt)
    exact ⟨k, g1, _, List.getElem_mem hlt, g2⟩
  refine ⟨a.signerIndices.filterMap (fun i => bc.keypers[i]?), ?_, ?_, ?_⟩
  · rw [List.Nodup, List.pairwise_filterMap]
    refine h3.imp ?_
    intro i j hij s hs s' hs' he
    subst he
    obtain ⟨q1, q2⟩ := List.getElem?_eq_some_iff.1 hs
    obtain ⟨q3, q4⟩ := List.getElem?_eq_some_iff.1 hs'
    have := (List.Nodup.getElem_inj_iff hn).1 (q2.trans q4.symm)
    omega
  · have : (a.signerIndices.filterMap (fun i => bc.keypers[i]?)).length = a.signerIndices.length := by
      rw [List.length_filterMap_eq_countP, List.countP_eq_length]
      intro i hi
      obtain ⟨s, hs, _⟩ := hall i hi
      simp [hs]
    omega
  · intro s hs
    rw [List.mem_filterMap] at hs
    obtain ⟨i, hi, hs⟩ := hs
    obtain ⟨s', g1, g2⟩ := hall i hi
    rw [hs] at g1; simp at g1; subst g1
    exact ⟨List.mem_of_getElem? hs, g2⟩

/-- **C48** `slash` succeeds exactly if the half step was accused, not appealed and not slashed before, and the appeal
period is over (unless the owner named the deposit contract itself as receiver of slashed tokens); and then the accused
account is slashed and has no deposit. Any history. -/
theorem C48_slash_iff {E : Env} {w : World} (h : WorldReach E w) (sender : Address) (half : Nat) (h64 : half < two64)
    (inner : List Op) (hr : w.deposit.slashingReceiver ≠ w.depositAddr) :
    (∃ w', w.step E (.slash sender half inner) = some w') ↔
      (w.slasher.accusations half).accused = true ∧ (w.slasher.accusations half).appealed = false ∧
      (w.slasher.accusations half).slashed = false ∧
      (w.slasher.accusations half).blockNumber + w.slasher.appealBlocks ≤ w.block := by
  have inv := depositInv h.preach
  constructor
  · rintro ⟨w', hs⟩
    rw [World.step] at hs
    split at hs
    · simp at hs
    · next acc ha =>
      obtain ⟨rfl, g1, g2, g3, g4⟩ := slashPre_spec ha
      exact ⟨g1, g2, g3, g4⟩
  · rintro ⟨g1, g2, g3, g4⟩
    have hp : w.slashPre half = some (w.slasher.accusations half) := by
      simp only [slashPre, Option.bind_eq_bind, Option.bind_eq_some_iff, require_eq_some, u64_eq_some, Option.some.injEq]
      exact ⟨half, ⟨rfl, h64⟩, (), g1, (), g2, (), g3, (), g4, rfl⟩
    have ham := (inv.sum.upd (w.slasher.accusations half).executor 0).1
    obtain ⟨w1, hw1⟩ : ∃ w1, w.slashDeposit (w.slasher.accusations half).executor = some w1 := by
      simp only [World.slashDeposit, Option.bind_eq_bind, Option.bind_eq_some_iff, require_eq_some, Option.some.injEq]
      exact ⟨_, (), ham, (), hr, rfl⟩
    rw [World.step, hp]
    simp only [inv.slasher.1, if_true, hw1]
    split
    · exact ⟨_, rfl⟩
    · exact ⟨_, rfl⟩

/-- **C48** After a successful `slash` the accused account is slashed, whatever the receiver of the tokens does. -/
theorem C48_slash_effect {E : Env} {w w' : World} (h : WorldReach E w) {sender : Address} {half : Nat} {inner : List Op}
    (hs : w.step E (.slash sender half inner) = some w') :
    w'.deposit.deposits (w.slasher.accusations half).executor = ⟨0, 0, 0, true⟩ ∧
      (w'.slasher.accusations half).slashed = true := by
  have hw' : WorldReach E w' := by
    obtain ⟨w0, h0, h1⟩ := h
    exact ⟨w0, h0, h1.tail (.tx hs)⟩
  have inv' := depositInv hw'.preach
  rw [World.step] at hs
  split at hs
  · simp at hs
  · next acc ha =>
    obtain ⟨rfl, g1, _⟩ := slashPre_spec ha
    split at hs
    · split at hs
      · simp at hs
      · next w1 hw1 =>
        obtain ⟨p, psl⟩ := slashDeposit_prim (tame := false) (E := E) hw1 (.inl ⟨half, _, ha, rfl⟩)
        have hi1 := prims_inv h.preach.inv (.single p)
        have fin : ∀ w2, Prims false E w1 w2 → w' = w2.slashPost half (w.slasher.accusations half) →
            w'.deposit.deposits (w.slasher.accusations half).executor = ⟨0, 0, 0, true⟩ ∧
            (w'.slasher.accusations half).slashed = true := by
          intro w2 ps he
          have hsl : (w'.deposit.deposits (w.slasher.accusations half).executor).slashed = true := by
            rw [he]; exact slashed_prims ps psl
          exact ⟨inv'.slashed _ hsl, by rw [he]; simp [slashPost, World.emit, upd]⟩
        split at hs
        · simp at hs; exact fin w1 .refl hs.symm
        · simp at hs
          refine fin _ ?_ hs.symm
          exact inner_cases (prims_cases false E) inner w1 (fun o _ => by simp [Considered]) hi1
    · simp at hs

/-! ### Instances and findings -/

/-- Keyper 6 executed, keyper 5 accused, nobody appealed: slashed after the appeal period. -/
example : TameReach Demo.env Demo.slashedW ∧ Demo.slashedW.deposit.deposits 6 = ⟨0, 0, 0, true⟩ ∧
    Demo.slashedW.tokensSlashed 6 = 500 ∧
    (∃ pre post, Demo.slashedW.log = pre ++ (137, .depositChanged 6 0 0 0 false true 500) :: post) ∧
    (117, Event.accused 0 6 5) ∈ Demo.slashedW.log :=
  ⟨Demo.slashed_tame, by decide +kernel, by decide +kernel,
    ⟨Demo.slashedW.log.take 17, Demo.slashedW.log.drop 18, by decide +kernel⟩, by decide +kernel⟩

/-- The same accusation can be answered with the signatures of keypers 5 and 7. -/
example : Demo.accusedW.Authorized Demo.env Demo.config (Demo.accusedW.executor.receipts 0) Demo.authorization := by
  refine ⟨by decide, by decide, by decide, ?_⟩
  intro j i s hi hs
  match j, hi, hs with
  | 0, hi, hs => simp [Demo.authorization] at hi hs; subst hi hs; exact ⟨5, by decide, by decide⟩
  | 1, hi, hs => simp [Demo.authorization] at hi hs; subst hi hs; exact ⟨7, by decide, by decide⟩
  | j + 2, hi, hs => simp [Demo.authorization] at hi

example : (Demo.accusedW.step Demo.env (.appeal 6 Demo.authorization)).isSome = true := by decide +kernel

/-- Finding: `slash` calls the receiver of the tokens before it marks the accusation as slashed, so that the receiver can
have the same half step slashed again: two `Slashed` events for one accusation (the second one takes nothing). -/
theorem C48_double_event_finding : ∃ E w, WorldReach E w ∧ w.count (· = .slashed 0 6) = 2 ∧
    w.count (fun e => match e with | .accused _ _ _ => true | _ => false) = 1 ∧ w.tokensSlashed 6 = 500 :=
  ⟨Demo.env, Demo.doubleW, Demo.double_reach, by decide +kernel, by decide +kernel, by decide +kernel⟩

/-- Finding: with a threshold of zero, which the config contract accepts, anybody can answer an accusation without a
signature. -/
theorem C48_threshold_zero_finding (E : Env) (w : World) (bc : BatchConfig) (r : Receipt) (half : Nat) (bh : Bytes)
    (h0 : bc.threshold = 0) : w.Authorized E bc r ⟨half, bh, [], []⟩ := by
  refine ⟨by simp [h0], rfl, by simp, ?_⟩
  intro j i s hi
  simp at hi

/-- **C48** The message the keypers sign for an execution determines the batcher contract, the batch, the hash of the encrypted batch
and the hash of the decrypted transactions: a signature given for one execution does not authorize another one. -/
theorem C48_signed_message_binds {b₁ b₂ : Address} {r₁ r₂ : Receipt} (a₁ : b₁ < 2 ^ 160) (a₂ : b₂ < 2 ^ 160)
    (i₁ : r₁.halfStep < 2 ^ 64) (i₂ : r₂.halfStep < 2 ^ 64) (l₁ : r₁.cipherBatchHash.length = 32) (l₂ : r₂.cipherBatchHash.length = 32)
    (h : signaturePreimage b₁ r₁ = signaturePreimage b₂ r₂) :
    b₁ = b₂ ∧ r₁.halfStep / 2 = r₂.halfStep / 2 ∧ r₁.cipherBatchHash = r₂.cipherBatchHash ∧ r₁.batchHash = r₂.batchHash := by
  unfold signaturePreimage at h
  simp only [List.append_assoc] at h
  have h := List.append_cancel_left h
  obtain ⟨h1, h⟩ := List.append_inj h (by simp)
  obtain ⟨h2, h⟩ := List.append_inj h (by simp)
  obtain ⟨h3, h4⟩ := List.append_inj h (by rw [l₁, l₂])
  have h1 := congrArg Shutter.Crypto.beNat h1
  have h2 := congrArg Shutter.Crypto.beNat h2
  rw [Shutter.Crypto.beNat_beBytes, Shutter.Crypto.beNat_beBytes] at h1 h2
  rw [Nat.mod_eq_of_lt (by omega), Nat.mod_eq_of_lt (by omega)] at h1 h2
  exact ⟨h1, h2, h3, h4⟩

end Shutter.Sol.Props
