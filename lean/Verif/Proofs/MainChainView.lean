import Verif.Proofs.MainChain
import Mathlib.Data.List.Induction

/-! # The contents of the observed main chain -/

namespace Shutter.Main
open Shutter.Sol Shutter.GoConfig

/-! ## Batches -/

/-- The transactions in a list of events. -/
def addedIn (l : List (Nat × Event)) (b : Nat) (ty : TxType) : List Bytes :=
  l.filterMap (fun e => match e.2 with
    | .transactionAdded b' ty' tx _ _ => if b' = b ∧ ty' = ty then some tx else none
    | _ => none)

theorem accepted_eq (w : World) (b ty) : w.accepted b ty = addedIn w.log b ty := rfl

/-- The last hash in a list of events. -/
def lastHash (l : List (Nat × Event)) (b : Nat) (ty : TxType) (h0 : Bytes) : Bytes :=
  l.foldl (fun h e => match e.2 with
    | .transactionAdded b' ty' _ h' _ => if b' = b ∧ ty' = ty then h' else h
    | _ => h) h0

def txsOf (x : Option Batch) (ty : TxType) : List Bytes :=
  match x, ty with
  | none, _ => []
  | some x, .cipher => x.encryptedTransactions
  | some x, .plain => x.plainTransactions

def hashOf (x : Option Batch) (ty : TxType) : Bytes :=
  match x, ty with
  | none, _ => zeroHash
  | some x, .cipher => x.encryptedBatchHash
  | some x, .plain => x.plainBatchHash

theorem txs_eq (mc : MainChain) (b ty) : mc.txs b ty = txsOf (mc.batches b) ty := by
  unfold MainChain.txs txsOf; rfl
theorem hash_eq (mc : MainChain) (b ty) : mc.hash b ty = hashOf (mc.batches b) ty := by
  unfold MainChain.hash hashOf; rfl

theorem txs_fold (l : List (Nat × Event)) (m : Nat → Option Batch) (b : Nat) (ty : TxType) :
    txsOf ((l.foldl (fun m e => addTransaction m e.2) m) b) ty = txsOf (m b) ty ++ addedIn l b ty := by
  induction l generalizing m with
  | nil => simp [addedIn]
  | cons x l ih =>
    rw [List.foldl_cons, ih]
    have hc : addedIn (x :: l) b ty = addedIn [x] b ty ++ addedIn l b ty := by
      rw [addedIn, ← List.singleton_append, List.filterMap_append]; rfl
    rw [hc, ← List.append_assoc]
    congr 1
    obtain ⟨n, e⟩ := x
    cases e
    case transactionAdded b' ty' tx h v =>
      by_cases hb : b' = b
      · subst hb
        cases ty' <;> cases ty <;> cases hm : m b' <;> simp [addTransaction, upd, txsOf, addedIn, hm, Batch.empty]
      · have hb' : ¬ b = b' := fun h => hb h.symm
        cases ty' <;> simp [addTransaction, upd, addedIn, hb, hb']
    all_goals simp [addTransaction, addedIn]

theorem hash_fold (l : List (Nat × Event)) (m : Nat → Option Batch) (b : Nat) (ty : TxType) :
    hashOf ((l.foldl (fun m e => addTransaction m e.2) m) b) ty = lastHash l b ty (hashOf (m b) ty) := by
  induction l generalizing m with
  | nil => simp [lastHash]
  | cons x l ih =>
    rw [List.foldl_cons, ih, lastHash, lastHash, List.foldl_cons]
    congr 1
    obtain ⟨n, e⟩ := x
    cases e
    case transactionAdded b' ty' tx h v =>
      by_cases hb : b' = b
      · subst hb
        cases ty' <;> cases ty <;> cases hm : m b' <;> simp [addTransaction, upd, hashOf, hm, Batch.empty]
      · have hb' : ¬ b = b' := fun h => hb h.symm
        cases ty' <;> simp [addTransaction, upd, hb, hb']
    all_goals simp [addTransaction]

theorem some_fold (l : List (Nat × Event)) (m : Nat → Option Batch)
    (hm : ∀ b x, m b = some x → x.encryptedTransactions ≠ [] ∨ x.plainTransactions ≠ []) (b : Nat) (x : Batch)
    (h : (l.foldl (fun m e => addTransaction m e.2) m) b = some x) :
    x.encryptedTransactions ≠ [] ∨ x.plainTransactions ≠ [] := by
  induction l generalizing m with
  | nil => exact hm b x h
  | cons y l ih =>
    rw [List.foldl_cons] at h
    refine ih _ (fun b' x' h' => ?_) h
    obtain ⟨n, e⟩ := y
    cases e
    case transactionAdded b2 ty2 tx h2 v =>
      cases ty2 <;> (simp only [addTransaction, upd] at h'; split at h' <;> [(obtain rfl := Option.some.inj h'; simp); exact hm _ _ h'])
    all_goals exact hm _ _ h'

theorem lastHash_append (l l' : List (Nat × Event)) (b ty h0) :
    lastHash (l ++ l') b ty h0 = lastHash l' b ty (lastHash l b ty h0) := by
  rw [lastHash, List.foldl_append]; rfl

theorem lastHash_one (n b' ty' tx h v b ty h0) :
    lastHash [(n, .transactionAdded b' ty' tx h v)] b ty h0 = if b' = b ∧ ty' = ty then h else h0 := rfl

theorem addedIn_append (l l' : List (Nat × Event)) (b ty) : addedIn (l ++ l') b ty = addedIn l b ty ++ addedIn l' b ty :=
  List.filterMap_append

theorem lastHash_of_not {l : List (Nat × Event)} (h : ∀ x ∈ l, x.2.isAdded = false) (b ty h0) :
    lastHash l b ty h0 = h0 := by
  induction l with
  | nil => rfl
  | cons x l ih =>
    have hx := h x (by simp)
    rw [lastHash, List.foldl_cons]
    obtain ⟨n, e⟩ := x
    have := ih (fun y hy => h y (by simp [hy]))
    cases e <;> first | (simp [Event.isAdded] at hx; done) | exact this

theorem lastHash_reach {tame E w} (h : PReach tame E w) : ∀ b ty, lastHash w.log b ty zeroHash = w.batcher.hashes b ty := by
  refine PReach.induct (I := fun w => ∀ b ty, lastHash w.log b ty zeroHash = w.batcher.hashes b ty) ?_ ?_ ?_ h
  · rintro w ⟨_, _, _, _, _, _, _, _, _, _, rfl⟩
    simp [World.deployed, lastHash]
  · intro w b ih _ _; exact ih
  · intro w w' _ ih p b ty
    rcases prim_batcher p with ⟨b', ty', tx, v, bc, st, e, t, _, _, _, _, _, _, _, _, rfl⟩ | ⟨_, h2, l, h3, h4⟩
    · show lastHash (w.log ++ [_]) b ty zeroHash = _
      rw [lastHash_append, ih, lastHash_one]
      show _ = upd w.batcher.hashes b' _ b ty
      by_cases hb : b' = b
      · subst hb
        by_cases ht : ty' = ty
        · subst ht; simp [upd]
        · have : ¬ ty = ty' := fun h => ht h.symm
          simp [ht, this, upd]
      · have : ¬ b = b' := fun h => hb h.symm
        simp [hb, this, upd]
    · rw [h3, lastHash_append, ih, lastHash_of_not h4, h2]

structure BatchView (mc : MainChain) (w : World) : Prop where
  txs : ∀ b ty, txsOf (mc.batches b) ty = w.accepted b ty
  hash : ∀ b ty, hashOf (mc.batches b) ty = w.batcher.hashes b ty
  some : ∀ b x, mc.batches b = some x → x.encryptedTransactions ≠ [] ∨ x.plainTransactions ≠ []

theorem batchView {E fd mc hist} (o : Observed E fd false mc hist) : BatchView mc (hist mc.currentBlock) := by
  refine o.induct (I := BatchView) ?_ ?_
  · rintro w ⟨_, _, _, _, _, _, _, _, _, _, rfl⟩
    exact ⟨by simp [MainChain.new, World.deployed, txsOf, World.accepted], by simp [MainChain.new, World.deployed, hashOf],
      by simp [MainChain.new]⟩
  · intro mc mc' w w' l ih hr hr' _ hl _ hb _ _ _ _
    refine ⟨fun b ty => ?_, fun b ty => ?_, fun b x h => ?_⟩
    · rw [hb, txs_fold, ih.txs, accepted_eq, accepted_eq, hl]
      simp [addedIn]
    · rw [hb, hash_fold, ih.hash, ← lastHash_reach hr.preach, ← lastHash_reach hr'.preach, hl, lastHash_append]
    · rw [hb] at h; exact some_fold l _ ih.some b x h

/-- With heads going back: nothing is lost. -/
theorem batches_sublist {E fd back mc hist} (o : Observed E fd back mc hist) (b : Nat) (ty : TxType) :
    ((hist mc.currentBlock).accepted b ty).Sublist (mc.txs b ty) := by
  induction o with
  | @start hist c =>
    obtain ⟨_, _, _, _, _, _, _, _, _, _, h⟩ := c.start
    simp [MainChain.new, World.accepted, h, World.deployed]
  | @sync mc mc' hist head synced o h64 hb hs ih =>
    rcases syncToHead_spec hs with rfl | ⟨h1, _, _, h2, h3, _⟩
    · exact ih
    · have hle := syncUntil_le mc head
      rw [txs_eq, h3, txs_fold, h1]
      rcases Nat.le_total mc.currentBlock (syncUntil mc head) with hc | hc
      · rw [accepted_eq, o.chain.logsIn hc hle h64, addedIn_append, ← txs_eq]
        exact List.Sublist.append_right ih _
      · refine List.Sublist.trans ?_ (List.sublist_append_left _ _)
        rw [← txs_eq]
        refine List.Sublist.trans ?_ ih
        obtain ⟨l, hl, _⟩ := o.chain.log hc o.current
        rw [accepted_eq, accepted_eq, hl]
        simp [addedIn]
  | @reorg mc hist hist' o c he ih => rw [he _ le_rfl]; exact ih

/-! ## Receipts -/

theorem receipts_plater {tame E} {w w' : World} (p : PLater tame E w w') {k : Nat} (hk : k < w.executor.halfSteps) :
    w'.executor.receipts k = w.executor.receipts k := by
  induction p with
  | refl => rfl
  | tail p st ih =>
    have hl := halfSteps_later p
    rw [← ih]
    cases st with
    | mine => rfl
    | prim p => exact receipts_prim p (by omega)

theorem receipts_shape {tame E w} (h : PReach tame E w) : ∀ k, (w.executor.receipts k).executed = false →
    w.executor.receipts k = Receipt.zero := by
  refine PReach.induct (I := fun w => ∀ k, (w.executor.receipts k).executed = false →
    w.executor.receipts k = Receipt.zero) ?_ ?_ ?_ h
  · rintro w ⟨_, _, _, _, _, _, _, _, _, _, rfl⟩
    simp [World.deployed]
  · intro w b ih _ _; exact ih
  · intro w w' _ ih p k hk
    cases prim_exec p with
    | other l h _ _ => rw [h] at hk ⊢; exact ih k hk
    | set n _ _ _ h _ => rw [h] at hk ⊢; exact ih k hk
    | skipped _ _ _ _ h _ => rw [h] at hk ⊢; exact ih k hk
    | plainSkipped _ _ _ h _ => rw [h] at hk ⊢; exact ih k hk
    | plainDone _ _ _ _ _ _ _ h _ => rw [h] at hk ⊢; exact ih k hk
    | cipherDone s b hh txs bc st e t j g1 g2 g3 g4 g5 g6 g7 g8 h hl =>
      rw [h] at hk ⊢
      simp only [upd] at hk ⊢
      split at hk
      · simp at hk
      · next hne => rw [if_neg hne]; exact ih k hk

/-- After the loop of `syncExecutionState`, entry `k ≠ 0` holds the receipt if it was in range and executed. -/
theorem receipt_fold {E} {w : World} (h : PReach false E w) (l : List Nat) (m : Nat → Option Receipt) (k : Nat) (hk : k ≠ 0) :
    (l.foldl (syncReceipt w) m) k =
      if k ∈ l ∧ k % 2 = 0 ∧ (w.executor.receipts k).executed = true then some (w.executor.receipts k) else m k := by
  induction l using List.reverseRecOn with
  | nil => simp
  | append_singleton l x ih =>
    rw [List.foldl_append, List.foldl_cons, List.foldl_nil, syncReceipt]
    split
    · next hx =>
      rw [ih]
      have : k = x → ¬ k % 2 = 0 := fun e => by rw [e]; exact hx
      by_cases h1 : k = x
      · simp [this h1]
      · simp [h1]
    · next hx =>
      simp only [upd]
      cases hex : (w.executor.receipts x).executed with
      | false =>
        rw [receipts_shape h x hex]
        rw [if_neg (by simpa [Receipt.zero] using hk), ih]
        by_cases h1 : k = x
        · subst h1; simp [hex]
        · simp [h1]
      | true =>
        rw [((receiptInv h).spec x hex).2.1]
        by_cases h1 : k = x
        · subst h1; simp [hex]; omega
        · simp [h1, ih]

structure ReceiptView (mc : MainChain) (w : World) : Prop where
  num : mc.numHalfSteps = w.executor.halfSteps
  receipt : ∀ k, k ≠ 0 → mc.receipts k =
    if k < w.executor.halfSteps ∧ k % 2 = 0 ∧ (w.executor.receipts k).executed = true then some (w.executor.receipts k) else none

theorem receiptView {E fd mc hist} (o : Observed E fd false mc hist) : ReceiptView mc (hist mc.currentBlock) := by
  refine o.induct (I := ReceiptView) ?_ ?_
  · rintro w ⟨_, _, _, _, _, _, _, _, _, _, rfl⟩
    exact ⟨by simp [MainChain.new, World.deployed], by simp [MainChain.new, World.deployed]⟩
  · intro mc mc' w w' l ih hr hr' p hl _ _ hn hrec _ _
    refine ⟨hn, fun k hk => ?_⟩
    have hm := halfSteps_later p
    rw [hrec, receipt_fold hr'.preach _ _ k hk, ih.receipt k hk, ih.num]
    have hrange : k ∈ List.range' w.executor.halfSteps (w'.executor.halfSteps - w.executor.halfSteps) ↔
        w.executor.halfSteps ≤ k ∧ k < w'.executor.halfSteps := by
      rw [List.mem_range'_1]; omega
    simp only [hrange]
    by_cases hlt : k < w.executor.halfSteps
    · rw [receipts_plater p hlt]
      have : ¬ w.executor.halfSteps ≤ k := by omega
      have h2 : k < w'.executor.halfSteps := by omega
      simp [this, hlt, h2]
    · have : w.executor.halfSteps ≤ k := by omega
      simp [this, hlt]

end Shutter.Main
