import Verif.Proofs.SolLog

/-! # The batcher -/

namespace Shutter.Sol
open World

/-- Whether an event reports an accepted transaction. -/
def Event.isAdded : Event → Bool
  | .transactionAdded _ _ _ _ _ => true
  | _ => false

theorem accepted_append_of_not (w : World) {l : List (Nat × Event)} (h : ∀ x ∈ l, x.2.isAdded = false) {w' : World}
    (hl : w'.log = w.log ++ l) (b : Nat) (ty : TxType) : w'.accepted b ty = w.accepted b ty := by
  unfold World.accepted
  rw [hl, List.filterMap_append]
  rw [List.append_right_eq_self, List.filterMap_eq_nil_iff]
  intro x hx
  have := h x hx
  rcases x with ⟨n, e⟩
  cases e <;> simp_all [Event.isAdded]

/-- What a primitive change does to the batcher. -/
theorem prim_batcher {tame E} {w w' : World} (p : Prim tame E w w') :
    (∃ b ty tx v bc st e t, b < two64 ∧ w.HasBatch b bc st e t ∧ st ≤ w.block ∧ w.block < e ∧ 0 < tx.length ∧
      tx.length ≤ bc.transactionSizeLimit ∧ w.batcher.sizes b + tx.length ≤ bc.batchSizeLimit ∧ w.batcher.minFee ≤ v ∧
      w' = World.emit { w with batcher :=
        { w.batcher with
          sizes := upd w.batcher.sizes b (w.batcher.sizes b + tx.length)
          hashes := upd w.batcher.hashes b (upd (w.batcher.hashes b) ty (chainHash E tx (w.batcher.hashes b ty))) } }
        (.transactionAdded b ty tx (chainHash E tx (w.batcher.hashes b ty)) v)) ∨
    (w'.batcher.sizes = w.batcher.sizes ∧ w'.batcher.hashes = w.batcher.hashes ∧
      (∃ l, w'.log = w.log ++ l ∧ ∀ x ∈ l, x.2.isAdded = false)) := by
  cases p
  case added b ty tx v bc st e t h1 h2 h3 h4 h5 h6 h7 h8 =>
    exact .inl ⟨b, ty, tx, v, bc, st, e, t, h1, h2, h3, h4, h5, h6, h7, h8, rfl⟩
  case noted e he =>
    refine .inr ⟨rfl, rfl, [_], rfl, ?_⟩
    cases he <;> simp [Event.isAdded]
  case config => exact .inr ⟨rfl, rfl, [], by simp, by simp⟩
  case minFee => exact .inr ⟨rfl, rfl, [], by simp, by simp⟩
  case kept => exact .inr ⟨rfl, rfl, [], by simp, by simp⟩
  case setSlasher => exact .inr ⟨rfl, rfl, [], by simp, by simp⟩
  case setReceiver => exact .inr ⟨rfl, rfl, [], by simp, by simp⟩
  all_goals first
    | exact .inr ⟨rfl, rfl, [_], rfl, by simp [World.emit, Event.isAdded]⟩
    | exact .inr ⟨rfl, rfl, [_] ++ [_], List.append_assoc _ _ _, by simp [World.emit, Event.isAdded]⟩

theorem chainHashes_append (E : Env) (l : List Bytes) (tx : Bytes) :
    chainHashes E (l ++ [tx]) = chainHash E tx (chainHashes E l) := by
  simp [chainHashes]

structure BatcherInv (E : Env) (w : World) : Prop where
  hash : ∀ b ty, w.batcher.hashes b ty = chainHashes E (w.accepted b ty)
  size : ∀ b, w.batcher.sizes b = w.acceptedSize b
  entry : ∀ n b ty tx h v, (n, Event.transactionAdded b ty tx h v) ∈ w.log →
    ∃ bc st e t, w.HasBatch b bc st e t ∧ st ≤ n ∧ n < e ∧ 0 < tx.length ∧ tx.length ≤ bc.transactionSizeLimit
  limit : ∀ b, 0 < w.batcher.sizes b → ∃ bc st e t, w.HasBatch b bc st e t ∧ st ≤ w.block ∧
    w.batcher.sizes b ≤ bc.batchSizeLimit

theorem acceptedSize_same {w w' : World} (h : ∀ b ty, w'.accepted b ty = w.accepted b ty) (b : Nat) :
    w'.acceptedSize b = w.acceptedSize b := by
  simp [World.acceptedSize, h]

theorem batcherInv {tame E w} (h : PReach tame E w) : BatcherInv E w := by
  refine PReach.induct (I := BatcherInv E) ?_ ?_ ?_ h
  · rintro w ⟨_, _, _, _, _, _, _, _, _, _, rfl⟩
    exact ⟨by simp [World.deployed, World.accepted, chainHashes], by simp [World.deployed, World.acceptedSize, World.accepted],
      by simp [World.deployed], by simp [World.deployed]⟩
  · intro w b ih hb h64
    refine ⟨ih.hash, ih.size, ih.entry, fun b' hp => ?_⟩
    obtain ⟨bc, st, e, t, h1, h2, h3⟩ := ih.limit b' hp
    exact ⟨bc, st, e, t, h1, le_trans h2 hb, h3⟩
  · intro w w' hr ih p
    have hi := hr.inv
    obtain ⟨hblk, hlat⟩ := prim_config p
    have keep : ∀ {b bc st e t}, w.HasBatch b bc st e t → st ≤ w.block → w'.HasBatch b bc st e t :=
      fun h1 h2 => hasBatch_mono hi hlat h1 h2
    have hblocks := preach_log_block hr
    rcases prim_batcher p with ⟨b, ty, tx, v, bc, st, e, t, h1, h2, h3, h4, h5, h6, h7, h8, rfl⟩ | ⟨h1, h2, l, h3, h4⟩
    · have hacc : ∀ b' ty', (World.emit { w with batcher :=
          { w.batcher with
            sizes := upd w.batcher.sizes b (w.batcher.sizes b + tx.length)
            hashes := upd w.batcher.hashes b (upd (w.batcher.hashes b) ty (chainHash E tx (w.batcher.hashes b ty))) } }
          (.transactionAdded b ty tx (chainHash E tx (w.batcher.hashes b ty)) v)).accepted b' ty' =
          w.accepted b' ty' ++ (if b = b' ∧ ty = ty' then [tx] else []) := by
        intro b' ty'; rw [accepted_emit]; rfl
      refine ⟨?_, ?_, ?_, ?_⟩
      · intro b' ty'
        rw [hacc]
        by_cases hb : b' = b
        · subst hb
          by_cases hty : ty' = ty
          · subst hty; simp [World.emit, upd, chainHashes_append, ih.hash]
          · simp [World.emit, upd, hty, Ne.symm hty, ih.hash]
        · simp [World.emit, upd, hb, Ne.symm hb, ih.hash]
      · intro b'
        unfold World.acceptedSize
        rw [hacc, hacc]
        by_cases hb : b' = b
        · subst hb
          have := ih.size b'
          unfold World.acceptedSize at this
          cases ty <;> simp [World.emit, upd, this] <;> omega
        · have := ih.size b'
          unfold World.acceptedSize at this
          simp [World.emit, upd, hb, Ne.symm hb, this]
      · intro n b' ty' tx' hh v' hm
        simp only [World.emit, List.mem_append, List.mem_singleton, Prod.mk.injEq] at hm
        rcases hm with hm | ⟨rfl, hm⟩
        · obtain ⟨bc', st', e', t', g1, g2, g3⟩ := ih.entry n b' ty' tx' hh v' hm
          exact ⟨bc', st', e', t', keep g1 (le_trans g2 (hblocks _ hm)), g2, g3⟩
        · injection hm with q1 q2 q3 q4 q5
          subst q1 q2 q3 q4 q5
          exact ⟨bc, st, e, t, keep h2 h3, h3, h4, h5, h6⟩
      · intro b' hp
        by_cases hb : b' = b
        · subst hb
          exact ⟨bc, st, e, t, keep h2 h3, h3, by simpa [World.emit, upd] using h7⟩
        · simp only [World.emit, upd, if_neg hb] at hp ⊢
          obtain ⟨bc', st', e', t', g1, g2, g3⟩ := ih.limit b' hp
          exact ⟨bc', st', e', t', keep g1 g2, g2, g3⟩
    · have hacc : ∀ b ty, w'.accepted b ty = w.accepted b ty := accepted_append_of_not w h4 h3
      refine ⟨?_, ?_, ?_, ?_⟩
      · intro b ty; rw [h2, hacc]; exact ih.hash b ty
      · intro b; rw [h1, acceptedSize_same hacc]; exact ih.size b
      · intro n b ty tx hh v hm
        rw [h3, List.mem_append] at hm
        rcases hm with hm | hm
        · obtain ⟨bc', st', e', t', g1, g2, g3⟩ := ih.entry n b ty tx hh v hm
          exact ⟨bc', st', e', t', keep g1 (le_trans g2 (hblocks _ hm)), g2, g3⟩
        · have := h4 _ hm; simp [Event.isAdded] at this
      · intro b hp
        rw [h1] at hp ⊢
        obtain ⟨bc', st', e', t', g1, g2, g3⟩ := ih.limit b hp
        exact ⟨bc', st', e', t', keep g1 g2, by rw [hblk]; exact g2, g3⟩

/-- After a batch is over, nothing is accepted any more. -/
theorem accepted_prim {tame E} {w w' : World} (p : Prim tame E w w') {b} (ho : w.BatchOver b) (ty : TxType) :
    w'.accepted b ty = w.accepted b ty := by
  rcases prim_batcher p with ⟨b', ty', tx, v, bc, st, e, t, _, h2, _, h4, _, _, _, _, rfl⟩ | ⟨_, _, l, h3, h4⟩
  · have : b' ≠ b := by
      rintro rfl
      obtain ⟨bc', st', e', t', g1, g2⟩ := ho
      obtain ⟨-, -, rfl, -⟩ := HasBatch.unique g1 h2
      omega
    rw [accepted_emit]
    simp only [this, false_and, if_false, List.append_nil]
    rfl
  · exact accepted_append_of_not w h4 h3 b ty

theorem accepted_later {tame E} {w w' : World} (hi : w.config.Inv) (l : PLater tame E w w') {b} (ho : w.BatchOver b)
    (ty : TxType) : w'.accepted b ty = w.accepted b ty ∧ w'.batcher.hashes b ty = w.batcher.hashes b ty ∧ w'.BatchOver b := by
  induction l with
  | refl => exact ⟨rfl, rfl, ho⟩
  | tail ls st ih =>
    obtain ⟨i1, i2, i3⟩ := ih
    cases st with
    | mine h1 h2 =>
      refine ⟨i1, i2, ?_⟩
      obtain ⟨bc, st, e, t, g1, g2⟩ := i3
      exact ⟨bc, st, e, t, g1, le_trans g2 h1⟩
    | prim p =>
      obtain ⟨c1, c2⟩ := prim_config p
      exact ⟨(accepted_prim p i3 ty).trans i1, (hashes_prim p i3 ty).trans i2,
        batchOver_mono (plater_inv hi ls) (le_of_eq c1.symm) c2 i3⟩

theorem chainPreimages_append (E : Env) (l : List Bytes) (tx : Bytes) :
    chainPreimages E (l ++ [tx]) = chainPreimages E l ++ [tx ++ chainHashes E l] := by
  unfold chainPreimages
  rw [List.mapIdx_append]
  congr 1
  · apply List.ext_getElem?
    intro i
    simp only [List.getElem?_mapIdx]
    by_cases hi : i < l.length
    · rw [List.take_append_of_le_length (by omega)]
    · rw [List.getElem?_eq_none (by omega)]; rfl
  · simp

theorem chainHash_inj_aux (E : Env) (h32 : ∀ x, (E.keccak x).length = 32) :
    ∀ l1 l2 : List Bytes, chainHashes E l1 = chainHashes E l2 → l1 = l2 ∨
      (∃ x ∈ chainPreimages E l1, ∃ y ∈ chainPreimages E l2, x ≠ y ∧ E.keccak x = E.keccak y) ∨
      (∃ x ∈ chainPreimages E l1 ++ chainPreimages E l2, E.keccak x = zeroHash) := by
  intro l1
  have len : ∀ l, (chainHashes E l).length = 32 := by
    intro l
    rcases List.eq_nil_or_concat l with rfl | ⟨l', a, rfl⟩
    · rfl
    · rw [List.concat_eq_append, chainHashes_append]; exact h32 _
  induction l1 using List.reverseRecOn with
  | nil =>
    intro l2 h
    rcases List.eq_nil_or_concat l2 with rfl | ⟨l', a, rfl⟩
    · exact .inl rfl
    · rw [List.concat_eq_append] at h ⊢
      refine .inr (.inr ⟨a ++ chainHashes E l', ?_, ?_⟩)
      · rw [chainPreimages_append]; simp
      · rw [chainHashes_append] at h
        exact h.symm
  | append_singleton l1 a ih =>
    intro l2 h
    rcases List.eq_nil_or_concat l2 with rfl | ⟨l', b, rfl⟩
    · refine .inr (.inr ⟨a ++ chainHashes E l1, ?_, ?_⟩)
      · rw [chainPreimages_append]; simp
      · rw [chainHashes_append] at h; exact h
    · rw [List.concat_eq_append] at h ⊢
      rw [chainHashes_append, chainHashes_append] at h
      unfold chainHash at h
      by_cases he : a ++ chainHashes E l1 = b ++ chainHashes E l'
      · obtain ⟨h1, h2⟩ := List.append_inj' he (by rw [len, len])
        rcases ih l' h2 with rfl | ⟨x, hx, y, hy, hxy⟩ | ⟨x, hx, hx'⟩
        · exact .inl (by rw [h1])
        · refine .inr (.inl ⟨x, ?_, y, ?_, hxy⟩) <;> rw [chainPreimages_append] <;> simp [hx, hy]
        · refine .inr (.inr ⟨x, ?_, hx'⟩)
          rw [chainPreimages_append, chainPreimages_append]
          simp only [List.mem_append] at hx ⊢
          tauto
      · refine .inr (.inl ⟨_, ?_, _, ?_, he, h⟩) <;> rw [chainPreimages_append] <;> simp

end Shutter.Sol

/-! ## Limits fit into 64 bits -/

namespace Shutter.Sol
open World

def Config.Small (c : Config) : Prop := ∀ bc ∈ c.configs, bc.batchSizeLimit < two64 ∧ bc.executionTimeout < two64

theorem Config.small_zero : zeroConfig.batchSizeLimit < two64 ∧ zeroConfig.executionTimeout < two64 := by decide

theorem Config.small_set {b b' : BatchConfig} {o : SetOp} (h : b.batchSizeLimit < two64 ∧ b.executionTimeout < two64)
    (hs : setNext b o = some b') : b'.batchSizeLimit < two64 ∧ b'.executionTimeout < two64 := by
  cases o <;> simp only [setNext, Option.map_eq_some_iff, u64_eq_some, Option.some.injEq, Option.ite_none_right_eq_some] at hs
  case batchSizeLimit => obtain ⟨_, ⟨rfl, h1⟩, rfl⟩ := hs; exact ⟨h1, h.2⟩
  case executionTimeout => obtain ⟨_, ⟨rfl, h1⟩, rfl⟩ := hs; exact ⟨h.1, h1⟩
  case removeKeypers =>
    obtain ⟨_, ⟨rfl, h1⟩, rfl⟩ := hs
    split <;> exact h
  case feeReceiver => subst hs; exact h
  case targetAddress => subst hs; exact h
  case targetFunctionSelector => subst hs; exact h
  case addKeypers => obtain ⟨_, rfl⟩ := hs; exact h
  all_goals
    obtain ⟨_, ⟨rfl, h1⟩, rfl⟩ := hs
    exact h

theorem Config.small_call {c c' : Config} {block : Nat} {s : Address} {o : Call} (hi : c.Inv) (hs : c.Small)
    (h : c.call block s o = some c') : c'.Small := by
  cases o with
  | set o =>
    simp only [call, Option.bind_eq_bind, Option.bind_eq_some_iff, Option.some.injEq] at h
    obtain ⟨_, _, n, hn, rfl⟩ := h
    intro bc hb
    simp only [configs, List.mem_append, List.mem_singleton] at hb
    rcases hb with hb | rfl
    · exact hs bc (by simp [configs, hb])
    · exact small_set (hs c.next (by simp [configs])) hn
  | schedule =>
    simp only [call, Option.bind_eq_bind, Option.bind_eq_some_iff] at h
    obtain ⟨_, _, h⟩ := h
    obtain ⟨_, h⟩ := scheduled_of h
    rw [h.eq]
    intro bc hb
    simp only [configs, List.mem_append, List.mem_singleton] at hb
    rcases hb with (hb | rfl) | rfl
    · exact hs bc (by simp [configs, hb])
    · exact hs c.next (by simp [configs])
    · exact small_zero
  | unschedule f =>
    simp only [call, Option.bind_eq_bind, Option.bind_eq_some_iff] at h
    obtain ⟨_, _, f', _, h⟩ := h
    obtain ⟨_, k, _, rfl, _⟩ := unscheduled_of hi.pos h
    intro bc hb
    simp only [configs, List.mem_append, List.mem_singleton] at hb
    rcases hb with hb | rfl
    · exact hs bc (by simp [configs, List.mem_of_mem_take hb])
    · exact hs c.next (by simp [configs])
  | transferOwnership a =>
    simp only [call, Option.bind_eq_bind, Option.bind_eq_some_iff, Option.some.injEq] at h
    obtain ⟨_, _, rfl⟩ := h
    exact hs

theorem small_reach {tame E w} (h : PReach tame E w) : w.config.Small := by
  refine PReach.induct (I := fun w => w.config.Small) ?_ ?_ ?_ h
  · rintro w ⟨_, _, _, _, _, _, _, _, _, _, rfl⟩ bc hb
    simp [World.deployed, Config.init, Config.configs] at hb
    subst hb; exact Config.small_zero
  · intro w b ih _ _; exact ih
  · intro w w' hr ih p
    cases p
    case config hc => exact Config.small_call hr.inv ih hc
    all_goals exact ih

theorem HasBatch.small {tame E} {w : World} (h : PReach tame E w) {b bc st e t} (hb : w.HasBatch b bc st e t) :
    bc.batchSizeLimit < two64 := by
  obtain ⟨i, _, h2, _⟩ := hb
  simp only [Config.scheduledConfig, Option.bind_eq_bind, Option.bind_eq_some_iff] at h2
  obtain ⟨_, _, h2⟩ := h2
  exact (small_reach h bc (List.mem_of_getElem? h2)).1

end Shutter.Sol
