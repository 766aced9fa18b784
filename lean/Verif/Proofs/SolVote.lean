import Verif.Proofs.SolLog

/-! # The key broadcast contract -/

namespace Shutter.Sol
open World

theorem upd_upd {α β γ : Type} [DecidableEq α] [DecidableEq β] (f : α → β → γ) (a : α) (c : β) (v : γ) (x : α) (y : β) :
    upd f a (upd (f a) c v) x y = if a = x ∧ c = y then v else f x y := by
  unfold upd
  by_cases h : x = a
  · subst h
    by_cases h' : y = c
    · subst h'; simp
    · simp [h', Ne.symm h']
  · simp [h, Ne.symm h]

def Event.isVoted : Event → Bool
  | .voted _ _ _ _ => true
  | _ => false

/-- What a primitive change does to the key broadcast contract. -/
theorem prim_vote {tame E} {w w' : World} (p : Prim tame E w w') :
    (w'.keyBroadcast = w.keyBroadcast ∧ ∃ l, w'.log = w.log ++ l ∧ ∀ x ∈ l, x.2.isVoted = false) ∨
    (∃ s b key i bc, ∃ k : Nat, b < two64 ∧ w.config.configIndexForBatchIndex b = some i ∧
      w.config.scheduledConfig i = some bc ∧ 0 < bc.batchSpan ∧ bc.keypers[k]? = some s ∧
      w.keyBroadcast.voted b s = false ∧ w.keyBroadcast.numVotes b (E.keccak key) + 1 < two64 ∧
      w'.config = w.config ∧
      w'.keyBroadcast.voted = upd w.keyBroadcast.voted b (upd (w.keyBroadcast.voted b) s true) ∧
      w'.keyBroadcast.numVotes = upd w.keyBroadcast.numVotes b
        (upd (w.keyBroadcast.numVotes b) (E.keccak key) (w.keyBroadcast.numVotes b (E.keccak key) + 1)) ∧
      w'.keyBroadcast.keys = (if (w.keyBroadcast.keys (E.keccak key)).length = 0 then
        upd w.keyBroadcast.keys (E.keccak key) key else w.keyBroadcast.keys) ∧
      w'.keyBroadcast.bestHash = (if w.keyBroadcast.numVotes b (E.keccak key) + 1 > w.keyBroadcast.bestVotes b then
        upd w.keyBroadcast.bestHash b (E.keccak key) else w.keyBroadcast.bestHash) ∧
      w'.keyBroadcast.bestVotes = (if w.keyBroadcast.numVotes b (E.keccak key) + 1 > w.keyBroadcast.bestVotes b then
        upd w.keyBroadcast.bestVotes b (w.keyBroadcast.numVotes b (E.keccak key) + 1) else w.keyBroadcast.bestVotes) ∧
      w'.log = w.log ++ [(w.block, .voted s b key (w.keyBroadcast.numVotes b (E.keccak key) + 1))]) := by
  cases p
  case voted s b key i bc k h1 h2 h3 h4 h5 h6 h7 =>
    exact .inr ⟨s, b, key, i, bc, k, h1, h2, h3, h4, h5, h6, h7, rfl, rfl, rfl, rfl, rfl, rfl, rfl⟩
  case noted e he =>
    refine .inl ⟨rfl, [_], rfl, ?_⟩
    cases he <;> simp [Event.isVoted]
  case config => exact .inl ⟨rfl, [], by simp, by simp⟩
  case minFee => exact .inl ⟨rfl, [], by simp, by simp⟩
  case kept => exact .inl ⟨rfl, [], by simp, by simp⟩
  case setSlasher => exact .inl ⟨rfl, [], by simp, by simp⟩
  case setReceiver => exact .inl ⟨rfl, [], by simp, by simp⟩
  all_goals first
    | exact .inl ⟨rfl, [_], rfl, by simp [World.emit, Event.isVoted]⟩
    | exact .inl ⟨rfl, [_] ++ [_], List.append_assoc _ _ _, by simp [World.emit, Event.isVoted]⟩

theorem voters_append {w w' : World} {l} (h : w'.log = w.log ++ l) (hl : ∀ x ∈ l, x.2.isVoted = false) (E : Env) (b : Nat) :
    w'.voters b = w.voters b ∧ ∀ h, w'.votersFor E b h = w.votersFor E b h := by
  constructor
  · unfold World.voters
    rw [h, List.filterMap_append, List.append_right_eq_self, List.filterMap_eq_nil_iff]
    rintro ⟨n, e⟩ hx
    have := hl _ hx
    cases e <;> first | rfl | exact Bool.noConfusion this
  · intro h'
    unfold World.votersFor
    rw [h, List.filterMap_append, List.append_right_eq_self, List.filterMap_eq_nil_iff]
    rintro ⟨n, e⟩ hx
    have := hl _ hx
    cases e <;> first | rfl | exact Bool.noConfusion this

structure VotesInv (E : Env) (w : World) : Prop where
  count : ∀ b h, w.keyBroadcast.numVotes b h = (w.votersFor E b h).length
  once : ∀ b, (w.voters b).Nodup
  voted : ∀ b s, w.keyBroadcast.voted b s = true ↔ s ∈ w.voters b
  best : ∀ b, w.keyBroadcast.numVotes b (w.keyBroadcast.bestHash b) = w.keyBroadcast.bestVotes b
  max : ∀ b h, w.keyBroadcast.numVotes b h ≤ w.keyBroadcast.bestVotes b
  keys : ∀ b h, 0 < w.keyBroadcast.numVotes b h → E.keccak (w.keyBroadcast.keys h) = h
  stored : ∀ h, w.keyBroadcast.keys h ≠ [] → E.keccak (w.keyBroadcast.keys h) = h
  started : ∀ b, 0 < w.keyBroadcast.bestVotes b → ∃ h, 0 < w.keyBroadcast.numVotes b h

theorem votesInv {tame E w} (h : PReach tame E w) : VotesInv E w := by
  refine PReach.induct (I := VotesInv E) ?_ ?_ ?_ h
  · rintro w ⟨_, _, _, _, _, _, _, _, _, _, rfl⟩
    constructor <;> simp [World.deployed, World.votersFor, World.voters]
  · intro w b ih _ _
    exact ⟨ih.1, ih.2, ih.3, ih.4, ih.5, ih.6, ih.7, ih.8⟩
  · intro w w' hr ih p
    rcases prim_vote p with ⟨h1, l, h2, h3⟩ | ⟨s, b, key, i, bc, k, g1, g2, g3, g4, g5, g6, g7, g8, g9, g10, g11, g12, g13, g14⟩
    · have hv := fun b => voters_append h2 h3 E b
      refine ⟨?_, ?_, ?_, ?_, ?_, ?_, ?_, ?_⟩
      · intro b x; rw [h1, (hv b).2]; exact ih.count b x
      · intro b; rw [(hv b).1]; exact ih.once b
      · intro b x; rw [h1, (hv b).1]; exact ih.voted b x
      all_goals rw [h1]
      · exact ih.best
      · exact ih.max
      · exact ih.keys
      · exact ih.stored
      · exact ih.started
    · have hv1 : ∀ b', w'.voters b' = w.voters b' ++ (if b = b' then [s] else []) := by
        intro b'
        unfold World.voters
        rw [g14, List.filterMap_append]
        congr 1
        by_cases hb : b = b' <;> simp [hb]
      have hv2 : ∀ b' h, w'.votersFor E b' h = w.votersFor E b' h ++ (if b = b' ∧ E.keccak key = h then [s] else []) := by
        intro b' h
        unfold World.votersFor
        rw [g14, List.filterMap_append]
        congr 1
        by_cases hb : b = b' ∧ E.keccak key = h <;> simp [hb]
      have hn : ∀ b' h, w'.keyBroadcast.numVotes b' h = w.keyBroadcast.numVotes b' h +
          (if b = b' ∧ E.keccak key = h then 1 else 0) := by
        intro b' h
        rw [g10, upd_upd]
        split
        · next hq => obtain ⟨rfl, rfl⟩ := hq; rfl
        · rfl
      have hbv : ∀ b', w'.keyBroadcast.bestVotes b' = if b = b' then
          Nat.max (w.keyBroadcast.bestVotes b) (w.keyBroadcast.numVotes b (E.keccak key) + 1)
          else w.keyBroadcast.bestVotes b' := by
        intro b'
        rw [g13]
        by_cases hb : b' = b
        · subst hb
          simp only [if_true]
          by_cases hg : w.keyBroadcast.numVotes b' (E.keccak key) + 1 > w.keyBroadcast.bestVotes b'
          · rw [if_pos hg]; simp only [upd, if_true]; exact (Nat.max_eq_right (le_of_lt hg)).symm
          · rw [if_neg hg]; exact (Nat.max_eq_left (by omega)).symm
        · simp only [Ne.symm hb, if_false]
          split
          · simp [upd, hb]
          · rfl
      have hbh : ∀ b', w'.keyBroadcast.bestHash b' = if b = b' ∧
          w.keyBroadcast.numVotes b (E.keccak key) + 1 > w.keyBroadcast.bestVotes b then E.keccak key
          else w.keyBroadcast.bestHash b' := by
        intro b'
        rw [g12]
        by_cases hb : b' = b
        · subst hb
          by_cases hg : w.keyBroadcast.numVotes b' (E.keccak key) + 1 > w.keyBroadcast.bestVotes b'
          · simp [hg, upd]
          · simp [hg]
        · simp only [Ne.symm hb, false_and, if_false]
          split
          · simp [upd, hb]
          · rfl
      refine ⟨?_, ?_, ?_, ?_, ?_, ?_, ?_, ?_⟩
      · intro b' h
        rw [hn, hv2, ih.count]
        split <;> simp
      · intro b'
        rw [hv1]
        by_cases hb : b = b'
        · subst hb
          rw [if_pos rfl, List.nodup_append]
          refine ⟨ih.once b, by simp, ?_⟩
          intro x hx y hy
          simp at hy; subst hy
          rintro rfl
          rw [← ih.voted b x, g6] at hx
          simp at hx
        · simp [hb, ih.once b']
      · intro b' x
        rw [g9, hv1, List.mem_append, ← ih.voted b' x, upd_upd]
        by_cases hb : b = b'
        · subst hb
          by_cases hx : s = x
          · subst hx; simp
          · simp [hx, Ne.symm hx]
        · simp [hb]
      · intro b'
        rw [hn, hbv, hbh]
        have h1 := ih.best b'
        by_cases hb : b = b'
        · subst hb
          simp only [if_true, true_and]
          by_cases hg : w.keyBroadcast.numVotes b (E.keccak key) + 1 > w.keyBroadcast.bestVotes b
          · rw [if_pos hg, if_pos rfl]; exact (Nat.max_eq_right (le_of_lt hg)).symm
          · rw [if_neg hg]
            have hne : E.keccak key ≠ w.keyBroadcast.bestHash b := by
              intro he
              rw [← he] at h1
              omega
            rw [if_neg hne, h1, Nat.add_zero]
            exact (Nat.max_eq_left (by omega)).symm
        · simp only [hb, false_and, if_false, Nat.add_zero]; exact h1
      · intro b' h
        rw [hn, hbv]
        have h1 := ih.max b' h
        by_cases hb : b = b'
        · subst hb
          simp only [if_true, true_and]
          by_cases hh : E.keccak key = h
          · subst hh; rw [if_pos rfl]; exact Nat.le_max_right _ _
          · rw [if_neg hh]; exact le_trans h1 (Nat.le_max_left _ _)
        · simp only [hb, false_and, if_false, Nat.add_zero]; exact h1
      · intro b' h hp
        by_cases hh : h = E.keccak key
        · subst hh
          rw [g11]
          split
          · simp [upd]
          · next hl => exact ih.stored _ (by intro h0; rw [h0] at hl; exact hl rfl)
        · have hp' : 0 < w.keyBroadcast.numVotes b' h := by
            rw [hn, if_neg (fun hq => hh hq.2.symm)] at hp
            simpa using hp
          rw [g11]
          split
          · simp only [upd, hh, if_false]; exact ih.keys b' h hp'
          · exact ih.keys b' h hp'
      · intro h hne
        rw [g11] at hne ⊢
        split at hne
        · next hl =>
          rw [if_pos hl]
          by_cases hh : h = E.keccak key
          · subst hh; simp [upd]
          · simp only [upd, hh, if_false] at hne ⊢; exact ih.stored h hne
        · next hl => rw [if_neg hl]; exact ih.stored h hne
      · intro b' hp
        by_cases hb : b = b'
        · subst hb
          exact ⟨E.keccak key, by rw [hn]; simp⟩
        · rw [hbv, if_neg hb] at hp
          obtain ⟨h, hh⟩ := ih.started b' hp
          exact ⟨h, by rw [hn]; omega⟩

theorem voted_prim {tame E} {w w' : World} (p : Prim tame E w w') {b s} (h : w.keyBroadcast.voted b s = true) :
    w'.keyBroadcast.voted b s = true := by
  rcases prim_vote p with ⟨h1, _⟩ | ⟨s', b', key, i, bc, k, g1, g2, g3, g4, g5, g6, g7, g8, g9, g10, g11, g12, g13, g14⟩
  · rw [h1]; exact h
  · rw [g9, upd_upd]
    split
    · rfl
    · exact h

end Shutter.Sol
