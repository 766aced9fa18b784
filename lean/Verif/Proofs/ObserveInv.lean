import Verif.Proofs.ObserveFetch

/-! What the observed state contains after applying events and filters. -/

namespace Shutter.Observe
open Shutter.App
open Shutter.Events (Codecs AbciEvent makeEvent)

/-- The stored list of a kind. -/
def Eon.list (x : Eon) : Kind → List Stamped
  | .commitment => x.commitments
  | .polyEval => x.polyEvals
  | .accusation => x.accusations
  | .apology => x.apologies
  | .share => x.epochSecretKeyShares

theorem Eon.query_eq (x : Eon) (k : Kind) (h : Int) : x.query k h = getFrom (x.list k) h := by
  cases k <;> rfl

def atLeast (h : Int) (x : Stamped) : Bool := decide (x.height ≥ h)

structure Inv (evs : List Stamped) (thr : Kind → Int) (b0 : Nat) (s : Shutter) : Prop where
  sorted : Sorted evs
  inc : EonsInc s.eons
  started : ∀ e b h, (∃ x ∈ s.eons, x.eon = e ∧ x.startBatchIndex = b ∧ x.startHeight = h) ↔ Started evs e b h
  lsub : ∀ x ∈ s.eons, ∀ k, (x.list k).Sublist (messages k x.eon evs)
  lists : ∀ x ∈ s.eons, ∀ k, ∀ h ≥ thr k, (x.list k).filter (atLeast h) = (messages k x.eon evs).filter (atLeast h)
  sigs : ∀ b ≥ b0, getBatchData s b = signaturesFor b evs
  configs : s.batchConfigs = configEvents evs
  keys : ∀ a, s.keyperEncryptionKeys a = lastCheckIn a evs

theorem messages_sublist (k : Kind) (e : Nat) (evs : List Stamped) : (messages k e evs).Sublist evs :=
  (List.filter_sublist).trans (List.dropWhile_sublist _)

theorem Inv.listSorted {evs thr b0 s} (h : Inv evs thr b0 s) {x : Eon} (hx : x ∈ s.eons) (k : Kind) : Sorted (x.list k) :=
  h.sorted.sublist ((h.lsub x hx k).trans (messages_sublist _ _ _))

theorem Inv.sees {evs thr b0 s} (h : Inv evs thr b0 s) : Sees evs thr b0 s where
  eons := by
    intro e b ht
    rw [← h.started]
    constructor
    · rintro ⟨x, hx, hb, hh⟩
      obtain ⟨hx, he⟩ := (findEon_eq_some h.inc).1 hx
      exact ⟨x, hx, he, hb, hh⟩
    · rintro ⟨x, hx, he, hb, hh⟩
      exact ⟨x, (findEon_eq_some h.inc).2 ⟨hx, he⟩, hb, hh⟩
  msgs := by
    intro e x hx k ht hthr
    obtain ⟨hx', rfl⟩ := (findEon_eq_some h.inc).1 hx
    rw [x.query_eq, getFrom_eq_filter (h.listSorted hx' k)]
    exact h.lists x hx' k ht hthr
  sigs := h.sigs
  configs := h.configs
  keys := h.keys

theorem inv_new (thr : Kind → Int) (b0 : Nat) : Inv [] thr b0 newShutter where
  sorted := List.Pairwise.nil
  inc := List.Pairwise.nil
  started := by
    intro e b h
    constructor
    · rintro ⟨x, hx, _⟩
      exact absurd hx (by simp [newShutter])
    · rintro ⟨pre, post, he, _⟩
      exact absurd he (by simp)
  lsub := by intro x hx; exact absurd hx (by simp [newShutter])
  lists := by intro x hx; exact absurd hx (by simp [newShutter])
  sigs := by intro b _; rfl
  configs := rfl
  keys := by intro a; rfl

theorem Inv.weaken {evs thr b0 s} (h : Inv evs thr b0 s) {thr' : Kind → Int} {b0' : Nat} (h1 : ∀ k, thr k ≤ thr' k) (h2 : b0 ≤ b0') :
    Inv evs thr' b0' s where
  sorted := h.sorted
  inc := h.inc
  started := h.started
  lsub := h.lsub
  lists := fun x hx k ht hthr => h.lists x hx k ht (le_trans (h1 k) hthr)
  sigs := fun b hb => h.sigs b (le_trans h2 hb)
  configs := h.configs
  keys := h.keys

/-! ## How the specification grows with a new event -/

theorem dropWhile_append_of_exists {α : Type} (p : α → Bool) (l r : List α) (h : ∃ y ∈ l, p y = false) :
    (l ++ r).dropWhile p = l.dropWhile p ++ r := by
  induction l with
  | nil =>
    obtain ⟨y, hy, _⟩ := h
    exact absurd hy (by simp)
  | cons a l ih =>
    rw [List.cons_append, List.dropWhile_cons, List.dropWhile_cons]
    by_cases ha : p a = true
    · rw [if_pos ha, if_pos ha]
      apply ih
      obtain ⟨y, hy, hb⟩ := h
      rcases List.mem_cons.1 hy with rfl | hy
      · rw [ha] at hb; cases hb
      · exact ⟨y, hy, hb⟩
    · rw [if_neg ha, if_neg ha]
      rfl

theorem sinceStart_snoc_of_mem {e : Nat} {evs : List Stamped} (x : Stamped) (h : ∃ y ∈ evs, ∃ b, y.ev = .eonStarted e b) :
    sinceStart e (evs ++ [x]) = sinceStart e evs ++ [x] := by
  obtain ⟨y, hy, b, hb⟩ := h
  exact dropWhile_append_of_exists _ _ _ ⟨y, hy, by simp [hb]⟩

theorem messages_snoc_of_mem {e : Nat} {evs : List Stamped} (x : Stamped) (k : Kind) (h : ∃ y ∈ evs, ∃ b, y.ev = .eonStarted e b) :
    messages k e (evs ++ [x]) = if eonMessage x.ev = some (k, e) then messages k e evs ++ [x] else messages k e evs := by
  unfold messages
  rw [sinceStart_snoc_of_mem x h, List.filter_append]
  by_cases hx : eonMessage x.ev = some (k, e) <;> simp [hx]

theorem messages_snoc_start {e : Nat} {evs : List Stamped} {x : Stamped} {b : Nat} (k : Kind) (hx : x.ev = .eonStarted e b)
    (h : ∀ y ∈ evs, ∀ b, y.ev ≠ .eonStarted e b) : messages k e (evs ++ [x]) = [] := by
  unfold messages sinceStart
  rw [List.dropWhile_append_of_pos]
  · rw [List.dropWhile_cons, if_neg (by simp [hx])]
    rw [List.filter_cons, List.filter_nil, if_neg (by simp [hx, eonMessage])]
  · intro y hy
    split
    · rename_i e' b' he
      rw [decide_eq_true_eq]
      rintro rfl
      exact h y hy _ he
    · rfl

theorem started_mem {evs : List Stamped} {e b : Nat} {h : Int} (hs : Started evs e b h) : ∃ y ∈ evs, ∃ b, y.ev = .eonStarted e b := by
  obtain ⟨pre, post, rfl, _⟩ := hs
  exact ⟨⟨h, .eonStarted e b⟩, by simp, b, rfl⟩

/-- Among the announced starts the first with the highest number has started. -/
theorem started_of_announced : ∀ {evs : List Stamped} {y : Stamped} {e b : Nat}, y ∈ evs → y.ev = .eonStarted e b →
    ∃ e' b' h', e ≤ e' ∧ Started evs e' b' h' := by
  intro evs
  induction evs using List.reverseRecOn with
  | nil => intro y e b hy; exact absurd hy (by simp)
  | append_singleton evs x ih =>
    intro y e b hy hye
    have lift : ∀ {e' b' h'}, Started evs e' b' h' → Started (evs ++ [x]) e' b' h' := by
      rintro e' b' h' ⟨pre, post, rfl, hp⟩
      exact ⟨pre, post ++ [x], by simp, hp⟩
    rcases List.mem_append.1 hy with hy | hy
    · obtain ⟨e', b', h', hle, hs⟩ := ih hy hye
      exact ⟨e', b', h', hle, lift hs⟩
    · rw [List.mem_singleton] at hy
      subst hy
      by_cases hex : ∃ z ∈ evs, ∃ e' b', z.ev = .eonStarted e' b' ∧ e ≤ e'
      · obtain ⟨z, hz, e', b', hze, hle⟩ := hex
        obtain ⟨e2, b2, h2, hle2, hs⟩ := ih hz hze
        exact ⟨e2, b2, h2, le_trans hle hle2, lift hs⟩
      · refine ⟨e, b, y.height, le_refl _, evs, [], ?_, ?_⟩
        · rw [← hye]
        · intro z hz e' b' hze
          by_contra hlt
          exact hex ⟨z, hz, e', b', hze, by omega⟩

/-- An eon starts with a new event, or it had started before. -/
theorem started_snoc {evs : List Stamped} {x : Stamped} {e b : Nat} {h : Int} :
    Started (evs ++ [x]) e b h ↔
      Started evs e b h ∨ (x = ⟨h, .eonStarted e b⟩ ∧ ∀ y ∈ evs, ∀ e' b', y.ev = .eonStarted e' b' → e' < e) := by
  constructor
  · rintro ⟨pre, post, he, hp⟩
    rcases List.eq_nil_or_concat post with rfl | ⟨post', z, rfl⟩
    · have h1 := List.append_inj_right' he (by simp)
      have h2 := List.append_inj_left' he (by simp)
      simp only [List.cons.injEq, and_true] at h1
      subst h2
      exact Or.inr ⟨h1, hp⟩
    · left
      rw [List.concat_eq_append, ← List.cons_append, ← List.append_assoc] at he
      exact ⟨pre, post', List.append_inj_left' he (by simp), hp⟩
  · rintro (⟨pre, post, rfl, hp⟩ | ⟨rfl, hp⟩)
    · exact ⟨pre, post ++ [x], by simp, hp⟩
    · exact ⟨evs, [], rfl, hp⟩

theorem started_snoc_other {evs : List Stamped} {x : Stamped} {e b : Nat} {h : Int} (hx : ∀ e b, x.ev ≠ .eonStarted e b) :
    Started (evs ++ [x]) e b h ↔ Started evs e b h := by
  rw [started_snoc]
  constructor
  · rintro (h | ⟨rfl, _⟩)
    · exact h
    · exact absurd rfl (hx e b)
  · exact Or.inl

/-! ## Applying an event -/

theorem sorted_snoc {evs : List Stamped} {x : Stamped} (hs : Sorted evs) (hx : ∀ y ∈ evs, y.height ≤ x.height) : Sorted (evs ++ [x]) := by
  unfold Sorted
  rw [List.pairwise_append]
  exact ⟨hs, List.pairwise_singleton _ _, fun a ha b hb => by rw [List.mem_singleton] at hb; subst hb; exact hx a ha⟩

/-- The state with `x` added to the lists of the eon it is for. -/
theorem inv_message {evs thr b0 s} (h : Inv evs thr b0 s) {x : Stamped} (hx : ∀ y ∈ evs, y.height ≤ x.height) {k : Kind} {e : Nat}
    (hk : eonMessage x.ev = some (k, e)) (f : Eon → Eon)
    (hf : ∀ y k', (f y).list k' = if k' = k then y.list k' ++ [x] else y.list k')
    (hf1 : ∀ y, (f y).eon = y.eon ∧ (f y).startBatchIndex = y.startBatchIndex ∧ (f y).startHeight = y.startHeight) :
    Inv (evs ++ [x]) thr b0 (updateEon s e f) := by
  have hne : ∀ e b, x.ev ≠ .eonStarted e b := by
    intro e' b' he
    rw [he] at hk
    simp [eonMessage] at hk
  have he : (updateEon s e f).eons = s.eons.map (fun y => if y.eon = e then f y else y) := updateEon_eons h.inc e f
  have hrest : (updateEon s e f).batches = s.batches ∧ (updateEon s e f).batchConfigs = s.batchConfigs ∧
      (updateEon s e f).keyperEncryptionKeys = s.keyperEncryptionKeys := by
    unfold updateEon
    split <;> exact ⟨rfl, rfl, rfl⟩
  have heon : ∀ y : Eon, (if y.eon = e then f y else y).eon = y.eon := by
    intro y
    split
    · exact (hf1 y).1
    · rfl
  have hmem : ∀ y ∈ s.eons, ∃ z ∈ evs, ∃ b, z.ev = .eonStarted y.eon b := fun y hy =>
    started_mem ((h.started _ _ _).1 ⟨y, hy, rfl, rfl, rfl⟩)
  have hlist : ∀ y : Eon, ∀ k', (if y.eon = e then f y else y).list k' =
      if eonMessage x.ev = some (k', y.eon) then y.list k' ++ [x] else y.list k' := by
    intro y k'
    rw [hk]
    by_cases h1 : y.eon = e
    · rw [if_pos h1, hf]
      by_cases h2 : k' = k
      · simp [h1, h2]
      · have : ¬ k = k' := fun h => h2 h.symm
        simp [h2, this]
    · have : ¬ e = y.eon := fun h => h1 h.symm
      simp [h1, this]
  refine ⟨sorted_snoc h.sorted hx, ?_, ?_, ?_, ?_, ?_, ?_, ?_⟩
  · rw [he]
    unfold EonsInc
    rw [List.pairwise_map]
    refine h.inc.imp ?_
    intro a b hab
    rw [heon, heon]
    exact hab
  · intro e' b' h'
    rw [started_snoc_other hne, ← h.started, he]
    simp only [List.mem_map]
    have hsame : ∀ y : Eon, (if y.eon = e then f y else y).startBatchIndex = y.startBatchIndex ∧
        (if y.eon = e then f y else y).startHeight = y.startHeight := by
      intro y
      split
      · exact (hf1 y).2
      · exact ⟨rfl, rfl⟩
    constructor
    · rintro ⟨_, ⟨y, hy, rfl⟩, h1, h2, h3⟩
      rw [heon] at h1
      rw [(hsame y).1] at h2
      rw [(hsame y).2] at h3
      exact ⟨y, hy, h1, h2, h3⟩
    · rintro ⟨y, hy, h1, h2, h3⟩
      refine ⟨_, ⟨y, hy, rfl⟩, ?_, ?_, ?_⟩
      · rw [heon]; exact h1
      · rw [(hsame y).1]; exact h2
      · rw [(hsame y).2]; exact h3
  · intro y hy k'
    rw [he, List.mem_map] at hy
    obtain ⟨y, hy, rfl⟩ := hy
    rw [hlist, heon, messages_snoc_of_mem x k' (hmem y hy)]
    have := h.lsub y hy k'
    split
    · exact this.append (List.Sublist.refl _)
    · exact this
  · intro y hy k' t ht
    rw [he, List.mem_map] at hy
    obtain ⟨y, hy, rfl⟩ := hy
    rw [hlist, heon, messages_snoc_of_mem x k' (hmem y hy)]
    have := h.lists y hy k' t ht
    split
    · rw [List.filter_append, List.filter_append, this]
    · exact this
  · intro b hb
    unfold getBatchData signaturesFor
    rw [hrest.1, List.filter_append]
    have := h.sigs b hb
    unfold getBatchData signaturesFor at this
    rw [this]
    cases hxe : x.ev <;> simp_all [eonMessage]
  · unfold configEvents
    rw [hrest.2.1, List.filter_append, h.configs]
    unfold configEvents
    cases hxe : x.ev <;> simp_all [eonMessage]
  · intro a
    unfold lastCheckIn
    rw [hrest.2.2, List.filterMap_append, h.keys]
    unfold lastCheckIn
    cases hxe : x.ev <;> simp_all [eonMessage]

theorem inv_applyEvent {evs thr b0 s} (h : Inv evs thr b0 s) {x : Stamped} (hx : ∀ y ∈ evs, y.height ≤ x.height) :
    Inv (evs ++ [x]) thr b0 (applyEvent s x) := by
  have hmem : ∀ y ∈ s.eons, ∃ z ∈ evs, ∃ b, z.ev = .eonStarted y.eon b := fun y hy =>
    started_mem ((h.started _ _ _).1 ⟨y, hy, rfl, rfl, rfl⟩)
  -- messages that do not concern eons
  have other : (∀ e b, x.ev ≠ .eonStarted e b) → eonMessage x.ev = none → ∀ s' : Shutter, s'.eons = s.eons →
      (∀ b ≥ b0, getBatchData s' b = signaturesFor b (evs ++ [x])) → s'.batchConfigs = configEvents (evs ++ [x]) →
      (∀ a, s'.keyperEncryptionKeys a = lastCheckIn a (evs ++ [x])) → Inv (evs ++ [x]) thr b0 s' := by
    intro h1 h2 s' he hs hc hk
    refine ⟨sorted_snoc h.sorted hx, by rw [he]; exact h.inc, ?_, ?_, ?_, hs, hc, hk⟩
    · intro e b t
      rw [started_snoc_other h1, ← h.started, he]
    · intro y hy k
      rw [he] at hy
      rw [messages_snoc_of_mem x k (hmem y hy), if_neg (by rw [h2]; simp)]
      exact h.lsub y hy k
    · intro y hy k
      rw [he] at hy
      rw [messages_snoc_of_mem x k (hmem y hy), if_neg (by rw [h2]; simp)]
      exact h.lists y hy k
  have sigs0 : (∀ b u v, x.ev ≠ .decryptionSignature b u v) → ∀ b, signaturesFor b (evs ++ [x]) = signaturesFor b evs := by
    intro hne b
    unfold signaturesFor
    rw [List.filter_append]
    cases hxe : x.ev <;> simp_all
  have cfg0 : (∀ a b c d, x.ev ≠ .batchConfig a b c d) → configEvents (evs ++ [x]) = configEvents evs := by
    intro hne
    unfold configEvents
    rw [List.filter_append]
    cases hxe : x.ev <;> first | exact absurd hxe (hne _ _ _ _) | simp [hxe]
  have key0 : (∀ a b, x.ev ≠ .checkIn a b) → ∀ a, lastCheckIn a (evs ++ [x]) = lastCheckIn a evs := by
    intro hne a
    unfold lastCheckIn
    rw [List.filterMap_append]
    cases hxe : x.ev <;> simp_all
  unfold applyEvent
  cases hxe : x.ev with
  | checkIn sender key =>
    simp only
    refine other (by simp [hxe]) (by simp [hxe, eonMessage]) _ rfl ?_ ?_ ?_
    · intro b hb
      rw [sigs0 (by simp [hxe])]
      exact h.sigs b hb
    · rw [cfg0 (by simp [hxe])]
      exact h.configs
    · intro a
      simp only
      unfold lastCheckIn
      rw [List.filterMap_append]
      by_cases ha : sender = a
      · simp [hxe, ha]
      · have : ¬ a = sender := fun h => ha h.symm
        have hk := h.keys a
        unfold lastCheckIn at hk
        simp [hxe, ha, this, hk]
  | batchConfig a b c d =>
    simp only
    refine other (by simp [hxe]) (by simp [hxe, eonMessage]) _ rfl ?_ ?_ ?_
    · intro b hb
      rw [sigs0 (by simp [hxe])]
      exact h.sigs b hb
    · simp only
      rw [h.configs]
      unfold configEvents
      rw [List.filter_append]
      simp [hxe]
    · intro a
      rw [key0 (by simp [hxe])]
      exact h.keys a
  | decryptionSignature b u v =>
    simp only
    refine other (by simp [hxe]) (by simp [hxe, eonMessage]) _ rfl ?_ ?_ ?_
    · intro b' hb'
      have := h.sigs b' hb'
      unfold signaturesFor
      rw [List.filter_append]
      unfold signaturesFor at this
      unfold getBatchData at this ⊢
      by_cases hbb : b' = b
      · subst hbb
        simp [hxe, this]
      · have hne : ¬ b = b' := fun h => hbb h.symm
        simp [hxe, hne, hbb, this]
    · rw [cfg0 (by simp [hxe])]
      exact h.configs
    · intro a
      rw [key0 (by simp [hxe])]
      exact h.keys a
  | eonStarted e b =>
    simp only
    obtain ⟨s1, s2, s3⟩ := searchEon_spec h.inc e
    have hsig : ∀ b ≥ b0, getBatchData s b = signaturesFor b (evs ++ [x]) := by
      intro b hb
      rw [sigs0 (by simp [hxe])]
      exact h.sigs b hb
    have hcfg : s.batchConfigs = configEvents (evs ++ [x]) := by
      rw [cfg0 (by simp [hxe])]
      exact h.configs
    have hkey : ∀ a, s.keyperEncryptionKeys a = lastCheckIn a (evs ++ [x]) := by
      intro a
      rw [key0 (by simp [hxe])]
      exact h.keys a
    have hmsg : ∀ k, eonMessage x.ev ≠ some k := by simp [hxe, eonMessage]
    split
    · rename_i hlt
      -- rejected: an eon with this number or a higher one is known
      have hge := s3 _ (le_refl _) _ (List.getElem?_eq_getElem hlt)
      have hnot : ¬ ∀ y ∈ evs, ∀ e' b', y.ev = .eonStarted e' b' → e' < e := by
        intro hall
        obtain ⟨z, hz, b', hb'⟩ := hmem _ (List.getElem_mem hlt)
        have := hall z hz _ _ hb'
        omega
      refine ⟨sorted_snoc h.sorted hx, h.inc, ?_, ?_, ?_, hsig, hcfg, hkey⟩
      · intro e' b' t
        rw [started_snoc, h.started]
        constructor
        · exact Or.inl
        · rintro (h1 | ⟨rfl, h1⟩)
          · exact h1
          · simp only [Event.eonStarted.injEq] at hxe
            rw [← hxe.1] at hnot
            exact absurd h1 hnot
      · intro y hy k
        rw [messages_snoc_of_mem x k (hmem y hy), if_neg (hmsg _)]
        exact h.lsub y hy k
      · intro y hy k
        rw [messages_snoc_of_mem x k (hmem y hy), if_neg (hmsg _)]
        exact h.lists y hy k
    · rename_i hlt
      have hend : searchEon s e = s.eons.length := by omega
      have hlt' : ∀ y ∈ s.eons, y.eon < e := by
        intro y hy
        obtain ⟨i, hi⟩ := List.mem_iff_getElem?.1 hy
        exact s2 i (by rw [List.getElem?_eq_some_iff] at hi; rw [hend]; exact hi.1) y hi
      have hall : ∀ y ∈ evs, ∀ e' b', y.ev = .eonStarted e' b' → e' < e := by
        intro y hy e' b' hye
        obtain ⟨e2, b2, h2, hle, hst⟩ := started_of_announced hy hye
        obtain ⟨z, hz, rfl, _⟩ := (h.started _ _ _).2 hst
        have := hlt' z hz
        omega
      have hfresh : ∀ y ∈ evs, ∀ b', y.ev ≠ .eonStarted e b' := fun y hy b' hye => absurd (hall y hy _ _ hye) (by omega)
      have hnil : ∀ k, (⟨e, x.height, b, [], [], [], [], []⟩ : Eon).list k = [] := by intro k; cases k <;> rfl
      refine ⟨sorted_snoc h.sorted hx, ?_, ?_, ?_, ?_, hsig, hcfg, hkey⟩
      · unfold EonsInc
        rw [List.pairwise_append]
        refine ⟨h.inc, List.pairwise_singleton _ _, ?_⟩
        intro y hy z hz
        rw [List.mem_singleton] at hz
        subst hz
        exact hlt' y hy
      · intro e' b' t
        rw [started_snoc, ← h.started]
        simp only [List.mem_append, List.mem_singleton]
        constructor
        · rintro ⟨y, hy | rfl, h1, h2, h3⟩
          · exact Or.inl ⟨y, hy, h1, h2, h3⟩
          · right
            simp only at h1 h2 h3
            subst h1 h2 h3
            refine ⟨?_, hall⟩
            rw [← hxe]
        · rintro (⟨y, hy, h1⟩ | ⟨rfl, _⟩)
          · exact ⟨y, Or.inl hy, h1⟩
          · simp only [Event.eonStarted.injEq] at hxe
            exact ⟨_, Or.inr rfl, hxe.1.symm, hxe.2.symm, rfl⟩
      · intro y hy k
        rcases List.mem_append.1 hy with hy | hy
        · rw [messages_snoc_of_mem x k (hmem y hy), if_neg (hmsg _)]
          exact h.lsub y hy k
        · rw [List.mem_singleton] at hy
          subst hy
          rw [hnil]
          exact List.nil_sublist _
      · intro y hy k t ht
        rcases List.mem_append.1 hy with hy | hy
        · rw [messages_snoc_of_mem x k (hmem y hy), if_neg (hmsg _)]
          exact h.lists y hy k t ht
        · rw [List.mem_singleton] at hy
          subst hy
          rw [hnil]
          simp only
          rw [messages_snoc_start k hxe hfresh]
  | polyCommitment a e g =>
    simp only
    exact inv_message h hx (k := .commitment) (by simp [hxe, eonMessage]) _ (by intro y k'; cases k' <;> simp [Eon.list])
      (by intro y; exact ⟨rfl, rfl, rfl⟩)
  | polyEval a e g _ =>
    simp only
    exact inv_message h hx (k := .polyEval) (by simp [hxe, eonMessage]) _ (by intro y k'; cases k' <;> simp [Eon.list])
      (by intro y; exact ⟨rfl, rfl, rfl⟩)
  | accusation a e g =>
    simp only
    exact inv_message h hx (k := .accusation) (by simp [hxe, eonMessage]) _ (by intro y k'; cases k' <;> simp [Eon.list])
      (by intro y; exact ⟨rfl, rfl, rfl⟩)
  | apology a e g _ =>
    simp only
    exact inv_message h hx (k := .apology) (by simp [hxe, eonMessage]) _ (by intro y k'; cases k' <;> simp [Eon.list])
      (by intro y; exact ⟨rfl, rfl, rfl⟩)
  | epochSecretKeyShare a e g _ =>
    simp only
    exact inv_message h hx (k := .share) (by simp [hxe, eonMessage]) _ (by intro y k'; cases k' <;> simp [Eon.list])
      (by intro y; exact ⟨rfl, rfl, rfl⟩)

theorem inv_applyAll {thr b0} : ∀ {new evs s}, Inv evs thr b0 s → Sorted (evs ++ new) → Inv (evs ++ new) thr b0 (applyAll s new) := by
  intro new
  induction new with
  | nil => intro evs s h _; simpa [applyAll] using h
  | cons x new ih =>
    intro evs s h hs
    have h1 : evs ++ x :: new = (evs ++ [x]) ++ new := by simp
    rw [h1] at hs ⊢
    have hs' := (List.pairwise_append.1 hs).1
    exact ih (inv_applyEvent h (fun y hy => (List.pairwise_append.1 hs').2.2 y hy x (by simp))) hs

/-! ## Filtering -/

/-- The heights from which on messages are guaranteed after a filter was applied at height `cur`. -/
def raise (thr : Kind → Int) (f : Filter) (cur : Int) : Kind → Int
  | .share => max (thr .share) (cur + 1)
  | k => max (thr k) f.syncHeight

theorem inv_applyFilter {evs thr b0 s} (h : Inv evs thr b0 s) (hcur : ∀ y ∈ evs, y.height ≤ s.currentBlock) (f : Filter) :
    Inv evs (raise thr f s.currentBlock) (max b0 f.batchIndex) (applyFilter s f) := by
  have hr : ∀ k, thr k ≤ raise thr f s.currentBlock k := by
    intro k
    cases k <;> exact le_max_left _ _
  unfold applyFilter
  split
  · exact h.weaken hr (le_max_left _ _)
  · have he : (filterBatchIndex (filterSyncHeight { s with filter := f })).eons = s.eons.map (fun e => e.applyFilter f.syncHeight) := rfl
    have hl : ∀ y ∈ s.eons, ∀ k, k ≠ .share → (y.applyFilter f.syncHeight).list k = (y.list k).filter (atLeast f.syncHeight) := by
      intro y hy k hk
      have := getFrom_eq_filter (h.listSorted hy k) f.syncHeight
      cases k <;> first | exact absurd rfl hk | exact this
    have hl' : ∀ y : Eon, (y.applyFilter f.syncHeight).list .share = [] := fun y => rfl
    refine ⟨h.sorted, ?_, ?_, ?_, ?_, ?_, h.configs, h.keys⟩
    · rw [he]
      unfold EonsInc
      rw [List.pairwise_map]
      exact h.inc
    · intro e b t
      rw [he, ← h.started]
      simp only [List.mem_map]
      constructor
      · rintro ⟨_, ⟨y, hy, rfl⟩, h1⟩
        exact ⟨y, hy, h1⟩
      · rintro ⟨y, hy, h1⟩
        exact ⟨_, ⟨y, hy, rfl⟩, h1⟩
    · intro y hy k
      rw [he, List.mem_map] at hy
      obtain ⟨y, hy, rfl⟩ := hy
      by_cases hk : k = .share
      · subst hk
        rw [hl']
        exact List.nil_sublist _
      · rw [hl y hy k hk]
        exact List.filter_sublist.trans (h.lsub y hy k)
    · intro y hy k t ht
      rw [he, List.mem_map] at hy
      obtain ⟨y, hy, rfl⟩ := hy
      have hthr := h.lists y hy k t (le_trans (hr k) ht)
      change _ = List.filter (atLeast t) (messages k y.eon evs)
      by_cases hk : k = .share
      · subst hk
        rw [hl']
        symm
        rw [List.filter_nil, List.filter_eq_nil_iff]
        intro z hz
        have h1 := hcur z ((messages_sublist _ _ _).subset hz)
        have h2 : s.currentBlock + 1 ≤ t := le_trans (le_max_right _ _) ht
        simp only [atLeast, decide_eq_true_eq]
        omega
      · rw [hl y hy k hk, List.filter_filter, ← hthr]
        have h2 : f.syncHeight ≤ t := by
          cases k <;> first | exact absurd rfl hk | exact le_trans (le_max_right _ _) ht
        apply List.filter_congr
        intro z _
        simp only [atLeast]
        by_cases hz : z.height ≥ t
        · simp [hz, le_trans h2 hz]
        · simp [hz]
    · intro b hb
      have : getBatchData (filterBatchIndex (filterSyncHeight { s with filter := f })) b = getBatchData s b := by
        unfold getBatchData filterBatchIndex filterSyncHeight
        simp only
        rw [if_pos (le_trans (le_max_right _ _) hb)]
      rw [this]
      exact h.sigs b (le_trans (le_max_left _ _) hb)

end Shutter.Observe
