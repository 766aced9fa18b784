import Verif.Spec.Fund
import Mathlib.Tactic.Linarith

/-! # C93: money for the keypers -/

namespace Shutter.Fund
open Shutter.Sol (Address upd)

section
variable {plain : Address → Bool} {owner : Address} {keypers : List Address}

theorem fundTxs_mem {gp : Nat} : ∀ {n : Nat} {l : List (Address × Nat)} {t : Tx}, t ∈ fundTxs owner gp n l →
    n ≤ t.nonce ∧ t.src = owner ∧ t.gasPrice = gp ∧ ∃ b, (t.dst, b) ∈ l ∧ t.amount = lacking b ∧ lacking b ≠ 0
  | _, [], _, h => by cases h
  | n, (k, b) :: rest, t, h => by
    rw [fundTxs] at h
    split at h
    · obtain ⟨h1, h2, h3, b', h4, h5⟩ := fundTxs_mem h
      exact ⟨h1, h2, h3, b', List.mem_cons_of_mem _ h4, h5⟩
    · next hl =>
      rcases List.mem_cons.1 h with rfl | h
      · exact ⟨le_rfl, rfl, rfl, b, List.mem_cons_self, rfl, hl⟩
      · obtain ⟨h1, h2, h3, b', h4, h5⟩ := fundTxs_mem h
        exact ⟨by omega, h2, h3, b', List.mem_cons_of_mem _ h4, h5⟩

theorem fundTxs_nonce {gp : Nat} : ∀ {n : Nat} {l : List (Address × Nat)} {t t' : Tx}, t ∈ fundTxs owner gp n l →
    t' ∈ fundTxs owner gp n l → t.nonce = t'.nonce → t = t'
  | _, [], _, _, h, _, _ => by cases h
  | n, (k, b) :: rest, t, t', h, h', he => by
    rw [fundTxs] at h h'
    split at h
    · next hl => rw [if_pos hl] at h'; exact fundTxs_nonce h h' he
    · next hl =>
      rw [if_neg hl] at h'
      rcases List.mem_cons.1 h with rfl | h <;> rcases List.mem_cons.1 h' with rfl | h'
      · rfl
      · have := (fundTxs_mem h').1; simp only at he; omega
      · have := (fundTxs_mem h).1; simp only at he; omega
      · exact fundTxs_nonce h h' he

theorem fundTxs_complete {gp : Nat} : ∀ {n : Nat} {l : List (Address × Nat)} {k b : Nat}, (k, b) ∈ l → lacking b ≠ 0 →
    ∃ t ∈ fundTxs owner gp n l, t.dst = k ∧ t.amount = lacking b
  | _, [], _, _, h, _ => by cases h
  | n, (k', b') :: rest, k, b, h, hl => by
    rw [fundTxs]
    rcases List.mem_cons.1 h with h | h
    · cases h
      rw [if_neg hl]
      exact ⟨_, List.mem_cons_self, rfl, rfl⟩
    · split
      · exact fundTxs_complete h hl
      · obtain ⟨t, h1, h2⟩ := fundTxs_complete (n := n + 1) h hl
        exact ⟨t, List.mem_cons_of_mem _ h1, h2⟩

theorem lacking_ne {b : Nat} (h : lacking b ≠ 0) : b < lowAmount ∧ b + lacking b = highAmount := by
  unfold lacking at *
  split at h
  · next h' =>
    rw [if_pos h']
    have : lowAmount ≤ highAmount := by decide
    omega
  · exact absurd rfl h

theorem lacking_eq {b : Nat} (h : lacking b = 0) : lowAmount ≤ b := by
  unfold lacking at h
  split at h
  · next h' =>
    have : lowAmount ≤ highAmount := by decide
    omega
  · omega

/-! ## At least -/

structure FundInv (owner : Address) (keypers : List Address) (s : Funding) : Prop where
  answers : ∀ p ∈ keypers.zip s.answers, p.2 ≤ s.net.balance p.1
  length : s.answers.length ≤ keypers.length
  signed : ∀ txs, s.txs = some txs → s.answers.length = keypers.length ∧
    ∃ gp n, txs = fundTxs owner gp n (keypers.zip s.answers) ∧ ∀ t ∈ txs, s.receipts t.nonce = some true → highAmount ≤ s.net.balance t.dst

theorem zip_append_single {k : Address} {b : Nat} : ∀ {ks : List Address} {as : List Nat} {p : Address × Nat}, ks[as.length]? = some k →
    p ∈ ks.zip (as ++ [b]) → p ∈ ks.zip as ∨ p = (k, b)
  | [], _, _, h, _ => by simp at h
  | k' :: ks, [], p, h, hp => by
    simp only [List.length_nil, List.getElem?_cons_zero, Option.some.injEq] at h
    subst h
    simp at hp
    exact .inr hp
  | k' :: ks, a :: as, p, h, hp => by
    simp only [List.length_cons, List.getElem?_cons_succ] at h
    simp only [List.cons_append, List.zip_cons_cons, List.mem_cons] at hp ⊢
    rcases hp with hp | hp
    · exact .inl (.inl hp)
    · rcases zip_append_single h hp with h' | h'
      · exact .inl (.inr h')
      · exact .inr h'

theorem transfer_ok {s s' : Net} {t : Tx} {ok : Bool} (h : s.transfer plain t = some (s', ok)) :
    (∀ a, a ≠ t.src → s.balance a ≤ s'.balance a) ∧ (ok = true → t.src ≠ t.dst → s'.balance t.dst = s.balance t.dst + t.amount) := by
  unfold Net.transfer at h
  split at h
  · simp only at h
    split at h
    · cases h
      refine ⟨fun a ha => ?_, fun _ hne => ?_⟩
      · simp only [upd]
        by_cases hd : a = t.dst
        · subst hd; simp [ha]
        · simp [hd, ha]
      · simp [upd, Ne.symm hne]
    · cases h
      refine ⟨fun a ha => ?_, fun h => by cases h⟩
      simp [upd, ha]
  · cases h

theorem fund_step {s s' : Funding} (ho : owner ∉ keypers) (h : FundInv owner keypers s)
    (hs : FundStep plain (Spares keypers) owner keypers s s') : FundInv owner keypers s' := by
  have mono : ∀ {net : Net}, (∀ k ∈ keypers, s.net.balance k ≤ net.balance k) → FundInv owner keypers { s with net := net } := by
    intro net hm
    refine ⟨fun p hp => (h.answers p hp).trans (hm _ (List.of_mem_zip hp).1), h.length, fun txs ht => ?_⟩
    obtain ⟨h1, gp, n, h2, h3⟩ := h.signed txs ht
    refine ⟨h1, gp, n, h2, fun t htm hr => (h3 t htm hr).trans (hm _ ?_)⟩
    rw [h2] at htm
    obtain ⟨_, _, _, b, hb, _⟩ := fundTxs_mem htm
    exact (List.of_mem_zip hb).1
  cases hs with
  | others hoth => exact mono hoth
  | ask hk =>
    next k =>
    have hlt := (List.getElem?_eq_some_iff.1 hk).1
    refine ⟨fun p hp => ?_, by simp; omega, fun txs ht => ?_⟩
    · rcases zip_append_single hk hp with h' | rfl
      · exact h.answers p h'
      · exact le_rfl
    · have := (h.signed txs ht).1; omega
  | sign hl hn hr =>
    next gp n =>
    refine ⟨h.answers, h.length, fun txs ht => ⟨hl, gp, n, ?_, fun t htm hrt => ?_⟩⟩
    · simp only [Option.some.injEq] at ht; exact ht.symm
    · simp only [Option.some.injEq] at ht
      rw [← ht] at htm
      simp only at hrt
      rw [hr _ (fundTxs_mem htm).1] at hrt
      cases hrt
  | send ht hlt => exact ⟨h.answers, h.length, h.signed⟩
  | mined ht htm htr =>
    next txs t net ok =>
    obtain ⟨h1, gp, n, h2, h3⟩ := h.signed txs ht
    have htm' := List.mem_of_mem_take htm
    have htf := htm'
    rw [h2] at htf
    obtain ⟨_, hsrc, _, b, hb, hamt, hl⟩ := fundTxs_mem htf
    obtain ⟨t1, t2⟩ := transfer_ok htr
    have hm : ∀ k ∈ keypers, s.net.balance k ≤ net.balance k := fun k hk => t1 k (by rw [hsrc]; rintro rfl; exact ho hk)
    have hnet := mono hm
    refine ⟨hnet.answers, hnet.length, fun txs' ht' => ?_⟩
    simp only [ht, Option.some.injEq] at ht'
    subst ht'
    refine ⟨h1, gp, n, h2, fun t' ht' hr' => ?_⟩
    simp only [upd] at hr'
    split at hr'
    · next he =>
      rw [h2] at ht'
      obtain rfl := fundTxs_nonce ht' htf he
      simp only [Option.some.injEq] at hr'
      have hne : t'.src ≠ t'.dst := by rw [hsrc]; intro e; exact ho (e ▸ (List.of_mem_zip hb).1)
      rw [t2 hr' hne, hamt]
      have := h.answers _ hb
      simp only at this
      have := (lacking_ne hl).2
      omega
    · have ht'm := ht'
      rw [h2] at ht'm
      obtain ⟨_, _, _, b', hb', _⟩ := fundTxs_mem ht'm
      exact (h3 t' ht' hr').trans (hm _ (List.of_mem_zip hb').1)

theorem zip_get {α β : Type} : ∀ {l : List α} {l' : List β} {a : α}, l'.length = l.length → a ∈ l → ∃ b, (a, b) ∈ l.zip l'
  | [], _, _, _, h => by cases h
  | x :: l, [], _, h, _ => by simp at h
  | x :: l, y :: l', a, h, ha => by
    rcases List.mem_cons.1 ha with rfl | ha
    · exact ⟨y, by simp⟩
    · obtain ⟨b, hb⟩ := zip_get (l := l) (l' := l') (by simpa using h) ha
      exact ⟨b, by simp [hb]⟩

theorem start_fund {net : Net} : FundInv owner keypers (Funding.start net) :=
  ⟨by simp [Funding.start], by simp [Funding.start], by intro txs h; cases h⟩

theorem fund_later {s s' : Funding} (ho : owner ∉ keypers) (h : FundInv owner keypers s)
    (hs : Relation.ReflTransGen (FundStep plain (Spares keypers) owner keypers) s s') : FundInv owner keypers s' := by
  induction hs with
  | refl => exact h
  | tail _ h' ih => exact fund_step ho ih h'

/-! ## Exactly -/

theorem fundTxs_dst {gp : Nat} : ∀ {n : Nat} {l : List (Address × Nat)} {t t' : Tx}, (l.map Prod.fst).Nodup → t ∈ fundTxs owner gp n l →
    t' ∈ fundTxs owner gp n l → t.dst = t'.dst → t = t'
  | _, [], _, _, _, h, _, _ => by cases h
  | n, (k, b) :: rest, t, t', hn, h, h', he => by
    rw [fundTxs] at h h'
    simp only [List.map_cons, List.nodup_cons] at hn
    split at h
    · next hl => rw [if_pos hl] at h'; exact fundTxs_dst hn.2 h h' he
    · next hl =>
      rw [if_neg hl] at h'
      have out : ∀ {t : Tx}, t ∈ fundTxs owner gp (n + 1) rest → t.dst ≠ k := by
        intro t ht e
        obtain ⟨_, _, _, b', hb', _⟩ := fundTxs_mem ht
        exact hn.1 (List.mem_map.2 ⟨_, hb', e⟩)
      rcases List.mem_cons.1 h with rfl | h <;> rcases List.mem_cons.1 h' with rfl | h'
      · rfl
      · exact absurd he.symm (out h')
      · exact absurd he (out h)
      · exact fundTxs_dst hn.2 h h' he

theorem fundTxs_nodup {gp : Nat} : ∀ {n : Nat} {l : List (Address × Nat)}, ((fundTxs owner gp n l).map (·.nonce)).Nodup
  | _, [] => by simp [fundTxs]
  | n, (k, b) :: rest => by
    rw [fundTxs]
    split
    · exact fundTxs_nodup
    · simp only [List.map_cons, List.nodup_cons]
      refine ⟨fun h => ?_, fundTxs_nodup⟩
      obtain ⟨t, ht, he⟩ := List.mem_map.1 h
      have := (fundTxs_mem ht).1
      omega

/-- What a transaction has cost the owner. -/
def paid (t : Tx) : Option Bool → Nat
  | none => 0
  | some false => t.fee
  | some true => t.amount + t.fee

/-- What all have. -/
def spent (r : Nat → Option Bool) (txs : List Tx) : Nat := (txs.map (fun t => paid t (r t.nonce))).sum

theorem spent_other {r : Nat → Option Bool} {n : Nat} {v : Option Bool} : ∀ {txs : List Tx}, (∀ t ∈ txs, t.nonce ≠ n) →
    spent (upd r n v) txs = spent r txs
  | [], _ => rfl
  | t :: txs, h => by
    have := spent_other (r := r) (v := v) (fun t' ht' => h t' (List.mem_cons_of_mem _ ht'))
    unfold spent at this ⊢
    simp only [List.map_cons, List.sum_cons, this]
    rw [upd, if_neg (h t List.mem_cons_self)]

theorem spent_upd {r : Nat → Option Bool} {t : Tx} {v : Option Bool} : ∀ {txs : List Tx}, (txs.map (·.nonce)).Nodup → t ∈ txs →
    r t.nonce = none → spent (upd r t.nonce v) txs = spent r txs + paid t v
  | [], _, h, _ => by cases h
  | t' :: txs, hn, h, hr => by
    simp only [List.map_cons, List.nodup_cons] at hn
    rcases List.mem_cons.1 h with rfl | h
    · have := spent_other (r := r) (n := t.nonce) (v := v) (txs := txs) (fun x hx e => hn.1 (List.mem_map.2 ⟨x, hx, e⟩))
      unfold spent at this ⊢
      simp only [List.map_cons, List.sum_cons, this]
      simp only [upd, if_true, hr, paid]
      omega
    · have := spent_upd (v := v) hn.2 h hr
      have hne : t'.nonce ≠ t.nonce := fun e => hn.1 (List.mem_map.2 ⟨t, h, e.symm⟩)
      unfold spent at this ⊢
      simp only [List.map_cons, List.sum_cons, this]
      simp only [upd, if_neg hne]
      omega

theorem spent_none {r : Nat → Option Bool} : ∀ {txs : List Tx}, (∀ t ∈ txs, r t.nonce = none) → spent r txs = 0
  | [], _ => rfl
  | t :: txs, h => by
    have := spent_none (r := r) (fun t' ht' => h t' (List.mem_cons_of_mem _ ht'))
    unfold spent at this ⊢
    rw [List.map_cons, List.sum_cons, this, h t List.mem_cons_self]
    rfl

theorem spent_all {r : Nat → Option Bool} {gp : Nat} {b0 : Address → Nat} : ∀ {n : Nat} {l : List (Address × Nat)},
    (∀ p ∈ l, p.2 = b0 p.1) → (∀ t ∈ fundTxs owner gp n l, r t.nonce = some true) →
    spent r (fundTxs owner gp n l) = total (fun k => if lacking (b0 k) = 0 then 0 else lacking (b0 k) + 21000 * gp) (l.map Prod.fst)
  | _, [], _, _ => rfl
  | n, (k, b) :: rest, hb, hr => by
    rw [fundTxs] at hr ⊢
    have hk : b = b0 k := hb (k, b) List.mem_cons_self
    have hb' : ∀ p ∈ rest, p.2 = b0 p.1 := fun p hp => hb p (List.mem_cons_of_mem _ hp)
    unfold total
    simp only [List.map_cons, List.sum_cons, ← hk]
    split
    · next hl =>
      rw [if_pos hl] at hr
      have := spent_all hb' hr
      unfold total at this
      rw [this]; omega
    · next hl =>
      rw [if_neg hl] at hr
      have := spent_all hb' (fun t ht => hr t (List.mem_cons_of_mem _ ht))
      unfold total at this
      rw [← this]
      have h1 := hr _ List.mem_cons_self
      simp only at h1
      simp only [spent, List.map_cons, List.sum_cons, h1, paid, Tx.fee]

structure ExactInv (net0 : Net) (owner : Address) (keypers : List Address) (s : Funding) : Prop where
  answers : ∀ p ∈ keypers.zip s.answers, p.2 = net0.balance p.1
  length : s.answers.length ≤ keypers.length
  unsigned : s.txs = none → ∀ a ∈ owner :: keypers, s.net.balance a = net0.balance a
  signed : ∀ txs, s.txs = some txs → s.answers.length = keypers.length ∧
    (∃ gp n, txs = fundTxs owner gp n (keypers.zip s.answers)) ∧
    (∀ t ∈ txs, s.receipts t.nonce = some true → s.net.balance t.dst = highAmount) ∧
    (∀ k ∈ keypers, (∀ t ∈ txs, t.dst = k → s.receipts t.nonce ≠ some true) → s.net.balance k = net0.balance k) ∧
    (∀ t ∈ txs, s.receipts t.nonce ≠ none → t.nonce < s.net.nonce owner) ∧
    s.net.balance owner + spent s.receipts txs = net0.balance owner

theorem transfer_exact {s s' : Net} {t : Tx} {ok : Bool} (h : s.transfer plain t = some (s', ok)) (hne : t.src ≠ t.dst) :
    t.nonce = s.nonce t.src ∧ s'.nonce t.src = s.nonce t.src + 1 ∧ s'.balance t.src + paid t (some ok) = s.balance t.src ∧
    (∀ a, a ≠ t.src → a ≠ t.dst → s'.balance a = s.balance a) ∧
    s'.balance t.dst = s.balance t.dst + (if ok then t.amount else 0) ∧ ∀ a, s.nonce a ≤ s'.nonce a := by
  unfold Net.transfer at h
  split at h
  · next hc =>
    simp only at h
    split at h
    · cases h
      refine ⟨hc.1, by simp [upd], ?_, fun a h1 h2 => by simp [upd, h1, h2], by simp [upd, Ne.symm hne], fun a => ?_⟩
      · simp only [upd, paid, if_neg hne, if_true]; omega
      · simp only [upd]; split <;> simp_all
    · cases h
      refine ⟨hc.1, by simp [upd], ?_, fun a h1 h2 => by simp [upd, h1], by simp [upd, Ne.symm hne], fun a => ?_⟩
      · simp only [upd, paid, if_true]; omega
      · simp only [upd]; split <;> simp_all
  · cases h

theorem exact_step {net0 : Net} {s s' : Funding} (ho : owner ∉ keypers) (hnd : keypers.Nodup) (h : ExactInv net0 owner keypers s)
    (hs : FundStep plain (LeavesAlone (owner :: keypers)) owner keypers s s') : ExactInv net0 owner keypers s' := by
  cases hs with
  | others hoth =>
    next net =>
    refine ⟨h.answers, h.length, fun hn a ha => (hoth a ha).1.trans (h.unsigned hn a ha), fun txs ht => ?_⟩
    obtain ⟨h1, ⟨gp, n, h2⟩, h3, h4, h5, h6⟩ := h.signed txs ht
    refine ⟨h1, ⟨gp, n, h2⟩, fun t htm hr => ?_, fun k hk hr => ?_, fun t htm hr => ?_, ?_⟩
    · have htm' := htm
      rw [h2] at htm'
      obtain ⟨_, _, _, b, hb, _⟩ := fundTxs_mem htm'
      exact (hoth _ (List.mem_cons_of_mem _ (List.of_mem_zip hb).1)).1.trans (h3 t htm hr)
    · exact (hoth k (List.mem_cons_of_mem _ hk)).1.trans (h4 k hk hr)
    · exact (h5 t htm hr).trans_le (hoth owner List.mem_cons_self).2
    · simp only; rw [(hoth owner List.mem_cons_self).1]; exact h6
  | ask hk =>
    next k =>
    have hlt := (List.getElem?_eq_some_iff.1 hk).1
    have hnone : s.txs = none := by
      by_contra hne
      obtain ⟨txs, ht⟩ := Option.ne_none_iff_exists'.1 hne
      have := (h.signed txs ht).1
      omega
    refine ⟨fun p hp => ?_, by simp; omega, h.unsigned, fun txs ht => ?_⟩
    · rcases zip_append_single hk hp with h' | rfl
      · exact h.answers p h'
      · exact h.unsigned hnone k (List.mem_cons_of_mem _ (List.mem_of_getElem? hk))
    · simp only [hnone] at ht; cases ht
  | sign hl hn hr =>
    next gp n =>
    have hu := h.unsigned hn
    refine ⟨h.answers, h.length, fun hn => (by cases hn), fun txs ht => ?_⟩
    simp only [Option.some.injEq] at ht
    subst ht
    have hr' : ∀ t ∈ fundTxs owner gp n (keypers.zip s.answers), s.receipts t.nonce = none := fun t ht => hr _ (fundTxs_mem ht).1
    refine ⟨hl, ⟨gp, n, rfl⟩, fun t htm hrt => ?_, fun k hk _ => hu k (List.mem_cons_of_mem _ hk), fun t htm hrt => ?_, ?_⟩
    · simp only at hrt; rw [hr' t htm] at hrt; cases hrt
    · exact absurd (hr' t htm) hrt
    · simp only; rw [spent_none hr', hu owner List.mem_cons_self]; rfl
  | send ht hlt => exact ⟨h.answers, h.length, h.unsigned, h.signed⟩
  | mined ht htm htr =>
    next txs t net ok =>
    obtain ⟨h1, ⟨gp, n, h2⟩, h3, h4, h5, h6⟩ := h.signed txs ht
    have htm' := List.mem_of_mem_take htm
    have htf := htm'
    rw [h2] at htf
    obtain ⟨_, hsrc, _, b, hb, hamt, hl⟩ := fundTxs_mem htf
    have hdst : t.dst ∈ keypers := (List.of_mem_zip hb).1
    have hne : t.src ≠ t.dst := by rw [hsrc]; intro e; exact ho (e ▸ hdst)
    obtain ⟨t1, t2, t3, t4, t5, t6⟩ := transfer_exact htr hne
    rw [hsrc] at t1 t2 t3
    have hnone : s.receipts t.nonce = none := by
      by_contra hc
      have := h5 t htm' hc
      omega
    have hzip : ((keypers.zip s.answers).map Prod.fst).Nodup := by
      rw [List.map_fst_zip (by omega)]; exact hnd
    have uniq : ∀ t' ∈ txs, t'.dst = t.dst → t' = t := fun t' ht' e => by
      rw [h2] at ht'; exact fundTxs_dst hzip ht' htf e
    have uniqn : ∀ t' ∈ txs, t'.nonce = t.nonce → t' = t := fun t' ht' e => by
      rw [h2] at ht'; exact fundTxs_nonce ht' htf e
    have hold : s.net.balance t.dst = net0.balance t.dst := by
      apply h4 _ hdst
      intro t' ht' e
      rw [uniq t' ht' e, hnone]; simp
    refine ⟨h.answers, h.length, fun hn => ?_, fun txs' ht' => ?_⟩
    · simp only [ht] at hn; cases hn
    simp only [ht, Option.some.injEq] at ht'
    subst ht'
    refine ⟨h1, ⟨gp, n, h2⟩, fun t' ht' hr' => ?_, fun k hk hr' => ?_, fun t' ht' hr' => ?_, ?_⟩
    · simp only [upd] at hr'
      split at hr'
      · next he =>
        obtain rfl := uniqn t' ht' he
        simp only [Option.some.injEq] at hr'
        simp only
        rw [t5, hr', if_pos rfl, hold, hamt, ← (lacking_ne hl).2]
        rw [← h.answers _ hb]
      · next he =>
        have hd : t'.dst ≠ t.dst := fun e => he (by rw [uniq t' ht' e])
        have hd' : t'.dst ≠ t.src := by
          have ht'm := ht'
          rw [h2] at ht'm
          obtain ⟨_, _, _, b', hb', _⟩ := fundTxs_mem ht'm
          rw [hsrc]; intro e; exact ho (e ▸ (List.of_mem_zip hb').1)
        simp only
        rw [t4 _ hd' hd]
        exact h3 t' ht' hr'
    · have hk' : k ≠ t.src := by rw [hsrc]; rintro rfl; exact ho hk
      by_cases hkd : k = t.dst
      · subst hkd
        have := hr' t htm' rfl
        simp only [upd, if_true] at this
        cases ok
        · simp only; rw [t5, hold]; simp
        · exact absurd rfl this
      · simp only
        rw [t4 k hk' hkd]
        apply h4 k hk
        intro t' ht' e
        have := hr' t' ht' e
        simp only [upd] at this
        rwa [if_neg (fun e' => hkd (by rw [← e, uniqn t' ht' e']))] at this
    · simp only [upd] at hr'
      split at hr'
      · next he => simp only; rw [he, t2]; omega
      · simp only; rw [t2]; have := h5 t' ht' hr'; omega
    · simp only
      rw [spent_upd (by rw [h2]; exact fundTxs_nodup) htm' hnone]
      omega

/-! ## Unfund -/

/-- What the receiver has got. -/
def gain (r : Address → Option Bool) (txs : List Tx) : Nat := (txs.map (fun t => if r t.src = some true then t.amount else 0)).sum

theorem gain_other {r : Address → Option Bool} {a : Address} {v : Option Bool} : ∀ {txs : List Tx}, (∀ t ∈ txs, t.src ≠ a) →
    gain (upd r a v) txs = gain r txs
  | [], _ => rfl
  | t :: txs, h => by
    have := gain_other (r := r) (v := v) (fun t' ht' => h t' (List.mem_cons_of_mem _ ht'))
    unfold gain at this ⊢
    rw [List.map_cons, List.sum_cons, this, List.map_cons, List.sum_cons, upd, if_neg (h t List.mem_cons_self)]

theorem gain_upd {r : Address → Option Bool} {t : Tx} : ∀ {txs : List Tx}, (txs.map (·.src)).Nodup → t ∈ txs →
    r t.src = none → gain (upd r t.src (some true)) txs = gain r txs + t.amount
  | [], _, h, _ => by cases h
  | t' :: txs, hn, h, hr => by
    simp only [List.map_cons, List.nodup_cons] at hn
    rcases List.mem_cons.1 h with rfl | h
    · have := gain_other (r := r) (a := t.src) (v := some true) (txs := txs) (fun x hx e => hn.1 (List.mem_map.2 ⟨x, hx, e⟩))
      unfold gain at this ⊢
      rw [List.map_cons, List.sum_cons, this, List.map_cons, List.sum_cons, upd, if_pos rfl, if_pos rfl, hr, if_neg (by simp)]
      omega
    · have := gain_upd hn.2 h hr
      have hne : t'.src ≠ t.src := fun e => hn.1 (List.mem_map.2 ⟨t, h, e.symm⟩)
      unfold gain at this ⊢
      rw [List.map_cons, List.sum_cons, this, List.map_cons, List.sum_cons, upd, if_neg hne]
      omega

/-- What others may do while `unfund` runs. -/
def DrainOthers (receiver : Address) (accounts : List Address) (net net' : Net) : Prop :=
  LeavesAlone accounts net net' ∧ Spares [receiver] net net'

structure DrainInv (net0 : Net) (receiver gp : Nat) (accounts : List Address) (s : Draining) : Prop where
  asked : s.asked ≤ accounts.length
  fresh : ∀ t ∈ s.sent, t.src ∈ accounts.take s.asked
  nodup : (s.sent.map (·.src)).Nodup
  right : ∀ t ∈ s.sent, t.dst = receiver ∧ 0 < t.amount ∧ t.gasPrice = gp ∧ t.amount + 21000 * gp = net0.balance t.src
  untouched : ∀ a ∈ accounts, s.receipts a = none → s.net.balance a = net0.balance a
  empty : ∀ a ∈ accounts, s.receipts a ≠ none → s.net.balance a = 0 ∧ s.receipts a = some true ∧ ∃ t ∈ s.sent, t.src = a
  received : net0.balance receiver + gain s.receipts s.sent ≤ s.net.balance receiver
  all : ∀ a ∈ accounts.take s.asked, net0.balance a ≤ 21000 * gp ∨ a ∈ s.refused ∨ ∃ t ∈ s.sent, t.src = a

theorem drain_step {net0 : Net} {receiver gp : Nat} {accounts : List Address} {s s' : Draining} (hp : plain receiver = true)
    (hr : receiver ∉ accounts) (hnd : accounts.Nodup) (h : DrainInv net0 receiver gp accounts s)
    (hs : DrainStep plain (DrainOthers receiver accounts) receiver gp accounts s s') : DrainInv net0 receiver gp accounts s' := by
  cases hs with
  | others hoth =>
    obtain ⟨o1, o2⟩ := hoth
    exact { h with
      untouched := fun a ha hn => (o1 a ha).1.trans (h.untouched a ha hn)
      empty := fun a ha hn => by
        obtain ⟨e1, e2⟩ := h.empty a ha hn
        exact ⟨(o1 a ha).1.trans e1, e2⟩
      received := h.received.trans (o2 receiver (List.mem_singleton.2 rfl)) }
  | ask ha hn =>
    next a nonce accepted =>
    have hlt := (List.getElem?_eq_some_iff.1 ha).1
    have hmem := List.mem_of_getElem? ha
    have htake : accounts.take (s.asked + 1) = accounts.take s.asked ++ [a] := by rw [List.take_add_one, ha]; rfl
    have hnew : a ∉ accounts.take s.asked := by
      intro hc
      have : (accounts.take (s.asked + 1)).Nodup := hnd.sublist (List.take_sublist _ _)
      rw [htake, List.nodup_append] at this
      exact this.2.2 a hc a (List.mem_singleton.2 rfl) rfl
    have hns : ∀ t ∈ s.sent, t.src ≠ a := fun t ht e => hnew (e ▸ h.fresh t ht)
    have hnone : s.receipts a = none := by
      by_contra hc
      obtain ⟨_, _, t, ht, e⟩ := h.empty a hmem hc
      exact hns t ht e
    have hbal := h.untouched a hmem hnone
    cases accepted with
    | false =>
      refine ⟨by simp only; omega, fun t ht => ?_, h.nodup, h.right, h.untouched, h.empty, h.received, fun b hb => ?_⟩
      · simp only [htake]; exact List.mem_append_left _ (h.fresh t ht)
      · simp only [htake, List.mem_append, List.mem_singleton] at hb
        rcases hb with hb | rfl
        · rcases h.all b hb with h1 | h1 | h1
          · exact .inl h1
          · exact .inr (.inl (by simp [h1]))
          · exact .inr (.inr h1)
        · exact .inr (.inl (by simp))
    | true =>
      by_cases hfee : s.net.balance a ≤ 21000 * gp
      · have hd : drain receiver gp a (s.net.balance a) nonce = none := by rw [drain, if_pos hfee]
        simp only [hd, Option.toList_none, List.append_nil, if_true]
        refine ⟨by simp only; omega, fun t ht => ?_, h.nodup, h.right, h.untouched, h.empty, h.received, fun b hb => ?_⟩
        · simp only [htake]; exact List.mem_append_left _ (h.fresh t ht)
        · simp only [htake, List.mem_append, List.mem_singleton] at hb
          rcases hb with hb | rfl
          · exact h.all b hb
          · exact .inl (by rw [← hbal]; exact hfee)
      · have hd : drain receiver gp a (s.net.balance a) nonce =
            some ⟨a, receiver, s.net.balance a - 21000 * gp, nonce, gp⟩ := by rw [drain, if_neg hfee]
        simp only [hd, Option.toList_some, if_true]
        refine ⟨by simp only; omega, fun t ht => ?_, ?_, fun t ht => ?_, h.untouched, fun b hb hb' => ?_, ?_, fun b hb => ?_⟩
        · simp only [htake]
          rcases List.mem_append.1 ht with ht | ht
          · exact List.mem_append_left _ (h.fresh t ht)
          · rw [List.mem_singleton.1 ht]; simp
        · simp only [List.map_append, List.map_cons, List.map_nil]
          rw [List.nodup_append]
          refine ⟨h.nodup, by simp, fun x hx y hy e => ?_⟩
          obtain ⟨t, ht, rfl⟩ := List.mem_map.1 hx
          exact hns t ht (e.trans (List.mem_singleton.1 hy))
        · rcases List.mem_append.1 ht with ht | ht
          · exact h.right t ht
          · rw [List.mem_singleton.1 ht]
            refine ⟨rfl, ?_, rfl, ?_⟩ <;> simp only <;> omega
        · obtain ⟨e1, e2, t, e3, e4⟩ := h.empty b hb hb'
          exact ⟨e1, e2, t, List.mem_append_left _ e3, e4⟩
        · have := h.received
          unfold gain at this ⊢
          simp only [List.map_append, List.sum_append, List.map_cons, List.map_nil, List.sum_cons, List.sum_nil, hnone]
          simpa using this
        · simp only [htake, List.mem_append, List.mem_singleton] at hb
          rcases hb with hb | rfl
          · rcases h.all b hb with h1 | h1 | ⟨t, h1, h2⟩
            · exact .inl h1
            · exact .inr (.inl h1)
            · exact .inr (.inr ⟨t, List.mem_append_left _ h1, h2⟩)
          · exact .inr (.inr ⟨_, List.mem_append_right _ (List.mem_singleton.2 rfl), rfl⟩)
  | mined ht htr =>
    next t net ok =>
    obtain ⟨r1, r2, r3, r4⟩ := h.right t ht
    have hsrc : t.src ∈ accounts := List.mem_of_mem_take (h.fresh t ht)
    have hne : t.src ≠ t.dst := by rw [r1]; intro e; exact hr (e ▸ hsrc)
    have hok : ok = true ∧ t.amount + t.fee ≤ s.net.balance t.src := by
      unfold Net.transfer at htr
      split at htr
      · next hc => simp only [r1, hp, if_true] at htr; cases htr; exact ⟨rfl, hc.2⟩
      · cases htr
    obtain ⟨rfl, hpay⟩ := hok
    obtain ⟨t1, t2, t3, t4, t5, t6⟩ := transfer_exact htr hne
    have hnone : s.receipts t.src = none := by
      by_contra hc
      have := (h.empty t.src hsrc hc).1
      omega
    have hbal := h.untouched t.src hsrc hnone
    simp only [paid, Tx.fee, r3] at t3
    refine ⟨h.asked, h.fresh, h.nodup, h.right, fun a ha hn => ?_, fun a ha hn => ?_, ?_, h.all⟩
    · simp only [upd] at hn
      split at hn
      · cases hn
      · next hne' =>
        simp only
        rw [t4 a hne' (by rw [r1]; rintro rfl; exact hr ha)]
        exact h.untouched a ha hn
    · by_cases ha' : a = t.src
      · subst ha'
        refine ⟨?_, by simp [upd], t, ht, rfl⟩
        simp only
        omega
      · simp only [upd, if_neg ha'] at hn ⊢
        rw [t4 a ha' (by rw [r1]; rintro rfl; exact hr ha)]
        exact h.empty a ha hn
    · simp only
      rw [gain_upd h.nodup ht hnone]
      have := h.received
      rw [r1, if_pos rfl] at t5
      omega

end

namespace Props

/-- If `fund` succeeds, every keyper has half an ether or more, provided nobody takes from them meanwhile, and the owner is none of them. -/
theorem C93_fund {plain : Address → Bool} {owner : Address} {keypers : List Address} (ho : owner ∉ keypers) {net : Net} {s : Funding}
    (hs : Relation.ReflTransGen (FundStep plain (Spares keypers) owner keypers) (.start net) s) (hd : s.succeeded) :
    ∀ k ∈ keypers, ether ≤ 2 * s.net.balance k := by
  intro k hk
  have h := fund_later ho start_fund hs
  obtain ⟨txs, ht, -, hr⟩ := hd
  obtain ⟨h1, gp, n, h2, h3⟩ := h.signed txs ht
  obtain ⟨b, hb⟩ := zip_get h1 hk
  have hlow : ether = 2 * lowAmount := by decide
  have hhigh : lowAmount ≤ highAmount := by decide
  by_cases hl : lacking b = 0
  · have := lacking_eq hl
    have := h.answers _ hb
    simp only at this
    omega
  · obtain ⟨t, h4, h5, -⟩ := fundTxs_complete (owner := owner) (gp := gp) (n := n) hb hl
    rw [← h2] at h4
    have := h3 t h4 (hr t h4)
    rw [h5] at this
    omega

/-- Run again while they have this much, it sends nothing. -/
theorem C93_again {plain : Address → Bool} {owner : Address} {keypers : List Address} {net : Net} (h0 : ∀ k ∈ keypers, ether ≤ 2 * net.balance k)
    {s : Funding} (hs : Relation.ReflTransGen (FundStep plain (Spares keypers) owner keypers) (.start net) s) :
    (∀ txs, s.txs = some txs → txs = []) ∧ (∀ k ∈ keypers, net.balance k ≤ s.net.balance k) := by
  have key : (∀ k ∈ keypers, net.balance k ≤ s.net.balance k) ∧ (∀ b ∈ s.answers, lacking b = 0) ∧
      (∀ txs, s.txs = some txs → txs = []) := by
    have hlow : ether = 2 * lowAmount := by decide
    induction hs with
    | refl => exact ⟨fun _ _ => le_rfl, by simp [Funding.start], by intro t h; cases h⟩
    | tail _ h ih =>
      obtain ⟨i1, i2, i3⟩ := ih
      cases h with
      | others ho => exact ⟨fun k hk => (i1 k hk).trans (ho k hk), i2, i3⟩
      | ask hk =>
        next k =>
        refine ⟨i1, fun b hb => ?_, i3⟩
        simp only [List.mem_append, List.mem_singleton] at hb
        rcases hb with hb | rfl
        · exact i2 b hb
        · have hm := List.mem_of_getElem? hk
          have := h0 k hm
          have := i1 k hm
          unfold lacking
          rw [if_neg (by omega)]
      | sign hl hn hr =>
        next gp n =>
        refine ⟨i1, i2, fun txs ht => ?_⟩
        simp only [Option.some.injEq] at ht
        rw [← ht, List.eq_nil_iff_forall_not_mem]
        intro t htm
        obtain ⟨_, _, _, b, hb, _, hne⟩ := fundTxs_mem htm
        exact hne (i2 b (List.of_mem_zip hb).2)
      | send ht hlt => exact ⟨i1, i2, i3⟩
      | mined ht htm htr => rw [i3 _ ht] at htm; simp at htm
  exact ⟨key.2.2, key.1⟩

/-- If meanwhile nothing else happens to the accounts of the owner and of the keypers, which are different from each other, then those that had
less than half an ether have exactly one, the others are unchanged, and the owner has paid exactly what was lacking and the fees. -/
theorem C93_exact {plain : Address → Bool} {owner : Address} {keypers : List Address} (ho : owner ∉ keypers) (hnd : keypers.Nodup)
    {net : Net} {s : Funding}
    (hs : Relation.ReflTransGen (FundStep plain (LeavesAlone (owner :: keypers)) owner keypers) (.start net) s) (hd : s.succeeded) :
    (∀ k ∈ keypers, s.net.balance k = if 2 * net.balance k < ether then ether else net.balance k) ∧
    ∃ gasPrice, s.net.balance owner +
      total (fun k => if 2 * net.balance k < ether then (ether - net.balance k) + 21000 * gasPrice else 0) keypers = net.balance owner := by
  have h : ExactInv net owner keypers s := by
    clear hd
    induction hs with
    | refl => exact ⟨by simp [Funding.start], by simp [Funding.start], fun _ _ _ => rfl, by intro txs h; cases h⟩
    | tail _ h' ih => exact exact_step ho hnd ih h'
  obtain ⟨txs, ht, -, hr⟩ := hd
  obtain ⟨h1, ⟨gp, n, h2⟩, h3, h4, -, h6⟩ := h.signed txs ht
  have hlow : ether = 2 * lowAmount := by decide
  have hhigh : highAmount = ether := rfl
  have hlt : lowAmount < highAmount := by decide
  constructor
  · intro k hk
    obtain ⟨b, hb⟩ := zip_get h1 hk
    have hb0 := h.answers _ hb
    simp only at hb0
    by_cases hl : lacking b = 0
    · rw [if_neg (by have := lacking_eq hl; omega)]
      apply h4 k hk
      intro t htm e
      exfalso
      rw [h2] at htm
      obtain ⟨_, _, _, b', hb', _, hl'⟩ := fundTxs_mem htm
      have := h.answers _ hb'
      simp only [e] at this
      rw [this, ← hb0] at hl'
      exact hl' hl
    · rw [if_pos (by have := (lacking_ne hl).1; omega)]
      obtain ⟨t, h7, h8, -⟩ := fundTxs_complete (owner := owner) (gp := gp) (n := n) hb hl
      rw [← h2] at h7
      rw [← h8, h3 t h7 (hr t h7)]
      rfl
  · refine ⟨gp, ?_⟩
    rw [← h6, h2]
    rw [spent_all (b0 := net.balance) h.answers (by rw [← h2]; exact hr), List.map_fst_zip (by omega)]
    congr 1
    unfold total
    congr 1
    apply List.map_congr_left
    intro k _
    unfold lacking
    by_cases hc : 2 * net.balance k < ether
    · rw [if_pos hc, if_pos (show lowAmount > net.balance k by omega), if_neg (by omega)]
      rfl
    · rw [if_neg hc, if_neg (show ¬ lowAmount > net.balance k by omega), if_pos rfl]

/-- While `unfund` runs, and meanwhile nothing else happens to the accounts: an account has at any time what it had, or nothing. When the command
succeeds, the accounts are empty, but for those that had too little for the fee and those whose transaction the node has refused (which the
command only logs), and the receiver has got all that was taken from them but the fees. -/
theorem C93_unfund {plain : Address → Bool} {receiver gasPrice : Nat} {accounts : List Address} (hp : plain receiver = true)
    (hr : receiver ∉ accounts) (hnd : accounts.Nodup) {net : Net} {s : Draining}
    (hs : Relation.ReflTransGen (DrainStep plain (fun n n' => LeavesAlone accounts n n' ∧ Spares [receiver] n n') receiver gasPrice accounts)
      (.start net) s) :
    (∀ a ∈ accounts, s.net.balance a = net.balance a ∨ s.net.balance a = 0) ∧
    (s.succeeded accounts →
      (∀ a ∈ accounts, s.net.balance a = 0 ∨ net.balance a ≤ 21000 * gasPrice ∨ a ∈ s.refused) ∧
      net.balance receiver + total (fun a => net.balance a - 21000 * gasPrice) (s.sent.map (·.src)) ≤ s.net.balance receiver) := by
  have h : DrainInv net receiver gasPrice accounts s := by
    induction hs with
    | refl =>
      exact ⟨by simp [Draining.start], by simp [Draining.start], by simp [Draining.start], by simp [Draining.start], fun _ _ _ => rfl,
        fun a _ h => absurd rfl h, by simp [Draining.start, gain], by simp [Draining.start]⟩
    | tail _ h' ih => exact drain_step hp hr hnd ih h'
  refine ⟨fun a ha => ?_, fun hd => ⟨fun a ha => ?_, ?_⟩⟩
  · by_cases hn : s.receipts a = none
    · exact .inl (h.untouched a ha hn)
    · exact .inr (h.empty a ha hn).1
  · rcases h.all a (by rw [hd.1, List.take_length]; exact ha) with h1 | h1 | ⟨t, h1, rfl⟩
    · exact .inr (.inl h1)
    · exact .inr (.inr h1)
    · exact .inl (h.empty t.src ha (by rw [hd.2 t h1]; simp)).1
  · have hg : gain s.receipts s.sent = total (fun a => net.balance a - 21000 * gasPrice) (s.sent.map (·.src)) := by
      unfold gain total
      rw [List.map_map]
      congr 1
      apply List.map_congr_left
      intro t ht
      rw [if_pos (hd.2 t ht)]
      have := (h.right t ht).2.2.2
      simp only [Function.comp]
      omega
    rw [← hg]; exact h.received

namespace Demo

def plain : Address → Bool := fun _ => true

/-- The owner, 9, has ten ether, and the keypers 1 and 2 a tenth and seven tenths. -/
def net0 : Net := ⟨fun a => if a = 9 then 10 * ether else if a = 1 then ether / 10 else if a = 2 then 7 * (ether / 10) else 0, fun _ => 3⟩

def mine (s : Funding) (t : Tx) : Funding :=
  match s.net.transfer plain t with
  | some (net, ok) => { s with net := net, receipts := upd s.receipts t.nonce (some ok) }
  | none => s

theorem mine_step {Others : Net → Net → Prop} {owner : Address} {keypers : List Address} {s : Funding} {txs : List Tx} {t : Tx}
    (h1 : s.txs = some txs) (h2 : t ∈ txs.take s.sent) (h3 : (s.net.transfer plain t).isSome = true) :
    FundStep plain Others owner keypers s (mine s t) := by
  obtain ⟨⟨net, ok⟩, h⟩ := Option.isSome_iff_exists.1 h3
  unfold mine
  rw [h]
  exact .mined h1 h2 h

def ready (keypers : List Address) : Funding := { Funding.start net0 with answers := keypers.map net0.balance }

def signed (keypers : List Address) : Funding :=
  { ready keypers with txs := some (fundTxs 9 5 3 (keypers.zip (keypers.map net0.balance))) }

def s1 : Funding := mine { signed [1, 2] with sent := 1 } ⟨9, 1, 9 * (ether / 10), 3, 5⟩

def d2 : Funding := mine (mine { signed [1, 1] with sent := 2 } ⟨9, 1, 9 * (ether / 10), 3, 5⟩) ⟨9, 1, 9 * (ether / 10), 4, 5⟩

theorem s1_later {Others : Net → Net → Prop} : Relation.ReflTransGen (FundStep plain Others 9 [1, 2]) (.start net0) s1 := by
  refine .head (.ask (k := 1) rfl) (.head (.ask (k := 2) rfl) (.head (.sign (gasPrice := 5) (nonce := 3) rfl rfl (fun _ _ => rfl))
    (.head (.send (s := signed [1, 2]) rfl (by decide +kernel)) (.single ?_))))
  exact mine_step rfl (by decide +kernel) (by decide +kernel)

theorem d2_later {Others : Net → Net → Prop} : Relation.ReflTransGen (FundStep plain Others 9 [1, 1]) (.start net0) d2 := by
  refine .head (.ask (k := 1) rfl) (.head (.ask (k := 1) rfl) (.head (.sign (gasPrice := 5) (nonce := 3) rfl rfl (fun _ _ => rfl))
    (.head (.send (s := signed [1, 1]) rfl (by decide +kernel)) (.head (.send (s := { signed [1, 1] with sent := 1 }) rfl (by decide +kernel))
      (.head (b := mine { signed [1, 1] with sent := 2 } ⟨9, 1, 9 * (ether / 10), 3, 5⟩) ?_ (.single ?_))))))
  · exact mine_step rfl (by decide +kernel) (by decide +kernel)
  · refine mine_step (txs := fundTxs 9 5 3 ([1, 1].zip ([1, 1].map net0.balance))) ?_ (by decide +kernel) (by decide +kernel)
    decide +kernel

/-- Then both are drained. -/
def mineDrain (s : Draining) (t : Tx) : Draining :=
  match s.net.transfer plain t with
  | some (net, ok) => { s with net := net, receipts := upd s.receipts t.src (some ok) }
  | none => s

theorem mineDrain_step {Others : Net → Net → Prop} {receiver gp : Nat} {accounts : List Address} {s : Draining} {t : Tx}
    (h2 : t ∈ s.sent) (h3 : (s.net.transfer plain t).isSome = true) :
    DrainStep plain Others receiver gp accounts s (mineDrain s t) := by
  obtain ⟨⟨net, ok⟩, h⟩ := Option.isSome_iff_exists.1 h3
  unfold mineDrain
  rw [h]
  exact .mined h2 h

def asked : Draining :=
  ⟨net0, 2, [⟨1, 8, ether / 10 - 21000 * 5, 3, 5⟩, ⟨2, 8, 7 * (ether / 10) - 21000 * 5, 3, 5⟩], [], fun _ => none⟩

def u2 : Draining := mineDrain (mineDrain asked ⟨1, 8, ether / 10 - 21000 * 5, 3, 5⟩) ⟨2, 8, 7 * (ether / 10) - 21000 * 5, 3, 5⟩

theorem u2_later {Others : Net → Net → Prop} : Relation.ReflTransGen (DrainStep plain Others 8 5 [1, 2]) (.start net0) u2 := by
  refine .head (.ask (a := 1) (nonce := 3) (accepted := true) rfl (by decide)) ?_
  refine .head (.ask (a := 2) (nonce := 3) (accepted := true) rfl (by decide)) ?_
  refine .head (b := mineDrain asked ⟨1, 8, ether / 10 - 21000 * 5, 3, 5⟩) ?_ (.single ?_)
  · exact mineDrain_step (s := asked) (by decide +kernel) (by decide +kernel)
  · exact mineDrain_step (by decide +kernel) (by decide +kernel)

end Demo

open Demo in
/-- One of two keypers is funded. -/
theorem C93_example : Relation.ReflTransGen (FundStep plain (LeavesAlone [9, 1, 2]) 9 [1, 2]) (.start net0) s1 ∧ s1.succeeded ∧
    s1.net.balance 1 = ether ∧ s1.net.balance 2 = 7 * (ether / 10) ∧ s1.net.balance 9 + 9 * (ether / 10) + 21000 * 5 = 10 * ether := by
  refine ⟨s1_later, ⟨fundTxs 9 5 3 ([1, 2].zip ([1, 2].map net0.balance)), ?_, ?_, ?_⟩, ?_, ?_, ?_⟩ <;> decide +kernel

open Demo in
/-- Both are drained. -/
theorem C93_unfund_example :
    Relation.ReflTransGen (DrainStep plain (fun n n' => LeavesAlone [1, 2] n n' ∧ Spares [8] n n') 8 5 [1, 2]) (.start net0) u2 ∧
    u2.succeeded [1, 2] ∧ u2.net.balance 1 = 0 ∧ u2.net.balance 2 = 0 ∧ u2.net.balance 8 + 2 * (21000 * 5) = 8 * (ether / 10) := by
  refine ⟨u2_later, ⟨?_, ?_⟩, ?_, ?_, ?_⟩ <;> decide +kernel

open Demo in
/-- A keyper that is listed twice gets twice what it lacks. -/
theorem C93_twice_counterexample : Relation.ReflTransGen (FundStep plain (LeavesAlone [9, 1, 1]) 9 [1, 1]) (.start net0) d2 ∧ d2.succeeded ∧
    d2.net.balance 1 = 19 * (ether / 10) := by
  refine ⟨d2_later, ⟨fundTxs 9 5 3 ([1, 1].zip ([1, 1].map net0.balance)), ?_, ?_, ?_⟩, ?_⟩ <;> decide +kernel

end Props

end Shutter.Fund
