import Verif.Spec.Sender
import Verif.Proofs.AppMono

/-! # The worker for messages: invariants -/

namespace Shutter.Sender
open Shutter.App

theorem firstCheck_some {own : Addr} {tx : MessageWithNonce} {ok : Bool} : ∀ {l : List Rec}, firstCheck own tx l = some ok →
    ∃ (i : Nat) (r : Rec), l[i]? = some r ∧ r.op = .checkTx (some (own, tx)) ∧ r.resp = .checkTx ok ∧
      ∀ (j : Nat) (x : Rec), j < i → l[j]? = some x → ∀ ok', ¬ (x.op = .checkTx (some (own, tx)) ∧ x.resp = .checkTx ok') := by
  intro l
  induction l with
  | nil => intro h; simp [firstCheck] at h
  | cons r rs ih =>
    intro h
    have lift : firstCheck own tx rs = some ok → (∀ ok', ¬ (r.op = .checkTx (some (own, tx)) ∧ r.resp = .checkTx ok')) →
        ∃ (i : Nat) (x : Rec), (r :: rs)[i]? = some x ∧ x.op = .checkTx (some (own, tx)) ∧ x.resp = .checkTx ok ∧
          ∀ (j : Nat) (y : Rec), j < i → (r :: rs)[j]? = some y → ∀ ok', ¬ (y.op = .checkTx (some (own, tx)) ∧ y.resp = .checkTx ok') := by
      intro h1 h2
      obtain ⟨i, x, a1, a2, a3, a4⟩ := ih h1
      refine ⟨i + 1, x, by simpa using a1, a2, a3, fun j y hj hy => ?_⟩
      cases j with
      | zero => simp at hy; subst hy; exact h2
      | succ j => exact a4 j y (by omega) (by simpa using hy)
    unfold firstCheck at h
    split at h
    · next a m ok0 h1 h2 =>
      split at h
      · next hc =>
        obtain ⟨rfl, rfl⟩ := hc
        simp at h; subst h
        exact ⟨0, r, rfl, h1, h2, fun j _ hj => by omega⟩
      · next hc =>
        refine lift h fun ok' ⟨e1, _⟩ => hc ?_
        rw [h1] at e1
        simpa using e1
    · next hne =>
      exact lift h fun ok' ⟨e1, e2⟩ => hne _ _ _ e1 e2

theorem delivery_some {own : Addr} {tx : MessageWithNonce} {ok : Bool} : ∀ {l : List Rec}, delivery own tx l = some ok →
    ∃ (i k : Nat) (r c : Rec) (d : DeliverResponse), i < k ∧ l[i]? = some r ∧ r.op = .deliverTx (some (own, tx)) ∧ r.resp = .deliverTx d ∧ d.ok = ok ∧
      l[k]? = some c ∧ c.op = .commit := by
  intro l
  induction l with
  | nil => intro h; simp [delivery] at h
  | cons r rs ih =>
    intro h
    have lift : delivery own tx rs = some ok → ∃ (i k : Nat) (x c : Rec) (d : DeliverResponse), i < k ∧ (r :: rs)[i]? = some x ∧
        x.op = .deliverTx (some (own, tx)) ∧ x.resp = .deliverTx d ∧ d.ok = ok ∧ (r :: rs)[k]? = some c ∧ c.op = .commit := by
      intro h1
      obtain ⟨i, k, x, c, d, a1, a2, a3, a4, a5, a6, a7⟩ := ih h1
      exact ⟨i + 1, k + 1, x, c, d, by omega, by simpa using a2, a3, a4, a5, by simpa using a6, a7⟩
    unfold delivery at h
    split at h
    · next a m d h1 h2 =>
      split at h
      · next hc =>
        obtain ⟨rfl, rfl, hcom⟩ := hc
        simp only [List.any_eq_true] at hcom
        obtain ⟨c, hc, hop⟩ := hcom
        obtain ⟨k, hk⟩ := List.mem_iff_getElem?.1 hc
        simp at h
        refine ⟨0, k + 1, r, c, d, by omega, rfl, h1, h2, h, by simpa using hk, ?_⟩
        split at hop <;> simp_all
      · exact lift h
    · exact lift h

/-- What is known of an attempt that was answered with `v`, `n` calls having been made. -/
inductive Answered (own : Addr) (chain : Bytes) (log : List Rec) (a : Attempt) (n : Nat) : Verdict → Prop
  | away (i : Nat) (r : Rec) : a.start ≤ i → i < n → log[i]? = some r → r.op = .checkTx (some (own, a.tx chain)) → r.resp = .checkTx false →
      (∀ (j : Nat) (x : Rec), a.start ≤ j → j < i → log[j]? = some x → ∀ ok, ¬ (x.op = .checkTx (some (own, a.tx chain)) ∧ x.resp = .checkTx ok)) →
      Answered own chain log a n .sent
  | delivered (i k : Nat) (r c : Rec) (d : DeliverResponse) : a.start ≤ i → i < k → k < n → log[i]? = some r → r.op = .deliverTx (some (own, a.tx chain)) →
      r.resp = .deliverTx d → log[k]? = some c → c.op = .commit → Answered own chain log a n (if d.ok then .sent else .gaveUp)

theorem get_append {α : Type} {l : List α} {i : Nat} {x : α} (h : l[i]? = some x) (t : List α) : (l ++ t)[i]? = some x := by
  rw [List.getElem?_append_left]
  · exact h
  · exact (List.getElem?_eq_some_iff.1 h).1

theorem get_append_lt {α : Type} {l t : List α} {i : Nat} {x : α} (h : (l ++ t)[i]? = some x) (hi : i < l.length) : l[i]? = some x := by
  rwa [List.getElem?_append_left hi] at h

theorem Answered.mono {own chain log a n v} (h : Answered own chain log a n v) (hn : n ≤ log.length) (t : List Rec) : Answered own chain (log ++ t) a n v := by
  cases h with
  | away i r h1 h2 h3 h4 h5 h6 => exact .away i r h1 h2 (get_append h3 t) h4 h5 (fun j x hj hji hx => h6 j x hj hji (get_append_lt hx (by omega)))
  | delivered i k r c d h1 h2 h3 h4 h5 h6 h7 h8 => exact .delivered i k r c d h1 h2 h3 (get_append h4 t) h5 h6 (get_append h7 t) h8

theorem answered_of {own : Addr} {chain : Bytes} {log : List Rec} {a : Attempt} {res : Result}
    (h : broadcastTxCommit own (a.tx chain) (log.drop a.start) = some res) : Answered own chain log a log.length (verdict (some res)) := by
  have hlt : ∀ {i : Nat} {x : Rec}, log[i]? = some x → i < log.length := fun h => (List.getElem?_eq_some_iff.1 h).1
  unfold broadcastTxCommit at h
  split at h
  · cases h
  · next hf =>
    simp only [Option.some.injEq] at h; subst h
    obtain ⟨i, r, a1, a2, a3, a4⟩ := firstCheck_some hf
    rw [List.getElem?_drop] at a1
    refine .away (a.start + i) r (by omega) (hlt a1) a1 a2 a3 fun j x hj hji hx => ?_
    exact a4 (j - a.start) x (by omega) (by rw [List.getElem?_drop, Nat.add_sub_cancel' hj]; exact hx)
  · next hf =>
    rw [Option.map_eq_some_iff] at h
    obtain ⟨ok, h1, rfl⟩ := h
    obtain ⟨i, k, r, c, d, a1, a2, a3, a4, a5, a6, a7⟩ := delivery_some h1
    rw [List.getElem?_drop] at a2 a6
    have := Answered.delivered (n := log.length) (a.start + i) (a.start + k) r c d (by omega) (by omega) (hlt a6) a2 a3 a4 a6 a7
    subst a5
    cases hd : d.ok <;> rw [hd] at this <;> simpa [verdict, sendMessage, isRetriable] using this

/-- The invariants. -/
structure Inv (ps : Parsers) (dev : Bool) (own : Addr) (chain : Bytes) (b : Box) : Prop where
  exec : Exec ps dev b.log b.app
  nonces : (b.attempts.map Attempt.nonce).Nodup
  signed : ∀ (i : Nat) (r : Rec) tx, b.log[i]? = some r → opTx r.op = some (own, tx) → ∃ a ∈ b.attempts, tx = a.tx chain ∧ a.start ≤ i
  starts : ∀ a ∈ b.attempts, a.start ≤ b.log.length
  origin : ∀ a ∈ b.attempts, a.msg ∈ b.added
  accounted : ∀ a ∈ b.attempts, a ∈ b.failed ∨ b.running = some a ∨ ∃ d ∈ b.done, d.last = a
  running : ∀ a, b.running = some a → a ∈ b.attempts ∧ b.queue.head? = some a.msg ∧ ∀ d ∈ b.done, d.finish ≤ a.start
  finish : ∀ d ∈ b.done, d.finish ≤ b.log.length
  answered : ∀ d ∈ b.done, d.last ∈ b.attempts ∧ d.last.msg = d.msg ∧ Answered own chain b.log d.last d.finish d.verdict
  order : b.done.Pairwise (fun d d' => d.finish ≤ d'.last.start)
  all : b.added = b.done.map Done.msg ++ b.queue

theorem inv_start (ps dev own chain) : Inv ps dev own chain (Box.new dev) := by
  refine ⟨.start, ?_, ?_, ?_, ?_, ?_, ?_, ?_, ?_, ?_, ?_⟩ <;> simp [Box.new]

theorem finished_inv {ps dev own chain} {b : Box} {a : Attempt} {answer : Option Result} (h : Inv ps dev own chain b) (hr : b.running = some a)
    (ha : verdict answer ≠ .retry → Answered own chain b.log a b.log.length (verdict answer)) : Inv ps dev own chain (b.finished a answer) := by
  obtain ⟨r1, r2, r3⟩ := h.running a hr
  unfold Box.finished
  split
  · next hv =>
    refine ⟨h.exec, h.nonces, h.signed, h.starts, h.origin, fun x hx => ?_, by simp, h.finish, h.answered, h.order, h.all⟩
    rcases h.accounted x hx with h1 | h1 | h1
    · exact .inl (List.mem_append_left _ h1)
    · rw [hr] at h1; simp at h1; subst h1; exact .inl (by simp)
    · exact .inr (.inr h1)
  · next v hv =>
    have ha := ha hv
    refine ⟨h.exec, h.nonces, h.signed, h.starts, h.origin, fun x hx => ?_, by simp, ?_, ?_, ?_, ?_⟩
    · rcases h.accounted x hx with h1 | h1 | ⟨d, h1, h2⟩
      · exact .inl h1
      · rw [hr] at h1; simp at h1; subst h1; exact .inr (.inr ⟨_, by simp; exact .inr rfl, rfl⟩)
      · exact .inr (.inr ⟨d, List.mem_append_left _ h1, h2⟩)
    · intro d hd
      rcases List.mem_append.1 hd with hd | hd
      · exact h.finish d hd
      · simp at hd; subst hd; exact le_refl _
    · intro d hd
      rcases List.mem_append.1 hd with hd | hd
      · exact h.answered d hd
      · simp at hd; subst hd; exact ⟨r1, rfl, ha⟩
    · refine List.pairwise_append.2 ⟨h.order, by simp, fun d hd d' hd' => ?_⟩
      simp at hd'; subst hd'; exact r3 d hd
    · simp only
      rw [h.all]
      cases hq : b.queue with
      | nil => rw [hq] at r2; cases r2
      | cons m ms => rw [hq] at r2; simp at r2; simp [r2]

theorem step_inv {ps dev own chain} {b b' : Box} {ev : Ev} (h : Inv ps dev own chain b) (hl : ∀ o op, ev = .call o op → o.Lawful)
    (hs : b.step ps own chain ev = some b') : Inv ps dev own chain b' := by
  cases ev with
  | call o op =>
    simp only [Box.step] at hs
    split at hs
    · next hc =>
      rw [Option.map_eq_some_iff] at hs
      obtain ⟨p, hp, rfl⟩ := hs
      refine ⟨.step o op p.1 p.2 h.exec (hl o op rfl) hp, h.nonces, ?_, fun a ha => (h.starts a ha).trans (by simp), h.origin, h.accounted, h.running, ?_, ?_, h.order, h.all⟩
      · intro i r tx hi ho
        rcases Nat.lt_or_ge i b.log.length with hlt | hge
        · exact h.signed i r tx (get_append_lt hi hlt) ho
        · rw [List.getElem?_append_right hge] at hi
          obtain ⟨_, rfl⟩ := List.getElem?_eq_some_iff.1 hi
          simp only [List.getElem_singleton] at ho
          rw [ho] at hc
          simp at hc
          obtain ⟨a, ha, e⟩ := hc
          exact ⟨a, ha, e, (h.starts a ha).trans hge⟩
      · intro d hd
        have := h.finish d hd
        simp; omega
      · intro d hd
        obtain ⟨a1, a2, a3⟩ := h.answered d hd
        exact ⟨a1, a2, a3.mono (h.finish d hd) _⟩
    · cases hs
  | add m =>
    simp only [Box.step, Option.some.injEq] at hs
    subst hs
    refine ⟨h.exec, h.nonces, h.signed, h.starts, fun a ha => List.mem_append_left _ (h.origin a ha), h.accounted, fun a ha => ?_, h.finish, h.answered, h.order, ?_⟩
    · obtain ⟨a1, a2, a3⟩ := h.running a ha
      refine ⟨a1, ?_, a3⟩
      cases hq : b.queue with
      | nil => rw [hq] at a2; cases a2
      | cons x xs => rw [hq] at a2; simpa using a2
    · simp only; rw [h.all, List.append_assoc]
  | «try» nonce =>
    simp only [Box.step] at hs
    split at hs
    · next m ms hr hq =>
      split at hs
      · cases hs
      · next hn =>
        simp only [Option.some.injEq] at hs
        subst hs
        refine ⟨h.exec, ?_, ?_, ?_, ?_, ?_, ?_, h.finish, ?_, h.order, h.all⟩
        · rw [List.map_append]
          refine List.nodup_append.2 ⟨h.nonces, by simp, fun x hx y hy hxy => hn ?_⟩
          simp at hy
          obtain ⟨a, ha, e⟩ := List.mem_map.1 hx
          simp only [List.any_eq_true, decide_eq_true_eq]
          exact ⟨a, ha, by rw [e, hxy, hy]⟩
        · intro i r tx hi ho
          obtain ⟨a, ha, e⟩ := h.signed i r tx hi ho
          exact ⟨a, List.mem_append_left _ ha, e⟩
        · intro a ha
          rcases List.mem_append.1 ha with ha | ha
          · exact h.starts a ha
          · simp at ha; subst ha; exact le_refl _
        · intro a ha
          rcases List.mem_append.1 ha with ha | ha
          · exact h.origin a ha
          · simp at ha; subst ha; simp [h.all, hq]
        · intro a ha
          rcases List.mem_append.1 ha with ha | ha
          · rcases h.accounted a ha with h1 | h1 | h1
            · exact .inl h1
            · rw [hr] at h1; cases h1
            · exact .inr (.inr h1)
          · simp at ha; subst ha; exact .inr (.inl rfl)
        · intro a ha
          simp at ha; subst ha
          exact ⟨by simp, by rw [hq]; rfl, h.finish⟩
        · intro d hd
          obtain ⟨a1, a2⟩ := h.answered d hd
          exact ⟨List.mem_append_left _ a1, a2⟩
    · cases hs
  | fail =>
    simp only [Box.step, Option.map_eq_some_iff] at hs
    obtain ⟨a, ha, rfl⟩ := hs
    exact finished_inv h ha (fun hv => absurd rfl hv)
  | answer =>
    simp only [Box.step, Option.bind_eq_some_iff, Option.map_eq_some_iff] at hs
    obtain ⟨a, ha, res, h1, rfl⟩ := hs
    exact finished_inv h ha (fun _ => answered_of h1)
  | restart =>
    simp only [Box.step, Option.some.injEq] at hs
    subst hs
    refine ⟨h.exec, h.nonces, h.signed, h.starts, h.origin, fun x hx => ?_, by simp, h.finish, h.answered, h.order, h.all⟩
    rcases h.accounted x hx with h1 | h1 | h1
    · exact .inl (List.mem_append_left _ h1)
    · exact .inl (by rw [h1]; simp)
    · exact .inr (.inr h1)

theorem Works.inv {ps dev own chain} {b : Box} (h : Works ps dev own chain b) : Inv ps dev own chain b := by
  induction h with
  | start => exact inv_start _ _ _ _
  | step ev _ hl hs ih => exact step_inv ih hl hs

end Shutter.Sender
