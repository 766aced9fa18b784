import Verif.Proofs.Sender
import Verif.Proofs.NetApp

/-! # Messages that are counted as sent although they were refused -/

namespace Shutter.Sender
open Shutter.App

open Classical in
theorem sinceCommit_snoc (log : List Rec) (r : Rec) :
    sinceCommit (log ++ [r]) = if r.op = .commit then [] else sinceCommit log ++ [r] := by
  unfold sinceCommit
  rw [List.reverse_append]
  simp only [List.reverse_cons, List.reverse_nil, List.nil_append, List.singleton_append, List.takeWhile_cons]
  cases h : r.op <;> simp

/-- A call since the last commit is in the log, and no commit follows. -/
theorem mem_sinceCommit {log : List Rec} {r : Rec} (h : r ∈ sinceCommit log) :
    ∃ j : Nat, log[j]? = some r ∧ ∀ (k : Nat) (c : Rec), j ≤ k → log[k]? = some c → c.op ≠ .commit := by
  induction log using List.reverseRecOn with
  | nil => simp [sinceCommit] at h
  | append_singleton log x ih =>
    rw [sinceCommit_snoc] at h
    split at h
    · simp at h
    · next hx =>
      have last : ∀ (k : Nat) (c : Rec), log.length ≤ k → (log ++ [x])[k]? = some c → c.op ≠ .commit := by
        intro k c hk hc
        rw [List.getElem?_append_right hk] at hc
        obtain ⟨_, rfl⟩ := List.getElem?_eq_some_iff.1 hc
        simpa using hx
      rcases List.mem_append.1 h with h | h
      · obtain ⟨j, h1, h2⟩ := ih h
        refine ⟨j, get_append h1 _, fun k c hk hc => ?_⟩
        rcases Nat.lt_or_ge k log.length with hlt | hge
        · exact h2 k c hk (get_append_lt hc hlt)
        · exact last k c hge hc
      · simp at h; subst h
        exact ⟨log.length, by simp, fun k c hk hc => last k c hk hc⟩

/-- The counters of `CheckTx` count what was let in since the last commit. -/
theorem checkTx_exact {ps dev log s} (h : Exec ps dev log s) :
    (∀ a, ∃ L : List Nat, L.Nodup ∧ L.length = s.checkTxState.txCounts a ∧
      ∀ n ∈ L, s.checkTxState.nonces a n = true) ∧
    ∀ a n, s.checkTxState.nonces a n = true → (a, n) ∈ (sinceCommit log).filterMap Rec.admits := by
  induction h with
  | start =>
    exact ⟨fun a => ⟨[], by simp, rfl, by simp⟩, fun a n hn => by simp [newApp, newCheckTxState, newNonceTracker] at hn⟩
  | @step log s o op s' r hE ho hs ih =>
    obtain ⟨ih1, ih2⟩ := ih
    have keep : op ≠ .commit → s'.checkTxState.txCounts = s.checkTxState.txCounts → s'.checkTxState.nonces = s.checkTxState.nonces →
        (∀ a, ∃ L : List Nat, L.Nodup ∧ L.length = s'.checkTxState.txCounts a ∧
          ∀ n ∈ L, s'.checkTxState.nonces a n = true) ∧
        ∀ a n, s'.checkTxState.nonces a n = true → (a, n) ∈ (sinceCommit (log ++ [⟨s, op, r, s'⟩])).filterMap Rec.admits := by
      intro h1 h2 h3
      rw [sinceCommit_snoc, if_neg h1, h2, h3]
      refine ⟨ih1, fun a n hn => ?_⟩
      rw [List.filterMap_append]
      exact List.mem_append_left _ (ih2 a n hn)
    have zero : (∀ a, s'.checkTxState.txCounts a = 0) → (∀ a n, s'.checkTxState.nonces a n = false) →
        (∀ a, ∃ L : List Nat, L.Nodup ∧ L.length = s'.checkTxState.txCounts a ∧
          ∀ n ∈ L, s'.checkTxState.nonces a n = true) ∧
        ∀ a n, s'.checkTxState.nonces a n = true → (a, n) ∈ (sinceCommit (log ++ [⟨s, op, r, s'⟩])).filterMap Rec.admits := by
      intro h1 h2
      exact ⟨fun a => ⟨[], by simp, by simp [h1 a], by simp⟩, fun a n hn => by rw [h2] at hn; cases hn⟩
    have frame := step_frame hs
    cases op with
    | initChain req =>
      simp only [App.step, Option.map_eq_some_iff] at hs
      obtain ⟨s₁, hi, he⟩ := hs
      simp only [Prod.mk.injEq] at he
      obtain ⟨rfl, rfl⟩ := he
      rcases initChain_cases hi with ⟨ks, t, c, pm, _, _, hc, hk, _, rfl⟩ | ⟨rfl, _⟩
      · exact zero (fun a => rfl) (fun a n => rfl)
      · exact keep (by simp) rfl rfl
    | commit =>
      simp only [App.step, Option.some.injEq, Prod.mk.injEq] at hs
      obtain ⟨rfl, rfl⟩ := hs
      exact zero (fun a => rfl) (fun a n => rfl)
    | endBlock ht =>
      have hcs : s'.checkTxState = s.checkTxState := by
        simp only [App.step, Option.map_eq_some_iff] at hs
        obtain ⟨p, hi, he⟩ := hs
        simp only [Prod.mk.injEq] at he
        obtain ⟨_, _, _, _, _, _, h', _⟩ := endBlock_cases hi
        rw [← he.1, h']
      exact keep (by simp) (by rw [hcs]) (by rw [hcs])
    | deliverTx tx =>
      simp only [App.step, Option.map_eq_some_iff] at hs
      obtain ⟨p, hi, he⟩ := hs
      simp only [Prod.mk.injEq] at he
      obtain ⟨rfl, rfl⟩ := he
      rcases deliverTx_cases hi with ⟨h1, h2⟩ | ⟨a, m, _, _, _, hE'⟩
      · exact keep (by simp) (by rw [h1]) (by rw [h1])
      · have := hE'.members (s := withNonce s a m.randomNonce) hE.checkTxInv.1
        exact keep (by simp) this.2.1 this.2.2
    | checkTx tx =>
      simp only [App.step, Option.some.injEq, Prod.mk.injEq] at hs
      obtain ⟨h1, h2⟩ := hs
      rcases checkTx_cases s tx with hc | ⟨a, m, rfl, hch, hn, hadd, hc⟩
      · rw [hc] at h1
        subst h1
        exact keep (by simp) rfl rfl
      · rw [hc] at h1 h2
        obtain ⟨hmem, hcnt, hnon, hst⟩ := addTx_true hadd
        rw [hst] at h1
        subst h1; subst h2
        rw [sinceCommit_snoc, if_neg (by simp), List.filterMap_append]
        simp only [List.filterMap_cons, List.filterMap_nil, Rec.admits]
        refine ⟨fun b => ?_, fun b n hb => ?_⟩
        · obtain ⟨L, l1, l2, l3⟩ := ih1 b
          by_cases hb : b = a
          · subst hb
            refine ⟨m.randomNonce :: L, List.nodup_cons.2 ⟨fun hin => ?_, l1⟩, by simp [l2], ?_⟩
            · rw [l3 _ hin] at hnon; cases hnon
            · intro n hn
              rcases List.mem_cons.1 hn with rfl | hn
              · exact (nonce_add _ _ _ _ _).2 (.inl ⟨rfl, rfl⟩)
              · exact (nonce_add _ _ _ _ _).2 (.inr (l3 n hn))
          · exact ⟨L, l1, by simp [Function.update_of_ne hb, l2], fun n hn => (nonce_add _ _ _ _ _).2 (.inr (l3 n hn))⟩
        · rcases (nonce_add _ _ _ _ _).1 hb with ⟨rfl, rfl⟩ | hb
          · exact List.mem_append_right _ (by simp)
          · exact List.mem_append_left _ (ih2 b n hb)

theorem admits_some {r : Rec} {a : Addr} {n : Nat} (h : r.admits = some (a, n)) :
    ∃ m, r.op = .checkTx (some (a, m)) ∧ r.resp = .checkTx true ∧ m.randomNonce = n := by
  unfold Rec.admits at h
  split at h
  · next a' m h1 h2 => simp at h; obtain ⟨rfl, rfl⟩ := h; exact ⟨m, h1, h2, rfl⟩
  · cases h

/-- What `CheckTx` returned, at call `j`. -/
theorem at_index {ps dev log s} (h : Exec ps dev log s) {j : Nat} {r : Rec} (hj : log[j]? = some r) :
    Exec ps dev (log.take j) r.before ∧ ∃ o : Orders, o.Lawful ∧ App.step ps o r.before r.op = some (r.after, r.resp) := by
  obtain ⟨hl, rfl⟩ := List.getElem?_eq_some_iff.1 hj
  exact h.at (pre := log.take j) (post := log.drop (j + 1)) (by simp)

theorem checkTx_resp {ps dev log s} (h : Exec ps dev log s) {j : Nat} {r : Rec} (hj : log[j]? = some r) {tx : Tx} (ho : r.op = .checkTx tx) :
    r.resp = .checkTx (checkTx r.before tx).2 := by
  obtain ⟨_, o, _, hs⟩ := at_index h hj
  rw [ho] at hs
  simp only [App.step, Option.some.injEq, Prod.mk.injEq] at hs
  exact hs.2.symm

theorem same_attempt {b : Box} (h : (b.attempts.map Attempt.nonce).Nodup) {a a' : Attempt} (ha : a ∈ b.attempts) (ha' : a' ∈ b.attempts)
    (e : a.nonce = a'.nonce) : a = a' := List.inj_on_of_nodup_map h ha ha' e

/-- No call about the transaction of the attempt before it was first checked. -/
theorem no_earlier {ps dev own chain} {b : Box} (h : Inv ps dev own chain b) (ht : Treats own chain b.log) {a : Attempt} (ha : a ∈ b.attempts) {i : Nat}
    (hi : ∀ (j : Nat) (x : Rec), a.start ≤ j → j < i → b.log[j]? = some x → ∀ ok, ¬ (x.op = .checkTx (some (own, a.tx chain)) ∧ x.resp = .checkTx ok)) :
    ∀ (k : Nat) (x : Rec), k < i → b.log[k]? = some x → ∀ tx, opTx x.op = some (own, tx) → tx.randomNonce ≠ a.nonce := by
  have key : ∀ (k : Nat) (x : Rec) tx, k < i → b.log[k]? = some x → x.op = .checkTx (some (own, tx)) → tx.randomNonce ≠ a.nonce := by
    intro k x tx hk hx ho e
    obtain ⟨a', ha', rfl, hst⟩ := h.signed k x tx hx (by rw [ho]; rfl)
    obtain rfl := same_attempt h.nonces ha' ha e
    exact hi k x hst hk hx _ ⟨ho, checkTx_resp h.exec hx ho⟩
  intro k x hk hx tx ho
  cases hop : x.op with
  | checkTx t => rw [hop] at ho; simp only [opTx] at ho; subst ho; exact key k x tx hk hx hop
  | deliverTx t =>
    rw [hop] at ho; simp only [opTx] at ho; subst ho
    obtain ⟨j, x', hj, hx', ho', _⟩ := ht.checked k x tx hx hop
    exact key j x' tx (by omega) hx' ho'
  | initChain _ => rw [hop] at ho; cases ho
  | endBlock _ => rw [hop] at ho; cases ho
  | commit => rw [hop] at ho; cases ho

theorem pairwise_cases {α : Type} {R : α → α → Prop} {l : List α} (h : l.Pairwise R) {x y : α} (hx : x ∈ l) (hy : y ∈ l) : x = y ∨ R x y ∨ R y x := by
  obtain ⟨i, hi, rfl⟩ := List.getElem_of_mem hx
  obtain ⟨j, hj, rfl⟩ := List.getElem_of_mem hy
  rw [List.pairwise_iff_getElem] at h
  rcases Nat.lt_trichotomy i j with hij | rfl | hij
  · exact .inr (.inl (h i j hi hj hij))
  · exact .inl rfl
  · exact .inr (.inr (h j i hj hi hij))

theorem lost {ps dev own chain} {b : Box} (h : Inv ps dev own chain b) (ht : Treats own chain b.log) {d : Done} (hd : d ∈ b.done) {i : Nat} {r : Rec}
    (hi1 : d.last.start ≤ i) (hi2 : i < d.finish) (hi3 : b.log[i]? = some r) (hop : r.op = .checkTx (some (own, d.last.tx chain))) (hresp : r.resp = .checkTx false)
    (hfirst : ∀ (j : Nat) (x : Rec), d.last.start ≤ j → j < i → b.log[j]? = some x →
      ∀ ok, ¬ (x.op = .checkTx (some (own, d.last.tx chain)) ∧ x.resp = .checkTx ok)) :
    ∃ as : List Attempt, as.Nodup ∧ as.length = 10 ∧ ∀ a ∈ as, a ∈ b.failed ∧ LetIn own chain (sinceCommit (b.log.take i)) a := by
  obtain ⟨dl1, dl2, dl3⟩ := h.answered d hd
  have hearly := no_earlier h ht dl1 hfirst
  have hrmem := List.mem_of_getElem? hi3
  obtain ⟨hpre, o, ho, hs⟩ := at_index h.exec hi3
  have hmempre : ∀ {x : Rec}, x ∈ b.log.take i → ∃ k : Nat, k < i ∧ b.log[k]? = some x := by
    intro x hx
    obtain ⟨k, hk⟩ := List.mem_iff_getElem?.1 hx
    rw [List.getElem?_take] at hk
    split at hk
    · next hki => exact ⟨k, hki, hk⟩
    · cases hk
  -- the counters
  obtain ⟨ex1, ex2⟩ := checkTx_exact hpre
  have hadm : ∀ n, r.before.checkTxState.nonces own n = true → ∃ (j : Nat) (x : Rec) (a : Attempt), j < i ∧ b.log[j]? = some x ∧
      x ∈ sinceCommit (b.log.take i) ∧ (∀ (k : Nat) (c : Rec), j ≤ k → k < i → b.log[k]? = some c → c.op ≠ .commit) ∧
      x.op = .checkTx (some (own, a.tx chain)) ∧ x.resp = .checkTx true ∧ a.nonce = n ∧ a ∈ b.attempts ∧ a.start ≤ j := by
    intro n hn
    obtain ⟨x, hx, hx2⟩ := List.mem_filterMap.1 (ex2 own n hn)
    obtain ⟨m, m1, m2, m3⟩ := admits_some hx2
    obtain ⟨j, j1, j2⟩ := mem_sinceCommit hx
    rw [List.getElem?_take] at j1
    split at j1
    · next hji =>
      obtain ⟨a, a1, a2, a3⟩ := h.signed j x m j1 (by rw [m1]; rfl)
      subst a2
      exact ⟨j, x, a, hji, j1, hx, fun k c hk hki hc => j2 k c hk (by rw [List.getElem?_take, if_pos hki]; exact hc), m1, m2, m3, a1, a3⟩
    · cases j1
  have hcnt : 10 ≤ r.before.checkTxState.txCounts own := by
    have hc : (checkTx r.before (some (own, d.last.tx chain))).2 = false := by
      have := checkTx_resp h.exec hi3 hop
      rw [hresp] at this
      simpa using this.symm
    unfold checkTx at hc
    simp only at hc
    have hch := ht.chainId r hrmem _ (by rw [hop]; rfl)
    rw [if_neg (by rw [hch]; simp [Attempt.tx])] at hc
    have hnt : r.before.nonceTracker own (d.last.tx chain).randomNonce = false := by
      cases hn : r.before.nonceTracker own (d.last.tx chain).randomNonce with
      | false => rfl
      | true =>
        obtain ⟨x, hx, m, m1, m2⟩ := hpre.nonce_used own _ hn
        obtain ⟨k, hk, hxk⟩ := hmempre hx
        exact absurd m2 (hearly k x hk hxk m (by rw [show x.op = _ from m1]; rfl))
    rw [if_neg (by simp [NonceTracker.check, hnt])] at hc
    have hnn : r.before.checkTxState.nonces own (d.last.tx chain).randomNonce = false := by
      cases hn : r.before.checkTxState.nonces own (d.last.tx chain).randomNonce with
      | false => rfl
      | true =>
        obtain ⟨j, x, a, j1, j2, _, _, j3, _, j4, _⟩ := hadm _ hn
        exact absurd j4 (hearly j x j1 j2 _ (by rw [j3]; rfl))
    have hmem : own ∈ r.before.checkTxState.members := by
      rw [hpre.checkTxInv.1]
      obtain ⟨c, hc1, hc2⟩ := ht.keyper r hrmem _ (by rw [hop]; rfl)
      exact List.mem_flatMap.2 ⟨c, hc1, hc2⟩
    by_contra hlt
    simp only [CheckTxState.addTx] at hc
    rw [if_neg (by simp [hmem]), if_neg (by simp [maxTxsPerBlock]; omega), if_neg (by simp [NonceTracker.check, hnn])] at hc
    simp at hc
  obtain ⟨L, l1, l2, l3⟩ := ex1 own
  -- each of them is an attempt without an answer
  have hex : ∀ n ∈ L.take 10, ∃ a : Attempt, a.nonce = n ∧ a ∈ b.failed ∧ LetIn own chain (sinceCommit (b.log.take i)) a := by
    intro n hn
    obtain ⟨j, x, a, j1, j2, j3, j4, j5, j6, j7, j8, j9⟩ := hadm n (l3 n (List.mem_of_mem_take hn))
    refine ⟨a, j7, ?_, x, j3, j5, j6⟩
    have hne : a ≠ d.last := by
      rintro rfl
      exact hearly j x j1 j2 _ (by rw [j5]; rfl) rfl
    rcases h.accounted a j8 with ha | ha | ⟨d', hd', ha⟩
    · exact ha
    · have := (h.running a ha).2.2 d hd
      omega
    · subst ha
      rcases pairwise_cases h.order hd hd' with e | e | e
      · exact absurd (by rw [e]) hne
      · omega
      · obtain ⟨e1, e2, e3⟩ := h.answered d' hd'
        generalize hv : d'.verdict = v at e3
        cases e3 with
        | away i1 r1 f1 f2 f3 f4 f5 f6 =>
          exfalso
          have hearly' := no_earlier h ht e1 f6
          rcases Nat.lt_trichotomy i1 j with hlt | rfl | hgt
          · exact ht.dropped i1 j r1 x _ f3 f4 f5 (fun k y hk hy hyo => hearly' k y hk hy _ hyo rfl) hlt j2 (by rw [j5]; rfl)
          · rw [f3] at j2; cases j2; rw [f5] at j6; cases j6
          · exact hearly' j x hgt j2 _ (by rw [j5]; rfl) rfl
        | delivered i1 k1 r1 c1 d1 f1 f2 f3 f4 f5 f6 f7 f8 =>
          exfalso
          have hk1 : k1 < j := by
            by_contra hc
            exact j4 k1 c1 (by omega) (by omega) f7 f8
          have hx := checkTx_resp h.exec j2 j5
          have hxpre := (at_index h.exec j2).1
          have hin : r1 ∈ b.log.take j := List.mem_of_getElem? (i := i1) (by rw [List.getElem?_take, if_pos (by omega)]; exact f4)
          have hnt := hxpre.nonces r1 hin own _ f5 (ht.chainId r1 (List.mem_of_getElem? f4) _ (by rw [f5]; rfl)).symm
          rw [j6] at hx
          simp only [checkTx] at hx
          rw [if_neg (by rw [ht.chainId x (List.mem_of_getElem? j2) _ (by rw [j5]; rfl)]; simp [Attempt.tx]),
            if_pos (by simp [NonceTracker.check, hnt])] at hx
          simp at hx
  choose f hf using hex
  refine ⟨(L.take 10).attach.map (fun n => f n.1 n.2), ?_, by simp; omega, ?_⟩
  · refine (List.nodup_map_iff_inj_on (List.nodup_attach.2 (l1.sublist (List.take_sublist _ _)))).2 ?_
    intro x _ y _ e
    have := congrArg Attempt.nonce e
    rw [(hf x.1 x.2).1, (hf y.1 y.2).1] at this
    exact Subtype.ext this
  · intro a ha
    obtain ⟨n, _, rfl⟩ := List.mem_map.1 ha
    exact (hf n.1 n.2).2

end Shutter.Sender
