import Verif.Proofs.DriverParams

/-! Two keypers on the same chain. -/

namespace Shutter.Decide
open Shutter.Crypto Shutter.Dkg Shutter.Observe Shutter.Decide.Spec
open Shutter.App (Addr findAddressIndex)
open Shutter.Events (Codecs)
open Shutter.Observe.Props

variable {G1 G2 GT R : Type}

theorem started_unique {evs : List Stamped} {e b b' : Nat} {S S' : Int} (h : Started evs e b S) (h' : Started evs e b' S') :
    b = b' ∧ S = S' := by
  obtain ⟨pre, post, rfl, hp⟩ := h
  obtain ⟨pre', post', he, hp'⟩ := h'
  rcases List.append_eq_append_iff.1 he with ⟨l, h1, h2⟩ | ⟨l, h1, h2⟩
  · cases l with
    | nil =>
      simp only [List.nil_append, List.cons.injEq, Stamped.mk.injEq, Shutter.App.Event.eonStarted.injEq] at h2
      exact ⟨h2.1.2.2, h2.1.1⟩
    | cons x l =>
      simp only [List.cons_append, List.cons.injEq] at h2
      rw [← h2.1] at h1
      exact absurd (hp' ⟨S, .eonStarted e b⟩ (by rw [h1]; simp) e b rfl) (lt_irrefl _)
  · cases l with
    | nil =>
      simp only [List.nil_append, List.cons.injEq, Stamped.mk.injEq, Shutter.App.Event.eonStarted.injEq] at h2
      exact ⟨h2.1.2.2.symm, h2.1.1.symm⟩
    | cons x l =>
      simp only [List.cons_append, List.cons.injEq] at h2
      rw [← h2.1] at h1
      exact absurd (hp ⟨S', .eonStarted e b'⟩ (by rw [h1]; simp) e b' rfl) (lt_irrefl _)

/-- Earlier and later parts of the same chain. -/
theorem started_unique_chain {codecs : Codecs} {chain : Chain} {h h' : Int} {e b b' : Nat} {S S' : Int}
    (k : Started (chainEvents codecs chain 0 h) e b S) (k' : Started (chainEvents codecs chain 0 h') e b' S') : b = b' ∧ S = S' := by
  have mono : ∀ {h h' : Int} {b : Nat} {S : Int}, h ≤ h' → Started (chainEvents codecs chain 0 h) e b S →
      Started (chainEvents codecs chain 0 h') e b S := by
    intro h h' b S hh k
    rcases lt_or_ge h (-1) with hn | hn
    · rw [chainEvents_empty codecs chain (by omega)] at k
      obtain ⟨pre, post, hp, _⟩ := k
      simp at hp
    · rw [← chainEvents_append codecs chain (m := h) (by omega) hh]
      exact started_append k
  rcases le_total h h' with hh | hh
  · exact started_unique (mono hh k) k'
  · exact started_unique k (mono hh k')

theorem started_height {codecs : Codecs} {chain : Chain} {h : Int} {e b : Nat} {S : Int} (k : Started (chainEvents codecs chain 0 h) e b S) :
    0 ≤ S ∧ S ≤ h := by
  obtain ⟨pre, post, hp, _⟩ := k
  have : (⟨S, .eonStarted e b⟩ : Stamped) ∈ chainEvents codecs chain 0 h := by rw [hp]; simp
  exact chainEvents_heights _ _ this

/-- After the last phase nothing is prescribed any more. -/
theorem lists_stable {p : Params G2} {a b : List Stamped} {t : Int} (hL : 0 ≤ p.length) (ha : ∀ x ∈ a, x.height ≤ t)
    (hb : ∀ x ∈ b, t + 1 ≤ x.height) (hfin : p.start + 3 * p.length ≤ t + 1) :
    commitments p (a ++ b) = commitments p a ∧ evals p (a ++ b) = evals p a ∧ accusations p (a ++ b) = accusations p a ∧
    apologies p (a ++ b) = apologies p a := by
  have new : ∀ (k : Kind) (f : Stamped → List (Op G2)), (∀ x, t + 1 ≤ x.height → f x = []) →
      (messages k p.eon (a ++ b)).flatMap f = (messages k p.eon a).flatMap f := by
    intro k f hf
    have e : ((messages k p.eon (a ++ b)).filter (fun y => decide (y.height ≥ t + 1))).flatMap f = [] :=
      flatMap_nil (fun x hx => hf x (by
        have := (List.mem_filter.1 hx).2
        simp only [ge_iff_le, decide_eq_true_eq] at this
        exact this))
    rw [messages_split k p.eon ha hb, List.flatMap_append, e, List.append_nil]
  refine ⟨new _ _ ?_, new _ _ ?_, new _ _ ?_, new _ _ ?_⟩
  · intro x hx
    apply commitmentOf_nil
    simp only [inPhase, decide_eq_false_iff_not]
    omega
  · intro x hx
    apply evalsOf_nil
    simp only [inPhase, decide_eq_false_iff_not]
    omega
  · intro x hx
    apply accusationsOf_nil
    simp only [inPhase, decide_eq_false_iff_not]
    omega
  · intro x hx
    apply apologiesOf_nil
    simp only [inPhase, decide_eq_false_iff_not]
    omega

theorem lists_stable_chain {p : Params G2} {codecs : Codecs} {chain : Chain} {n m : Int} (hL : 0 ≤ p.length) (hS : 0 ≤ p.start)
    (hn : p.start + 3 * p.length ≤ n) (hm : p.start + 3 * p.length ≤ m) :
    let a := chainEvents codecs chain 0 (n - 1)
    let b := chainEvents codecs chain 0 (m - 1)
    commitments p a = commitments p b ∧ evals p a = evals p b ∧ accusations p a = accusations p b ∧ apologies p a = apologies p b := by
  have main : ∀ {n m : Int}, n ≤ m → p.start + 3 * p.length ≤ n →
      commitments p (chainEvents codecs chain 0 (m - 1)) = commitments p (chainEvents codecs chain 0 (n - 1)) ∧
      evals p (chainEvents codecs chain 0 (m - 1)) = evals p (chainEvents codecs chain 0 (n - 1)) ∧
      accusations p (chainEvents codecs chain 0 (m - 1)) = accusations p (chainEvents codecs chain 0 (n - 1)) ∧
      apologies p (chainEvents codecs chain 0 (m - 1)) = apologies p (chainEvents codecs chain 0 (n - 1)) := by
    intro n m hnm hn
    rw [← chainEvents_append codecs chain (lo := 0) (m := n - 1) (hi := m - 1) (by omega) (by omega)]
    exact lists_stable hL (fun x hx => (chainEvents_heights _ _ hx).2) (fun x hx => (chainEvents_heights _ _ hx).1) (by omega)
  intro a b
  rcases le_total n m with h | h
  · obtain ⟨h1, h2, h3, h4⟩ := main h hn
    exact ⟨h1.symm, h2.symm, h3.symm, h4.symm⟩
  · exact main h hm

theorem configFor_append (a b : List Stamped) (i : Nat)
    (h : ∀ x ∈ b, ∀ start t ks c, x.ev = .batchConfig start t ks c → i < start) : configFor (a ++ b) i = configFor a i := by
  unfold configFor
  rw [List.filterMap_append, (List.filterMap_eq_nil_iff (l := b)).2, List.append_nil]
  intro x hx
  split
  · next start t ks c hev =>
    rw [if_neg]
    have := h x hx _ _ _ _ hev
    omega
  · rfl

theorem mem_iff_lookup {α β : Type} [BEq α] [LawfulBEq α] : ∀ {l : List (α × β)}, (l.map (·.1)).Nodup → ∀ k v, (k, v) ∈ l ↔ l.lookup k = some v := by
  intro l
  induction l with
  | nil => simp
  | cons x l ih =>
    intro hn k v
    obtain ⟨a, b⟩ := x
    simp only [List.map_cons, List.nodup_cons] at hn
    rw [List.mem_cons, List.lookup_cons]
    by_cases hk : k == a
    · have : k = a := by simpa using hk
      subst this
      simp only [beq_self_eq_true, Option.some.injEq, Prod.mk.injEq, true_and]
      constructor
      · rintro (rfl | h)
        · rfl
        · exact absurd (List.mem_map.2 ⟨_, h, rfl⟩) hn.1
      · rintro rfl
        exact Or.inl rfl
    · have : ¬ k = a := by simpa using hk
      have hk' : (k == a) = false := by simpa using hk
      simp only [hk', Prod.mk.injEq, this, false_and, false_or]
      exact ih hn.2 k v

variable [AddCommGroup G2] [DecidableEq G2]

/-- The views agree, so the results agree. -/
theorem views_agree (env : Env G1 G2 GT) {a b : PureDKG G2} (ht : a.threshold = b.threshold) (hn : a.numKeypers = b.numKeypers)
    (he : a.eon = b.eon) (hc : ∀ d, com a d = com b d) (hacc : ∀ k, k ∈ a.accusations ↔ k ∈ b.accusations)
    (hap : ∀ k, apo a k = apo b k) (na : (a.apologies.map (·.1)).Nodup) (nb : (b.apologies.map (·.1)).Nodup) :
    (∀ dealer, isCorrupt env a dealer = isCorrupt env b dealer) ∧
    ∀ r₁ r₂, computeResult env a = some r₁ → computeResult env b = some r₂ →
      r₁.publicKey = r₂.publicKey ∧ r₁.publicKeyShares = r₂.publicKeyShares ∧ r₁.threshold = r₂.threshold ∧
      r₁.eon = r₂.eon ∧ r₁.numKeypers = r₂.numKeypers := by
  have h1 : ∀ d c, HasCommit a d c ↔ HasCommit b d c := by
    intro d c
    have := hc d
    simp only [com] at this
    simp only [HasCommit, this]
  have h2 : ∀ x d, HasAccusation a x d ↔ HasAccusation b x d := fun x d => hacc (x, d)
  have h3 : ∀ x d v, HasApology a x d v ↔ HasApology b x d v := by
    intro x d v
    simp only [HasApology]
    rw [mem_iff_lookup na, mem_iff_lookup nb]
    have := hap (x, d)
    simp only [apo] at this
    rw [this]
  have hcor : ∀ dealer, isCorrupt env a dealer = isCorrupt env b dealer := by
    intro d
    rw [Bool.eq_iff_iff, isCorrupt_iff, isCorrupt_iff]
    simp only [h1, h2, h3, ht]
  refine ⟨hcor, ?_⟩
  intro r₁ r₂ e₁ e₂
  obtain ⟨c1, _, f1, _, rfl⟩ := computeResult_some env _ _ e₁
  obtain ⟨c2, _, f2, _, rfl⟩ := computeResult_some env _ _ e₂
  rw [hn] at f1
  have := entries_fst_eq env a b ht hcor h1 _ _ _ f1 f2
  simp only [this, hn, ht, he]
  exact ⟨trivial, trivial, trivial, trivial, trivial⟩

/-- What is left at the end depends on the eon only. -/
theorem dkg_views {cx : Cfg G1 G2 GT R} (hL : 0 ≤ cx.phaseLength) {codecs : Codecs} {chain : Chain} {next S : Int} {dkg : DKG G2}
    (inv : DkgInv cx (chainEvents codecs chain 0 (next - 1)) next dkg S) (hfin : S + 3 * cx.phaseLength ≤ next) :
    ∃ i, findAddressIndex dkg.keypers cx.own = some i ∧ dkg.pure.state.numKeypers = dkg.keypers.length ∧ dkg.pure.state.eon = dkg.eon ∧
    dkg.pure.state.phase = finalized ∧ (dkg.pure.state.apologies.map (·.1)).Nodup ∧
    let p : Params G2 := ⟨dkg.eon, S, cx.phaseLength, dkg.keypers, i, cx.gammas, cx.decryptEval⟩
    let evs := chainEvents codecs chain 0 (next - 1)
    (∀ d, com dkg.pure.state d = (commitments p evs).findSome? (commitmentIn dkg.pure.state.threshold d)) ∧
    (∀ k, k ∈ dkg.pure.state.accusations ↔ (accusations p evs).any (accusationIn k) = true) ∧
    (∀ k, apo dkg.pure.state k = (apologies p evs).findSome? (apologyIn k)) ∧
    ∀ d, d ≠ i → evl dkg.pure.state d = (evals p evs).findSome? (evalIn d) := by
  obtain ⟨ops, thr, i, hrun, hi, hpre⟩ := inv.ran
  have hp := prescribed_views (p := ⟨dkg.eon, S, cx.phaseLength, dkg.keypers, i, cx.gammas, cx.decryptEval⟩) hpre hrun hfin hL
  have hlog := logInv_run cx.crypto _ _ _ _ _ _ hrun
  obtain ⟨h1, h2, h3, h4, h5, h6, h7, h8⟩ := hp
  refine ⟨i, hi, h2, h3, h4, hlog.apolKeys, ?_, h6, h7, h8⟩
  rw [h1]
  exact h5

end Shutter.Decide
