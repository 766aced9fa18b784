import Verif.Proofs.DkgRun

/-! The result of the DKG. -/

namespace Shutter.Dkg
open Shutter.Crypto Shutter.Crypto.Spec

variable {G1 G2 GT : Type} [AddCommGroup G2] [DecidableEq G2]

/-- What `collect` records for one dealer. -/
def Entry (env : Env G1 G2 GT) (st : PureDKG G2) (d : Nat) (ce : List G2 × Nat) : Prop :=
  (isCorrupt env st d = true ∧ ce = (zeroGammas (sub1u64 st.threshold), 0)) ∨
  (isCorrupt env st d = false ∧ HasCommit st d ce.1 ∧ polyEval st d = some ce.2 ∧
    verifyPolyEval env st.keyper ce.2 ce.1 st.threshold = true)

theorem collect_spec (env : Env G1 G2 GT) (st : PureDKG G2) : ∀ (ds : List Nat) (ces : List (List G2 × Nat)) (np : Nat),
    collect env st ds = some (ces, np) →
    List.Forall₂ (Entry env st) ds ces ∧ np = (ds.filter fun d => !isCorrupt env st d).length := by
  intro ds
  induction ds with
  | nil => intro ces np h; simp [collect] at h; obtain ⟨rfl, rfl⟩ := h; simp
  | cons d ds ih =>
    intro ces np h
    rw [collect] at h
    split at h
    · next hc =>
      simp only [Option.map_eq_some_iff] at h
      obtain ⟨⟨ces', np'⟩, hr, h⟩ := h
      simp only [Prod.mk.injEq] at h
      obtain ⟨rfl, rfl⟩ := h
      obtain ⟨i1, i2⟩ := ih _ _ hr
      exact ⟨List.Forall₂.cons (Or.inl ⟨hc, rfl⟩) i1, by simp [hc, i2]⟩
    · next hc =>
      split at h
      · next c eval h1 h2 =>
        split at h
        · simp at h
        · next hv =>
          simp only [Option.map_eq_some_iff] at h
          obtain ⟨⟨ces', np'⟩, hr, h⟩ := h
          simp only [Prod.mk.injEq] at h
          obtain ⟨rfl, rfl⟩ := h
          obtain ⟨i1, i2⟩ := ih _ _ hr
          refine ⟨List.Forall₂.cons (Or.inr ⟨by simpa using hc, h1, h2, by simpa using hv⟩) i1, ?_⟩
          simp [hc, i2]
      · simp at h

theorem collect_isSome (env : Env G1 G2 GT) (st : PureDKG G2) : ∀ (ds : List Nat),
    (∀ d ∈ ds, isCorrupt env st d = false → ∃ c e, HasCommit st d c ∧ polyEval st d = some e ∧
      verifyPolyEval env st.keyper e c st.threshold = true) → ∃ ces np, collect env st ds = some (ces, np) := by
  intro ds
  induction ds with
  | nil => intro _; exact ⟨[], 0, rfl⟩
  | cons d ds ih =>
    intro h
    obtain ⟨ces, np, hc⟩ := ih (fun d hd => h d (by simp [hd]))
    rw [collect]
    by_cases hd : isCorrupt env st d = true
    · rw [if_pos hd, hc]; exact ⟨_, _, rfl⟩
    · rw [if_neg hd]
      obtain ⟨c, e, h1, h2, h3⟩ := h d (by simp) (by simpa using hd)
      unfold HasCommit at h1
      simp only [h1, h2, h3, hc]
      exact ⟨_, _, rfl⟩

omit [DecidableEq G2] in
theorem gammasPi_zero (h : ∀ p : G2, order • p = 0) (n x : Nat) : gammasPi (zeroGammas (G2 := G2) n) x = 0 := by
  rw [gammasPi_eq h]
  apply List.sum_eq_zero
  intro y hy
  rw [List.mem_mapIdx] at hy
  obtain ⟨i, hi, rfl⟩ := hy
  simp [zeroGammas]

omit [DecidableEq G2] in
theorem foldl_add_eq_sum {α : Type} (f : α → G2) : ∀ (l : List α) (a : G2),
    l.foldl (fun p x => p + f x) a = a + (l.map f).sum := by
  intro l
  induction l with
  | nil => simp
  | cons x xs ih => intro a; rw [List.foldl_cons, ih, List.map_cons, List.sum_cons, add_assoc]

/-- Each entry's evaluation matches its commitment at the keyper's own index. -/
theorem entry_match (env : Env G1 G2 GT) (law : ∀ p : G2, order • p = 0) (st : PureDKG G2) (d : Nat)
    (ce : List G2 × Nat) (h : Entry env st d ce) : gammasPi ce.1 (keyperX st.keyper) = ce.2 • env.g2 := by
  rcases h with ⟨_, rfl⟩ | ⟨_, _, _, h⟩
  · simp [gammasPi_zero law]
  · unfold verifyPolyEval at h
    split at h
    · simp at h
    · simp only [beq_iff_eq] at h; exact h.symm

theorem entries_share (env : Env G1 G2 GT) (law : ∀ p : G2, order • p = 0) (st : PureDKG G2) :
    ∀ (ds : List Nat) (ces : List (List G2 × Nat)), List.Forall₂ (Entry env st) ds ces →
    ((ces.map (·.1)).map fun gs => gammasPi gs (keyperX st.keyper)).sum = (ces.map (·.2)).sum • env.g2 := by
  intro ds ces h
  induction h with
  | nil => simp
  | cons h1 _ ih =>
    simp only [List.map_cons, List.sum_cons, add_nsmul]
    rw [entry_match env law st _ _ h1, ih]

omit [DecidableEq G2] in
theorem eonShare_smul (law : ∀ p : G2, order • p = 0) (l : List Nat) (g : G2) :
    computeEonSecretKeyShare l • g = l.sum • g := by
  apply smul_congr law
  rw [eonSecretKeyShare_cast, Nat.cast_list_sum]

theorem polyValue_zipWith (a b : List Nat) (x : Nat) : a.length = b.length →
    polyValue (List.zipWith (· + ·) a b) x = polyValue a x + polyValue b x := by
  induction a generalizing b with
  | nil => intro h; cases b with
    | nil => simp [polyValue]
    | cons => simp at h
  | cons c cs ih =>
    intro h
    cases b with
    | nil => simp at h
    | cons d ds =>
      simp only [List.zipWith_cons_cons, polyValue_cons]
      rw [ih ds (by simpa using h)]
      ring

theorem polyValue_replicate (n x : Nat) : polyValue (List.replicate n 0) x = 0 := by
  induction n with
  | zero => simp [polyValue]
  | succ n ih => rw [List.replicate_succ, polyValue_cons, ih]; simp

/-- The sum of the dealers' polynomials. -/
theorem joint_poly (env : Env G1 G2 GT) [AddCommGroup G1] [CommGroup GT] (law : Lawful env) (t : Nat) :
    ∀ (cs : List (List G2)), (∀ c ∈ cs, c.length = t) →
    ∃ P : List Nat, P.length = t ∧ ∀ x, (cs.map fun c => gammasPi c x).sum = polyValue P x • env.g2 := by
  intro cs
  induction cs with
  | nil => intro _; exact ⟨List.replicate t 0, by simp, by intro x; simp [polyValue_replicate]⟩
  | cons c cs ih =>
    intro h
    obtain ⟨P, hP, hx⟩ := ih (fun c hc => h c (by simp [hc]))
    obtain ⟨q, rfl⟩ := Props.C06_every_commitment_has_polynomial env law c
    have hq : q.length = t := by have := h (polyGammas env q) (by simp); simpa [polyGammas] using this
    refine ⟨List.zipWith (· + ·) q P, by simp [hP, hq], ?_⟩
    intro x
    rw [List.map_cons, List.sum_cons, hx, gammasPi_polyGammas env law.order_smul_G2, ← add_nsmul,
      polyValue_zipWith _ _ _ (by omega)]

theorem polyValue_zero (P : List Nat) (h : 0 < P.length) : polyValue P 0 = secret P := by
  cases P with
  | nil => simp at h
  | cons c cs => rw [polyValue_cons]; simp [secret]

/-- What a successful `computeResult` returned. -/
theorem computeResult_some (env : Env G1 G2 GT) (st : PureDKG G2) (r : Result G2)
    (h : computeResult env st = some r) : ∃ ces, st.phase ≥ finalized ∧
      List.Forall₂ (Entry env st) (List.range st.numKeypers) ces ∧
      st.threshold ≤ ((List.range st.numKeypers).filter fun d => !isCorrupt env st d).length ∧
      r = { eon := st.eon, numKeypers := st.numKeypers, threshold := st.threshold, keyper := st.keyper,
            secretKeyShare := computeEonSecretKeyShare (ces.map (·.2)),
            publicKey := computeEonPublicKey (ces.map (·.1)),
            publicKeyShares := (List.range st.numKeypers).map fun d => computeEonPublicKeyShare d (ces.map (·.1)) } := by
  unfold computeResult at h
  split at h
  · simp at h
  · next hp =>
    split at h
    · simp at h
    · next ces np hc =>
      split at h
      · simp at h
      · next hn =>
        simp only [Option.some.injEq] at h
        obtain ⟨h1, h2⟩ := collect_spec env st _ _ _ hc
        exact ⟨ces, by omega, h1, by omega, h.symm⟩

/-- The commitments collected depend only on the broadcast views. -/
theorem entries_fst_eq (env : Env G1 G2 GT) (s1 s2 : PureDKG G2) (ht : s1.threshold = s2.threshold)
    (hc : ∀ d, isCorrupt env s1 d = isCorrupt env s2 d) (hm : ∀ d c, HasCommit s1 d c ↔ HasCommit s2 d c) :
    ∀ (ds : List Nat) (c1 c2 : List (List G2 × Nat)), List.Forall₂ (Entry env s1) ds c1 →
    List.Forall₂ (Entry env s2) ds c2 → c1.map (·.1) = c2.map (·.1) := by
  intro ds c1 c2 h1
  induction h1 generalizing c2 with
  | nil => intro h2; cases h2; rfl
  | cons a1 _ ih =>
    intro h2
    cases h2 with
    | cons a2 b2 =>
      simp only [List.map_cons]
      rw [ih _ b2]
      congr 1
      rcases a1 with ⟨x1, rfl⟩ | ⟨x1, x2, _⟩
      · rcases a2 with ⟨_, rfl⟩ | ⟨y1, _⟩
        · rw [ht]
        · rw [← hc, x1] at y1; simp at y1
      · rcases a2 with ⟨y1, _⟩ | ⟨_, y2, _⟩
        · rw [← hc, x1] at y1; simp at y1
        · rw [hm] at x2
          unfold HasCommit at x2 y2
          rw [x2] at y2
          simpa using y2

/-- An honest dealer's evaluation matches its own commitment for every receiver. -/
theorem verify_own (env : Env G1 G2 GT) (law : ∀ p : G2, order • p = 0) (p : List Nat) (a v t : Nat)
    (hv : evalForKeyper p a = some v) (hd : degree (polyGammas env p) = sub1u64 t) :
    verifyPolyEval env a v (polyGammas env p) t = true := by
  unfold verifyPolyEval
  rw [if_neg (by rw [hd]; simp), beq_iff_eq, gammasPi_polyGammas env law]
  apply smul_congr law
  rw [polyValue_cast]
  exact polyEvalAt_cast hv

end Shutter.Dkg
