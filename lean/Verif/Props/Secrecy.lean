import Verif.Proofs.SecrecyRun
import Verif.Proofs.ToyDkg
import Verif.Props.Dkg

/-!
# C82: what is published does not reveal the eon secret key

`J` are the keypers whose knowledge is pooled; there are fewer of them than the threshold.
-/

namespace Shutter.Dkg.Props
open Shutter.Crypto Spec

/-- **C82** The evaluations that fewer than `t` keypers get say nothing about the secret of a dealer that draws its polynomial as the code does: whatever the evaluations `v`, every
secret `s` is shared by the same number of polynomials with these evaluations. -/
theorem C82_uniform (t : Nat) (J : Finset Nat) (few : J.card < t) (small : ∀ j ∈ J, j + 1 < order) (v : Nat → Nat) (hv : ∀ j ∈ J, v j < order) (s : Nat) (hs : s < order) :
    Nat.card {p : List Nat // IsPoly t p ∧ secret p = s ∧ ∀ j ∈ J, evalForKeyper p j = some (v j)} = order ^ (t - 1 - J.card) := by
  have hc : (points J).card = J.card + 1 := points_card J
  have key := fiber_card (t := t) (points_injOn small) (by omega) (fun x => if x.1 = 0 then (s : F) else (v (x.1 - 1) : F))
  rw [hc] at key
  rw [show t - 1 - J.card = t - (J.card + 1) by omega, ← key]
  refine Nat.card_congr ((Equiv.subtypeSubtypeEquivSubtypeInter (IsPoly t) (fun p => secret p = s ∧ ∀ j ∈ J, evalForKeyper p j = some (v j))).symm.trans
    ((polyEquiv t).subtypeEquiv ?_))
  intro p
  have hne : p.1 ≠ [] := by intro e; have := p.2.1; rw [e] at this; simp at this; omega
  have lt_of : ∀ {a b : Nat}, a < order → b < order → ((a : F) = (b : F)) → a = b := by
    intro a b ha hb h
    have := (ZMod.natCast_eq_natCast_iff' a b order).1 h
    rwa [Nat.mod_eq_of_lt ha, Nat.mod_eq_of_lt hb] at this
  constructor
  · rintro ⟨h1, h2⟩
    funext x
    rw [valuesAt_poly]
    obtain ⟨x, hx⟩ := x
    rw [points, Finset.mem_insert, Finset.mem_image] at hx
    rcases hx with rfl | ⟨j, hj, rfl⟩
    · rw [if_pos rfl, Nat.cast_zero, fval_zero, h1]
    · rw [if_neg (by simp [keyperX])]
      dsimp only
      rw [show keyperX j - 1 = j by simp [keyperX], polyEvalAt_cast (h2 j hj)]
  · intro h
    refine ⟨?_, fun j hj => ?_⟩
    · have h0 := congrFun h ⟨0, by simp [points]⟩
      rw [valuesAt_poly, if_pos rfl, Nat.cast_zero, fval_zero] at h0
      refine lt_of ?_ hs h0
      cases hq : p.1 with
      | nil => exact absurd hq hne
      | cons c cs => exact p.2.2 c (by rw [hq]; simp)
    · have h0 := congrFun h ⟨keyperX j, by simp only [points, Finset.mem_insert, Finset.mem_image]; exact .inr ⟨j, hj, rfl⟩⟩
      rw [valuesAt_poly, if_neg (by simp [keyperX])] at h0
      dsimp only at h0
      rw [show keyperX j - 1 = j by simp [keyperX]] at h0
      obtain ⟨u, hu⟩ := polyEvalAt_isSome (keyperX j) hne
      show polyEvalAt p.1 (keyperX j) = _
      rw [hu]
      rw [← polyEvalAt_cast hu] at h0
      rw [lt_of (polyEvalAt_lt p.2.2 hu) (hv j hj) h0]

/-- **C82** The same for the eon secret key, the sum of the dealers' secrets: whatever the other dealers contribute (`others`), one dealer that draws its polynomial at random leaves every eon key equally likely. -/
theorem C82_eon_key_uniform (t : Nat) (J : Finset Nat) (few : J.card < t) (small : ∀ j ∈ J, j + 1 < order) (v : Nat → Nat) (hv : ∀ j ∈ J, v j < order) (others s : Nat) (hs : s < order) :
    Nat.card {p : List Nat // IsPoly t p ∧ (others + secret p) % order = s ∧ ∀ j ∈ J, evalForKeyper p j = some (v j)} = order ^ (t - 1 - J.card) := by
  have ho : others % order < order := Nat.mod_lt _ order_pos
  rw [← C82_uniform t J few small v hv ((s + (order - others % order)) % order) (Nat.mod_lt _ order_pos)]
  refine Nat.card_congr (Equiv.subtypeEquivRight fun p => and_congr_right fun hp => and_congr_left fun _ => ?_)
  have hlt : secret p < order := by
    cases hq : p with
    | nil => exact order_pos
    | cons c cs => exact hp.2 c (by rw [hq]; simp)
  rw [Nat.add_mod, Nat.mod_eq_of_lt hlt]
  generalize secret p = x at *
  generalize others % order = y at *
  generalize order = n at *
  constructor
  · intro h
    by_cases hxy : y + x < n
    · rw [Nat.mod_eq_of_lt hxy] at h; subst h
      rw [show y + x + (n - y) = x + n by omega, Nat.add_mod_right, Nat.mod_eq_of_lt hlt]
    · rw [Nat.mod_eq_sub_mod (by omega), Nat.mod_eq_of_lt (by omega)] at h; subst h
      rw [show y + x - n + (n - y) = x by omega, Nat.mod_eq_of_lt hlt]
  · intro h
    by_cases hsy : s + (n - y) < n
    · rw [Nat.mod_eq_of_lt hsy] at h; subst h
      rw [show y + (s + (n - y)) = s + n by omega, Nat.add_mod_right, Nat.mod_eq_of_lt hs]
    · rw [Nat.mod_eq_sub_mod (by omega), Nat.mod_eq_of_lt (by omega)] at h; subst h
      rw [show y + (s + (n - y) - n) = s by omega, Nat.mod_eq_of_lt hs]

/-- **C82** A commitment reveals no more than its constant coefficient, the dealer's part of the public key: `threshold - 1` keypers can compute the others from it and what they have been sent,
with factors that do not depend on the polynomial. -/
theorem C82_commitment {G1 G2 GT : Type} [AddCommGroup G2] (env : Env G1 G2 GT) (law : ∀ x : G2, order • x = 0) (J : Finset Nat) (small : ∀ j ∈ J, j + 1 < order) :
    ∃ (a : Nat → Nat) (b : Nat → Nat → Nat), ∀ (p : List Nat) (v : Nat → Nat) (γ : G2), p.length = J.card + 1 → (∀ j ∈ J, evalForKeyper p j = some (v j)) →
      (polyGammas env p).head? = some γ →
      polyGammas env p = (List.range (J.card + 1)).map fun k => a k • γ + (∑ j ∈ J, b k j * v j) • env.g2 := by
  choose a b h using fun k => coeff_lin small k
  refine ⟨a, b, fun p v γ hl hv hγ => ?_⟩
  obtain ⟨c, cs, rfl⟩ : ∃ c cs, p = c :: cs := by cases p with
    | nil => simp at hl
    | cons c cs => exact ⟨c, cs, rfl⟩
  simp only [polyGammas, List.map_cons, List.head?_cons, Option.some.injEq] at hγ
  subst hγ
  apply List.ext_getElem
  · simp [polyGammas] at hl ⊢; exact hl
  intro k h1 h2
  have hk : k < (c :: cs).length := by rw [polyGammas_length] at h1; exact h1
  rw [List.getElem_map, List.getElem_range]
  have : (polyGammas env (c :: cs))[k] = (c :: cs)[k] • env.g2 := by simp only [polyGammas, List.getElem_map]
  rw [this, ← mul_nsmul', ← add_nsmul]
  apply smul_congr law
  have := h k (c :: cs) (by omega)
  rw [List.getD_eq_getElem?_getD, List.getElem?_eq_getElem hk, Option.getD_some] at this
  rw [this]
  push_cast
  congr 1
  refine Finset.sum_congr rfl fun j hj => ?_
  rw [polyEvalAt_cast (hv j hj)]

/-- Sums of the dealers' polynomials, pointwise. -/
theorem fval_sum_lin {J : Finset Nat} {a : Nat} {b : Nat → Nat} {y : F}
    (h : ∀ p : List Nat, p.length ≤ J.card + 1 → fval p y = a * (secret p : F) + ∑ j ∈ J, (b j : F) * fval p (keyperX j : F)) :
    ∀ ps : List (List Nat), (∀ p ∈ ps, p.length = J.card + 1) →
    (ps.map fun p => fval p y).sum = a * (ps.map fun p => (secret p : F)).sum + ∑ j ∈ J, (b j : F) * (ps.map fun p => fval p (keyperX j : F)).sum := by
  intro ps
  induction ps with
  | nil => intro _; simp
  | cons p ps ih =>
    intro hl
    simp only [List.map_cons, List.sum_cons]
    rw [h p (hl p (by simp)).le, ih fun q hq => hl q (by simp [hq])]
    simp only [mul_add, Finset.sum_add_distrib]
    ring

/-- **C82** The share that a keyper `i` publishes for a batch reveals no more than the batch's key: `threshold - 1` keypers can compute it from the key and their own shares, with factors that do not depend
on the secrets. Here `ps` are the dealers' polynomials, `evals n` what keyper `n` was sent; the key is what `computeEpochSecretKey` makes of the shares of any `threshold` keypers. -/
theorem C82_shares {G1 : Type} [AddCommGroup G1] (law : ∀ x : G1, order • x = 0) (J : Finset Nat) (small : ∀ j ∈ J, j + 1 < order) (i : Nat) :
    ∃ (a : Nat) (b : Nat → Nat), ∀ (ps : List (List Nat)) (evals : Nat → List Nat) (idxs : List Nat) (E key : G1), (∀ p ∈ ps, p.length = J.card + 1) →
      (∀ n, ps.map (fun p => evalForKeyper p n) = (evals n).map some) → idxs.Nodup → (∀ n ∈ idxs, n + 1 < order) →
      computeEpochSecretKey idxs (idxs.map fun n => computeEpochSecretKeyShare (computeEonSecretKeyShare (evals n)) E) (J.card + 1) = some key →
      computeEpochSecretKeyShare (computeEonSecretKeyShare (evals i)) E = a • key + ∑ j ∈ J, b j • computeEpochSecretKeyShare (computeEonSecretKeyShare (evals j)) E := by
  obtain ⟨a, b, h⟩ := value_lin small (keyperX i : F)
  refine ⟨a, b, fun ps evals idxs E key hl hev hnd hsm hkey => ?_⟩
  have hsk : ∀ n, ((computeEonSecretKeyShare (evals n) : Nat) : F) = (ps.map fun p => fval p (keyperX n : F)).sum := by
    intro n
    rw [eonSecretKeyShare_cast]
    have : ∀ (qs : List (List Nat)) (es : List Nat), qs.map (fun p => evalForKeyper p n) = es.map some → es.map (fun m : Nat => (m : F)) = qs.map fun p => fval p (keyperX n : F) := by
      intro qs
      induction qs with
      | nil => intro es he; cases es with
        | nil => rfl
        | cons => simp at he
      | cons q qs ih => intro es he; cases es with
        | nil => simp at he
        | cons e es =>
          simp only [List.map_cons, List.cons.injEq] at he ⊢
          exact ⟨polyEvalAt_cast he.1, ih es he.2⟩
    rw [this ps _ (hev n)]
  have hlen : idxs.length = J.card + 1 := by
    unfold computeEpochSecretKey at hkey
    rw [List.length_map] at hkey
    split at hkey
    · cases hkey
    · split at hkey
      · cases hkey
      · next h => simpa using h
  -- the joint polynomial
  obtain ⟨P, hPl, hPs, hP⟩ : ∃ P : List Nat, P.length = J.card + 1 ∧ ((secret P : Nat) : F) = (ps.map fun p => ((secret p : Nat) : F)).sum ∧ ∀ y, fval P y = (ps.map fun p => fval p y).sum := by
    clear hkey hsk hev
    induction ps with
    | nil => exact ⟨List.replicate (J.card + 1) 0, by simp, by simp [secret, List.replicate_succ], fun y => by
        have : ∀ n, fval (List.replicate n 0) y = 0 := by intro n; induction n with
          | zero => rfl
          | succ n ih => rw [List.replicate_succ, fval, ih]; simp
        simpa using this _⟩
    | cons p ps ih =>
      obtain ⟨P, h1, h2, h3⟩ := ih fun q hq => hl q (by simp [hq])
      have hp : p.length = J.card + 1 := hl p (by simp)
      have hz : ∀ (u w : List Nat) (y : F), u.length = w.length → fval (List.zipWith (· + ·) u w) y = fval u y + fval w y := by
        intro u
        induction u with
        | nil => intro w y hw; cases w with
          | nil => simp [fval]
          | cons => simp at hw
        | cons c cs ih => intro w y hw; cases w with
          | nil => simp at hw
          | cons d ds =>
            simp only [List.zipWith_cons_cons, fval]
            rw [ih ds y (by simpa using hw)]
            push_cast; ring
      refine ⟨List.zipWith (· + ·) p P, by simp [hp, h1], ?_, fun y => ?_⟩
      · rw [← fval_zero, hz _ _ _ (by rw [hp, h1]), fval_zero, fval_zero, h2]; simp
      · rw [hz _ _ _ (by rw [hp, h1]), h3]; simp
  have hrec := reconstruct law P idxs hnd hsm (by omega) (fun n => computeEonSecretKeyShare (evals n)) (fun n _ => by rw [hsk, hP]) E
  rw [hlen] at hrec
  have hk : key = secret P • E := Option.some.inj (hkey.symm.trans hrec)
  subst hk
  unfold computeEpochSecretKeyShare
  rw [← mul_nsmul']
  have : ∑ j ∈ J, b j • computeEonSecretKeyShare (evals j) • E = (∑ j ∈ J, b j * computeEonSecretKeyShare (evals j)) • E := by
    rw [Finset.sum_smul]
    exact Finset.sum_congr rfl fun j _ => (mul_nsmul' _ _ _).symm
  rw [this, ← add_nsmul]
  apply smul_congr law
  push_cast
  rw [hsk i, hPs, fval_sum_lin h ps hl]
  congr 1
  exact Finset.sum_congr rfl fun j _ => by rw [hsk j]

/-- **C82** Nothing else that a keyper publishes depends on its secret. Take any run of its key generation, with any messages arriving, in which it draws the polynomial `p`, and another polynomial `p'` that agrees with `p`
on what the keypers in `J` are sent. If only keypers in `J` accuse it, then with `p'` instead of `p` it goes through the same calls without a panic and publishes exactly the same, up to its commitment
(`C82_commitment`) and the evaluations encrypted for others. -/
theorem C82_indistinguishable {G1 G2 GT : Type} [AddCommGroup G2] [DecidableEq G2] (env : Env G1 G2 GT) (J : Finset Nat) (eon n t k : Nat) (p p' : List Nat)
    (drawn : IsPoly t p) (drawn' : IsPoly t p') (agree : ∀ j ∈ J, evalForKeyper p' j = evalForKeyper p j) (ops : List (Op G2)) (w : World G2)
    (h : run env (newWorld G2 eon n t k) (ops.map (withPoly env k p)) = some w) (accused : ∀ a ∈ accusersOf k w.accepted, a ∈ J) :
    ∃ w', run env (newWorld G2 eon n t k) (ops.map (withPoly env k p')) = some w' ∧ w'.emitted.map (seenBy J) = w.emitted.map (seenBy J) := by
  obtain ⟨w', h1, _, h2⟩ := twin_run env (e := eon) (n := n) (th := t) (w := newWorld G2 eon n t k) (w' := newWorld G2 eon n t k) drawn drawn' agree ops
    (logInv_init eon n t k)
    { phase := rfl, eon := rfl, num := rfl, thr := rfl, keyper := rfl, accs := rfl, apols := rfl, poly := .inl ⟨rfl, rfl⟩, comLen := rfl, com := fun _ _ => rfl,
      comOwn := rfl, evLen := rfl, ev := fun _ _ => rfl, evOwn := rfl } rfl h (fun m hm ha => accused _ (by
        unfold accusersOf
        rw [List.mem_filterMap]
        exact ⟨_, hm, by simp [ha]⟩))
  exact ⟨w', h1, h2⟩

/-- **C82** (why the accusers count) The apologies of a dealer are public. Once it has apologised to `threshold` keypers, everybody can compute its secret from them: the discrete logarithm of the constant
coefficient of its commitment. -/
theorem C82_revealed {G1 G2 GT : Type} [AddCommGroup G2] [DecidableEq G2] (env : Env G1 G2 GT) (law : ∀ x : G2, order • x = 0) (eon n t k : Nat) (ops : List (Op G2)) (w : World G2)
    (h : run env (newWorld G2 eon n t k) ops = some w) (noRngFailure : Op.start1 none ∉ ops)
    (m : PolyCommitmentMsg G2) (hm : Op.commitment m ∈ w.emitted) (hne : m.gammas ≠ [])
    (idxs : List Nat) (v : Nat → Nat) (distinct : idxs.Nodup) (small : ∀ i ∈ idxs, i + 1 < order) (many : m.gammas.length ≤ idxs.length)
    (apologised : ∀ i ∈ idxs, (i, (v i : Int)) ∈ revealed k w.emitted) :
    m.gammas.head? = some ((idxs.map fun i => lagrangeCoefficient i idxs * v i).sum • env.g2) := by
  have inv : HonestInv env eon n t k w := by
    refine run_induct env _ ops _ w (honestInv_init env eon n t k) ?_ h
    intro a op b hop ha hb
    exact honestInv_exec env eon n t k a b op (fun e => noRngFailure (e ▸ hop)) ha hb
  obtain ⟨p, hp, rfl⟩ := inv.emCommit m hm
  dsimp only at hne many ⊢
  rw [polyGammas_length] at many
  have hv : ∀ i ∈ idxs, ((v i : Nat) : F) = fval p (keyperX i : F) := by
    intro i hi
    have := apologised i hi
    unfold revealed at this
    rw [List.mem_filterMap] at this
    obtain ⟨op, hop, e⟩ := this
    cases op with
    | apology ap =>
      obtain ⟨q, u, hq, hu, e2⟩ := inv.emApol ap hop
      rw [hp] at hq
      obtain rfl := Option.some.inj hq
      dsimp only at e
      split at e
      · simp only [Option.some.injEq, Prod.mk.injEq] at e
        obtain ⟨rfl, e⟩ := e
        have e3 : ap.eval = (u : Int) := by rw [e2]
        have : u = v ap.accuser := by exact_mod_cast e3.symm.trans e
        rw [← this]
        exact polyEvalAt_cast hu
      · cases e
    | _ => simp at e
  have hsum := lagrange_at_zero p idxs distinct small many
  cases p with
  | nil => simp [polyGammas] at hne
  | cons c cs =>
    show some (c • env.g2) = _
    congr 1
    apply smul_congr law
    have : ((c : Nat) : F) = fval (c :: cs) 0 := by simp [fval]
    rw [this, ← hsum, Nat.cast_list_sum, List.map_map]
    congr 1
    refine List.map_congr_left fun i hi => ?_
    simp only [Function.comp]
    push_cast
    rw [hv i hi]

/-! ### A key generation of honest keypers that publishes the eon secret key -/

section late

/-- The life of keyper `j` in a key generation of three honest keypers with threshold 2 in which no evaluation arrives before the dealing phase ends. -/
def lateOps (j : Nat) : List (Op Zq) :=
  [.start1 (some (exPoly j)), exCommit 0, exCommit 1, exCommit 2, .start2] ++
    (List.range 3).flatMap (fun a => (List.range 3).filterMap fun d => if a = d then none else some (.accusation ⟨7, a, d⟩)) ++ [.start3] ++
    (List.range 3).flatMap (fun d => (List.range 3).filterMap fun a => if a = d then none else some (.apology ⟨7, a, d, (((evalForKeyper (exPoly d) a).getD 0 : Nat) : Int)⟩)) ++ [.fin]

def lateWorld (j : Nat) : World Zq := (run zEnv (newWorld Zq 7 3 2 j) (lateOps j)).getD (newWorld Zq 7 3 2 j)

/-- What everybody computes from the public apologies: the sum of the dealers' secrets. -/
def openKey (published : Nat → List (Op Zq)) : Nat :=
  ((List.range 3).map fun d => (((revealed d (published d)).map (·.1)).map fun i =>
    lagrangeCoefficient i ((revealed d (published d)).map (·.1)) * (((revealed d (published d)).lookup i).getD 0).toNat).sum).sum % order

/-- **C82** (finding) A dealer is not excluded when `threshold` keypers or more accuse it, however many. Three honest keypers with threshold 2, all commitments arrive, the evaluations are too late; every keyper accuses the two
others and is sent their apologies. No run panics, what a keyper accepts from another is what that one published, the key generation succeeds at all three - and the secret key of the eon can be read off the published apologies. -/
theorem C82_accused_counterexample :
    (∀ j < 3, run zEnv (newWorld Zq 7 3 2 j) (lateOps j) = some (lateWorld j)) ∧
    (∀ j < 3, ∀ op ∈ (lateWorld j).accepted, IsBroadcast op → ∃ d < 3, op ∈ (lateWorld d).emitted) ∧
    (∀ j < 3, ∃ r, computeResult zEnv (lateWorld j).state = some r ∧ r.publicKey = openKey (fun d => (lateWorld d).emitted) • zEnv.g2) ∧
    openKey (fun d => (lateWorld d).emitted) = 15 := by
  have hsome : ∀ j < 3, (run zEnv (newWorld Zq 7 3 2 j) (lateOps j)).isSome = true := by decide +kernel
  have hkey : openKey (fun d => (lateWorld d).emitted) = 15 := by decide +kernel
  refine ⟨fun j hj => ?_, by decide +kernel, fun j hj => ?_, hkey⟩
  · obtain ⟨w, hw⟩ := Option.isSome_iff_exists.1 (hsome j hj)
    unfold lateWorld
    rw [hw]; rfl
  · rw [hkey]
    have h : ∀ j < 3, (computeResult zEnv (lateWorld j).state).map (·.publicKey) = some ((15 : Nat) • zEnv.g2) := by decide +kernel
    obtain ⟨r, h1, h2⟩ := Option.map_eq_some_iff.1 (h j hj)
    exact ⟨r, h1, h2⟩

end late

/-! ### The hypotheses are met -/

/-- Threshold 3, keypers 0 and 2 pool what they know. -/
example : Nat.card {p : List Nat // IsPoly 3 p ∧ secret p = 5 ∧ ∀ j ∈ ({0, 2} : Finset Nat), evalForKeyper p j = some (j + 17)} = order ^ 0 :=
  C82_uniform 3 {0, 2} (by decide) (by decide +kernel) (fun j => j + 17) (by decide +kernel) 5 (by decide +kernel)

/-- Keyper 0 of the run of C13, accused by keyper 1: with `[1, 5]` instead of `[3, 4]` (both 11 for keyper 1), keyper 1 sees the same. -/
example : ∃ w', run zEnv (newWorld Zq 7 3 2 0) (exOps0.map (withPoly zEnv 0 [1, 5])) = some w' ∧
    ∃ w, run zEnv (newWorld Zq 7 3 2 0) (exOps0.map (withPoly zEnv 0 [3, 4])) = some w ∧ w'.emitted.map (seenBy {1}) = w.emitted.map (seenBy {1}) ∧ w'.emitted ≠ w.emitted := by
  have hs : (run zEnv (newWorld Zq 7 3 2 0) (exOps0.map (withPoly zEnv 0 [3, 4]))).isSome = true := by decide +kernel
  obtain ⟨w, hw⟩ := Option.isSome_iff_exists.1 hs
  have ew : w = (run zEnv (newWorld Zq 7 3 2 0) (exOps0.map (withPoly zEnv 0 [3, 4]))).getD (newWorld Zq 7 3 2 0) := by rw [hw]; rfl
  obtain ⟨w', h1, h2⟩ := C82_indistinguishable zEnv {1} 7 3 2 0 [3, 4] [1, 5] ⟨rfl, by decide +kernel⟩ ⟨rfl, by decide +kernel⟩ (by decide +kernel) exOps0 w hw
    (by subst ew; decide +kernel)
  refine ⟨w', h1, w, hw, h2, ?_⟩
  have ew' : w' = (run zEnv (newWorld Zq 7 3 2 0) (exOps0.map (withPoly zEnv 0 [1, 5]))).getD (newWorld Zq 7 3 2 0) := by rw [h1]; rfl
  subst ew ew'
  decide +kernel

end Shutter.Dkg.Props
