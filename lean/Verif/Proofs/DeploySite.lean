import Verif.Proofs.Deploy
import Verif.Proofs.Bytes

/-! # The invariant of the deployment -/

namespace Shutter.Deploy
open Shutter.Sol Shutter.Sol.World Shutter.Files
open Shutter.App (Addr)
open Shutter.Token (Reaches)

theorem inner_later {E} : ∀ (ops : List Op) (w : World), WorldLater E w (w.runInner E ops)
  | [], w => by rw [runInner]
  | op :: ops, w => by
    rw [runInner]
    split
    · exact inner_later ops w
    · next w' h => exact .head (.tx h) (inner_later ops w')

theorem reaches_later {E} {w w' : World} (h : Reaches E w w') : WorldLater E w w' := by
  obtain ⟨ops, rfl⟩ := h
  exact inner_later ops w

section
variable {E : Env} {owner : Address} {addr : Nat → Addr} {n : Nat}

/-- The ten contracts. -/
def plan (addr : Nat → Addr) (n : Nat) : List Creation :=
  [.config 20, .keyBroadcast (sol (addr n)), .feeBank, .batcher (sol (addr n)) (sol (addr (n + 2))), .token,
   .deposit (sol (addr (n + 4))), .executor (sol (addr n)) (sol (addr (n + 3))) (sol (addr (n + 5))),
   .targetProxy (sol (addr (n + 6))), .target (sol (addr (n + 7))),
   .keyperSlasher 20 (sol (addr n)) (sol (addr (n + 6))) (sol (addr (n + 5)))]

theorem batch_txs : (deployBatch addr n).2 = (plan addr n).mapIdx (fun i c => ⟨n + i, c⟩) := rfl

theorem batch_contracts : (deployBatch addr n).1 =
    { config := addr n, keyBroadcast := addr (n + 1), feeBank := addr (n + 2), batcher := addr (n + 3), executor := addr (n + 6),
      token := addr (n + 4), deposit := addr (n + 5), slasher := addr (n + 9), targetProxy := addr (n + 7), target := addr (n + 8) } := rfl

/-- The contracts of the first `i` transactions. -/
def placed (addr : Nat → Addr) (n i : Nat) : List (Address × Creation) :=
  ((plan addr n).mapIdx (fun i c => (sol (addr (n + i)), c))).take i

/-- The situation in between, or at the end. -/
inductive Phase (E : Env) (owner : Address) (addr : Nat → Addr) (n : Nat) (s : Site) : Prop
  | failed (m : Nat) : n ≤ m → m < n + 10 → s.receipts m = some false → Phase E owner addr n s
  | spoiled : n + 6 ≤ s.nonce → s.nonce ≤ n + 9 → Spoiled s.world → Phase E owner addr n s
  | early (block : Nat) : s.nonce ≤ n + 9 → s.created = placed addr n (s.nonce - n) →
      Early s.has owner (sol (addr (n + 3))) (sol (addr (n + 5))) s.world → block < two64 →
      WorldLater E (World.deployed block 20 20 owner (sol (addr (n + 9))) (sol (addr (n + 3))) (sol (addr (n + 5))))
        (virt owner (sol (addr (n + 9))) (sol (addr (n + 3))) (sol (addr (n + 5))) s.world) → Phase E owner addr n s
  | complete (block : Nat) : n + 10 ≤ s.nonce → s.created = placed addr n 10 → block < two64 →
      WorldLater E (World.deployed block 20 20 owner (sol (addr (n + 9))) (sol (addr (n + 3))) (sol (addr (n + 5)))) s.world →
      Phase E owner addr n s

/-- What always holds. -/
structure SiteInv (E : Env) (owner : Address) (addr : Nat → Addr) (n : Nat) (s : Site) : Prop where
  future : ∀ m, n ≤ m → s.nonce ≤ m → s.receipts m = none
  phase : Phase E owner addr n s

theorem start_inv {s : Site} (h : Start n s) : SiteInv E owner addr n s := by
  obtain ⟨h1, h2, ⟨block, hb, h3⟩, h4⟩ := h
  have hh : ∀ k, s.has k = false := by intro k; simp [Site.has, h2]
  refine ⟨fun m hm _ => h4 m hm, .early block (by omega) ?_ ?_ hb ?_⟩
  · rw [h2, Nat.sub_eq_zero_of_le h1]; rfl
  · rw [h3]
    constructor <;> simp [hh, blank]
  · rw [h3]
    exact .refl

theorem own_early {s : Site} {i : Nat} {c : Creation} (hi : (plan addr n)[i]? = some c) (h9 : i < 9) (hn : s.nonce = n + i)
    (hc : s.created = placed addr n i) (hE : Early s.has owner (sol (addr (n + 3))) (sol (addr (n + 5))) s.world)
    {w : World} (hw : s.construct owner (sol (addr (n + i))) c = some w) {r : Nat → Option Bool} :
    Early (Site.has { s with nonce := s.nonce + 1, created := s.created ++ [(sol (addr (n + i)), c)], world := w, receipts := r })
      owner (sol (addr (n + 3))) (sol (addr (n + 5))) w ∧
    ∀ S B D, virt owner S B D w = virt owner S B D s.world := by
  obtain ⟨e1, e2, e3, e4, e5, e6, e7, e8, e9, e10⟩ := hE
  match i, h9 with
  | 0, _ | 1, _ | 2, _ | 3, _ | 4, _ | 5, _ | 6, _ | 7, _ | 8, _ =>
    simp only [plan, List.getElem?_cons_zero, List.getElem?_cons_succ, Option.some.injEq] at hi
    subst hi
    simp [Site.has, hc, placed, plan, Creation.kind] at e1 e2 e3 e4 e6 e7 e8 e10
    simp only [Site.construct, Option.some.injEq, Option.ite_none_right_eq_some] at hw
    first
      | (obtain ⟨_, rfl⟩ := hw
         refine ⟨?_, ?_⟩
         · constructor <;> simp [Site.has, hc, placed, plan, Creation.kind, *]
         · intro S B D; simp [virt, *])
      | (subst hw
         refine ⟨?_, ?_⟩
         · constructor <;> simp [Site.has, hc, placed, plan, Creation.kind, *]
         · intro S B D; simp [virt, *] <;> rw [← e8])

theorem placed_succ {i : Nat} {c : Creation} (hi : (plan addr n)[i]? = some c) :
    placed addr n i ++ [(sol (addr (n + i)), c)] = placed addr n (i + 1) := by
  unfold placed
  rw [List.take_add_one, List.getElem?_mapIdx, hi]
  rfl

theorem sol_inj (ha : GoodAddresses addr n) {a b : Nat} (h1 : a < 10) (h2 : b < 10) (h : sol (addr (n + a)) = sol (addr (n + b))) : a = b :=
  ha.inj a h1 b h2 (Crypto.beNat_injective _ _ (by rw [ha.length a h1, ha.length b h2]) h)

theorem code_placed (ha : GoodAddresses addr n) {i j : Nat} {c : Creation} (hi : (plan addr n)[i]? = some c) (hij : i < j) (s : Site)
    (hs : s.created = placed addr n j) : s.codeAt (sol (addr (n + i))) = some c := by
  have : s.created.find? (fun p => p.1 = sol (addr (n + i))) = some (sol (addr (n + i)), c) := by
    rw [List.find?_eq_some_iff_getElem]
    have hl := (List.getElem?_eq_some_iff.1 hi)
    obtain ⟨hl, hv⟩ := hl
    refine ⟨by simp, i, ?_, ?_, ?_⟩
    · rw [hs]; simp [placed]; omega
    · simp only [hs, placed, List.getElem_take, List.getElem_mapIdx, hv]
    · intro k hk
      simp only [hs, placed, List.getElem_take, List.getElem_mapIdx, Bool.not_eq_true', decide_eq_false_iff_not]
      intro he
      have hl' : i < 10 := hl
      have := sol_inj ha (by omega) hl' he
      omega
  rw [Site.codeAt, this]; rfl

theorem own_step (ha : GoodAddresses addr n) {s : Site} (h : SiteInv E owner addr n s) {t : Tx} {gas : Bool}
    (ht : t ∈ (deployBatch addr n).2) (hn : t.nonce = s.nonce) : SiteInv E owner addr n (s.include owner addr t gas) := by
  rw [batch_txs, List.mem_iff_getElem?] at ht
  obtain ⟨i, hi⟩ := ht
  rw [List.getElem?_mapIdx, Option.map_eq_some_iff] at hi
  obtain ⟨c, hi, rfl⟩ := hi
  obtain ⟨hf, hp⟩ := h
  have hi10 : i < 10 := (List.getElem?_eq_some_iff.1 hi).1
  simp only at hn
  have hnone : ∀ m v, s.receipts m = some v → m ≠ n + i := by
    intro m v hm
    rintro rfl
    rw [hf _ (by omega) (by omega)] at hm
    cases hm
  constructor
  · intro m h1 h2
    unfold Site.include at h2 ⊢
    split at h2 <;> simp only [*] at h2 ⊢ <;> rw [upd, if_neg (by omega)] <;> exact hf m h1 (by omega)
  · unfold Site.include
    split
    · exact .failed (n + i) (by omega) (by omega) (by simp [upd])
    · next w hw =>
      have hw : s.construct owner (sol (addr (n + i))) c = some w := by
        split at hw
        · exact hw
        · cases hw
      cases hp with
      | failed m h1 h2 h3 =>
        refine .failed m h1 h2 ?_
        simp only
        rw [upd, if_neg (hnone m _ h3), h3]
      | spoiled h1 h2 h3 =>
        match i, hi, hi10 with
        | 0, _, _ | 1, _, _ | 2, _, _ | 3, _, _ | 4, _, _ | 5, _, _ => omega
        | 6, hi, _ | 7, hi, _ | 8, hi, _ =>
          simp only [plan, List.getElem?_cons_zero, List.getElem?_cons_succ, Option.some.injEq] at hi
          subst hi
          simp only [Site.construct, Option.some.injEq] at hw
          subst hw
          exact .spoiled (by simp only; omega) (by simp only; omega) h3
        | 9, hi, _ =>
          simp only [plan, List.getElem?_cons_zero, List.getElem?_cons_succ, Option.some.injEq] at hi
          subst hi
          simp only [Site.construct] at hw
          split at hw
          · simp only [World.setSlasher, Option.bind_eq_bind, Option.map_eq_some_iff, Option.bind_eq_some_iff, require_eq_some] at hw
            obtain ⟨_, ⟨_, h, _⟩, _⟩ := hw
            exact absurd h h3.2
          · cases hw
      | early block h1 h2 h3 h4 h5 =>
        have hni : s.nonce - n = i := by omega
        rw [hni] at h2
        by_cases h9 : i < 9
        · obtain ⟨k1, k2⟩ := own_early (r := upd s.receipts (n + i) (some true)) hi h9 hn.symm h2 h3 hw
          refine .early block (by simp only; omega) ?_ k1 h4 (by rw [k2]; exact h5)
          simp only
          rw [h2, placed_succ hi]
          congr 1; omega
        · obtain rfl : i = 9 := by omega
          refine .complete block (by simp only; omega) ?_ h4 ?_
          · simp only; rw [h2, placed_succ hi]
          · simp only [plan, List.getElem?_cons_zero, List.getElem?_cons_succ, Option.some.injEq] at hi
            subst hi
            simp only [Site.construct] at hw
            rw [code_placed ha (i := 5) rfl (by omega) s h2] at hw
            simp only [World.setSlasher, Option.bind_eq_bind, Option.map_eq_some_iff, Option.bind_eq_some_iff, require_eq_some,
              Option.some.injEq] at hw
            obtain ⟨_, ⟨_, h, rfl⟩, rfl⟩ := hw
            obtain ⟨e1, e2, e3, e4, e5, e6, e7, e8, e9, e10⟩ := h3
            simp [Site.has, h2, placed, plan, Creation.kind] at e1 e2 e3 e4 e6 e7 e8 e10
            have : virt owner (sol (addr (n + 9))) (sol (addr (n + 3))) (sol (addr (n + 5))) s.world =
              { s.world with
                deposit := { s.world.deposit with slasher := sol (addr (n + 9)) },
                slasher := ⟨fun _ => Accusation.zero, 20⟩, slasherAddr := sol (addr (n + 9)) } := by
              rcases hsw : s.world with ⟨a, b, c, d, e, f, g, x, y, z, u, v⟩
              rw [hsw] at e1 e3 e4 e5 e6
              simp only at e1 e3 e4 e5 e6
              obtain ⟨e31, e32⟩ := e3
              obtain ⟨e61, e62, e63⟩ := e6
              subst e1 e31 e32 e4 e5
              rcases f with ⟨f1, f2, f3, f4, f5⟩
              simp only at e61 e62 e63
              subst e61 e62 e63
              rfl
            rw [this] at h5
            exact h5
      | complete block h1 _ _ _ => omega

theorem site_step (ha : GoodAddresses addr n) {s s' : Site} (h : SiteInv E owner addr n s) (hs : SiteStep E owner addr n s s') :
    SiteInv E owner addr n s' := by
  cases hs with
  | own ht hn => exact own_step ha h ht hn
  | older hlt =>
    refine ⟨fun m h1 h2 => h.future m h1 (by simp only at h2; omega), ?_⟩
    cases h.phase with
    | failed m h1 h2 h3 => exact .failed m h1 h2 h3
    | spoiled h1 h2 h3 => omega
    | early block h1 h2 h3 h4 h5 =>
      refine .early block (by simp only; omega) ?_ h3 h4 h5
      simp only
      rw [h2]; congr 1; omega
    | complete block h1 h2 h3 h4 => omega
  | @mine b hb hb' =>
    refine ⟨h.future, ?_⟩
    cases h.phase with
    | failed m h1 h2 h3 => exact .failed m h1 h2 h3
    | spoiled h1 h2 h3 => exact .spoiled h1 h2 h3
    | early block h1 h2 h3 h4 h5 => exact .early block h1 h2 { h3 with } h4 (h5.tail (.mine hb hb'))
    | complete block h1 h2 h3 h4 => exact .complete block h1 h2 h3 (h4.tail (.mine hb hb'))
  | @call op w hm hw =>
    refine ⟨h.future, ?_⟩
    cases h.phase with
    | failed m h1 h2 h3 => exact .failed m h1 h2 h3
    | spoiled h1 h2 h3 => exact .spoiled h1 h2 (spoiled_step h3 hw)
    | early block h1 h2 h3 h4 h5 =>
      rcases early_step (S := sol (addr (n + 9))) (has := s.has) hm _ _ h3 hw with ⟨k1, k2⟩ | ⟨k1, k2⟩
      · refine .spoiled ?_ h1 k2
        by_contra hlt
        have : s.nonce - n < 6 := by simp only at hlt; omega
        generalize s.nonce - n = i at h2 this
        interval_cases i <;> simp [Site.has, h2, placed, plan, Creation.kind] at k1
      · exact .early block h1 h2 k1 h4 (h5.trans (reaches_later k2))
    | complete block h1 h2 h3 h4 => exact .complete block h1 h2 h3 (h4.tail (.tx hw))

theorem site_inv (ha : GoodAddresses addr n) {s s' : Site} (h : SiteInv E owner addr n s) (hs : SiteLater E owner addr n s s') :
    SiteInv E owner addr n s' := by
  induction hs with
  | refl => exact h
  | tail _ h' ih => exact site_step ha ih h'

/-! ## Failure -/

/-- A transaction has failed, or the last one will. -/
inductive Doomed (n : Nat) (s : Site) : Prop
  | failed (m : Nat) : n ≤ m → m < n + 10 → s.receipts m = some false → Doomed n s
  | spoiled : n + 6 ≤ s.nonce → s.nonce ≤ n + 9 → Spoiled s.world → Doomed n s

theorem doomed_step {s s' : Site} (hf : ∀ m, n ≤ m → s.nonce ≤ m → s.receipts m = none) (h : Doomed n s)
    (hs : SiteStep E owner addr n s s') : Doomed n s' := by
  cases hs with
  | @own t gas ht hn =>
    rw [batch_txs, List.mem_iff_getElem?] at ht
    obtain ⟨i, hi⟩ := ht
    rw [List.getElem?_mapIdx, Option.map_eq_some_iff] at hi
    obtain ⟨c, hi, rfl⟩ := hi
    have hi10 : i < 10 := (List.getElem?_eq_some_iff.1 hi).1
    simp only at hn
    unfold Site.include
    split
    · exact .failed (n + i) (by omega) (by omega) (by simp [upd])
    · next w hw =>
      have hw : s.construct owner (sol (addr (n + i))) c = some w := by
        split at hw
        · exact hw
        · cases hw
      cases h with
      | failed m h1 h2 h3 =>
        refine .failed m h1 h2 ?_
        simp only
        rw [upd, if_neg, h3]
        rintro rfl
        rw [hf _ (by omega) (by omega)] at h3
        cases h3
      | spoiled h1 h2 h3 =>
        match i, hi, hi10 with
        | 0, _, _ | 1, _, _ | 2, _, _ | 3, _, _ | 4, _, _ | 5, _, _ => omega
        | 6, hi, _ | 7, hi, _ | 8, hi, _ =>
          simp only [plan, List.getElem?_cons_zero, List.getElem?_cons_succ, Option.some.injEq] at hi
          subst hi
          simp only [Site.construct, Option.some.injEq] at hw
          subst hw
          exact .spoiled (by simp only; omega) (by simp only; omega) h3
        | 9, hi, _ =>
          simp only [plan, List.getElem?_cons_zero, List.getElem?_cons_succ, Option.some.injEq] at hi
          subst hi
          simp only [Site.construct] at hw
          split at hw
          · simp only [World.setSlasher, Option.bind_eq_bind, Option.map_eq_some_iff, Option.bind_eq_some_iff, require_eq_some] at hw
            obtain ⟨_, ⟨_, h, _⟩, _⟩ := hw
            exact absurd h h3.2
          · cases hw
  | older hlt =>
    cases h with
    | failed m h1 h2 h3 => exact .failed m h1 h2 h3
    | spoiled h1 h2 h3 => omega
  | mine hb hb' =>
    cases h with
    | failed m h1 h2 h3 => exact .failed m h1 h2 h3
    | spoiled h1 h2 h3 => exact .spoiled h1 h2 h3
  | call hm hw =>
    cases h with
    | failed m h1 h2 h3 => exact .failed m h1 h2 h3
    | spoiled h1 h2 h3 => exact .spoiled h1 h2 (spoiled_step h3 hw)

theorem doomed_later (ha : GoodAddresses addr n) {s s' : Site} (hi : SiteInv E owner addr n s) (h : Doomed n s)
    (hs : SiteLater E owner addr n s s') : Doomed n s' := by
  induction hs with
  | refl => exact h
  | tail h1 h2 ih => exact doomed_step (site_inv ha hi h1).future ih h2

/-! ## The report -/

theorem report_done {cx : Events.Codecs} {r : Nat → Option Bool} {file : Events.Text} (h : report cx addr n r = .done file) :
    file = (deployBatch addr n).1.save cx ∧ ∀ i < 10, r (n + i) = some true := by
  unfold report at h
  simp only at h
  split at h
  · cases h
  · next h1 =>
    split at h
    · cases h
    · next h2 =>
      refine ⟨by cases h; rfl, fun i hi => ?_⟩
      rw [batch_txs] at h1 h2
      simp only [List.any_eq_true, decide_eq_true_eq, not_exists, not_and, List.mem_iff_getElem?, List.getElem?_mapIdx,
        Option.map_eq_some_iff, forall_exists_index, and_imp] at h1 h2
      have hl : i < (plan addr n).length := hi
      have h3 := h1 ⟨n + i, (plan addr n)[i]⟩ i _ (List.getElem?_eq_getElem hl) rfl
      have h4 := h2 ⟨n + i, (plan addr n)[i]⟩ i _ (List.getElem?_eq_getElem hl) rfl
      simp only at h3 h4
      rcases hr : r (n + i) with _ | b
      · exact absurd hr h3
      · cases b
        · exact absurd hr h4
        · rfl

theorem report_of_true {cx : Events.Codecs} {r : Nat → Option Bool} (h : ∀ i < 10, r (n + i) = some true) :
    report cx addr n r = .done ((deployBatch addr n).1.save cx) := by
  have key : ∀ t ∈ (deployBatch addr n).2, r t.nonce = some true := by
    intro t ht
    rw [batch_txs, List.mem_iff_getElem?] at ht
    obtain ⟨i, hi⟩ := ht
    rw [List.getElem?_mapIdx, Option.map_eq_some_iff] at hi
    obtain ⟨c, hi, rfl⟩ := hi
    exact h i (List.getElem?_eq_some_iff.1 hi).1
  unfold report
  simp only
  rw [if_neg, if_neg]
  · simp only [List.any_eq_true, decide_eq_true_eq, not_exists, not_and]
    intro t ht; rw [key t ht]; simp
  · simp only [List.any_eq_true, decide_eq_true_eq, not_exists, not_and]
    intro t ht; rw [key t ht]; simp

/-! ## Success -/

/-- In a lucky run. -/
structure Lucky (n : Nat) (s : Site) : Prop where
  registry : s.registry = true
  past : ∀ m, n ≤ m → m < s.nonce → s.receipts m = some true
  nobody : s.nonce < n + 10 → s.world.deposit.slasher = 0

theorem lucky_step (ha : GoodAddresses addr n) {s s' : Site} (hi : SiteInv E owner addr n s) (h : Lucky n s)
    (hs : LuckyStep E owner addr n s s') : Lucky n s' := by
  cases hs with
  | own ht hn =>
    next t =>
    rw [batch_txs, List.mem_iff_getElem?] at ht
    obtain ⟨i, hti⟩ := ht
    rw [List.getElem?_mapIdx, Option.map_eq_some_iff] at hti
    obtain ⟨c, hti, rfl⟩ := hti
    have hi10 : i < 10 := (List.getElem?_eq_some_iff.1 hti).1
    simp only at hn
    cases hi.phase with
    | failed m h1 h2 h3 =>
      by_cases hm : m < s.nonce
      · rw [h.past m h1 hm] at h3; cases h3
      · rw [hi.future m h1 (by omega)] at h3; cases h3
    | spoiled h1 h2 h3 => exact absurd (h.nobody (by omega)) h3.2
    | complete block h1 h2 h3 h4 => omega
    | early block h1 h2 h3 h4 h5 =>
      have hw : ∃ w, s.construct owner (sol (addr (n + i))) c = some w ∧ (i < 9 → w.deposit.slasher = 0) := by
        have h0 := h.nobody (by omega)
        match i, hti, hi10 with
        | 0, hi, _ | 1, hi, _ | 2, hi, _ | 3, hi, _ | 4, hi, _ | 5, hi, _ | 6, hi, _ | 7, hi, _ | 8, hi, _ =>
          simp only [plan, List.getElem?_cons_zero, List.getElem?_cons_succ, Option.some.injEq] at hi
          subst hi
          refine ⟨_, by simp only [Site.construct, h.registry, if_true] <;> rfl, fun _ => ?_⟩
          first | exact h0 | rfl
        | 9, hi, _ =>
          simp only [plan, List.getElem?_cons_zero, List.getElem?_cons_succ, Option.some.injEq] at hi
          subst hi
          have hni : s.nonce - n = 9 := by omega
          rw [hni] at h2
          have hex : ∃ w, s.construct owner (sol (addr (n + 9)))
              (.keyperSlasher 20 (sol (addr n)) (sol (addr (n + 6))) (sol (addr (n + 5)))) = some w := by
            simp only [Site.construct]
            rw [code_placed ha (i := 5) rfl (by omega) s h2]
            simp only [World.setSlasher, h0, require]
            exact ⟨_, rfl⟩
          exact ⟨hex.choose, hex.choose_spec, fun h => absurd h (by omega)⟩
      obtain ⟨w, hw, hw0⟩ := hw
      have : s.include owner addr ⟨n + i, c⟩ true =
          { s with nonce := s.nonce + 1, created := s.created ++ [(sol (addr (n + i)), c)], world := w,
                   receipts := upd s.receipts (n + i) (some true) } := by
        unfold Site.include
        simp only [if_true, hw]
      rw [this]
      refine ⟨h.registry, ?_, ?_⟩
      · intro m h1 h2
        simp only [upd] at h2 ⊢
        split
        · rfl
        · exact h.past m h1 (by omega)
      · intro h1; exact hw0 (by simp only at h1; omega)
  | others hs h1 h2 h3 =>
    cases hs with
    | own ht hn =>
      next t gas =>
      exfalso
      have hb : n ≤ t.nonce := by
        rw [batch_txs, List.mem_iff_getElem?] at ht
        obtain ⟨i, hti⟩ := ht
        rw [List.getElem?_mapIdx, Option.map_eq_some_iff] at hti
        obtain ⟨c, hti, rfl⟩ := hti
        simp
      have : (s.include owner addr t gas).nonce = s.nonce + 1 := by
        unfold Site.include; split <;> rfl
      omega
    | older hlt => exact ⟨h.registry, fun m k1 k2 => by simp only at k2; omega, fun _ => h3⟩
    | mine _ _ => exact ⟨h.registry, h.past, fun _ => h3⟩
    | call _ _ => exact ⟨h.registry, h.past, fun _ => h3⟩
  | later hs h1 =>
    cases hs with
    | own ht hn =>
      next t gas =>
      exfalso
      rw [batch_txs, List.mem_iff_getElem?] at ht
      obtain ⟨i, hti⟩ := ht
      rw [List.getElem?_mapIdx, Option.map_eq_some_iff] at hti
      obtain ⟨c, hti, rfl⟩ := hti
      have hi10 : i < 10 := (List.getElem?_eq_some_iff.1 hti).1
      simp only at hn
      omega
    | older hlt => omega
    | mine _ _ => exact ⟨h.registry, h.past, fun k => absurd k (by simp only; omega)⟩
    | call _ _ => exact ⟨h.registry, h.past, fun k => absurd k (by simp only; omega)⟩

theorem lucky_site {s s' : Site} (hs : LuckyStep E owner addr n s s') : SiteStep E owner addr n s s' := by
  cases hs with
  | own ht hn => exact .own ht hn
  | others h _ _ _ => exact h
  | later h _ => exact h

theorem lucky_later (ha : GoodAddresses addr n) {s s' : Site} (hi : SiteInv E owner addr n s) (h : Lucky n s)
    (hs : Relation.ReflTransGen (LuckyStep E owner addr n) s s') : SiteInv E owner addr n s' ∧ Lucky n s' := by
  induction hs with
  | refl => exact ⟨hi, h⟩
  | tail h1 h2 ih => exact ⟨site_step ha ih.1 (lucky_site h2), lucky_step ha ih.1 ih.2 h2⟩

/-! ## No registry -/

theorem unregistered_step {s s' : Site} (h : s.registry = false ∧ s.receipts (n + 5) ≠ some true) (hs : SiteStep E owner addr n s s') :
    s'.registry = false ∧ s'.receipts (n + 5) ≠ some true := by
  cases hs with
  | @own t gas ht hn =>
    rw [batch_txs, List.mem_iff_getElem?] at ht
    obtain ⟨i, hi⟩ := ht
    rw [List.getElem?_mapIdx, Option.map_eq_some_iff] at hi
    obtain ⟨c, hi, rfl⟩ := hi
    unfold Site.include
    split
    · refine ⟨h.1, ?_⟩
      simp only [upd]
      split
      · simp
      · exact h.2
    · next w hw =>
      refine ⟨h.1, ?_⟩
      simp only [upd]
      split
      · next he =>
        obtain rfl : i = 5 := by omega
        simp only [plan, List.getElem?_cons_zero, List.getElem?_cons_succ, Option.some.injEq] at hi
        subst hi
        split at hw
        · simp [Site.construct, h.1] at hw
        · cases hw
      · exact h.2
  | older hlt => exact h
  | mine hb hb' => exact h
  | call hm hw => exact h

end

end Shutter.Deploy
