import Verif.Spec.Gas
import Mathlib.Algebra.Order.Floor.Ring
import Mathlib.Data.Rat.Floor
import Mathlib.Tactic.Linarith
import Mathlib.Tactic.FieldSimp
import Mathlib.Tactic.Positivity
import Mathlib.Tactic.NormNum

/-! # C92: gas prices -/

namespace Shutter.Gas

/-! ## Rounding -/

theorem round_exact {prec N : Nat} (h : N < 2 ^ prec) : round prec N = N := by
  have : N.size - prec = 0 := Nat.sub_eq_zero_of_le (Nat.size_le.2 h)
  simp [round, this, Nat.mod_one]

/-- The two neighbours. -/
theorem round_cases (prec N : Nat) :
    round prec N = N / 2 ^ (N.size - prec) * 2 ^ (N.size - prec) ∨ round prec N = (N / 2 ^ (N.size - prec) + 1) * 2 ^ (N.size - prec) := by
  unfold round
  simp only
  split
  · exact .inr rfl
  · exact .inl rfl

theorem size_pow_le {N : Nat} (h : N ≠ 0) : 2 ^ (N.size - 1) ≤ N := by
  have : N.size - 1 < N.size := by
    have := Nat.size_pos.2 (Nat.pos_of_ne_zero h); omega
  exact Nat.lt_size.1 this

/-- What fits is not passed, from below. -/
theorem le_round {prec N a k : Nat} (ha : a < 2 ^ prec) (h : a * 2 ^ k ≤ N) : a * 2 ^ k ≤ round prec N := by
  by_cases h0 : a = 0
  · subst h0; simp
  have hN : N ≠ 0 := by
    rintro rfl
    have : 0 < a * 2 ^ k := Nat.mul_pos (Nat.pos_of_ne_zero h0) (Nat.two_pow_pos k)
    omega
  set s := N.size - prec with hs
  by_cases hks : s ≤ k
  · -- a multiple of the unit
    obtain ⟨j, rfl⟩ := Nat.exists_eq_add_of_le hks
    have e : a * 2 ^ (s + j) = a * 2 ^ j * 2 ^ s := by rw [Nat.pow_add]; ring
    have : a * 2 ^ j ≤ N / 2 ^ s := by
      rw [Nat.le_div_iff_mul_le (Nat.two_pow_pos s), ← e]; exact h
    rw [e]
    rcases round_cases prec N with h' | h' <;> rw [h', ← hs] <;> exact Nat.mul_le_mul_right _ (by omega)
  · -- smaller than the smallest number with as many digits
    have h1 : a * 2 ^ k ≤ 2 ^ (N.size - 1) := by
      calc a * 2 ^ k ≤ 2 ^ prec * 2 ^ k := Nat.mul_le_mul_right _ ha.le
        _ = 2 ^ (prec + k) := by rw [Nat.pow_add]
        _ ≤ 2 ^ (N.size - 1) := Nat.pow_le_pow_right (by omega) (by omega)
    have h2 : 2 ^ (N.size - 1) ≤ round prec N := by
      have hle : s ≤ N.size - 1 ∨ N.size - 1 < s := by omega
      rcases hle with hle | hle
      · have hd : 2 ^ (N.size - 1) = 2 ^ (N.size - 1 - s) * 2 ^ s := by rw [← Nat.pow_add]; congr 1; omega
        have : 2 ^ (N.size - 1 - s) ≤ N / 2 ^ s := by
          rw [Nat.le_div_iff_mul_le (Nat.two_pow_pos s), ← hd]; exact size_pow_le hN
        rw [hd]
        rcases round_cases prec N with h' | h' <;> rw [h', ← hs] <;> exact Nat.mul_le_mul_right _ (by omega)
      · -- no digits
        have : prec = 0 := by omega
        subst this
        omega
    exact h1.trans h2

theorem round_multiple {prec N : Nat} (h : 2 ^ (N.size - prec) ∣ N) : round prec N = N := by
  have hr : N % 2 ^ (N.size - prec) = 0 := Nat.mod_eq_zero_of_dvd h
  unfold round
  simp only [hr]
  rw [if_neg, Nat.div_mul_cancel h]
  rintro (h | ⟨h, -⟩)
  · omega
  · have := Nat.two_pow_pos (N.size - prec); omega

/-- And from above. -/
theorem round_le {prec N a k : Nat} (hp : 0 < prec) (ha : a ≤ 2 ^ prec) (h : N ≤ a * 2 ^ k) : round prec N ≤ a * 2 ^ k := by
  by_cases hN : N = 0
  · subst hN; simp [round]
  set s := N.size - prec with hs
  by_cases hks : s ≤ k
  · obtain ⟨j, rfl⟩ := Nat.exists_eq_add_of_le hks
    have e : a * 2 ^ (s + j) = a * 2 ^ j * 2 ^ s := by rw [Nat.pow_add]; ring
    have hq : N / 2 ^ s ≤ a * 2 ^ j := by
      apply Nat.div_le_of_le_mul
      rw [Nat.mul_comm, ← e]; exact h
    rw [e]
    rcases Nat.lt_or_eq_of_le hq with hq | hq
    · rcases round_cases prec N with h' | h' <;> rw [h', ← hs] <;> exact Nat.mul_le_mul_right _ (by omega)
    · -- `N` itself is a multiple
      have hN' : N = a * 2 ^ j * 2 ^ s := by
        apply Nat.le_antisymm (by rw [← e]; exact h)
        rw [← hq]; exact Nat.div_mul_le_self _ _
      rw [round_multiple (by rw [← hs]; exact ⟨a * 2 ^ j, by rw [Nat.mul_comm]; exact hN'⟩)]
      rw [← e]; exact h
  · have h1 : a * 2 ^ k ≤ 2 ^ (N.size - 1) := by
      calc a * 2 ^ k ≤ 2 ^ prec * 2 ^ k := Nat.mul_le_mul_right _ ha
        _ = 2 ^ (prec + k) := by rw [Nat.pow_add]
        _ ≤ 2 ^ (N.size - 1) := Nat.pow_le_pow_right (by omega) (by omega)
    have h2 := size_pow_le hN
    have h3 : N = 2 ^ (N.size - 1) := by omega
    rw [round_multiple]
    · exact h
    · conv_rhs => rw [h3]
      exact Nat.pow_dvd_pow 2 (by omega)

/-- Rounding keeps the order. -/
theorem round_mono {prec N M : Nat} (hp : 0 < prec) (h : N ≤ M) : round prec N ≤ round prec M := by
  rcases Nat.lt_or_eq_of_le (Nat.size_le_size h) with hs | hs
  · -- a power of two in between
    have h1 : N ≤ 1 * 2 ^ N.size := by rw [Nat.one_mul]; exact (Nat.lt_size_self N).le
    have h2 : 1 * 2 ^ N.size ≤ M := by rw [Nat.one_mul]; exact Nat.lt_size.1 hs
    exact (round_le hp Nat.one_le_two_pow h1).trans (le_round (Nat.one_lt_two_pow (by omega)) h2)
  · have hq : N / 2 ^ (N.size - prec) ≤ M / 2 ^ (N.size - prec) := Nat.div_le_div_right h
    unfold round
    simp only [← hs]
    apply Nat.mul_le_mul_right
    have d1 := Nat.div_add_mod N (2 ^ (N.size - prec))
    have d2 := Nat.div_add_mod M (2 ^ (N.size - prec))
    generalize hS : 2 ^ (N.size - prec) = S at *
    by_cases he : N / S = M / S
    · rw [he] at d1 ⊢
      have : N % S ≤ M % S := by omega
      split <;> split <;> omega
    · split <;> split <;> omega

/-- The error is at most half a unit of the last digit. -/
theorem round_near {prec N : Nat} (hp : 0 < prec) :
    round prec N * 2 ^ prec ≤ N * 2 ^ prec + N ∧ N * 2 ^ prec ≤ round prec N * 2 ^ prec + N := by
  by_cases hs : N.size ≤ prec
  · rw [round_exact (Nat.size_le.1 hs)]; omega
  have hN : N ≠ 0 := by rintro rfl; simp at hs
  have hlow : 2 ^ prec * 2 ^ (N.size - prec) ≤ 2 * N := by
    have := size_pow_le hN
    rw [← Nat.pow_add, show prec + (N.size - prec) = (N.size - 1) + 1 by omega, Nat.pow_succ]
    omega
  have key : 2 * round prec N ≤ 2 * N + 2 ^ (N.size - prec) ∧ 2 * N ≤ 2 * round prec N + 2 ^ (N.size - prec) := by
    unfold round
    simp only
    have d1 := Nat.div_add_mod N (2 ^ (N.size - prec))
    have d2 := Nat.mod_lt N (Nat.two_pow_pos (N.size - prec))
    generalize 2 ^ (N.size - prec) = S at *
    rw [Nat.mul_comm S] at d1
    split
    · rw [Nat.add_mul]; omega
    · omega
  have hP := Nat.two_pow_pos prec
  generalize 2 ^ prec = P at *
  generalize 2 ^ (N.size - prec) = S at *
  generalize round prec N = R at *
  constructor <;> nlinarith [key.1, key.2]

/-! ## The price -/

theorem zpow_split (exp : Int) : (2 : ℚ) ^ exp = (2 ^ exp.toNat : Nat) / (2 ^ (-exp).toNat : Nat) := by
  push_cast
  rcases Int.le_total 0 exp with h | h
  · rw [show (-exp).toNat = 0 by omega, pow_zero, div_one, ← zpow_natCast, Int.toNat_of_nonneg h]
  · rw [show exp.toNat = 0 by omega, pow_zero, ← zpow_natCast, Int.toNat_of_nonneg (by omega), zpow_neg]
    simp

theorem exact_eq (mant : Nat) (exp : Int) (price : Nat) :
    exact mant exp price = ((price * mant * 2 ^ exp.toNat : Nat) : ℚ) / (2 ^ (-exp).toNat : Nat) := by
  rw [exact, zpow_split]; push_cast; ring

theorem size_mul_pow {N : Nat} (h : N ≠ 0) (k : Nat) : (N * 2 ^ k).size = N.size + k := by
  rw [← Nat.shiftLeft_eq, Nat.size_shiftLeft h]

/-- Rounding does not depend on the unit. -/
theorem round_shift (prec N k : Nat) : round prec (N * 2 ^ k) = round prec N * 2 ^ k := by
  by_cases h0 : N = 0
  · subst h0; simp [round]
  by_cases hs : N.size ≤ prec
  · rw [round_exact (Nat.size_le.1 hs)]
    apply round_multiple
    rw [size_mul_pow h0]
    exact (Nat.pow_dvd_pow 2 (by omega : _ ≤ k)).trans (Nat.dvd_mul_left _ _)
  · unfold round
    simp only [size_mul_pow h0]
    rw [show N.size + k - prec = (N.size - prec) + k by omega, Nat.pow_add, Nat.mul_div_mul_right _ _ (Nat.two_pow_pos k),
      Nat.mul_mod_mul_right]
    have e1 : (2 ^ (N.size - prec) * 2 ^ k < 2 * (N % 2 ^ (N.size - prec) * 2 ^ k)) ↔
        2 ^ (N.size - prec) < 2 * (N % 2 ^ (N.size - prec)) := by
      rw [← Nat.mul_assoc, Nat.mul_lt_mul_right (Nat.two_pow_pos k)]
    have e2 : (2 ^ (N.size - prec) * 2 ^ k = 2 * (N % 2 ^ (N.size - prec) * 2 ^ k)) ↔
        2 ^ (N.size - prec) = 2 * (N % 2 ^ (N.size - prec)) := by
      rw [← Nat.mul_assoc, Nat.mul_left_inj (Nat.two_pow_pos k).ne']
    simp only [e1, e2]
    rw [Nat.mul_assoc]

/-- Cutting off the fraction. -/
theorem adjust_finite (mant : Nat) (exp : Int) (price : Nat) :
    ∃ r : Nat, adjust (.finite mant exp) price = some (some r) ∧
      r = ⌊exact (round (precision price) (price * mant)) exp 1⌋ := by
  refine ⟨_, rfl, ?_⟩
  rw [exact_eq, Rat.floor_natCast_div_natCast]
  simp

namespace Props

/-- Negative multipliers are refused, and only these; NaN makes the program panic; the others are set. -/
theorem C92_set (f : F64) :
    (setMultiplier f = .refused ↔ f = .inf true ∨ ∃ mant exp, mant ≠ 0 ∧ f = .finite true mant exp) ∧
    (setMultiplier f = .panics ↔ f = .nan) ∧
    (∀ mant exp, setMultiplier (.finite false mant exp) = .set (.finite mant exp)) := by
  refine ⟨?_, ?_, fun _ _ => rfl⟩
  · cases f with
    | finite neg mant exp =>
      cases neg
      · simp [setMultiplier]
      · by_cases h : mant = 0 <;> simp [setMultiplier, h]
    | inf neg => cases neg <;> simp [setMultiplier]
    | nan => simp [setMultiplier]
  · cases f with
    | finite neg mant exp =>
      cases neg
      · simp [setMultiplier]
      · by_cases h : mant = 0 <;> simp [setMultiplier, h]
    | inf neg => cases neg <;> simp [setMultiplier]
    | nan => simp [setMultiplier]

/-- Up to 2^64 the price is the exact product, rounded down or up to an integer. -/
theorem C92_price (mant : Nat) (exp : Int) (price : Nat) (h : exact mant exp price ≤ 2 ^ 64) :
    ∃ r : Nat, adjust (.finite mant exp) price = some (some r) ∧ ⌊exact mant exp price⌋ ≤ r ∧ r ≤ ⌈exact mant exp price⌉ := by
  refine ⟨_, rfl, ?_⟩
  rw [exact_eq] at h ⊢
  have hb : 0 < 2 ^ (-exp).toNat := Nat.two_pow_pos _
  have hbq : (0 : ℚ) < ((2 ^ (-exp).toNat : Nat) : ℚ) := by exact_mod_cast hb
  rw [div_le_iff₀ hbq] at h
  have h' : price * mant * 2 ^ exp.toNat ≤ 2 ^ 64 * 2 ^ (-exp).toNat := by exact_mod_cast h
  have hp : 64 ≤ precision price := le_max_right _ _
  have hp2 : 2 ^ 64 ≤ 2 ^ precision price := Nat.pow_le_pow_right (by omega) hp
  rw [← round_shift]
  generalize price * mant * 2 ^ exp.toNat = N at *
  constructor
  · rw [Rat.floor_natCast_div_natCast]
    have hq : N / 2 ^ (-exp).toNat ≤ 2 ^ 64 := Nat.div_le_of_le_mul (by rw [Nat.mul_comm]; exact h')
    have h1 : N / 2 ^ (-exp).toNat * 2 ^ (-exp).toNat ≤ N := Nat.div_mul_le_self _ _
    have h2 : N / 2 ^ (-exp).toNat * 2 ^ (-exp).toNat ≤ round (precision price) N := by
      rcases Nat.lt_or_eq_of_le (hq.trans hp2) with hlt | heq
      · exact le_round hlt h1
      · have : N / 2 ^ (-exp).toNat * 2 ^ (-exp).toNat = 1 * 2 ^ (precision price + (-exp).toNat) := by
          rw [heq, Nat.pow_add, Nat.one_mul]
        rw [this] at h1 ⊢
        exact le_round (Nat.one_lt_two_pow (by omega)) h1
    have := (Nat.le_div_iff_mul_le hb).2 h2
    exact_mod_cast this
  · have hc : 0 ≤ ⌈(N : ℚ) / ((2 ^ (-exp).toNat : Nat) : ℚ)⌉ := Int.ceil_nonneg (by positivity)
    obtain ⟨c, hc'⟩ := Int.eq_ofNat_of_zero_le hc
    rw [hc']
    have h1 : (N : ℚ) / ((2 ^ (-exp).toNat : Nat) : ℚ) ≤ c := by
      have := Int.le_ceil ((N : ℚ) / ((2 ^ (-exp).toNat : Nat) : ℚ))
      rw [hc'] at this
      exact_mod_cast this
    have h2 : c ≤ 2 ^ 64 := by
      have : ⌈(N : ℚ) / ((2 ^ (-exp).toNat : Nat) : ℚ)⌉ ≤ ((2 ^ 64 : Nat) : Int) := by
        rw [Int.ceil_le, div_le_iff₀ hbq]
        exact_mod_cast h'
      rw [hc'] at this
      exact_mod_cast this
    have h3 : N ≤ c * 2 ^ (-exp).toNat := by
      rw [div_le_iff₀ hbq] at h1
      exact_mod_cast h1
    have h4 := round_le (prec := precision price) (by omega) (h2.trans hp2) h3
    have : round (precision price) N / 2 ^ (-exp).toNat ≤ c := Nat.div_le_of_le_mul (by rw [Nat.mul_comm]; exact h4)
    exact_mod_cast this

/-- In any case the price is off by less than one, up to a part in 2^64. -/
theorem C92_near (mant : Nat) (exp : Int) (price : Nat) :
    ∃ r : Nat, adjust (.finite mant exp) price = some (some r) ∧
      exact mant exp price - 1 - exact mant exp price / 2 ^ 64 < r ∧ r ≤ exact mant exp price + exact mant exp price / 2 ^ 64 := by
  obtain ⟨r, h1, h2⟩ := adjust_finite mant exp price
  refine ⟨r, h1, ?_⟩
  have hp : 64 ≤ precision price := le_max_right _ _
  obtain ⟨n1, n2⟩ := round_near (prec := precision price) (N := price * mant) (by omega)
  have hx : (0 : ℚ) < (2 : ℚ) ^ exp := zpow_pos (by norm_num) _
  have f1 := Int.floor_le (exact (round (precision price) (price * mant)) exp 1)
  have f2 := Int.lt_floor_add_one (exact (round (precision price) (price * mant)) exp 1)
  rw [← h2] at f1 f2
  have hP : ((2 : ℚ) ^ 64) ≤ (2 : ℚ) ^ precision price := pow_le_pow_right₀ (by norm_num) hp
  have hPpos : (0 : ℚ) < (2 : ℚ) ^ 64 := by positivity
  have q1 : ((round (precision price) (price * mant) : Nat) : ℚ) * 2 ^ precision price ≤
      ((price * mant : Nat) : ℚ) * 2 ^ precision price + ((price * mant : Nat) : ℚ) := by exact_mod_cast n1
  have q2 : ((price * mant : Nat) : ℚ) * 2 ^ precision price ≤
      ((round (precision price) (price * mant) : Nat) : ℚ) * 2 ^ precision price + ((price * mant : Nat) : ℚ) := by exact_mod_cast n2
  have hE : exact mant exp price = ((price * mant : Nat) : ℚ) * 2 ^ exp := by rw [exact]; push_cast; ring
  have hR : exact (round (precision price) (price * mant)) exp 1 = ((round (precision price) (price * mant) : Nat) : ℚ) * 2 ^ exp := by
    rw [exact]; push_cast; ring
  rw [hR] at f1 f2
  rw [hE]
  generalize ((round (precision price) (price * mant) : Nat) : ℚ) = R at *
  have hN : (0 : ℚ) ≤ ((price * mant : Nat) : ℚ) := Nat.cast_nonneg _
  generalize ((price * mant : Nat) : ℚ) = N at *
  generalize (2 : ℚ) ^ precision price = P at *
  generalize (2 : ℚ) ^ exp = x at *
  push_cast at f1 f2
  have hPP : 0 < P := lt_of_lt_of_le hPpos hP
  have k1 : R - N ≤ N / 2 ^ 64 := by
    have : R - N ≤ N / P := by rw [le_div_iff₀ hPP]; linarith
    exact this.trans (div_le_div_of_nonneg_left hN hPpos hP)
  have k2 : N - R ≤ N / 2 ^ 64 := by
    have : N - R ≤ N / P := by rw [le_div_iff₀ hPP]; linarith
    exact this.trans (div_le_div_of_nonneg_left hN hPpos hP)
  have m1 : (R - N) * x ≤ N / 2 ^ 64 * x := mul_le_mul_of_nonneg_right k1 hx.le
  have m2 : (N - R) * x ≤ N / 2 ^ 64 * x := mul_le_mul_of_nonneg_right k2 hx.le
  have e : N * x / 2 ^ 64 = N / 2 ^ 64 * x := by ring
  rw [e]
  constructor <;> nlinarith

/-- With a multiplier of one or more the price is never lower than the suggested one; with one it is the same; with zero it is zero. -/
theorem C92_at_least (mant : Nat) (exp : Int) (price r : Nat) (h : adjust (.finite mant exp) price = some (some r)) :
    ((1 : ℚ) ≤ mant * (2 : ℚ) ^ exp → price ≤ r) ∧ ((mant : ℚ) * (2 : ℚ) ^ exp = 1 → r = price) ∧ (mant = 0 → r = 0) := by
  simp only [adjust, Option.some.injEq] at h
  rw [← round_shift] at h
  have hb : 0 < 2 ^ (-exp).toNat := Nat.two_pow_pos _
  have hbq : (0 : ℚ) < ((2 ^ (-exp).toNat : Nat) : ℚ) := by exact_mod_cast hb
  have hsz : price < 2 ^ precision price :=
    (Nat.lt_size_self price).trans_le (Nat.pow_le_pow_right (by omega) (le_max_left _ _))
  have hp : 64 ≤ precision price := le_max_right _ _
  refine ⟨fun h1 => ?_, fun h1 => ?_, fun h1 => ?_⟩
  · rw [zpow_split, mul_div_assoc', le_div_iff₀ hbq, one_mul] at h1
    have h2 : 2 ^ (-exp).toNat ≤ mant * 2 ^ exp.toNat := by exact_mod_cast h1
    rw [← h, Nat.le_div_iff_mul_le hb]
    apply le_round hsz
    rw [Nat.mul_assoc]
    exact Nat.mul_le_mul_left _ h2
  · rw [zpow_split, mul_div_assoc', div_eq_iff hbq.ne', one_mul] at h1
    have h2 : mant * 2 ^ exp.toNat = 2 ^ (-exp).toNat := by exact_mod_cast h1
    rw [← h, Nat.mul_assoc, h2]
    apply Nat.le_antisymm
    · have h3 := round_le (prec := precision price) (by omega) hsz.le (le_refl (price * 2 ^ (-exp).toNat))
      exact Nat.div_le_of_le_mul (h3.trans (Nat.mul_comm _ _).le)
    · have h3 := le_round (prec := precision price) hsz (le_refl (price * 2 ^ (-exp).toNat))
      exact (Nat.le_div_iff_mul_le hb).2 h3
  · subst h1
    rw [← h]; simp [round]

/-- A greater multiplier never makes the price lower. -/
theorem C92_monotone (mant mant' : Nat) (exp exp' : Int) (price r r' : Nat) (hm : (mant : ℚ) * (2 : ℚ) ^ exp ≤ mant' * (2 : ℚ) ^ exp')
    (h : adjust (.finite mant exp) price = some (some r)) (h' : adjust (.finite mant' exp') price = some (some r')) : r ≤ r' := by
  simp only [adjust, Option.some.injEq] at h h'
  rw [← round_shift] at h h'
  have hb : 0 < 2 ^ (-exp).toNat := Nat.two_pow_pos _
  have hb' : 0 < 2 ^ (-exp').toNat := Nat.two_pow_pos _
  have hbq : (0 : ℚ) < ((2 ^ (-exp).toNat : Nat) : ℚ) := by exact_mod_cast hb
  have hbq' : (0 : ℚ) < ((2 ^ (-exp').toNat : Nat) : ℚ) := by exact_mod_cast hb'
  rw [zpow_split, zpow_split, mul_div_assoc', mul_div_assoc', div_le_div_iff₀ hbq hbq'] at hm
  have hm' : mant * 2 ^ exp.toNat * 2 ^ (-exp').toNat ≤ mant' * 2 ^ exp'.toNat * 2 ^ (-exp).toNat := by exact_mod_cast hm
  have hp : 64 ≤ precision price := le_max_right _ _
  rw [← h', Nat.le_div_iff_mul_le hb', ← h]
  have key : round (precision price) (price * mant * 2 ^ exp.toNat) * 2 ^ (-exp').toNat ≤
      round (precision price) (price * mant' * 2 ^ exp'.toNat) * 2 ^ (-exp).toNat := by
    rw [← round_shift, ← round_shift]
    apply round_mono (by omega)
    simp only [Nat.mul_assoc] at hm' ⊢
    exact Nat.mul_le_mul_left _ hm'
  have h1 := Nat.div_mul_le_self (round (precision price) (price * mant * 2 ^ exp.toNat)) (2 ^ (-exp).toNat)
  generalize round (precision price) (price * mant * 2 ^ exp.toNat) = A at *
  generalize round (precision price) (price * mant' * 2 ^ exp'.toNat) = B at *
  generalize 2 ^ (-exp).toNat = p at *
  generalize 2 ^ (-exp').toNat = p' at *
  have h2 : (A / p * p') * p ≤ B * p := by
    calc A / p * p' * p = A / p * p * p' := by ring
      _ ≤ A * p' := Nat.mul_le_mul_right _ h1
      _ ≤ B * p := key
  exact Nat.le_of_mul_le_mul_right h2 hb

/-- A greater suggested price, up to 2^64, never makes the price lower. -/
theorem C92_monotone_price (mant : Nat) (exp : Int) (price price' r r' : Nat) (hle : price ≤ price') (hlt : price' < 2 ^ 64)
    (h : adjust (.finite mant exp) price = some (some r)) (h' : adjust (.finite mant exp) price' = some (some r')) : r ≤ r' := by
  simp only [adjust, Option.some.injEq] at h h'
  have hp : ∀ p < 2 ^ 64, precision p = 64 := fun p h => max_eq_right (Nat.size_le.2 h)
  rw [hp _ (by omega)] at h h'
  rw [← h, ← h']
  exact Nat.div_le_div_right (Nat.mul_le_mul_right _ (round_mono (by omega) (Nat.mul_le_mul_right _ hle)))

/-- The default. -/
theorem C92_default (price : Nat) (h : price < 2 ^ 62) : adjust defaultMultiplier price = some (some (3 * price / 2)) := by
  have hp : precision price = 64 := max_eq_right (Nat.size_le.2 (by omega))
  simp only [adjust, defaultMultiplier, Option.some.injEq]
  rw [hp, round_exact (by omega), Nat.mul_comm]
  simp [Nat.mul_comm]

/-- Infinity is accepted, and makes the program panic when the node suggests a price of zero; otherwise there is no price (and go-ethereum
asks the node for one). -/
theorem C92_infinite_finding : setMultiplier (.inf false) = .set .inf ∧ adjust .inf 0 = none ∧ ∀ price ≠ 0, adjust .inf price = some none := by
  refine ⟨rfl, rfl, fun price h => ?_⟩
  simp [adjust, h]

/-- A price of 10^18, with the multipliers of the test, and one (0.1 as a float64) that is no sum of few powers of two. -/
theorem C92_example : adjust (.finite 1 0) (10 ^ 18) = some (some (10 ^ 18)) ∧ adjust (.finite 5 (-1)) (10 ^ 18) = some (some (25 * 10 ^ 17)) ∧
    adjust (.finite 7205759403792794 (-56)) (10 ^ 18) = some (some (10 ^ 17 + 5)) ∧ adjust (.finite 7205759403792794 (-56)) (2 ^ 63 + 1) =
      some (some 922337203685477632) := by
  decide +kernel

end Props

end Shutter.Gas
