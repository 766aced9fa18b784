import Mathlib.Tactic.Ring
import Mathlib.Tactic.Linarith
import Mathlib.Data.List.OfFn
import Mathlib.Algebra.BigOperators.Group.List.Basic
import Verif.Model.Crypto

/-! Helper lemmas about padding, XOR and encryption. -/

namespace Shutter.Crypto

@[simp] theorem Block.length_toBytes (b : Block) : b.toBytes.length = 32 := by simp [Block.toBytes]

theorem Block.toBytes_injective : Function.Injective Block.toBytes := by
  intro a b h
  exact List.ofFn_injective h

theorem xor_cancel (a b : Block) : xorBlocks (xorBlocks a b) b = a := by
  funext i; simp [xorBlocks, UInt8.xor_assoc]

theorem xor_comm' (a b : Block) : xorBlocks a b = xorBlocks b a := by
  funext i; simp [xorBlocks, UInt8.xor_comm]

theorem length_flatMap_toBytes (bs : List Block) : (bs.flatMap Block.toBytes).length = 32 * bs.length := by
  induction bs with
  | nil => simp
  | cons b bs ih => simp [ih]; ring

theorem chunks_flatMap (L : Bytes) : ∀ n, n * 32 ≤ L.length →
    ((List.range n).map fun i => fun j : Fin 32 => L.getD (i * 32 + j) 0).flatMap Block.toBytes
      = L.take (n * 32) := by
  intro n
  induction n with
  | zero => simp
  | succ n ih =>
    intro h
    rw [List.range_succ, List.map_append, List.flatMap_append, ih (by omega), Nat.succ_mul, List.take_add]
    congr 1
    simp only [List.map_cons, List.map_nil, List.flatMap_cons, List.flatMap_nil, List.append_nil]
    apply List.ext_getElem
    · simp; omega
    · intro i h1 h2
      have : i < 32 := by simpa using h1
      simp only [Block.toBytes, List.getElem_ofFn, List.getElem_take, List.getElem_drop]
      rw [List.getD_eq_getElem?_getD, List.getElem?_eq_getElem (by omega)]; rfl

/-- The padded byte string. -/
def padded (m : Bytes) : Bytes :=
  m ++ List.replicate (32 - m.length % 32) (UInt8.ofNat (32 - m.length % 32))

theorem padded_length (m : Bytes) : (padded m).length = (m.length / 32 + 1) * 32 := by
  simp [padded]; omega

theorem pad_flatMap (m : Bytes) : (padMessage m).flatMap Block.toBytes = padded m := by
  have h := padded_length m
  have := chunks_flatMap (padded m) ((padded m).length / 32) (by omega)
  rw [List.take_of_length_le (by omega)] at this
  exact this

theorem pad_length (m : Bytes) : (padMessage m).length = m.length / 32 + 1 := by
  have h := padded_length m
  show ((List.range ((padded m).length / 32)).map _).length = _
  simp; omega

theorem pad_ne_nil (m : Bytes) : padMessage m ≠ [] := by
  have := pad_length m
  intro h; rw [h] at this; simp at this

theorem flatMap_toBytes_injective : ∀ a b : List Block,
    a.flatMap Block.toBytes = b.flatMap Block.toBytes → a = b := by
  intro a
  induction a with
  | nil => intro b h; cases b with
    | nil => rfl
    | cons b bs => have := congrArg List.length h; simp [Block.length_toBytes] at this; omega
  | cons x xs ih =>
    intro b h
    cases b with
    | nil => have := congrArg List.length h; simp at this
    | cons y ys =>
      simp only [List.flatMap_cons] at h
      have := List.append_inj h (by simp)
      rw [Block.toBytes_injective this.1, ih _ this.2]

theorem unpad_concat (bs : List Block) (last : Block) :
    unpadMessage (bs ++ [last]) =
      if (last 31).toNat = 0 then none else if (last 31).toNat > 32 then none
      else some (((bs ++ [last]).flatMap Block.toBytes).take (32 * (bs.length + 1) - (last 31).toNat)) := by
  unfold unpadMessage
  simp only [List.getLast?_append, List.getLast?_singleton, Option.some_or]
  split
  · rfl
  · split
    · rfl
    · congr 1
      simp only [List.dropLast_concat, List.flatMap_append, List.flatMap_cons, List.flatMap_nil,
        List.append_nil]
      rw [List.take_append, length_flatMap_toBytes,
        List.take_of_length_le (l := bs.flatMap Block.toBytes) (by rw [length_flatMap_toBytes]; omega)]
      congr 2; omega

/-- Result of unpadding in terms of the flat byte string. -/
theorem unpad_eq (bs : List Block) (hne : bs ≠ []) (flat : Bytes) (hf : bs.flatMap Block.toBytes = flat)
    (x : UInt8) (hx : flat.getLast? = some x) :
    unpadMessage bs = if x.toNat = 0 then none else if x.toNat > 32 then none
      else some (flat.take (flat.length - x.toNat)) := by
  obtain ⟨bs', last, rfl⟩ : ∃ bs' last, bs = bs' ++ [last] :=
    ⟨bs.dropLast, bs.getLast hne, (List.dropLast_append_getLast hne).symm⟩
  have hlast : last 31 = x := by
    rw [← hf] at hx
    simp only [List.flatMap_append, List.flatMap_cons, List.flatMap_nil, List.append_nil] at hx
    have h2 : last.toBytes ≠ [] := by
      intro h; have := Block.length_toBytes last; rw [h] at this; simp at this
    rw [List.getLast?_append, List.getLast?_eq_getLast_of_ne_nil h2, List.getLast_eq_getElem] at hx
    simp [Block.toBytes] at hx
    exact hx
  rw [unpad_concat, hlast]
  have : flat.length = 32 * (bs'.length + 1) := by
    rw [← hf, length_flatMap_toBytes]; simp
  rw [this, hf]

theorem padded_getLast? (m : Bytes) : (padded m).getLast? = some (UInt8.ofNat (32 - m.length % 32)) := by
  unfold padded
  have : 32 - m.length % 32 ≠ 0 := by omega
  rw [List.getLast?_append, List.getLast?_replicate]
  simp [this]

theorem unpad_pad (m : Bytes) : unpadMessage (padMessage m) = some m := by
  rw [unpad_eq _ (pad_ne_nil m) _ (pad_flatMap m) _ (padded_getLast? m)]
  have h1 : (UInt8.ofNat (32 - m.length % 32)).toNat = 32 - m.length % 32 := by
    rw [UInt8.toNat_ofNat']; omega
  rw [h1, if_neg (by omega), if_neg (by omega)]
  congr 1
  rw [padded_length]
  unfold padded
  rw [List.take_append_of_le_length (by omega), List.take_of_length_le (by omega)]

section
variable {G1 G2 GT : Type} (env : Env G1 G2 GT)

theorem fp12ExpLoop_spec [CommGroup GT] : ∀ (e : Nat) (r b : GT), fp12ExpLoop r b e = r * b ^ e := by
  intro e
  induction e using Nat.strongRecOn with
  | _ e ih =>
    intro r b
    rw [fp12ExpLoop]
    split
    · next h =>
      rw [ih (e / 2) (by omega)]
      have he := Nat.div_add_mod e 2
      have h2 : e % 2 < 2 := Nat.mod_lt _ (by norm_num)
      conv_rhs => rw [← he]
      rw [pow_add, pow_mul, ← pow_two]
      split
      · next h1 => rw [h1, pow_one, mul_assoc, mul_comm b]
      · next h1 =>
        have : e % 2 = 0 := by omega
        rw [this]; simp
    · next h => have : e = 0 := by omega
                subst this; simp

theorem fp12Exp_spec [CommGroup GT] (b : GT) (e : Nat) : fp12Exp b e = b ^ e := by
  simp [fp12Exp, fp12ExpLoop_spec]

theorem decryptBlocks_computeC3 (bs : List Block) (sigma : Block) :
    decryptBlocks env (computeC3 env bs sigma) sigma = bs := by
  unfold decryptBlocks computeC3
  rw [List.mapIdx_mapIdx]
  apply List.ext_getElem (by simp)
  intro i h1 h2
  simp [Function.comp, xor_comm' (computeBlockKey env sigma i), xor_cancel]

theorem computeC3_decryptBlocks (bs : List Block) (sigma : Block) :
    computeC3 env (decryptBlocks env bs sigma) sigma = bs := by
  unfold decryptBlocks computeC3
  rw [List.mapIdx_mapIdx]
  apply List.ext_getElem (by simp)
  intro i h1 h2
  simp [Function.comp, xor_comm' (computeBlockKey env sigma i), xor_cancel]

variable [AddCommGroup G1] [AddCommGroup G2] [CommGroup GT]

theorem Lawful.pair_zero_left {env : Env G1 G2 GT} (h : Lawful env) (p : G1) : env.pair 0 p = 1 := by
  have := h.pair_add_left 0 0 p
  simpa using this

theorem Lawful.pair_zero_right {env : Env G1 G2 GT} (h : Lawful env) (q : G2) : env.pair q 0 = 1 := by
  have := h.pair_add_right q 0 0
  simpa using this

theorem Lawful.pair_smul_left {env : Env G1 G2 GT} (h : Lawful env) (n : Nat) (q : G2) (p : G1) :
    env.pair (n • q) p = env.pair q p ^ n := by
  induction n with
  | zero => simp [h.pair_zero_left]
  | succ n ih => rw [succ_nsmul, h.pair_add_left, ih, pow_succ]

theorem Lawful.pair_smul_right {env : Env G1 G2 GT} (h : Lawful env) (n : Nat) (q : G2) (p : G1) :
    env.pair q (n • p) = env.pair q p ^ n := by
  induction n with
  | zero => simp [h.pair_zero_right]
  | succ n ih => rw [succ_nsmul, h.pair_add_right, ih, pow_succ]

/-- `sigma` is recovered by anybody holding the epoch secret key. -/
theorem sigma_recover {env : Env G1 G2 GT} (h : Lawful env) (sk r : Nat) (epochID : G1) (C2 sigma : Block)
    (C3 : List Block) (hC2 : C2 = computeC2 env sigma r epochID (sk • env.g2)) :
    (EncryptedMessage.mk (computeC1 env r) C2 C3).sigma env (sk • epochID) = sigma := by
  subst hC2
  unfold EncryptedMessage.sigma computeC2 computeC1
  rw [fp12Exp_spec]
  simp only
  rw [h.pair_smul_left, h.pair_smul_right, h.pair_smul_left, pow_right_comm]
  exact xor_cancel _ _

end
end Shutter.Crypto
