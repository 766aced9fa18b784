import Mathlib.Data.Nat.Digits.Lemmas
import Verif.Model.Shuffle
import Verif.Proofs.Encryption

namespace Shutter.Crypto

/-! ### scalars -/

theorem beNat_append (a b : Bytes) : beNat (a ++ b) = beNat a * 256 ^ b.length + beNat b := by
  unfold beNat
  rw [List.foldl_append]
  generalize a.foldl _ 0 = x
  have key : ∀ (b : Bytes) (x : Nat), b.foldl (fun acc x => acc * 256 + x.toNat) x =
      x * 256 ^ b.length + b.foldl (fun acc x => acc * 256 + x.toNat) 0 := by
    intro b
    induction b with
    | nil => simp
    | cons y ys ih =>
      intro x
      rw [List.foldl_cons, ih, List.foldl_cons, ih (0 * 256 + y.toNat)]
      simp [pow_succ]; ring
  exact key b x

theorem beNat_replicate_zero (n : Nat) : beNat (List.replicate n 0) = 0 := by
  induction n with
  | zero => rfl
  | succ n ih => rw [List.replicate_succ', beNat_append, ih]; rfl

theorem beNat_reverse_map (ds : List Nat) (h : ∀ d ∈ ds, d < 256) :
    beNat (ds.map UInt8.ofNat).reverse = Nat.ofDigits 256 ds := by
  induction ds with
  | nil => rfl
  | cons d ds ih =>
    rw [List.map_cons, List.reverse_cons, beNat_append, ih (fun x hx => h x (by simp [hx])), Nat.ofDigits_cons]
    have hd := h d (by simp)
    have : beNat [UInt8.ofNat d] = d := by
      simp [beNat]; omega
    rw [this]; simp; ring

theorem beNat_natBytes (n : Nat) : beNat (natBytes n) = n := by
  unfold natBytes
  rw [beNat_reverse_map _ (fun d hd => Nat.digits_lt_base (by norm_num) hd), Nat.ofDigits_digits]

theorem natBytes_length_le (n k : Nat) (h : n < 256 ^ k) : (natBytes n).length ≤ k := by
  unfold natBytes
  simp only [List.length_reverse, List.length_map]
  rw [Nat.digits_length_le_iff (by norm_num)]
  exact h

theorem beNat_lt (b : Bytes) : beNat b < 256 ^ b.length := by
  induction b using List.reverseRecOn with
  | nil => simp [beNat]
  | append_singleton b x ih =>
    rw [beNat_append, List.length_append, pow_add]
    have h1 : beNat [x] = x.toNat := by simp [beNat]
    have h2 := x.toNat_lt
    rw [h1]
    simp only [List.length_singleton, pow_one]
    nlinarith

theorem beNat_fillBytes {len n : Nat} {b : Bytes} (h : fillBytes len n = some b) :
    beNat b = n ∧ b.length = len := by
  unfold fillBytes at h
  simp only at h
  split at h
  · next hl =>
    simp only [Option.some.injEq] at h
    subst h
    rw [beNat_append, beNat_replicate_zero, beNat_natBytes]
    constructor
    · simp
    · simp; omega
  · simp at h

theorem fillBytes_isSome {len n : Nat} (h : n < 256 ^ len) : ∃ b, fillBytes len n = some b := by
  unfold fillBytes
  simp only
  rw [if_pos (natBytes_length_le n len h)]
  exact ⟨_, rfl⟩

/-! ### blocks inside byte strings -/

theorem blockAt_append (pre post : Bytes) (b : Block) (i : Nat) (hi : i = pre.length) :
    blockAt (pre ++ (b.toBytes ++ post)) i = b := by
  subst hi
  funext j
  unfold blockAt
  rw [List.getD_eq_getElem?_getD, List.getElem?_append_right (by omega), Nat.add_sub_cancel_left,
    List.getElem?_append_left (by simp)]
  simp only [Block.toBytes]
  rw [List.getElem?_ofFn]
  simp

theorem blocks_read : ∀ (bs : List Block) (pre : Bytes),
    ((List.range bs.length).map fun k => blockAt (pre ++ bs.flatMap Block.toBytes) (pre.length + 32 * k)) = bs := by
  intro bs
  induction bs with
  | nil => simp
  | cons b bs ih =>
    intro pre
    rw [List.length_cons, List.range_succ_eq_map, List.map_cons, List.map_map]
    congr 1
    · exact blockAt_append pre _ b _ (by simp)
    · have := ih (pre ++ b.toBytes)
      conv_rhs => rw [← this]
      apply List.map_congr_left
      intro k _
      simp only [Function.comp, List.flatMap_cons, List.append_assoc, List.length_append, Block.length_toBytes]
      congr 1
      rw [Nat.succ_eq_add_one]; ring

/-! ### gammas -/

theorem gammasLoop_spec {P : Type} (c : PointCodec P) (law : c.Lawful) :
    ∀ (g : List P) (pre : Bytes) (o : Nat), pre.length = o * 96 → (∀ p ∈ g, c.inGroup p = true) →
    unmarshalGammasLoop c (pre ++ marshalGammas c g) ((List.range g.length).map (o + ·)) = some g := by
  intro g
  induction g with
  | nil => intros; rfl
  | cons p ps ih =>
    intro pre o hpre hg
    rw [List.length_cons, List.range_succ_eq_map, List.map_cons, List.map_map]
    have h1 : ((pre ++ marshalGammas c (p :: ps)).drop ((o + 0) * 96)).take 96 = c.compress p := by
      rw [add_zero, ← hpre, List.drop_left]
      unfold marshalGammas
      rw [List.flatMap_cons, ← law.length p, List.take_left]
    rw [unmarshalGammasLoop, h1, law.roundtrip p (hg p (by simp))]
    simp only [hg p (by simp), Bool.not_true, Bool.false_eq_true, if_false]
    have h2 : (List.map ((fun x => o + x) ∘ Nat.succ) (List.range ps.length)) =
        (List.range ps.length).map (o + 1 + ·) := by
      apply List.map_congr_left; intro k _; simp; omega
    have h3 : pre ++ marshalGammas c (p :: ps) = (pre ++ c.compress p) ++ marshalGammas c ps := by
      simp [marshalGammas]
    rw [h2, h3, ih (pre ++ c.compress p) (o + 1) (by simp [hpre, law.length]; ring) (fun q hq => hg q (by simp [hq]))]
    rfl

theorem marshalGammas_length {P : Type} (c : PointCodec P) (law : c.Lawful) (g : List P) :
    (marshalGammas c g).length = 96 * g.length := by
  unfold marshalGammas
  induction g with
  | nil => rfl
  | cons p ps ih => simp [ih, law.length]; ring

theorem gammasLoop_accepts {P : Type} (c : PointCodec P) (m : Bytes) :
    ∀ (is : List Nat) (g : List P), unmarshalGammasLoop c m is = some g ↔
      List.Forall₂ (fun i p => c.uncompress ((m.drop (i * 96)).take 96) = some p ∧ c.inGroup p = true) is g := by
  intro is
  induction is with
  | nil => intro g; rw [unmarshalGammasLoop, List.forall₂_nil_left_iff, Option.some.injEq, eq_comm]
  | cons i is ih =>
    intro g
    rw [unmarshalGammasLoop]
    cases g with
    | nil =>
      simp only [List.forall₂_nil_right_iff]
      split
      · simp
      · split <;> simp
    | cons p ps =>
      rw [List.forall₂_cons, ← ih]
      split
      · next h => simp [h]
      · next q hq =>
        rw [hq]
        cases hin : c.inGroup q with
        | false => simp; rintro rfl; simp [hin]
        | true =>
          simp only [Bool.not_true, Bool.false_eq_true, if_false, Option.map_eq_some_iff, List.cons.injEq,
            Option.some.injEq]
          constructor
          · rintro ⟨a, ha, rfl, rfl⟩; exact ⟨⟨rfl, hin⟩, ha⟩
          · rintro ⟨⟨rfl, _⟩, ha⟩; exact ⟨ps, ha, rfl, rfl⟩

/-- Unmarshalling a well-formed layout with arbitrary point bytes. -/
theorem unmarshal_layout {P : Type} (codec : PointCodec P) (recv : Option P) (pt : Bytes) (C2 : Block)
    (C3 : List Block) (h96 : pt.length = 96) :
    unmarshalEncryptedMessage codec recv (versionIdentifier :: (pt ++ C2.toBytes ++ C3.flatMap Block.toBytes)) =
      if !codec.inGroup (codec.uncompressInto (recv.getD codec.zero) pt) then none
      else some ⟨codec.uncompressInto (recv.getD codec.zero) pt, C2, C3⟩ := by
  generalize hd : versionIdentifier :: (pt ++ C2.toBytes ++ C3.flatMap Block.toBytes) = d
  have hlen : d.length = 1 + 96 + 32 + 32 * C3.length := by
    have h32 := Block.length_toBytes C2
    rw [← hd, List.length_cons, List.length_append, List.length_append, length_flatMap_toBytes]; omega
  have hp : (d.drop 1).take 96 = pt := by
    rw [← hd, List.drop_one, List.tail_cons, List.append_assoc, ← h96, List.take_left]
  have e1 : d = (versionIdentifier :: pt) ++ (C2.toBytes ++ C3.flatMap Block.toBytes) := by
    rw [← hd]; simp
  have e2 : d = (versionIdentifier :: pt ++ C2.toBytes) ++ C3.flatMap Block.toBytes := by
    rw [e1]; simp
  have hb2 : blockAt d (1 + 96) = C2 := by
    rw [e1]; exact blockAt_append _ _ _ _ (by simp [h96])
  have hb3 : ((List.range C3.length).map fun k => blockAt d (1 + 96 + 32 + 32 * k)) = C3 := by
    have := blocks_read C3 (versionIdentifier :: pt ++ C2.toBytes)
    rw [← e2] at this
    have hl : (versionIdentifier :: pt ++ C2.toBytes).length = 1 + 96 + 32 := by simp [h96]
    rw [hl] at this
    exact this
  unfold unmarshalEncryptedMessage
  split
  · simp at hd
  · next v t =>
    have hv : v = versionIdentifier := by simp at hd; exact hd.1.symm
    rw [if_neg (by simp [hv]), if_neg (by omega), hp, hb2, hlen]
    have : (1 + 96 + 32 + 32 * C3.length - (1 + 96 + 32)) / 32 = C3.length := by omega
    rw [this, hb3]

end Shutter.Crypto
