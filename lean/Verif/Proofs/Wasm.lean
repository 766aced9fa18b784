import Verif.Spec.Wasm
import Verif.Proofs.Events
import Verif.Props.Crypto
import Verif.Props.Encoding

namespace Shutter.Wasm
open Shutter.Crypto Shutter.Crypto.Props
open Shutter.Events (Text hexutilEncode hexEncode hexDigit)

theorem hexDigit_idx : ∀ n : Fin 16, hexDigit n.1 ∈ "0123456789abcdef".toList ∧
    "0123456789abcdef".toList.idxOf (hexDigit n.1) = n.1 := by decide

theorem hexDigit_idx' (n : Nat) (h : n < 16) : hexDigit n ∈ "0123456789abcdef".toList ∧
    "0123456789abcdef".toList.idxOf (hexDigit n) = n := hexDigit_idx ⟨n, h⟩

theorem hexEncode_get (b : Crypto.Bytes) (i : Nat) (x : UInt8) (h : b[i]? = some x) :
    (hexEncode b)[2 * i]? = some (hexDigit (x.toNat / 16)) ∧
      (hexEncode b)[2 * i + 1]? = some (hexDigit (x.toNat % 16)) := by
  induction b generalizing i with
  | nil => simp at h
  | cons y b ih =>
    cases i with
    | zero =>
      simp only [List.getElem?_cons_zero, Option.some.injEq] at h
      subst h
      simp [hexEncode]
    | succ i =>
      simp only [List.getElem?_cons_succ] at h
      have := ih i h
      unfold hexEncode at this ⊢
      simp only [List.flatMap_cons, List.cons_append, List.nil_append]
      rw [show 2 * (i + 1) = 2 * i + 1 + 1 by omega]
      simpa only [List.getElem?_cons_succ] using this

theorem hex_encode (b : Crypto.Bytes) : Hex (.text (hexutilEncode b)) b := by
  refine ⟨hexEncode b, rfl, Events.hexEncode_length b, ?_, ?_⟩
  · intro d hd
    obtain ⟨n, hn, rfl⟩ := Events.hexEncode_mem hd
    exact (hexDigit_idx' n hn).1
  · intro i x hx
    have hx' : x.toNat < 256 := x.toNat_lt
    obtain ⟨h1, h2⟩ := hexEncode_get b i x hx
    refine ⟨_, _, h1, h2, ?_⟩
    rw [(hexDigit_idx' _ (by omega)).2, (hexDigit_idx' _ (by omega)).2]
    omega

theorem hex_unique {r : Result} {b b' : Crypto.Bytes} (h : Hex r b) (h' : Hex r b') : b = b' := by
  obtain ⟨d, hr, hl, _, hd⟩ := h
  obtain ⟨d', hr', hl', _, hd'⟩ := h'
  rw [hr] at hr'
  simp only [Result.text.injEq, List.cons.injEq, true_and] at hr'
  subst hr'
  apply List.ext_getElem (by omega)
  intro i h1 h2
  obtain ⟨x, y, e1, e2, e3⟩ := hd i b[i] (by simp [h1])
  obtain ⟨x', y', e1', e2', e3'⟩ := hd' i b'[i] (by simp [h2])
  rw [e1] at e1'; rw [e2] at e2'
  simp only [Option.some.injEq] at e1' e2'
  subst e1' e2'
  exact UInt8.toNat_inj.1 (by omega)

theorem not_both {r : Result} {b : Crypto.Bytes} (h : Hex r b) : ¬ Failed r := by
  rintro ⟨s, hs⟩
  obtain ⟨d, hr, _⟩ := h
  rw [hr] at hs
  simp at hs

theorem decodeBytes_of {v : JsValue} {b : Crypto.Bytes} (h : Holds v b) : decodeBytesArg v = .ok b := by
  rcases h with rfl | rfl <;> rfl

theorem decodeBytes_ok {v : JsValue} {b : Crypto.Bytes} (h : decodeBytesArg v = .ok b) : Holds v b := by
  cases v <;> simp_all [decodeBytesArg, Holds]

theorem beNat_lt8 {b : Crypto.Bytes} (h : b.length = 8) : be8 (beNat b) = b := by
  obtain ⟨a0, a1, a2, a3, a4, a5, a6, a7, rfl⟩ : ∃ a0 a1 a2 a3 a4 a5 a6 a7, b = [a0, a1, a2, a3, a4, a5, a6, a7] := by
    match b, h with
    | [a0, a1, a2, a3, a4, a5, a6, a7], _ => exact ⟨_, _, _, _, _, _, _, _, rfl⟩
  have l0 := a0.toNat_lt; have l1 := a1.toNat_lt; have l2 := a2.toNat_lt; have l3 := a3.toNat_lt
  have l4 := a4.toNat_lt; have l5 := a5.toNat_lt; have l6 := a6.toNat_lt; have l7 := a7.toNat_lt
  simp only [be8, beNat, List.foldl, List.cons.injEq, and_true]
  refine ⟨?_, ?_, ?_, ?_, ?_, ?_, ?_, ?_⟩ <;> (apply UInt8.toNat_inj.1; rw [UInt8.toNat_ofNat']; omega)

end Shutter.Wasm
