import Verif.Props.Tx
import Verif.Proofs.DemoNet

/-! # The run of `DemoNet` with transactions as bytes -/

namespace Shutter.Tx.Props.Demo
open Shutter.App Shutter.Net Shutter.Decide Shutter.Decide.Spec Shutter.Tx Shutter.Crypto
open Shutter.Decide.Props.HonestDemo (cxOf)
open Shutter.Net.Demo (delivered delivers_iff saneOk)

theorem numbers_of {m : Msg} (h : saneOk m = true) : Proto.Numbers m := by
  cases m <;> simp only [saneOk, Bool.and_eq_true, decide_eq_true_eq, reduceCtorEq] at h <;> simp only [Proto.Numbers] <;> try exact h
  exact ⟨h.1.1, h.1.2, h.2⟩

def fitsOk (log : List Rec) : Bool := log.all (fun r => match delivered r with
  | some (a, m) => decide (a.length = 20) && saneOk m.msg && decide (m.randomNonce < 2 ^ 64) && decide ((Proto.marshal m).length < 2 ^ 63)
  | none => true)

theorem fits_of {log : List Rec} (h : fitsOk log = true) {r : Rec} (hr : r ∈ log) {t : App.Tx} (ht : r.op = .deliverTx t) : ∀ a m, t = some (a, m) → a.length = 20 ∧ Fits m := by
  rintro a m rfl
  have := List.all_eq_true.1 h r hr
  rw [delivers_iff.1 ht] at this
  simp only [Bool.and_eq_true, decide_eq_true_eq] at this
  exact ⟨this.1.1.1, numbers_of this.1.1.2, this.1.2, this.2⟩

theorem log_fits : fitsOk Net.Demo.log = true := by decide +kernel

theorem delivery {r : Rec} (h : isDelivery r.op = true) : ∃ t, r.op = .deliverTx t := by
  cases ho : r.op <;> rw [ho] at h <;> simp [isDelivery] at h
  exact ⟨_, rfl⟩

/-- **C77** The hypotheses of `C77_sane` and `C77_genuine` hold for a run with transactions of four accounts, one of which is not a keyper. -/
theorem C77_run_example {i : Nat} (hi : i ∈ ({0, 1} : Finset Nat)) : Raw env Net.Demo.log ∧ env.Accounts ∧ addrNat (cxOf i).own < 2 ^ 160 ∧ ∃ r, Net.Demo.lives i = some r ∧
    ∀ pre rec post, Net.Demo.log = pre ++ rec :: post → isDelivery rec.op = true →
      ∃ b, RawDelivers env rec b ∧ Unforged env (addrNat (cxOf i).own) (SignedBefore Net.Demo.wire r.1 1 pre) b := by
  have hl : (cxOf i).own.length = 20 := by unfold cxOf; split <;> rfl
  obtain ⟨r, hr, _⟩ := Option.map_eq_some_iff.1 (Net.Demo.check_of hi)
  refine ⟨?_, accounts, addrNat_lt hl, r, hr, ?_⟩
  · intro x hx hd
    obtain ⟨t, ht⟩ := delivery hd
    exact ⟨_, rawDelivers ht (fits_of log_fits hx ht)⟩
  · intro pre x post hlog hd
    obtain ⟨t, ht⟩ := delivery hd
    have hx : x ∈ Net.Demo.log := by rw [hlog]; simp
    exact ⟨_, rawDelivers ht (fits_of log_fits hx ht), unforged hl (Net.Demo.participates hi hr).genuine hlog ht (fits_of log_fits hx ht)⟩

end Shutter.Tx.Props.Demo
