import Verif.Proofs.DeploySite
import Verif.Props.SolOwner

/-! # The settings after the deployment -/

namespace Shutter.Deploy
open Shutter.Sol Shutter.Sol.World Shutter.Files
open Shutter.App (Addr)

variable {E : Env} {owner : Address} {addr : Nat → Addr} {n : Nat}

theorem has_owner_mayCall {s : Site} {op : Op} {o : Owners} (ho : o = ⟨owner, owner, owner, owner⟩) (h : op.Throughout (s.MayCall owner)) :
    op.Throughout (fun x => ¬ x.Administers o) := by
  induction h with
  | @mk op hp hn ih =>
    refine .mk ?_ ih
    obtain ⟨_, h, _⟩ := hp
    subst ho
    intro ha
    cases op <;> simp only [Op.Administers] at ha <;> exact h (by rw [senderOf, ha])

/-- Something has failed, or the deployment is not over, or all settings are as the constructors made them. -/
theorem settings_later (ha : GoodAddresses addr n) {s0 s : Site} (h0 : Start n s0) (hs : SiteLater E owner addr n s0 s) :
    (∃ m, n ≤ m ∧ m < n + 10 ∧ s.receipts m = some false) ∨ s.nonce ≤ n + 9 ∨ Untouched owner (sol (addr (n + 9))) s.world := by
  induction hs with
  | refl => exact .inr (.inl (by have := h0.nonce; omega))
  | @tail s s' hl h ih =>
    have hi := site_inv (E := E) (owner := owner) ha (start_inv h0) hl
    cases h with
    | mine hb hb' =>
      rcases ih with ih | ih | ih
      · exact .inl ih
      · exact .inr (.inl ih)
      · exact .inr (.inr ⟨ih.config, ih.owners, ih.minFee, ih.receiver, ih.slasher⟩)
    | older hlt =>
      exact .inr (.inl (by simp only; omega))
    | @call op w hm hw =>
      rcases ih with ih | ih | ih
      · exact .inl ih
      · exact .inr (.inl ih)
      · have k := Sol.Props.C61_settings_owner_only (has_owner_mayCall ih.owners hm) hw
        refine .inr (.inr ⟨k.config.trans ih.config, k.owners.trans ih.owners, k.minFee.trans ih.minFee, k.receiver.trans ih.receiver, ?_⟩)
        have hne : s.world.deposit.slasher ≠ 0 := by rw [ih.slasher]; exact ha.nonzero 9 (by omega)
        exact (k.slasher hne).trans ih.slasher
    | @own t gas ht hn =>
      have ht' := ht
      rw [batch_txs, List.mem_iff_getElem?] at ht
      obtain ⟨i, hi'⟩ := ht
      rw [List.getElem?_mapIdx, Option.map_eq_some_iff] at hi'
      obtain ⟨c, hc, rfl⟩ := hi'
      have hi10 : i < 10 := (List.getElem?_eq_some_iff.1 hc).1
      simp only at hn
      have keep : (∃ m, n ≤ m ∧ m < n + 10 ∧ s.receipts m = some false) →
          ∃ m, n ≤ m ∧ m < n + 10 ∧ (s.include owner addr ⟨n + i, c⟩ gas).receipts m = some false := by
        rintro ⟨m, h1, h2, h3⟩
        have hne : m ≠ n + i := by
          rintro rfl
          rw [hi.future _ (by omega) (by omega)] at h3; cases h3
        refine ⟨m, h1, h2, ?_⟩
        unfold Site.include
        split <;> simp only <;> rw [upd, if_neg hne, h3]
      by_cases h9 : i < 9
      · refine .inr (.inl ?_)
        unfold Site.include
        split <;> simp only <;> omega
      · obtain rfl : i = 9 := by omega
        cases hi.phase with
        | failed m h1 h2 h3 => exact .inl (keep ⟨m, h1, h2, h3⟩)
        | complete block h1 _ _ _ => omega
        | spoiled h1 h2 h3 =>
          refine .inl ⟨n + 9, by omega, by omega, ?_⟩
          unfold Site.include
          split
          · simp [upd]
          · next w hw =>
            exfalso
            simp only [plan, List.getElem?_cons_zero, List.getElem?_cons_succ, Option.some.injEq] at hc
            subst hc
            split at hw
            · simp only [Site.construct] at hw
              split at hw
              · simp only [World.setSlasher, Option.bind_eq_bind, Option.map_eq_some_iff, Option.bind_eq_some_iff, require_eq_some] at hw
                obtain ⟨_, ⟨_, h, _⟩, _⟩ := hw
                exact h3.2 h
              · cases hw
            · cases hw
        | early block h1 h2 h3 h4 h5 =>
          unfold Site.include
          split
          · exact .inl ⟨n + 9, by omega, by omega, by simp [upd]⟩
          · next w hw =>
            refine .inr (.inr ?_)
            simp only
            simp only [plan, List.getElem?_cons_zero, List.getElem?_cons_succ, Option.some.injEq] at hc
            subst hc
            have hni : s.nonce - n = 9 := by omega
            rw [hni] at h2
            obtain ⟨e1, e2, e3, e4, e5, e6, e7, e8, e9, e10⟩ := h3
            simp [Site.has, h2, placed, plan, Creation.kind] at e1 e2 e3 e4 e6 e7 e8 e10
            split at hw
            · simp only [Site.construct] at hw
              split at hw
              · simp only [World.setSlasher, Option.bind_eq_bind, Option.map_eq_some_iff, Option.bind_eq_some_iff, require_eq_some,
                  Option.some.injEq] at hw
                obtain ⟨_, ⟨_, h, rfl⟩, rfl⟩ := hw
                refine ⟨e1, ?_, ?_, e6.2.1, rfl⟩
                · simp [World.owners, e1, Config.init, e3.1, e4, e6.1]
                · simp [e3.1]
              · cases hw
            · cases hw

end Shutter.Deploy
