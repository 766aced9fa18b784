import Verif.Proofs.TurnExec

/-! # Keys come from published shares -/

namespace Shutter.Decide
open Shutter.Crypto Shutter.Dkg Shutter.Observe Shutter.Observe.Props Shutter.Main Shutter.GoConfig Shutter.Decide.Spec
open Shutter.Sol (BatchConfig zeroHash World two64 NoneTakenBack)

variable {G1 G2 GT R : Type} [AddCommGroup G1] [AddCommGroup G2] [DecidableEq G2] [DecidableEq GT]
variable {cx : Cfg G1 G2 GT R} {codecs : Events.Codecs} {chain : Observe.Chain} {E : Sol.Env} {fd : Nat}
variable {s : Observe.Shutter} {st : State G1 G2} {mc : MainChain} {hist : Nat → World} {log : List (Moment G1 G2)}

/-- A share for batch `b`. -/
def ShareOf (b : Nat) (x : Stamped) : Prop := ∃ sender eon share, x.ev = .epochSecretKeyShare sender eon b share

theorem shareEvent_source {sh : Observe.Shutter} {ekg ekg' : EKG G1 G2} {d d' : Decider G1 G2} {x : Stamped}
    (hs : handleShareEvent cx sh mc ekg d x = some (ekg', d')) {b : Nat} {key : G1} (hk : ekg'.kg.secretKeys b = some (some key)) :
    ekg.kg.secretKeys b = some (some key) ∨ ShareOf b x := by
  unfold handleShareEvent at hs
  split at hs
  · next sender eon epoch share hev =>
    split at hs
    · cases hs; exact .inl hk
    · split at hs
      · cases hs; exact .inl hk
      · simp only [Option.bind_eq_bind, Option.bind_eq_some_iff, Prod.exists] at hs
        obtain ⟨kg, ok, hh, hs⟩ := hs
        have hkg : ekg'.kg = kg := by
          split at hs
          · cases hs; rfl
          · split at hs
            · simp only [Option.bind_eq_some_iff] at hs
              obtain ⟨t, _, hs⟩ := hs
              split at hs
              · cases hs; rfl
              · rw [Option.map_eq_some_iff] at hs
                obtain ⟨d1, h1, hs⟩ := hs
                cases hs; rfl
            · cases hs; rfl
        rw [hkg] at hk
        rcases handleShare_new hh hk with h | ⟨h, _⟩
        · exact .inl h
        · right
          simp only at h
          rw [h]
          exact ⟨_, _, _, hev⟩
  · cases hs; exact .inl hk

theorem syncEKG_source {sh : Observe.Shutter} {b : Nat} {key : G1} : ∀ {xs : List Stamped} {ekg ekg' : EKG G1 G2} {d d' : Decider G1 G2},
    syncEKGWithEon cx sh mc ekg d xs = some (ekg', d') → ekg'.kg.secretKeys b = some (some key) →
    ekg.kg.secretKeys b = some (some key) ∨ ∃ x ∈ xs, ShareOf b x := by
  intro xs
  induction xs with
  | nil => intro ekg ekg' d d' hs hk; cases hs; exact .inl hk
  | cons x xs ih =>
    intro ekg ekg' d d' hs hk
    simp only [syncEKGWithEon, Option.bind_eq_bind, Option.bind_eq_some_iff, Prod.exists] at hs
    obtain ⟨e1, d1, h1, h2⟩ := hs
    rcases ih h2 hk with h | ⟨y, hy, hy'⟩
    · rcases shareEvent_source h1 h with h | h
      · exact .inl h
      · exact .inr ⟨x, by simp, h⟩
    · exact .inr ⟨y, by simp [hy], hy'⟩

theorem syncEKGs_source {sh : Observe.Shutter} {b : Nat} {key : G1} : ∀ {l l' : List (EKG G1 G2)} {d d' : Decider G1 G2},
    syncEKGs cx sh mc l d = some (l', d') → ∀ e' ∈ l', e'.kg.secretKeys b = some (some key) →
    (∃ e ∈ l, e.kg.secretKeys b = some (some key)) ∨ ∃ eon x h, findEon sh eon = some x ∧ ∃ y ∈ x.query .share h, ShareOf b y := by
  intro l
  induction l with
  | nil => intro l' d d' hs; cases hs; simp
  | cons x l ih =>
    intro l' d d' hs e' he hk
    simp only [syncEKGs, Option.bind_eq_bind, Option.bind_eq_some_iff, Prod.exists, Option.some.injEq, Prod.mk.injEq] at hs
    obtain ⟨eon, heon, e1, d1, h1, l1, d2, h2, rfl, rfl⟩ := hs
    rcases List.mem_cons.1 he with rfl | he
    · rcases syncEKG_source h1 hk with h | ⟨y, hy, hy'⟩
      · exact .inl ⟨x, by simp, h⟩
      · exact .inr ⟨_, eon, _, heon, y, hy, hy'⟩
    · rcases ih h2 e' he hk with ⟨e, h, h'⟩ | h
      · exact .inl ⟨e, by simp [h], h'⟩
      · exact .inr h

/-- If the keyper sees no shares for batches that are not over, as far as it sees the main chain, it has no keys for them. -/
theorem keysInTime_of (w : Watch cx codecs chain E fd s st mc hist log)
    (hs : ∀ m ∈ log, ∀ h sender eon b share, h ≤ m.view.currentBlock → Published codecs chain h (.epochSecretKeyShare sender eon b share) →
      (hist m.main.currentBlock).BatchOver b) : KeysInTime hist log := by
  suffices h : KeysInTime hist log ∧ ∀ b key, HasKey st b key → (hist mc.currentBlock).BatchOver b from h.1
  induction w with
  | init _ => exact ⟨fun m hm => (by cases hm), by rintro b key ⟨e, he, _⟩; cases he⟩
  | @round s s' st st' mc mc' hist hist' log ys keys acts w h1 h2 h3 h4 h5 h6 ih =>
    have w' := Watch.round w h1 h2 h3 h4 h5 h6
    obtain ⟨o, ol⟩ := watch_observed w
    obtain ⟨f1, f2, f3⟩ := follows_spec h3 o
    obtain ⟨i1, i2⟩ := ih (fun m hm h sender eon b share hle hp => by
      rw [← f3 _ (ol m hm).2]
      exact hs m (List.mem_append_left _ hm) h sender eon b share hle hp)
    have old : ∀ b key, HasKey st b key → (hist' mc'.currentBlock).BatchOver b := by
      intro b key hk
      have := i2 b key hk
      rw [← f3 _ (le_refl _)] at this
      exact (Sol.accepted_later (f1.chain.reach (lt_of_le_of_lt f2 f1.current)).preach.inv (f1.chain.plater f2 f1.current) this .cipher).2.2
    have new : ∀ b key, HasKey st' b key → (hist' mc'.currentBlock).BatchOver b := by
      rintro b key hk
      rcases decide_stages h6 with ⟨rfl, _⟩ | ⟨dkg, sync, _, _, _, _, _, ekgs, g⟩
      · exact old b key hk
      · obtain ⟨e', he, hkey⟩ := hk
        rw [ekgs_final g] at he
        rcases syncEKGs_source g.hsync e' he hkey with ⟨e, h, h'⟩ | ⟨eon, x, ht, q1, y, q2, sender, eon', share, q3⟩
        · exact old b key ⟨e, newEkgs_empty g h h', h'⟩
        · obtain ⟨xs, g1, _⟩ := watch_sigs w'
          obtain ⟨q4, _⟩ := query_mem g1 q1 q2
          obtain ⟨q5, q6⟩ := published_iff.1 q4
          rw [q3] at q6
          exact hs ⟨s', st, mc', st', acts⟩ (by simp) y.height sender eon' b share q5 q6
    refine ⟨fun m hm b key hk => ?_, new⟩
    rcases List.mem_append.1 hm with hm | hm
    · rw [f3 _ (ol m hm).2]
      exact i1 m hm b key hk
    · rw [List.mem_singleton] at hm
      subst hm
      exact new b key hk
  | restart f w ih =>
    obtain ⟨i1, i2⟩ := ih hs
    refine ⟨i1, fun b key hk => i2 b key ?_⟩
    unfold loadState at hk
    split at hk <;> exact hk

end Shutter.Decide
