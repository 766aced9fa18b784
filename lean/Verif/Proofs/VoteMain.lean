import Verif.Proofs.VoteNet
import Verif.Proofs.Bytes

set_option linter.unusedSectionVars false

/-! # Configs are accepted on the votes of the keypers -/

namespace Shutter.Net
open Shutter.App Shutter.Events Shutter.Observe Shutter.Decide Shutter.Decide.Spec

variable {ps : Parsers} {dev : Bool} {log : List Rec} {s : App.State} {codecs : Codecs}
variable {G1 G2 GT R : Type} [AddCommGroup G1] [AddCommGroup G2] [DecidableEq G2] [DecidableEq GT] {w : Wire G1 G2}
variable {cx : Cfg G1 G2 GT R} {E : Sol.Env} {fd : Nat} {sh : Observe.Shutter} {st : Decide.State G1 G2} {mc : Main.MainChain}
  {hist : Nat → Sol.World} {rounds : List (Main.MainChain × Round G1 G2)}

theorem index_le {l : List BatchConfig} (hp : l.Pairwise (fun c d => c.configIndex < d.configIndex)) {t : List BatchConfig} (ht : t <+: l)
    {k : Nat} (hk : t.length ≤ k + 1) {L d : BatchConfig} (hL : l[k]? = some L) (hd : d ∈ t) : d.configIndex ≤ L.configIndex := by
  obtain ⟨i, hi, rfl⟩ := List.mem_iff_getElem.1 hd
  have h1 : l[i]? = some t[i] := App.prefix_getElem? ht (List.getElem?_eq_getElem hi)
  obtain ⟨hi', h1⟩ := List.getElem?_eq_some_iff.1 h1
  obtain ⟨hk', hL⟩ := List.getElem?_eq_some_iff.1 hL
  rcases Nat.lt_or_ge i k with hlt | hge
  · have := List.pairwise_iff_getElem.1 hp i k hi' hk' hlt
    rw [h1, hL] at this
    omega
  · have : i = k := by omega
    subst this
    rw [← h1, hL]

theorem index_pos {l : List BatchConfig} (hp : l.Pairwise (fun c d => c.configIndex < d.configIndex)) {t : List BatchConfig} (ht : t <+: l)
    {k : Nat} {L d : BatchConfig} (hL : l[k]? = some L) (hd : d ∈ t) (he : d.configIndex = L.configIndex) : k < t.length := by
  obtain ⟨i, hi, rfl⟩ := List.mem_iff_getElem.1 hd
  have h1 : l[i]? = some t[i] := App.prefix_getElem? ht (List.getElem?_eq_getElem hi)
  obtain ⟨hi', h1⟩ := List.getElem?_eq_some_iff.1 h1
  obtain ⟨hk', hL⟩ := List.getElem?_eq_some_iff.1 hL
  rcases Nat.lt_trichotomy i k with hlt | rfl | hlt
  · have := List.pairwise_iff_getElem.1 hp i k hi' hk' hlt
    rw [h1, hL] at this
    omega
  · exact hi
  · have := List.pairwise_iff_getElem.1 hp k i hk' hi' hlt
    rw [h1, hL] at this
    omega

theorem ids_get {t : App.State} {k : Nat} {c : BatchConfig} (h : t.configs[k]? = some c) : (App.ids t)[k]? = some c.erase := by
  simp [App.ids, h]

theorem ids_length (t : App.State) : (App.ids t).length = t.configs.length := by simp [App.ids]

/-- The vote of the config that was accepted. -/
theorem followed (h : Exec ps dev log s) (fit : Codecs.Fit ps codecs) (sane : Sane log) (few : s.eonCounter + 1 < 2 ^ 64)
    {k : Nat} (hk : 1 ≤ k) {L c : BatchConfig} (hL : s.configs[k]? = some L) (hc : s.configs[k + 1]? = some c) (small : L.threshold < 2 ^ 63)
    (H : Finset Addr) (sub : ∀ a ∈ H, a ∈ L.keypers) (majority : L.keypers.length < L.threshold + H.card)
    (ws : Addr → Wire G1 G2) (cx : Addr → Cfg G1 G2 GT R) (own : ∀ a ∈ H, (cx a).own = a) (E : Addr → Sol.Env) (fd : Addr → Nat)
    (sh : Addr → Observe.Shutter) (st : Addr → Decide.State G1 G2) (mc : Addr → Main.MainChain) (hist : Addr → Nat → Sol.World)
    (rounds : Addr → List (Main.MainChain × Round G1 G2))
    (voters : ∀ a ∈ H, Voter (ws a) (cx a) codecs log (E a) (fd a) (sh a) (st a) (mc a) (hist a) (rounds a)) :
    ∃ a ∈ H, ∃ bc, (hist a (mc a).currentBlock).config.scheduled[L.configIndex + 1]? = some bc ∧
      Mirrors c (L.configIndex + 1) bc (ws a).configContract := by
  have inv := h.inv
  have hlen : k + 1 + 1 ≤ s.configs.length := by
    have := (List.getElem?_eq_some_iff.1 hc).1
    omega
  obtain ⟨pre, r, post, hl, hb, haf⟩ := Exec.growth h (k := k + 1) (by omega) hlen
  have hr : r ∈ log := by rw [hl]; simp
  obtain ⟨last, bcN, g1, g2, g3⟩ := App.Props.C22_config_quorum h hl (by omega)
  have hpre : App.ids r.before <+: App.ids s := Exec.stays h hr (k := k) hk (by omega)
  have hlastk : r.before.configs[k]? = some last := by
    rw [List.getLast?_eq_getElem?, hb] at g1
    exact g1
  have hle : last.erase = L.erase := by
    have h1 := App.prefix_getElem? hpre (ids_get hlastk)
    rw [ids_get hL] at h1
    exact (Option.some.inj h1).symm
  have hthr : last.threshold = L.threshold := by
    have := congrArg BatchConfig.threshold hle
    simpa [BatchConfig.erase] using this
  have hkey : last.keypers = L.keypers := by
    have := congrArg BatchConfig.keypers hle
    simpa [BatchConfig.erase] using this
  obtain ⟨vs, hcard, hvs⟩ := g3 (by omega)
  have hinter : ∃ a ∈ vs, a ∈ H := by
    by_contra hno
    push Not at hno
    have hdis : Disjoint vs H := by
      rw [Finset.disjoint_left]
      exact hno
    have h1 : (vs ∪ H).card = vs.card + H.card := Finset.card_union_of_disjoint hdis
    have h2 : vs ∪ H ⊆ L.keypers.toFinset := by
      intro a ha
      rw [Finset.mem_union] at ha
      rw [List.mem_toFinset]
      rcases ha with ha | ha
      · rw [← hkey]; exact (hvs a ha).1
      · exact sub a ha
    have h3 := Finset.card_le_card h2
    have h4 := L.keypers.toFinset_card_le
    omega
  obtain ⟨a, hav, haH⟩ := hinter
  obtain ⟨_, v, hv, hvote, hvlen⟩ := hvs a hav
  have hvlog : v ∈ log := by
    rw [hl]
    rw [List.mem_append, List.mem_singleton] at hv
    rcases hv with hv | rfl <;> simp [*]
  have hapre : App.ids r.after <+: App.ids s := by
    refine (h.ids_mono r hr).2 ?_
    have hL0 : L.erase ∈ App.ids s := List.mem_of_getElem? (ids_get hL)
    have hne : last.keypers ≠ [] := by
      rw [hkey]
      rcases inv.cfg.valid _ hL0 with hv | ⟨hv, _⟩
      · intro h0
        simp [BatchConfig.ensureValid, h0] at hv
      · have := congrArg List.length hv
        rw [ids_length] at this
        simp at this
        omega
    exact ⟨last, by rw [g2]; exact List.mem_append_left _ (List.mem_of_getElem? hlastk), hne⟩
  have hcN : bcN.erase = c.erase := by
    have h1 : r.after.configs[k + 1]? = some bcN := by
      rw [g2, List.getElem?_append_right (by omega), hb]
      simp
    have h2 := App.prefix_getElem? hapre (ids_get h1)
    rw [ids_get hc] at h2
    exact (Option.some.inj h2).symm
  have hidx : bcN.configIndex = c.configIndex := by
    have := congrArg BatchConfig.configIndex hcN
    simpa [BatchConfig.erase] using this
  have hgt : L.configIndex < c.configIndex := by
    obtain ⟨x1, x2⟩ := List.getElem?_eq_some_iff.1 (ids_get hL)
    obtain ⟨y1, y2⟩ := List.getElem?_eq_some_iff.1 (ids_get hc)
    have := List.pairwise_iff_getElem.1 inv.cfg.index k (k + 1) x1 y1 (by omega)
    rw [x2, y2] at this
    simpa using this
  have V := voters a haH
  rw [← own a haH] at hvote
  obtain ⟨i, bc, k1, k2, d, hd, hdi⟩ := V.voted h fit sane few hvlog hvote (by have := Exec.index_one h hk hL; omega)
  have hvpre : App.ids v.before <+: App.ids s := Exec.stays h hvlog (k := k) hk (by omega)
  have hd1 := index_le inv.cfg.index hvpre (k := k) (by rw [ids_length]; omega) (ids_get hL) (List.mem_of_mem_tail hd)
  rw [erase_index] at hd1
  have hi : bcN.configIndex = i := by rw [k2]
  have hii : i = L.configIndex + 1 := by omega
  subst hii
  refine ⟨a, haH, bc, k1, ?_⟩
  rw [k2] at hcN
  exact ⟨by rw [← hidx, hi], (congrArg BatchConfig.startBatchIndex hcN).symm, (congrArg BatchConfig.threshold hcN).symm,
    (congrArg BatchConfig.keypers hcN).symm, (congrArg BatchConfig.configContractAddress hcN).symm⟩

theorem keypersOf_nodup {bc : Sol.BatchConfig} (h : ∀ a ∈ bc.keypers, a < 2 ^ 160) : (keypersOf bc).Nodup := by
  unfold keypersOf
  refine List.Nodup.map_on ?_ (List.nodup_reverse.2 (List.nodup_dedup _))
  intro x hx y hy he
  have hx : x < 2 ^ 160 := h x (by simpa using hx)
  have hy : y < 2 ^ 160 := h y (by simpa using hy)
  have := congrArg Crypto.beNat he
  rw [Crypto.beNat_beBytes, Crypto.beNat_beBytes, Nat.mod_eq_of_lt (by norm_num at hx ⊢; exact hx), Nat.mod_eq_of_lt (by norm_num at hy ⊢; exact hy)] at this
  exact this

theorem keypersOf_length {bc : Sol.BatchConfig} : ∀ x ∈ keypersOf bc, x.length = 20 := by
  intro x hx
  unfold keypersOf at hx
  obtain ⟨a, _, rfl⟩ := List.mem_map.1 hx
  simp

theorem toInt64_le (x : Nat) : toInt64 x ≤ (x : Int) := by
  unfold toInt64
  split
  · exact le_refl _
  · omega

/-- A delivered vote counts, or the sender has voted before. -/
theorem vote_counts (h : Exec ps dev log s) {pre r post} (hl : log = pre ++ r :: post) {a : Addr} {v : BatchConfigMsg}
    (arr : Arrives pre r a (.batchConfig v)) {C last : BatchConfig} (asks : Asks v C) (hlast : lastConfig r.before = some last)
    (ok : checkConfig last C = true) (key : a ∈ last.keypers) (same : r.before.configs.length = s.configs.length) :
    ∃ x ∈ s.configVoting.votes, x.1 = a := by
  obtain ⟨nonce, del, fresh⟩ := arr
  obtain ⟨o, d, hresp, hdel⟩ := h.delivered hl del rfl fresh
  have hr : r ∈ log := by rw [hl]; simp
  obtain ⟨⟨_, kb⟩, ka, kc⟩ := h.votes_kept r hr
  have inv := (h.at hl).1.inv
  have hbc := asks_iff.2 asks
  simp only [deliverMessage, deliverBatchConfig, hbc] at hdel
  rw [show lastConfig (withNonce r.before a nonce) = some last from hlast] at hdel
  simp only at hdel
  have hne : last ≠ C := by
    rintro rfl
    have := (checkConfig_iff.1 ok).2.2
    omega
  rw [if_neg hne, if_neg (by simp [ok]), if_neg (by simpa using isKeyper_iff.2 key)] at hdel
  have hcv : (withNonce r.before a nonce).configVoting = r.before.configVoting := rfl
  rw [hcv] at hdel
  cases hadd : r.before.configVoting.addVote a C with
  | none =>
    unfold ConfigVoting.addVote at hadd
    split at hadd
    · next hany =>
      rw [List.any_eq_true] at hany
      obtain ⟨x, hx, he⟩ := hany
      exact ⟨x, kb same x hx, by simpa using he⟩
    · split at hadd <;> simp at hadd
  | some cv =>
    rw [hadd] at hdel
    simp only at hdel
    obtain ⟨_, i, hvotes, _⟩ := ConfigVoting.addVote_cases hadd
    have hvi := inv.cv _ (ids_getLast? hlast)
    have hmem : (a, i) ∈ cv.votes := by
      rw [hvotes]
      exact (mem_setVote hvi.nodup).2 (.inl rfl)
    cases hout : cv.outcome o.idx (toInt64 last.threshold) with
    | none => rw [hout] at hdel; cases hdel
    | some b =>
      rw [hout] at hdel
      cases b with
      | none =>
        simp only [Option.some.injEq, Prod.mk.injEq] at hdel
        refine ⟨(a, i), kc ?_ _ ?_, rfl⟩
        · rw [← hdel.1]
          exact same
        · rw [← hdel.1]
          exact hmem
      | some b =>
        exfalso
        have hac : addConfig { withNonce r.before a nonce with configVoting := ⟨[], []⟩ } C = some (some (updateCheckTxMembers
            { withNonce r.before a nonce with configVoting := ⟨[], []⟩, configs := r.before.configs ++ [C] })) := by
          unfold addConfig
          rw [show lastConfig { withNonce r.before a nonce with configVoting := ⟨[], []⟩ } = some last from hlast]
          simp [ok, withNonce]
        simp only at hdel
        rw [hac] at hdel
        simp only at hdel
        have hgrow : r.after.configs.length = r.before.configs.length + 1 := by
          split at hdel
          · split at hdel
            · cases hdel
            · simp only [Option.some.injEq, Prod.mk.injEq] at hdel
              rw [← hdel.1]
              simp [App.startDKG, updateCheckTxMembers]
          · simp only [Option.some.injEq, Prod.mk.injEq] at hdel
            rw [← hdel.1]
            simp [updateCheckTxMembers]
        omega

end Shutter.Net
