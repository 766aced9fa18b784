import Verif.Proofs.VoteMain

set_option linter.unusedSectionVars false

/-! # A config that enough keypers vote for is accepted -/

namespace Shutter.Net
open Shutter.App Shutter.Events Shutter.Observe Shutter.Decide Shutter.Decide.Spec

variable {ps : Parsers} {dev : Bool} {log : List Rec} {s : App.State} {codecs : Codecs}
variable {G1 G2 GT R : Type} [AddCommGroup G1] [AddCommGroup G2] [DecidableEq G2] [DecidableEq GT] {w : Wire G1 G2}
variable {cx : Cfg G1 G2 GT R} {E : Sol.Env} {fd : Nat} {sh : Observe.Shutter} {st : Decide.State G1 G2} {mc : Main.MainChain}
  {hist : Nat → Sol.World} {rounds : List (Main.MainChain × Round G1 G2)}

theorem lastConfig_get {t : App.State} {k : Nat} (h : t.configs.length = k + 1) {L : BatchConfig} (hL : t.configs[k]? = some L) :
    lastConfig t = some L := by
  unfold lastConfig
  rw [List.getLast?_eq_getElem?, h]
  exact hL

/-- The candidate of the vote of a keyper. -/
def candidateFor (w : Wire G1 G2) (i : Nat) (bc : Sol.BatchConfig) : BatchConfig :=
  ⟨bc.startBatchIndex, keypersOf bc, bc.threshold, w.configContract, i, false, false⟩

/-- While no config comes after the one numbered `k`, the vote of a keyper that has seen the next config counts. -/
theorem Voter.counted (V : Voter w cx codecs log E fd sh st mc hist rounds) (h : Exec ps dev log s) (fit : Codecs.Fit ps codecs)
    (sane : Sane log) (few : s.eonCounter + 1 < 2 ^ 64) {k : Nat} (hk : 1 ≤ k) {L : BatchConfig} (hL : s.configs[k]? = some L)
    (hlen : s.configs.length = k + 1) (hlt : L.configIndex + 1 < 2 ^ 64) (key : cx.own ∈ L.keypers) {bc : Sol.BatchConfig}
    (seen : HasSeen codecs log hist rounds L.configIndex bc) (arr : VotesArrive w log cx.own (rounds.map (·.2)))
    (acc : Acceptable L bc) (addr : w.configContract.length = 20) :
    ∃ i, s.configVoting.candidates[i]? = some (candidateFor w (L.configIndex + 1) bc) ∧ (cx.own, i) ∈ s.configVoting.votes := by
  have inv := h.inv
  obtain ⟨x, hx, hdec, hlat, hne, hsch⟩ := seen
  obtain ⟨_, hkept, hpre⟩ := V.round hx
  have hsch' : (hist mc.currentBlock).config.scheduled[L.configIndex + 1]? = some bc := App.prefix_getElem? hpre hsch
  have hobs := ((life_observed V.career.life).2 (x.1, x.2.sent) (List.mem_map.2 ⟨x, hx, rfl⟩)).1
  -- the vote
  obtain ⟨bef, aft, hr⟩ := List.append_of_mem hx
  have hcfg : x.1.configs[L.configIndex + 1]? = some (Main.known bc) := by
    rcases Main.configView hobs hkept with h0 | h0
    · exact absurd h0 hne
    · rw [h0, List.getElem?_map, hsch]
      rfl
  obtain ⟨y, hy, start, ks, t, i, hact, hi⟩ := vote_due V.career hr hdec hlat hlt hcfg
  have hy : y ∈ rounds := by
    rw [hr]
    rw [List.mem_append, List.mem_singleton] at hy
    rcases hy with hy | rfl <;> simp [*]
  obtain ⟨bc', j, g1, rfl, rfl, rfl, g5, rfl⟩ := V.sent hy hact
  have hbound : ∀ d ∈ (App.ids s).tail, d.configIndex ≤ L.configIndex := by
    intro d hd
    have := index_le inv.cfg.index (List.prefix_refl (App.ids s)) (k := k) (by rw [ids_length]; omega) (ids_get hL) (List.mem_of_mem_tail hd)
    simpa using this
  obtain ⟨d, hd, rfl⟩ := latest_config h fit sane few g5 h (below_prefix log _)
  have hdi := hbound d hd
  have hdL : d.configIndex = L.configIndex := by omega
  rw [hdL] at g1 g5 hact
  rw [hsch'] at g1
  cases g1
  -- its delivery
  obtain ⟨pre, r, post, hl, har, hn⟩ := arr y.2 (List.mem_map.2 ⟨y, hy, rfl⟩) _ hact _ rfl
  have hrl : r ∈ log := by rw [hl]; simp
  obtain ⟨d', hd', hd'i⟩ := latest_config h fit sane few g5 (h.at hl).1 (below_before hl hn)
  have hrpre : App.ids r.before <+: App.ids s := by
    refine Exec.stays h hrl (k := 1) le_rfl ?_
    have h1 := List.length_pos_of_mem hd'
    rw [List.length_tail, ids_length] at h1
    omega
  have hpos := index_pos inv.cfg.index hrpre (ids_get hL) (List.mem_of_mem_tail hd') (by simpa using hd'i)
  have hle := ((h.votes_kept r hrl).1).1
  rw [ids_length] at hpos
  have hsame : r.before.configs.length = s.configs.length := by omega
  obtain ⟨last, hlast⟩ : ∃ last, r.before.configs[k]? = some last := ⟨_, List.getElem?_eq_getElem hpos⟩
  have hlE : last.erase = L.erase := by
    have h1 := App.prefix_getElem? hrpre (ids_get hlast)
    rw [ids_get hL] at h1
    exact (Option.some.inj h1).symm
  have e1 : last.keypers = L.keypers := by
    have := congrArg BatchConfig.keypers hlE
    simpa [BatchConfig.erase] using this
  have e2 : last.configIndex = L.configIndex := by
    have := congrArg BatchConfig.configIndex hlE
    simpa [BatchConfig.erase] using this
  have e3 : last.startBatchIndex = L.startBatchIndex := by
    have := congrArg BatchConfig.startBatchIndex hlE
    simpa [BatchConfig.erase] using this
  have hok : checkConfig last (candidateFor w (L.configIndex + 1) bc) = true := by
    rw [checkConfig_iff]
    refine ⟨?_, ?_, ?_⟩
    · unfold BatchConfig.ensureValid
      have h1 := acc.threshold
      have h2 := acc.enough
      have h3 := toInt64_le bc.threshold
      have e1 : (candidateFor w (L.configIndex + 1) bc).keypers = keypersOf bc := rfl
      have e2 : (candidateFor w (L.configIndex + 1) bc).threshold = bc.threshold := rfl
      rw [e1, e2, if_neg (by omega), if_neg (by omega), if_neg (by omega)]
    · rw [e3]; exact acc.start
    · rw [e2]; simp [candidateFor]
  obtain ⟨v, hv, hva⟩ := vote_counts h hl har (C := candidateFor w (L.configIndex + 1) bc)
    ⟨rfl, rfl, keypersOf_length, keypersOf_nodup acc.addresses, rfl, ⟨rfl, addr⟩, by simp [candidateFor], rfl, rfl⟩
    (lastConfig_get (by omega) hlast) hok (by rw [e1]; exact key) hsame
  -- whatever was voted for was this config
  obtain ⟨c, hc, q, hq, hqv, _⟩ := h.configVotes.1 v hv
  rw [hva] at hqv
  have hcgt := h.candidates.2 c (List.mem_of_getElem? hc) L.configIndex
    (List.mem_map.2 ⟨L.erase, List.mem_of_getElem? (ids_get hL), by simp⟩)
  obtain ⟨i', bc2, k1, k2, d2, hd2, hd2i⟩ := V.voted h fit sane few hq hqv (by have := Exec.index_one h hk hL; omega)
  have hqpre : App.ids q.before <+: App.ids s := by
    refine Exec.stays h hq (k := 1) le_rfl ?_
    have h1 := List.length_pos_of_mem hd2
    rw [List.length_tail, ids_length] at h1
    omega
  have hd2le := index_le inv.cfg.index hqpre (k := k) (by rw [ids_length]; exact le_trans ((h.votes_kept q hq).1).1 (by omega)) (ids_get hL)
    (List.mem_of_mem_tail hd2)
  rw [erase_index] at hd2le
  have hci : c.configIndex = i' := by rw [k2]
  have hi' : i' = L.configIndex + 1 := by omega
  subst hi'
  rw [hsch'] at k1
  cases k1
  refine ⟨v.2, ?_, ?_⟩
  · rw [hc, k2]
    rfl
  · rw [← hva]
    exact hv

/-- A config all of a quorum have seen is accepted. -/
theorem accepted (h : Exec ps dev log s) (fit : Codecs.Fit ps codecs) (sane : Sane log) (few : s.eonCounter + 1 < 2 ^ 64)
    {k : Nat} (hk : 1 ≤ k) {L : BatchConfig} (hL : s.configs[k]? = some L) (hlt : L.configIndex + 1 < 2 ^ 64)
    (small : L.threshold < 2 ^ 63)
    (H : Finset Addr) (sub : ∀ a ∈ H, a ∈ L.keypers) (quorum : L.threshold ≤ H.card) (majority : L.keypers.length < L.threshold + H.card)
    (contract : Bytes) (addr : contract.length = 20) (ws : Addr → Wire G1 G2) (same : ∀ a ∈ H, (ws a).configContract = contract)
    (cx : Addr → Cfg G1 G2 GT R) (own : ∀ a ∈ H, (cx a).own = a) (E : Addr → Sol.Env) (fd : Addr → Nat)
    (sh : Addr → Observe.Shutter) (st : Addr → Decide.State G1 G2) (mc : Addr → Main.MainChain) (hist : Addr → Nat → Sol.World)
    (rounds : Addr → List (Main.MainChain × Round G1 G2))
    (voters : ∀ a ∈ H, Voter (ws a) (cx a) codecs log (E a) (fd a) (sh a) (st a) (mc a) (hist a) (rounds a))
    {bc : Sol.BatchConfig} (seen : ∀ a ∈ H, HasSeen codecs log (hist a) (rounds a) L.configIndex bc)
    (arrive : ∀ a ∈ H, VotesArrive (ws a) log a ((rounds a).map (·.2))) (acc : Acceptable L bc) :
    ∃ c, s.configs[k + 1]? = some c ∧ Mirrors c (L.configIndex + 1) bc contract := by
  have inv := h.inv
  have hklt : k < s.configs.length := (List.getElem?_eq_some_iff.1 hL).1
  by_cases hlen : s.configs.length = k + 1
  · exfalso
    have hcount : ∀ a ∈ H, ∃ i, s.configVoting.candidates[i]? = some ⟨bc.startBatchIndex, keypersOf bc, bc.threshold, contract, L.configIndex + 1, false, false⟩ ∧
        (a, i) ∈ s.configVoting.votes := by
      intro a ha
      have hkey := sub a ha
      have harr := arrive a ha
      rw [← own a ha] at hkey
      have : ((rounds a).map (·.2)) = ((rounds a).map (·.2)) := rfl
      obtain ⟨i, h1, h2⟩ := (voters a ha).counted h fit sane few hk hL hlen hlt hkey (seen a ha) (by rw [own a ha]; exact harr) acc
        (by rw [same a ha]; exact addr)
      rw [own a ha] at h2
      rw [candidateFor, same a ha] at h1
      exact ⟨i, h1, h2⟩
    have hpos : 0 < H.card := by
      rcases Nat.eq_zero_or_pos H.card with h0 | h0
      · have hL0 : L.erase ∈ App.ids s := List.mem_of_getElem? (ids_get hL)
        rcases inv.cfg.valid _ hL0 with hv | ⟨hv, _⟩
        · have : L.threshold = 0 := by omega
          simp [BatchConfig.ensureValid, BatchConfig.erase, this] at hv
        · have := congrArg List.length hv
          rw [ids_length] at this
          simp at this
          omega
      · exact h0
    obtain ⟨a0, ha0⟩ := Finset.card_pos.1 hpos
    obtain ⟨i, hi, hiv⟩ := hcount a0 ha0
    have hvi := inv.cv _ (ids_getLast? (lastConfig_get hlen hL))
    have hsub : H ⊆ votersOf s.configVoting.votes i := by
      intro a ha
      obtain ⟨i', hi', hiv'⟩ := hcount a ha
      have : i' = i := by
        obtain ⟨x1, x2⟩ := List.getElem?_eq_some_iff.1 hi
        obtain ⟨y1, y2⟩ := List.getElem?_eq_some_iff.1 hi'
        exact (List.Nodup.getElem_inj_iff h.candidates.1).1 (y2.trans x2.symm)
      rw [mem_votersOf, ← this]
      exact hiv'
    have hcard := Finset.card_le_card hsub
    rw [card_votersOf hvi.nodup] at hcard
    have hbelow := hvi.below _ hiv
    have ht := toInt64_le L.erase.threshold
    simp only [BatchConfig.erase] at hbelow ht
    omega
  · obtain ⟨c, hc⟩ : ∃ c, s.configs[k + 1]? = some c := ⟨_, List.getElem?_eq_getElem (by omega)⟩
    obtain ⟨a, ha, bc', h1, h2⟩ := followed h fit sane few hk hL hc small H sub majority ws cx own E fd sh st mc hist rounds voters
    obtain ⟨x, hx, _, _, _, hsch⟩ := seen a ha
    have := App.prefix_getElem? ((voters a ha).round hx).2.2 hsch
    rw [h1] at this
    cases this
    rw [same a ha] at h2
    exact ⟨c, hc, h2⟩

end Shutter.Net

namespace Shutter.Net
open Shutter.App Shutter.Events Shutter.Observe Shutter.Decide Shutter.Decide.Spec

variable {ps : Parsers} {dev : Bool} {log : List Rec} {s : App.State} {codecs : Codecs}
variable {G1 G2 GT R : Type} [AddCommGroup G1] [AddCommGroup G2] [DecidableEq G2] [DecidableEq GT]
variable {cx : Cfg G1 G2 GT R} {E : Sol.Env} {fd : Nat} {sh : Observe.Shutter} {st : Decide.State G1 G2} {mc : Main.MainChain}
  {hist : Nat → Sol.World} {rounds : List (Main.MainChain × Round G1 G2)}

/-- Later, the latest config has no smaller number. -/
theorem latest_mono (h : Exec ps dev log s) (fit : Codecs.Fit ps codecs) (sane : Sane log) (few : s.eonCounter + 1 < 2 ^ 64) {n m : Int} (hnm : n ≤ m)
    {i j : Nat} (hi : latestConfig codecs (appChain codecs log) n = some i) (hj : latestConfig codecs (appChain codecs log) m = some j) : i ≤ j := by
  obtain ⟨s1, h1, _⟩ := Exec.prefix h (below_prefix log m)
  obtain ⟨c, hc, rfl⟩ := latest_config h fit sane few hi h1 (below_mono log hnm)
  rw [latest_below h fit sane few, Option.map_eq_some_iff] at hj
  obtain ⟨x, hx, rfl⟩ := hj
  rw [h1.announced, List.getLast?_map, Option.map_eq_some_iff] at hx
  obtain ⟨d, hd, rfl⟩ := hx
  have hp := h1.inv.cfg.index
  have hp' : (App.ids s1).tail.Pairwise (fun c d => c.configIndex < d.configIndex) := hp.sublist (List.tail_sublist _)
  obtain ⟨l', hl'⟩ := List.getLast?_eq_some_iff.1 hd
  rw [hl', List.mem_append, List.mem_singleton] at hc
  rcases hc with hc | rfl
  · rw [hl'] at hp'
    exact le_of_lt ((List.pairwise_append.1 hp').2.2 c hc d (by simp))
  · exact le_refl _

theorem vote_due_exact (h : Exec ps dev log s) (fit : Codecs.Fit ps codecs) (sane : Sane log) (few : s.eonCounter + 1 < 2 ^ 64)
    (l : Career cx codecs (appChain codecs log) E fd sh st mc hist rounds) {before after : List (Main.MainChain × Round G1 G2)}
    {x : Main.MainChain × Round G1 G2} (hr : rounds = before ++ x :: after) (kept : Sol.NoneTakenBack hist x.1.currentBlock)
    (deciding : x.2.deciding = true) (known : x.1.configs ≠ []) {j : Nat} (latest : latestConfig codecs (appChain codecs log) x.2.next = some j)
    (hj : j + 1 < 2 ^ 64) {bc : Sol.BatchConfig} (scheduled : (hist x.1.currentBlock).config.scheduled[j + 1]? = some bc) :
    ∃ y ∈ before ++ [x], voteFor (j + 1) bc ∈ y.2.sent := by
  have hx : x ∈ rounds := by rw [hr]; simp
  have hobs := (life_observed l.life).2 (x.1, x.2.sent) (List.mem_map.2 ⟨x, hx, rfl⟩)
  have hcfg : x.1.configs[j + 1]? = some (Main.known bc) := by
    rcases Main.configView hobs.1 kept with h0 | h0
    · exact absurd h0 known
    · rw [h0, List.getElem?_map, scheduled]
      rfl
  obtain ⟨y, hy, start, ks, t, i, hact, hi⟩ := vote_due l hr deciding latest hj hcfg
  refine ⟨y, hy, ?_⟩
  have hyr : y ∈ rounds := by
    rw [hr]
    rw [List.mem_append, List.mem_singleton] at hy
    rcases hy with hy | rfl <;> simp [*]
  have hyx : y.2.next ≤ x.2.next ∧ y.1.currentBlock ≤ x.1.currentBlock := by
    rw [List.mem_append, List.mem_singleton] at hy
    rcases hy with hy | rfl
    · refine ⟨?_, ?_⟩
      · have := (next_mono l).1
        rw [hr, List.pairwise_append] at this
        exact this.2.2 y hy x (by simp)
      · have := (block_mono l)
        rw [hr, List.pairwise_append] at this
        exact this.2.2 y hy x (by simp)
    · exact ⟨le_refl _, le_refl _⟩
  obtain ⟨bc', j', g1, g2, g3, rfl⟩ := vote_of l hyr hact (fun a b hab hb => kept a b hab (le_trans hb hyx.2))
  have hle := latest_mono h fit sane few hyx.1 g3 latest
  have : j' = j := by omega
  subst this
  have hpre := kept _ _ hyx.2 (le_refl _)
  have := App.prefix_getElem? hpre g1
  rw [scheduled] at this
  cases this
  rw [← g2]
  exact hact

end Shutter.Net
