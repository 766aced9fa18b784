import Verif.Spec.Broadcast
import Verif.Props.Net
import Verif.Props.SolMoney

/-! Property theorems C76 (contracts/contracts/KeyBroadcastContract.sol and the keypers: the key users encrypt with). -/

namespace Shutter.Net.Props
open Shutter.App Shutter.Events Shutter.Observe Shutter.Decide Shutter.Decide.Spec Shutter.Decide.Props Shutter.Crypto Shutter.Crypto.Spec
  Shutter.Dkg Shutter.Net
open Shutter.Sol (World WorldReach two64)

variable {ps : Parsers} {dev : Bool} {log : List Rec} {s : App.State} {codecs : Codecs}
variable {G1 G2 GT R : Type} [AddCommGroup G1] [AddCommGroup G2] [DecidableEq G2] [DecidableEq GT]

theorem voter_iff {w : World} {a : Sol.Address} {b : Nat} : a ∈ w.voters b ↔ ∃ key, VotedFor w a b key := by
  unfold World.voters VotedFor
  rw [List.mem_filterMap]
  constructor
  · rintro ⟨⟨n, e⟩, h1, h2⟩
    cases e <;> simp at h2
    obtain ⟨rfl, rfl⟩ := h2
    exact ⟨_, _, _, h1⟩
  · rintro ⟨key, n, m, h⟩
    exact ⟨_, h, by simp⟩

theorem voterFor_iff {E : Sol.Env} {w : World} {a : Sol.Address} {b : Nat} {x : Crypto.Bytes} :
    a ∈ w.votersFor E b x ↔ ∃ key, VotedFor w a b key ∧ E.keccak key = x := by
  unfold World.votersFor VotedFor
  rw [List.mem_filterMap]
  constructor
  · rintro ⟨⟨n, e⟩, h1, h2⟩
    cases e <;> simp at h2
    obtain ⟨⟨rfl, h⟩, rfl⟩ := h2
    exact ⟨_, ⟨_, _, h1⟩, h⟩
  · rintro ⟨key, ⟨n, m, h⟩, hk⟩
    exact ⟨_, h, by simp [hk]⟩

omit [AddCommGroup G1] [AddCommGroup G2] [DecidableEq G2] in
/-- **C76** The transaction a keyper makes for the eon key it has got is accepted by the key broadcast contract, as a vote of the keyper for this key, if the keyper has the
same number in the config of the batch, and has not voted for this batch. -/
theorem C76_accepted {E : Sol.Env} {w : World} (h : WorldReach E w) {own : Sol.Address} {k b i : Nat} {key : G2} {bc : Sol.BatchConfig}
    (marshal : G2 → Crypto.Bytes) (inner : List (List Sol.Op)) (hk : k < two64) (hb : b < two64)
    (hi : w.config.configIndexForBatchIndex b = some i) (hc : w.config.scheduledConfig i = some bc) (active : 0 < bc.batchSpan)
    (hm : bc.keypers[k]? = some own) (new : own ∉ w.voters b) (fits : w.getNumVotes E b (marshal key) + 1 < two64) :
    ∃ op w', (Action.eonKeyBroadcast k b key : Action G1 G2).call own marshal inner = some op ∧ w.step E op = some w' ∧ VotedFor w' own b (marshal key) ∧
      w'.getNumVotes E b (marshal key) = w.getNumVotes E b (marshal key) + 1 := by
  have hv : w.keyBroadcast.voted b own = false := by
    cases hv : w.keyBroadcast.voted b own with
    | false => rfl
    | true => exact absurd (((Sol.Props.C51_votes_once h b).2 own).1 hv) new
  unfold World.getNumVotes at fits ⊢
  have hs := (rfl : w.step E (.vote own k b (marshal key)) = _)
  conv at hs =>
    rhs
    rw [World.step, World.atomic]
    simp only [World.vote, Sol.u64, hk, hb, hi, hc, Sol.require, active, hm, hv, Sol.addU64, fits, if_true, Option.bind_eq_bind, Option.bind_some]
  refine ⟨_, _, rfl, hs, ⟨w.block, w.keyBroadcast.numVotes b (E.keccak (marshal key)) + 1, ?_⟩, ?_⟩
  · simp [World.emit]
  · simp [World.emit, Sol.upd]

/-- A broadcast is the verdict on one of the keyper's key generations. -/
theorem broadcast_dkg {cx : Cfg G1 G2 GT R} (hL : 0 ≤ cx.phaseLength) (law : ∀ p : G2, order • p = 0) {chain : Chain} {rs : List (Round G1 G2)}
    {sh : Observe.Shutter} {st : Decide.State G1 G2} (lived : Lived cx codecs chain rs sh st) {x : Round G1 G2} (hx : x ∈ rs) {k b : Nat} {key : G2}
    (ha : .eonKeyBroadcast k b key ∈ x.sent) :
    ∃ dkg ∈ st.dkgs, verdict cx.crypto dkg = (.eonKeyBroadcast k b key : Action G1 G2) := by
  have hin : (.eonKeyBroadcast k b key : Action G1 G2) ∈ (said verdicts rs).map (·.2) := by
    unfold said
    rw [List.map_flatMap, List.mem_flatMap]
    refine ⟨x, hx, ?_⟩
    rw [List.map_map]
    simp only [List.mem_map, List.mem_flatMap, Function.comp]
    exact ⟨_, ⟨_, ha, by simp [verdicts]⟩, rfl⟩
  have := ((C68_verdict hL law lived).mem_iff).1 hin
  obtain ⟨dkg, h1, h2⟩ := List.mem_map.1 this
  exact ⟨dkg, (List.mem_filter.1 h1).1, h2⟩

/-- **C76** If only one eon is announced for the batches from `b` on, a keyper decides to vote for no more than one key for them. -/
theorem C76_one_key (h : Exec ps dev log s) (fit : Codecs.Fit ps codecs) (sane : Sane log) (few : s.eonCounter + 1 < 2 ^ 64)
    (law : ∀ p : G2, order • p = 0) {e b : Nat} (only : ∀ r ∈ log, ∀ e', .eonStarted e' b ∈ r.events → e' = e) {cx : Cfg G1 G2 GT R} (hL : 0 ≤ cx.phaseLength)
    {rs : List (Round G1 G2)} {sh : Observe.Shutter} {st : Decide.State G1 G2} (lived : Lived cx codecs (appChain codecs log) rs sh st) : OneKey rs b := by
  intro x hx y hy k key k' key' h1 h2
  have kinv := kinv_reach hL (lived_reach lived)
  have find : ∀ {k key} {dkg : DKG G2}, dkg ∈ st.dkgs → verdict cx.crypto dkg = (.eonKeyBroadcast k b key : Action G1 G2) → dkg.eon = e := by
    intro k key dkg hd hv
    obtain ⟨S, inv⟩ := kinv.dkgs dkg hd
    have hb : dkg.startBatchIndex = b := by
      unfold verdict at hv
      split at hv
      · cases hv
      · simp at hv; exact hv.2.1
    obtain ⟨pre, post, hp, _⟩ := inv.started
    have hmem : (⟨S, .eonStarted dkg.eon dkg.startBatchIndex⟩ : Stamped) ∈ chainEvents codecs (appChain codecs log) 0 (st.syncHeight - 1) := by
      rw [hp]; simp
    obtain ⟨_, hpub⟩ := published_iff.1 hmem
    obtain ⟨_, pre', r, post', hl, hr, _⟩ := (published_app h fit sane few _ _).1 hpub
    exact only r (by rw [hl]; simp) _ (hb ▸ hr)
  obtain ⟨d, hd, hv⟩ := broadcast_dkg hL law lived hx h1
  obtain ⟨d', hd', hv'⟩ := broadcast_dkg hL law lived hy h2
  have hee := (find hd hv).trans (find hd' hv').symm
  have : d = d' := by
    by_contra hne
    obtain ⟨i, hi, rfl⟩ := List.getElem_of_mem hd
    obtain ⟨j, hj, rfl⟩ := List.getElem_of_mem hd'
    have inc := List.pairwise_iff_getElem.1 kinv.inc
    rcases Nat.lt_trichotomy i j with hij | rfl | hij
    · have := inc i j hi hj hij; omega
    · exact hne rfl
    · have := inc j i hj hi hij; omega
  subst this
  rw [hv] at hv'
  simp at hv'
  exact hv'.2

/-- What the keypers that take part have voted for. -/
theorem genuine_key {marshal : G2 → Crypto.Bytes} {own : Addr} {rs : List (Round G1 G2)} {w : World} {b : Nat} (g : GenuineKeyVotes marshal own rs w b) (one : OneKey rs b)
    {n : Int} {i : Nat} {pk : G2} (hpk : (n, Action.eonKeyBroadcast i b pk) ∈ said verdicts rs) {key : Crypto.Bytes} (hv : VotedFor w (addrNat own) b key) : key = marshal pk := by
  obtain ⟨x, hx, act, ha, k, hc⟩ := g key hv
  have hpk' : ∃ y ∈ rs, .eonKeyBroadcast i b pk ∈ y.sent := by
    unfold said at hpk
    obtain ⟨y, hy, hm⟩ := List.mem_flatMap.1 hpk
    obtain ⟨act', h1, h2⟩ := List.mem_map.1 hm
    obtain ⟨act'', h3, h4⟩ := List.mem_flatMap.1 h1
    simp only [Prod.mk.injEq] at h2
    refine ⟨y, hy, ?_⟩
    cases act'' <;> simp [verdicts] at h4
    · subst h4; simp at h2
    · subst h4; simp at h2; obtain ⟨_, rfl, rfl, rfl⟩ := h2; exact h3
  obtain ⟨y, hy, hpk'⟩ := hpk'
  cases act <;> simp [Action.call] at hc
  obtain ⟨rfl, rfl, rfl⟩ := hc
  rw [one x hx y hy _ _ _ _ ha hpk']

/-- The votes on the key of the keypers that take part. -/
theorem votes_on_key (h : Exec ps dev log s) {e b : Nat} {c : App.BatchConfig} {S : Nat} (an : Announced log e b c S)
    (later : c.configIndex ≠ 0) {cx : Nat → Cfg G1 G2 GT R} {rs : Nat → List (Round G1 G2)} {H : Finset Nat}
    (index : ∀ i ∈ H, c.keypers.idxOf? (cx i).own = some i) (member : ∀ i ∈ H, (cx i).own ∈ c.keypers)
    {E : Sol.Env} {w : World} (hw : WorldReach E w) {marshal : G2 → Crypto.Bytes}
    (genuine : ∀ i ∈ H, GenuineKeyVotes marshal (cx i).own (rs i) w b) (one : ∀ i ∈ H, OneKey (rs i) b)
    {others : Finset Sol.Address} (voters : ∀ a ∈ w.voters b, a ∈ others ∨ ∃ i ∈ H, a = addrNat (cx i).own) {pk : G2}
    (h1 : ∀ i ∈ H, ∃ n, (n, Action.eonKeyBroadcast i b pk) ∈ said verdicts (rs i)) :
    (∀ key, others.card < w.getNumVotes E b key → E.keccak key = E.keccak (marshal pk)) ∧
      ((∀ i ∈ H, addrNat (cx i).own ∈ w.voters b) → others.card < H.card →
        H.card ≤ w.getBestKeyNumVotes b ∧ E.keccak (w.getBestKey b) = E.keccak (marshal pk)) := by
  have hkey : ∀ i ∈ H, ∀ key, VotedFor w (addrNat (cx i).own) b key → key = marshal pk := by
    intro i hi key hv
    obtain ⟨n, hn⟩ := h1 i hi
    exact genuine_key (genuine i hi) (one i hi) hn hv
  have big : ∀ x, others.card < (w.votersFor E b x).length → x = E.keccak (marshal pk) := by
    intro x hx
    have nd := (Sol.Props.C51_counts_voters hw b x).2
    by_contra hne
    have hsub : ∀ a ∈ w.votersFor E b x, a ∈ others := by
      intro a ha
      obtain ⟨key, hv, hk⟩ := voterFor_iff.1 ha
      rcases voters a (voter_iff.2 ⟨key, hv⟩) with hh | ⟨i, hi, rfl⟩
      · exact hh
      · rw [hkey i hi key hv] at hk
        exact absurd hk.symm hne
    have := Finset.card_le_card (s := (w.votersFor E b x).toFinset) (t := others) (fun a ha => hsub a (List.mem_toFinset.1 ha))
    rw [List.toFinset_card_of_nodup nd] at this
    omega
  refine ⟨fun key hk => ?_, fun all hlt => ?_⟩
  · unfold World.getNumVotes at hk
    rw [(Sol.Props.C51_counts_voters hw b _).1] at hk
    exact big _ hk
  · obtain ⟨c1, c2, c3⟩ := Sol.Props.C51_best hw b
    have hcard : H.card ≤ (w.votersFor E b (E.keccak (marshal pk))).length := by
      have inj : Set.InjOn (fun i => addrNat (cx i).own) (H : Set Nat) := by
        intro i hi j hj hij
        have len : ∀ i ∈ H, (cx i).own.length = 20 := fun i hi => (config_ok h an later).2.1 _ (member i hi)
        have := beNat_injective _ _ (by rw [len i hi, len j hj]) hij
        have h3 := index i hi
        rw [this, index j hj] at h3
        simpa using h3.symm
      rw [← Finset.card_image_of_injOn inj, ← List.toFinset_card_of_nodup (Sol.Props.C51_counts_voters hw b _).2]
      refine Finset.card_le_card fun a ha => ?_
      obtain ⟨i, hi, rfl⟩ := Finset.mem_image.1 ha
      obtain ⟨key, hv⟩ := voter_iff.1 (all i hi)
      exact List.mem_toFinset.2 (voterFor_iff.2 ⟨key, hv, by rw [hkey i hi key hv]⟩)
    have hbest : H.card ≤ w.keyBroadcast.bestVotes b := hcard.trans (c2 _)
    refine ⟨hbest, ?_⟩
    have hx := big (w.keyBroadcast.bestHash b) (by rw [← c1]; omega)
    rw [← hx]
    refine c3 ?_
    obtain ⟨i, hi⟩ := Finset.card_pos.1 (by omega : 0 < H.card)
    exact List.ne_nil_of_mem (all i hi)

/-- **C76** Let at least threshold many keypers of an announced eon take part in its key generation, each voting for one key only, and with its own transactions only. Then there is
a key such that

* a key with more votes in the key broadcast contract than there are other voters is this one;
* if the keypers that take part have all voted, and there are fewer other voters, the contract's best key is this one, with at least their votes;
* the keys the keypers get for the batches of the eon fit this key (C66), so that they decrypt what was encrypted with it. -/
theorem C76_right_key [CommGroup GT] [DecidableEq G1] (h : Exec ps dev log s) (fit : Codecs.Fit ps codecs) (sane : Sane log) (few : s.eonCounter + 1 < 2 ^ 64)
    {e b : Nat} {c : App.BatchConfig} {S : Nat} (an : Announced log e b c S) (settled : Settled log e)
    (later : c.configIndex ≠ 0) (ws : Nat → Wire G1 G2) (cx : Nat → Cfg G1 G2 GT R) (crypto : Env G1 G2 GT) (law : Lawful crypto)
    (gammas : List Crypto.Bytes → List G2) (share : Crypto.Bytes → G1)
    (L : Int) (rs : Nat → List (Round G1 G2)) (sh : Nat → Observe.Shutter) (st : Nat → Decide.State G1 G2) (H : Finset Nat)
    (same : ∀ i ∈ H, (cx i).crypto = crypto ∧ (cx i).gammas = gammas ∧ (cx i).share = share ∧ (cx i).phaseLength = L)
    (index : ∀ i ∈ H, c.keypers.idxOf? (cx i).own = some i)
    (part : ∀ i ∈ H, Participates ps (ws i) (cx i) codecs log e c S (rs i) (sh i) (st i))
    (attentive : ∀ i ∈ H, Attentive (cx i) codecs (appChain codecs log) (rs i) (sh i) (st i))
    (slices : ∀ i ∈ H, SlicesFit (cx i) codecs (appChain codecs log))
    (enough : c.threshold ≤ H.card)
    {E : Sol.Env} {w : World} (hw : WorldReach E w) (marshal : G2 → Crypto.Bytes)
    (genuine : ∀ i ∈ H, GenuineKeyVotes marshal (cx i).own (rs i) w b) (one : ∀ i ∈ H, OneKey (rs i) b)
    (others : Finset Sol.Address) (voters : ∀ a ∈ w.voters b, a ∈ others ∨ ∃ i ∈ H, a = addrNat (cx i).own) :
    ∃ pk, (∀ key, others.card < w.getNumVotes E b key → E.keccak key = E.keccak (marshal pk)) ∧
      ((∀ i ∈ H, addrNat (cx i).own ∈ w.voters b) → others.card < H.card →
        H.card ≤ w.getBestKeyNumVotes b ∧ E.keccak (w.getBestKey b) = E.keccak (marshal pk)) ∧
      ∀ n, ∀ i ∈ H, (∀ j ∈ H, ∃ m ∈ said (sharesFor e n) (rs j), ∃ pre r post, log = pre ++ r :: post ∧
          ActArrives (ws j) pre r (cx j).own (.epochSecretKeyShare e n m.2) ∧ m.1 ≤ heightAfter pre ∧
          heightAfter pre < (st i).syncHeight) →
        ∃ key, HasEonKey (st i) e n key ∧ IsEpochKey crypto pk n key := by
  obtain ⟨pk, h1, h2⟩ := C71_batch_keys h fit sane few an settled later ws cx crypto law gammas share L rs sh st H same index part attentive slices enough
  obtain ⟨a1, a2⟩ := votes_on_key h an later index (fun i hi => (part i hi).member) hw genuine one voters h1
  exact ⟨pk, a1, a2, h2⟩

end Shutter.Net.Props
