import Verif.Proofs.KeyShares
import Verif.Props.Keys

/-! Property theorems C67 (shuttermint/keyper/decide.go: the key shares a keyper publishes). -/

namespace Shutter.Decide.Props
open Shutter.Crypto Shutter.Crypto.Spec Shutter.Dkg Shutter.Dkg.Spec Shutter.Observe Shutter.Observe.Props Shutter.Decide Shutter.Decide.Spec Shutter.Main
open Shutter.Crypto.Props
open Shutter.App (Addr)
open Shutter.Events (Codecs)
open Shutter.Sol (World TxType NoneTakenBack)

variable {G1 G2 GT R : Type} [AddCommGroup G1] [AddCommGroup G2] [CommGroup GT] [DecidableEq G1] [DecidableEq G2] [DecidableEq GT]
variable {cx : Cfg G1 G2 GT R} {codecs : Codecs} {chain : Observe.Chain} {E : Sol.Env} {fd : Nat}
variable {s : Observe.Shutter} {st : State G1 G2} {mc : MainChain} {hist : Nat → World} {log : List (MainChain × List (Action G1 G2))}

omit [AddCommGroup G1] [DecidableEq G1] [DecidableEq G2] [DecidableEq GT] in
/-- Multiples of the generator determine the multiples of every point. -/
theorem smul_eq_of_g2 {env : Crypto.Env G1 G2 GT} [AddCommGroup G1] (law : Lawful env) {x y : Nat} (h : x • env.g2 = y • env.g2) (p : G1) : x • p = y • p := by
  rw [← sub_eq_zero]
  apply law.nondegenerate
  have e : env.pair env.g2 (x • p - y • p) * env.pair env.g2 (y • p) = env.pair env.g2 (x • p) := by
    rw [← law.pair_add_right, sub_add_cancel]
  rw [law.pair_smul_right, law.pair_smul_right, ← law.pair_smul_left, ← law.pair_smul_left, h] at e
  exact mul_eq_right.1 e

/-- **C67** Whatever was on shuttermint: if a keyper publishes a share for a batch, then, by what it has seen of the chain, it is a keyper of
the batch, the eon it gives is the one responsible for the batch, and the share is its share of the epoch secret key for the batch and the
eon public key it has voted for in this eon: the value, at the keyper's position in the config of the eon, of a polynomial with as many
coefficients as the threshold, whose value at zero is the secret of the eon public key. -/
theorem C67_right_share (law : Lawful cx.crypto) (fit : SlicesFit cx codecs chain) (l : Life cx codecs chain E fd s st mc hist log)
    {mc' : MainChain} {acts : List (Action G1 G2)} (hm : (mc', acts) ∈ log) {eon b : Nat} {share : G1}
    (ha : .epochSecretKeyShare eon b share ∈ acts) :
    ∃ seen start upTo keypers threshold pk i, KeyperFor (chainEvents codecs chain 0 seen) b cx.own ∧
      EonFor (chainEvents codecs chain 0 seen) b eon start ∧
      configFor (chainEvents codecs chain 0 upTo) start = some (keypers, threshold) ∧ Broadcast log start pk ∧
      keypers.idxOf? cx.own = some i ∧
      (1 ≤ threshold → ∃ P : List Nat, P.length = threshold ∧ pk = secret P • cx.crypto.g2 ∧
        share = polyValue P (i + 1) • epochIDOf cx.crypto b) := by
  induction l with
  | init _ => cases hm
  | restart _ _ ih => exact ih hm
  | @round s s' st st' mc mc1 hist hist' log ys keys acts1 l h1 h2 h3 h4 h5 h6 ih =>
    rcases List.mem_append.1 hm with hm | hm
    · obtain ⟨seen, start, upTo, keypers, threshold, pk, i, g1, g2, g3, ⟨m, a, j, q1, q2⟩, g5⟩ := ih hm
      exact ⟨seen, start, upTo, keypers, threshold, pk, i, g1, g2, g3, ⟨m, a, j, List.mem_append_left _ q1, q2⟩, g5⟩
    · simp only [List.mem_singleton, Prod.mk.injEq] at hm
      obtain ⟨rfl, rfl⟩ := hm
      obtain ⟨ys0, hy⟩ := life_view l
      have hv := runLoop_append hy h1
      have ok := keys_round law fit hv (life_keys law fit l) h6
      obtain ⟨_, _, _, hown, x, ekg, p1, p2, p3, p4⟩ := (share_round h6 eon b share).1.1 ha
      have hmem : ekg ∈ st'.ekgs := List.mem_of_find?_eq_some p2
      have heon : ekg.eon = x.eon := by
        have := List.find?_some p2
        simpa using this
      obtain ⟨ek, start, upTo, k1, k2, k3⟩ := ok.ekgs ekg hmem
      obtain ⟨r1, r2, r3⟩ := (C35_eon_for_batch hv b).1 x p1
      obtain ⟨thr, b0, inv⟩ := runLoop_inv_some hv
      have hc := findBatchConfig_eq s' _ b inv.configs
      have hidx := ek.index
      rw [findAddressIndex_eq] at hidx
      simp only [Action.epochSecretKeyShare.injEq] at p4
      obtain ⟨rfl, _, rfl⟩ := p4
      obtain ⟨up, at_, k1⟩ := k1
      obtain ⟨rfl, _⟩ := started_unique_chain (heon ▸ k1) r2
      refine ⟨s'.currentBlock, x.startBatchIndex, upTo, ekg.keypers, ekg.kg.threshold, _, ekg.kg.keyper, ?_,
        ⟨⟨_, by rw [ek.kgEon, heon]; exact r2⟩, r1, fun e first at_ h hb => by rw [ek.kgEon, heon]; exact r3 e first at_ h hb⟩, k2, k3, hidx, ?_⟩
      · cases hcf : configFor (seenEvents codecs chain s') b with
        | none =>
          rw [hcf, Option.getD_none, Prod.mk.injEq] at hc
          rw [hc.1] at hown
          cases hown
        | some c =>
          rw [hcf, Option.getD_some] at hc
          refine ⟨_, _, hcf, ?_⟩
          rw [← hc]
          exact hown
      · intro ht
        rcases ek.kg with ⟨h0, _⟩ | ⟨P, _, sh, _, _⟩
        · omega
        · refine ⟨P, sh.len, sh.pk, ?_⟩
          have hs := ek.share
          obtain ⟨hlt, hs⟩ := List.getElem?_eq_some_iff.1 hs
          rw [sh.pks] at hs
          show ekg.kg.secretKeyShare • epochIDOf cx.crypto b = _
          exact smul_eq_of_g2 law hs.symm _

/-- The keyper takes part in the eon (it has finished the key generation of the eon with a result), and does not yet have a key for batch `b`. -/
def WaitsForKey (st : State G1 G2) (eon b : Nat) : Prop := ∃ ekg, st.ekgs.find? (fun e => e.eon == eon) = some ekg ∧ ekg.kg.secretKeys b = none

omit [DecidableEq G1] in
/-- **C67** Exactly if: in each round, a keyper goes on to some batch, and it publishes a share for a batch it passes (one not passed
in an earlier round) exactly if the batch does not time out by the next block, the keyper is a keyper of the batch, takes part
in the eon responsible for it, and does not have a key for it yet. -/
theorem C67_published (law : Lawful cx.crypto) (fit : SlicesFit cx codecs chain) (l : Life cx codecs chain E fd s st mc hist log)
    {s' : Observe.Shutter} {st' : State G1 G2} {mc' : MainChain} {hist' : Nat → World} {ys : List LoopStep} {keys : List Nat} {acts : List (Action G1 G2)}
    (h1 : runLoop codecs chain s ys = some s') (h2 : ∀ f ∈ filtersOf ys, f.syncHeight ≤ st.syncHeight)
    (h3 : Follows E (mc, hist) (mc', hist')) (h4 : keys.Nodup) (h5 : ∀ k, k ∈ keys ↔ (mc'.accusations k).isSome)
    (h6 : decideStep cx s' mc' keys st = some (st', acts)) {b : Nat} (hn : NoneTakenBack hist' mc'.currentBlock)
    (hf : (hist' mc'.currentBlock).Fits b) :
    (∃ eon share, .epochSecretKeyShare eon b share ∈ acts) ↔
      st.nextEpochSecretShare ≤ b ∧ b < st'.nextEpochSecretShare ∧
      (∃ bc start stop timeout, (hist' mc'.currentBlock).HasBatch b bc start stop timeout ∧ mc'.currentBlock + 1 < timeout) ∧
      KeyperFor (chainEvents codecs chain 0 s'.currentBlock) b cx.own ∧
      ∃ eon start, EonFor (chainEvents codecs chain 0 s'.currentBlock) b eon start ∧ WaitsForKey st' eon b := by
  have o := (life_observed (Life.round l h1 h2 h3 h4 h5 h6)).1
  obtain ⟨ys0, hy⟩ := life_view l
  have hv := runLoop_append hy h1
  obtain ⟨thr, b0, inv⟩ := runLoop_inv_some hv
  have hc := findBatchConfig_eq s' _ b inv.configs
  have hkeyper : cx.own ∈ (findBatchConfigByBatchIndex s' b).keypers ↔ KeyperFor (chainEvents codecs chain 0 s'.currentBlock) b cx.own := by
    unfold KeyperFor
    show _ ↔ ∃ _ _, configFor (seenEvents codecs chain s') b = _ ∧ _
    cases hcf : configFor (seenEvents codecs chain s') b with
    | none =>
      rw [hcf, Option.getD_none, Prod.mk.injEq] at hc
      rw [hc.1]
      simp
    | some c =>
      rw [hcf, Option.getD_some] at hc
      rw [← hc]
      simp
  constructor
  · rintro ⟨eon, share, ha⟩
    obtain ⟨p0, p0', ht, hown, x, ekg, p1, p2, p3, p4⟩ := (share_round h6 eon b share).1.1 ha
    obtain ⟨r1, r2, r3⟩ := (C35_eon_for_batch hv b).1 x p1
    exact ⟨p0, p0', (timeout_world o hn hf ht).1 rfl, hkeyper.1 hown, x.eon, x.startBatchIndex, ⟨⟨_, r2⟩, r1, r3⟩, ekg, p2, p3⟩
  · rintro ⟨p0, p0', hb, hown, eon, start, ⟨⟨at_, e1⟩, e2, e3⟩, ⟨ekg, hm, hk⟩⟩
    obtain ⟨t, ht⟩ := (share_round h6 0 b 0).2 p0 p0'
    cases (timeout_world o hn hf ht).2 hb
    cases hx : findEonByBatchIndex s' b with
    | none =>
      have := (C35_eon_for_batch hv b).2 hx _ _ _ e1
      omega
    | some x =>
      obtain ⟨r1, r2, r3⟩ := (C35_eon_for_batch hv b).1 x hx
      have hex : eon = x.eon := by
        have a1 := r3 _ _ _ e1 e2
        have a2 := e3 _ _ _ r2 r1
        omega
      subst hex
      exact ⟨_, _, (share_round h6 _ b _).1.2 ⟨p0, p0', ht, hkeyper.2 hown, x, ekg, hx, hm, hk, rfl⟩⟩

/-- **C67** The other keypers accept the share: if keyper 1, in some round, publishes a share for a batch of an eon, then it passes the check of
every other keyper that takes part in the eon, at the position of keyper 1 in the config of the eon; and unless this keyper already has a key
for the batch or a share of keyper 1 for it, it takes the share into account (it then keeps the share, or has a key). Provided no config for
the first batch of the eon is announced any more once the eon is announced. -/
theorem C67_accepted {cx₁ cx₂ : Cfg G1 G2 GT R} (law : Lawful cx₁.crypto) (hL : 0 ≤ cx₁.phaseLength)
    (hlen : cx₂.phaseLength = cx₁.phaseLength) (hcr : cx₂.crypto = cx₁.crypto) (hga : cx₂.gammas = cx₁.gammas)
    (fit : SlicesFit cx₁ codecs chain) {s s₁ s₂ : Observe.Shutter} {st st₁ st₂ : State G1 G2} {ys : List LoopStep} {keys : List Nat}
    {acts : List (Action G1 G2)} (h : Reach cx₁ codecs chain s st) (hr : runLoop codecs chain s ys = some s₁)
    (hfl : ∀ f ∈ filtersOf ys, f.syncHeight ≤ st.syncHeight) (hd : decideStep cx₁ s₁ mc keys st = some (st₁, acts))
    (h₂ : Reach cx₂ codecs chain s₂ st₂) {eon b : Nat} {share : G1} (ha : .epochSecretKeyShare eon b share ∈ acts)
    (settled : ∀ start S, Started (acted codecs chain st₁) eon start S → ConfigSettled codecs chain start S)
    {ekg : EKG G1 G2} (hm : ekg ∈ st₂.ekgs) (he : ekg.eon = eon) :
    ∃ i pks, ekg.keypers.idxOf? cx₁.own = some i ∧ ekg.kg.publicKeyShares[i]? = some pks ∧
      verifyEpochSecretKeyShare cx₂.crypto share pks (epochIDOf cx₂.crypto b) = true ∧
      (ekg.kg.secretKeys b = none → (∀ m ∈ ekg.kg.secretShares b, m.sender ≠ i) →
        ∃ kg' ok, ekg.kg.handleShare cx₂.crypto ⟨eon, b, i, share⟩ = some (kg', ok) ∧
          (⟨eon, b, i, share⟩ ∈ kg'.secretShares b ∨ (kg'.secretKeys b).isSome)) := by
  have fit₂ : SlicesFit cx₂ codecs chain := by
    unfold SlicesFit
    rw [hga]
    exact fit
  have law₂ : Lawful cx₂.crypto := by rw [hcr]; exact law
  have h₁ : Reach cx₁ codecs chain s₁ st₁ := .round h hr hfl hd
  obtain ⟨_, log₁, ok₁⟩ := reach_keys law fit h₁
  obtain ⟨_, log₂, ok₂⟩ := reach_keys law₂ fit₂ h₂
  obtain ⟨_, _, _, hown, x, e₁, p1, p2, p3, p4⟩ := (share_round hd eon b share).1.1 ha
  have m₁ : e₁ ∈ st₁.ekgs := List.mem_of_find?_eq_some p2
  simp only [Action.epochSecretKeyShare.injEq, true_and] at p4
  obtain ⟨hx, hsh⟩ := p4
  have k₁ := (ok₁.ekgs e₁ m₁).1
  have he₁ : e₁.eon = ekg.eon := by rw [← k₁.kgEon, ← hx, he]
  obtain ⟨d₁, n₁, q₁, f₁, r₁, c₁, _, s₁', w₁⟩ := ok₁.link e₁ m₁
  obtain ⟨d₂, n₂, q₂, f₂, r₂, c₂, _, s₂', w₂⟩ := ok₂.link ekg hm
  have hde : d₁.eon = d₂.eon := by rw [q₁, q₂, he₁]
  obtain ⟨hk, ht⟩ := C54_same_parameters hL (by omega) h₁ h₂ n₁ n₂ hde (by rw [q₁, he₁, he]; exact settled)
  have hpks := ((C54_agreement hL hlen hcr hga h₁ h₂ n₁ n₂ hde hk ht f₁ f₂).2 r₁ r₂ c₁ c₂).2.1
  have hidx := k₁.index
  rw [findAddressIndex_eq] at hidx
  have hver : verifyEpochSecretKeyShare cx₂.crypto share (e₁.kg.secretKeyShare • cx₂.crypto.g2) (epochIDOf cx₂.crypto b) = true := by
    rw [Crypto.Props.C05_share_verification_exact _ law₂, hsh, hcr]
    rfl
  have hget : ekg.kg.publicKeyShares[e₁.kg.keyper]? = some (e₁.kg.secretKeyShare • cx₂.crypto.g2) := by
    rw [s₂', ← hpks, ← s₁', hcr]
    exact k₁.share
  refine ⟨e₁.kg.keyper, _, by rw [w₂, ← hk, ← w₁]; exact hidx, hget, hver, fun h0 hns => ?_⟩
  unfold EpochKG.handleShare
  simp only [h0, Option.isSome_none, Bool.false_eq_true, if_false, hget, hver, Bool.not_true]
  refine ⟨(ekg.kg.addShare ⟨eon, b, e₁.kg.keyper, share⟩).1, (ekg.kg.addShare ⟨eon, b, e₁.kg.keyper, share⟩).2, rfl, ?_⟩
  unfold EpochKG.addShare
  have hany : (ekg.kg.secretShares b).any (fun m => decide (m.sender = e₁.kg.keyper)) = false := by
    rw [List.any_eq_false]
    intro m hm
    simpa using hns m hm
  simp only [hany, Bool.false_eq_true, if_false]
  split
  · left; simp
  · right; simp

/-! ## Example -/

section demo
open Shutter.Events Shutter.Events.Props

omit [CommGroup GT] [DecidableEq G1] in
theorem lifeRound_parts {x : List LoopStep × List Nat} {r r' : Run G1 G2} (hr : lifeRound cx codecs chain hist r x = some r') :
    runLoop codecs chain r.s x.1 = some r'.s ∧ (∀ f ∈ filtersOf x.1, f.syncHeight ≤ r.st.syncHeight) ∧ Follows E (r.mc, hist) (r'.mc, hist) ∧
      ∃ acts, decideStep cx r'.s r'.mc (accusedIn (hist r'.mc.currentBlock)) r.st = some (r'.st, acts) ∧ r'.log = r.log ++ [(r'.mc, acts)] := by
  unfold lifeRound at hr
  split at hr
  · next hc =>
    simp only [Bool.and_eq_true, List.all_eq_true, decide_eq_true_eq] at hc
    simp only [Option.bind_eq_some_iff, Option.map_eq_some_iff] at hr
    obtain ⟨s, h1, mc, h2, d, h3, rfl⟩ := hr
    exact ⟨h1, hc.1.1, syncs_follows hc.1.2 hc.2 h2, d.2, h3, rfl⟩
  · cases hr

theorem Demo.settled {n : Int} {start : Nat} {S : Int} (hS : Started (chainEvents demoCodecs Demo.shares 0 n) 1 start S) :
    ConfigSettled demoCodecs Demo.shares start S := by
  have late : ∀ h : Int, 11 ≤ h → Demo.shares h = [] := fun h hh => by
    unfold Demo.shares Demo.shuttermint
    simp only
    repeat rw [if_neg (by omega)]
  intro n x hx hlt b t ks c hev
  exfalso
  have one : ∀ (i : Nat), i < 11 → (Demo.shares (i : Int)).flatten.all (fun ev => match makeEvent demoCodecs ev with
      | some (.batchConfig ..) => decide (i = 1)
      | some (.eonStarted ..) => decide (i = 2)
      | _ => true) = true := by decide +kernel
  have key : ∀ {n : Int} {x : Stamped}, x ∈ chainEvents demoCodecs Demo.shares 0 n → (∀ {b t ks c}, x.ev = .batchConfig b t ks c → x.height = 1) ∧
      (∀ {e b}, x.ev = .eonStarted e b → x.height = 2) := by
    intro n x hx
    obtain ⟨x0, ev, hm, he⟩ := chain_mem hx
    have hn : x.height < 11 := by
      by_contra hc
      rw [late _ (by omega)] at hm
      cases hm
    have := one x.height.toNat (by omega)
    rw [show ((x.height.toNat : Nat) : Int) = x.height by omega, List.all_eq_true] at this
    have := this ev hm
    rw [he] at this
    constructor
    · intro b t ks c hev
      rw [hev] at this
      simp only [decide_eq_true_eq] at this
      omega
    · intro e b hev
      rw [hev] at this
      simp only [decide_eq_true_eq] at this
      omega
  have k1 := (key hx).1 hev
  obtain ⟨pre, post, hp, _⟩ := hS
  have k2 := (key (x := ⟨S, .eonStarted 1 start⟩) (by rw [hp]; simp)).2 rfl
  simp only at k2
  omega

theorem Demo.fits110 : (Demo.hist 110).Fits 0 := by
  have key : ∀ bc ∈ (Demo.hist 110).config.scheduled, bc.keypers.length ≤ 2 ^ 63 ∧ bc.nominalEnd 0 + bc.executionTimeout < Sol.two64 := by
    decide +kernel
  intro i bc _ hbc
  exact key bc (List.mem_of_getElem? hbc)

/-- Keyper B, who has not seen the share yet. -/
def waitingB : Option (Run Zq Zq) := lifeRun Demo.cxB demoCodecs Demo.shares Demo.hist 3 [([.sync 2 2 false], [50]), ([.sync 8 8 false], [110])]

theorem waitingB_facts : waitingB.any (fun r => r.st.ekgs.any (fun e => decide (e.eon = 1 ∧ e.kg.secretKeys 0 = none ∧
    (e.kg.secretShares 0).length = 0))) = true := by decide +kernel

theorem shareRound_facts : ((Demo.runA 3).bind (fun r => (lifeRound Demo.cxA demoCodecs Demo.shares Demo.hist r ([], [113])).map (fun r' => (r, r')))).any
    (fun r => decide (r.1.st.nextEpochSecretShare = 0 ∧ r.2.st.nextEpochSecretShare = 1 ∧ r.2.mc.currentBlock = 110 ∧
      (r.2.log.getLast?.map (fun e => e.2)) = some [.epochSecretKeyShare 1 0 ((8 : Nat) • epochIDOf zEnv 0)])) = true := by decide +kernel

/-- In the demo, keyper A publishes its share for batch 0 in its fourth round, at block 110, when keyper B takes part in the
eon and waits for shares; the hypotheses of the theorems above are met. -/
theorem C67_example : Lawful Demo.cxA.crypto ∧ SlicesFit Demo.cxA demoCodecs Demo.shares ∧
    ∃ (r r' : Run Zq Zq) (acts : List (Action Zq Zq)), Life Demo.cxA demoCodecs Demo.shares Demo.env 3 r.s r.st r.mc Demo.hist r.log ∧
      Reach Demo.cxA demoCodecs Demo.shares r.s r.st ∧
      Life Demo.cxA demoCodecs Demo.shares Demo.env 3 r'.s r'.st r'.mc Demo.hist r'.log ∧ runLoop demoCodecs Demo.shares r.s [] = some r'.s ∧
      Follows Demo.env (r.mc, Demo.hist) (r'.mc, Demo.hist) ∧
      decideStep Demo.cxA r'.s r'.mc (accusedIn (Demo.hist r'.mc.currentBlock)) r.st = some (r'.st, acts) ∧
      (r'.mc, acts) ∈ r'.log ∧ r'.mc.currentBlock = 110 ∧ r.st.nextEpochSecretShare = 0 ∧ r'.st.nextEpochSecretShare = 1 ∧
      acts = [.epochSecretKeyShare 1 0 ((8 : Nat) • epochIDOf zEnv 0)] ∧ NoneTakenBack Demo.hist 110 ∧
      (Demo.hist 110).Fits 0 ∧
      ∃ (r₂ : Run Zq Zq) (ekg : EKG Zq Zq), Reach Demo.cxB demoCodecs Demo.shares r₂.s r₂.st ∧ ekg ∈ r₂.st.ekgs ∧ ekg.eon = 1 ∧
        ekg.kg.secretKeys 0 = none ∧ ekg.kg.secretShares 0 = [] ∧
        ∀ start S, Started (acted demoCodecs Demo.shares r'.st) 1 start S → ConfigSettled demoCodecs Demo.shares start S := by
  have h := shareRound_facts
  rw [Option.any_eq_true] at h
  obtain ⟨⟨r, r'⟩, hr, hf⟩ := h
  simp only [Option.bind_eq_some_iff, Option.map_eq_some_iff, Prod.mk.injEq] at hr
  obtain ⟨r0, hr0, r1, hr1, rfl, rfl⟩ := hr
  simp only [decide_eq_true_eq] at hf
  obtain ⟨f1, f2, f3, f4⟩ := hf
  obtain ⟨p1, p2, p3, acts, p4, p5⟩ := lifeRound_parts (E := Demo.env) hr1
  have hb := waitingB_facts
  rw [Option.any_eq_true] at hb
  obtain ⟨r₂, hr₂, hf₂⟩ := hb
  simp only [List.any_eq_true, decide_eq_true_eq] at hf₂
  obtain ⟨ekg, m, e1, e2, e3⟩ := hf₂
  rw [p5] at f4
  simp only [List.getLast?_append, List.getLast?_singleton, Option.some_or, Option.map_some, Option.some.injEq] at f4
  refine ⟨zLawful, fit_of 11 (fun h hh => by
    unfold Demo.shares Demo.shuttermint
    simp only
    repeat rw [if_neg (by omega)]) (by decide +kernel), r0, r1, acts, Demo.runA_life hr0, lifeRun_reach hr0, lifeRound_life (Demo.runA_life hr0) hr1,
    p1, p3, p4, by rw [p5]; simp, f3, f1, f2, f4, noneTakenBack_of (by decide +kernel), Demo.fits110, r₂, ekg, lifeRun_reach hr₂, m, e1, e2,
    List.length_eq_zero_iff.1 e3, fun start S hS => Demo.settled hS⟩

end demo

end Shutter.Decide.Props
