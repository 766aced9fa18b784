import Verif.Proofs.Avail
import Verif.Props.KeyShares
import Verif.Props.Honest
import Verif.Proofs.DemoAvail

/-! Property theorems C70 (shuttermint/keyper/decide.go: the keys of the batches are found). -/

namespace Shutter.Decide.Props
open Shutter.Crypto Shutter.Crypto.Spec Shutter.Dkg Shutter.Dkg.Spec Shutter.Observe Shutter.Observe.Props Shutter.Decide Shutter.Decide.Spec Shutter.Main
open Shutter.App (Addr findAddressIndex)
open Shutter.Events (Codecs)

variable {G1 G2 GT R : Type} [AddCommGroup G1] [AddCommGroup G2] [CommGroup GT] [DecidableEq G1] [DecidableEq G2] [DecidableEq GT]
variable {codecs : Codecs} {chain : Observe.Chain}

/-- A share that passes the check against the public key share of its sender, for the result `res` of the key generation of eon `e` with
the given keypers, is published in the block of height `h`. -/
def GoodShareAt (cx : Cfg G1 G2 GT R) (codecs : Codecs) (chain : Observe.Chain) (keypers : List Addr) (res : Result G2) (e b : Nat) (a : Addr)
    (h : Int) : Prop :=
  ∃ sh i pk, Published codecs chain h (.epochSecretKeyShare a e b sh) ∧ keypers.idxOf? a = some i ∧ res.publicKeyShares[i]? = some pk ∧
    verifyEpochSecretKeyShare cx.crypto (cx.share sh) pk (epochIDOf cx.crypto b) = true

/-- **C70** Enough shares give the key: take an attentive keyper that has finished the key generation of an eon, announced at height `S`, with a
result. If as many keypers as the threshold have good shares for a batch on shuttermint, in blocks after the key generation
that the keyper has decided on, then the keyper has the key for the eon and the batch, and it belongs to the public key of the result. -/
theorem C70_enough_shares {cx : Cfg G1 G2 GT R} (law : Lawful cx.crypto) (hL : 0 ≤ cx.phaseLength) (fit : SlicesFit cx codecs chain)
    {rs : List (Round G1 G2)} {s : Observe.Shutter} {st : State G1 G2} (life : Attentive cx codecs chain rs s st) {dkg : DKG G2}
    (hm : dkg ∈ st.dkgs) (fin : dkg.pure.state.phase = finalized) {res : Result G2} (hres : computeResult cx.crypto dkg.pure.state = some res)
    (pos : 1 ≤ res.threshold) {upTo S : Int} {start : Nat} (hS : Started (chainEvents codecs chain 0 upTo) dkg.eon start S) {b : Nat}
    {senders : Finset Addr} (enough : res.threshold ≤ senders.card)
    (shares : ∀ a ∈ senders, ∃ h, S < h ∧ S + 3 * cx.phaseLength ≤ h ∧ h < st.syncHeight ∧
      GoodShareAt cx codecs chain dkg.keypers res dkg.eon b a h) :
    ∃ key, HasEonKey st dkg.eon b key ∧ IsEpochKey cx.crypto res.publicKey b key := by
  classical
  obtain ⟨_, inv⟩ := avInv hL life
  have reach := lived_reach (attentive_lived life)
  obtain ⟨ekg, he, e1, e2, e3, e4, e5⟩ := reach_part reach dkg hm fin res hres
  obtain ⟨_, log, ok⟩ := reach_keys law fit reach
  have noted : ∀ a ∈ senders, ∃ i, dkg.keypers.idxOf? a = some i ∧ Noted ekg.kg b i := by
    intro a ha
    obtain ⟨h, h1, h2, h3, sh, i, pk, g1, g2, g3, g4⟩ := shares a ha
    refine ⟨i, g2, inv.noted ekg he _ _ _ (by rw [e1]; exact hS) ⟨h, .epochSecretKeyShare a dkg.eon b sh⟩
      (published_iff.2 ⟨by simp only; omega, g1⟩) h1 h2 (by rw [e1]; rfl) b i ?_⟩
    exact ⟨a, _, sh, pk, rfl, by rw [findAddressIndex_eq, e2]; exact g2, by rw [e4]; exact g3, g4⟩
  rcases (ok.ekgs ekg he).1.kg with ⟨h0, _⟩ | ⟨P, hist, hP, kg, _⟩
  · rw [e5] at h0; omega
  · cases hk : ekg.kg.secretKeys b with
    | some k =>
      have := (kg.done b k hk).1
      rw [this] at hk
      exact ⟨_, ⟨ekg, he, e1, hk⟩, secret P, by rw [← e3]; exact hP.pk, rfl⟩
    | none =>
      exfalso
      obtain ⟨p1, _, _, p4⟩ := kg.pending b hk
      -- the positions of the senders are among those of the kept shares
      let f : Addr → Nat := fun a => (dkg.keypers.idxOf? a).getD 0
      have hsub : senders.image f ⊆ ((ekg.kg.secretShares b).map (·.sender)).toFinset := by
        intro i hi
        obtain ⟨a, ha, rfl⟩ := Finset.mem_image.1 hi
        obtain ⟨i, h1, h2⟩ := noted a ha
        rcases h2 with h2 | ⟨m, hm, hms⟩
        · rw [hk] at h2; cases h2
        · rw [List.mem_toFinset, List.mem_map]
          exact ⟨m, hm, by simp only [f, h1, Option.getD_some]; exact hms⟩
      have hcard : (senders.image f).card = senders.card := by
        apply Finset.card_image_of_injOn
        intro a ha a' ha' hff
        obtain ⟨i, h1, _⟩ := noted a ha
        obtain ⟨i', h1', _⟩ := noted a' ha'
        simp only [f, h1, h1', Option.getD_some] at hff
        subst hff
        obtain ⟨w1, w2, _⟩ := List.idxOf?_eq_some_iff.1 h1
        obtain ⟨w1', w2', _⟩ := List.idxOf?_eq_some_iff.1 h1'
        rw [← w2, ← w2']
      have := Finset.card_le_card hsub
      rw [hcard, List.toFinset_card_of_nodup p1, List.length_map] at this
      omega

omit [CommGroup GT] [DecidableEq G1] in
/-- A round of a life. -/
theorem lived_round {cx : Cfg G1 G2 GT R} {rs : List (Round G1 G2)} {s : Observe.Shutter} {st : State G1 G2}
    (h : Lived cx codecs chain rs s st) {r : Round G1 G2} (hr : r ∈ rs) :
    ∃ s₀ st₀ ys s₁ mc keys st₁ acts, Reach cx codecs chain s₀ st₀ ∧ runLoop codecs chain s₀ ys = some s₁ ∧
      (∀ f ∈ filtersOf ys, f.syncHeight ≤ st₀.syncHeight) ∧ decideStep cx s₁ mc keys st₀ = some (st₁, acts) ∧
      r = ⟨decides cx s₁ mc, s₁.currentBlock + 1, acts⟩ := by
  induction h with
  | init => cases hr
  | round l h1 h2 h3 ih =>
    rcases List.mem_append.1 hr with hr | hr
    · exact ih hr
    · rw [List.mem_singleton] at hr
      exact ⟨_, _, _, _, _, _, _, _, lived_reach l, h1, h2, h3, hr⟩
  | restart _ _ ih => exact ih hr

/-- The keyper `a` published a share for eon `e` and batch `b`, and it got on the chain, in time for someone who has decided on the blocks
below `upTo`: some life of a keyper with address `a` and the same parameters as `cx` leads to the share. -/
def SharedBy (cx : Cfg G1 G2 GT R) (codecs : Codecs) (chain : Observe.Chain) (e b : Nat) (upTo : Int) (a : Addr) : Prop :=
  ∃ (cx' : Cfg G1 G2 GT R) (rs : List (Round G1 G2)) (s : Observe.Shutter) (st : State G1 G2), cx'.own = a ∧ cx'.phaseLength = cx.phaseLength ∧
    cx'.crypto = cx.crypto ∧ cx'.gammas = cx.gammas ∧ Lived cx' codecs chain rs s st ∧
    ∃ m ∈ said (sharesFor e b) rs, ∃ h sh, m.1 ≤ h ∧ h < upTo ∧ Published codecs chain h (.epochSecretKeyShare a e b sh) ∧ cx.share sh = m.2

/-- **C70** What the keypers publish is enough: an attentive keyper that has finished the key generation of an eon with a result has the key for
a batch as soon as it has decided on the blocks with the shares that as many keypers as the threshold have published, whatever else
was on the chain. Provided no config for the first batch of the eon is announced any more once the eon is announced. -/
theorem C70_key_available {cx : Cfg G1 G2 GT R} (law : Lawful cx.crypto) (hL : 0 ≤ cx.phaseLength) (fit : SlicesFit cx codecs chain)
    {rs : List (Round G1 G2)} {s : Observe.Shutter} {st : State G1 G2} (life : Attentive cx codecs chain rs s st) {dkg : DKG G2}
    (hm : dkg ∈ st.dkgs) (fin : dkg.pure.state.phase = finalized) {res : Result G2} (hres : computeResult cx.crypto dkg.pure.state = some res)
    (pos : 1 ≤ res.threshold)
    (settled : ∀ upTo start S, Started (chainEvents codecs chain 0 upTo) dkg.eon start S → ConfigSettled codecs chain start S)
    {b : Nat} {senders : Finset Addr} (enough : res.threshold ≤ senders.card)
    (shared : ∀ a ∈ senders, SharedBy cx codecs chain dkg.eon b st.syncHeight a) :
    ∃ key, HasEonKey st dkg.eon b key ∧ IsEpochKey cx.crypto res.publicKey b key := by
  have reach := lived_reach (attentive_lived life)
  obtain ⟨ekg, he, e1, e2, e3, e4, e5⟩ := reach_part reach dkg hm fin res hres
  obtain ⟨S, di⟩ := (kinv_reach hL reach).dkgs dkg hm
  refine C70_enough_shares law hL fit life hm fin hres pos di.started enough fun a ha => ?_
  obtain ⟨cx', rs', s', st', rfl, c1, c2, c3, l, m, hsaid, h, sh, g1, g2, g3, g4⟩ := shared a ha
  unfold said at hsaid
  obtain ⟨r, hr, hsaid⟩ := List.mem_flatMap.1 hsaid
  obtain ⟨share, hshare, rfl⟩ := List.mem_map.1 hsaid
  obtain ⟨act, hin, hshare⟩ := List.mem_flatMap.1 hshare
  have hact : act = .epochSecretKeyShare dkg.eon b share := by
    unfold sharesFor at hshare
    split at hshare
    · next e' b' sh' =>
      split at hshare
      · next hc =>
        rw [List.mem_singleton] at hshare
        rw [hc.1, hc.2, hshare]
      · cases hshare
    · cases hshare
  obtain ⟨s₀, st₀, ys, s₁, mc, keys, st₁, acts, q1, q2, q3, q4, rfl⟩ := lived_round l hr
  simp only at g1 g4 hin
  rw [hact] at hin
  have fit' : SlicesFit cx' codecs chain := by
    unfold SlicesFit
    rw [c3]
    exact fit
  have law' : Lawful cx'.crypto := by rw [c2]; exact law
  have reach₁ : Reach cx' codecs chain s₁ st₁ := .round q1 q2 q3 q4
  obtain ⟨i, pks, v1, v2, v3, _⟩ := C67_accepted (cx₁ := cx') (cx₂ := cx) law' (by omega) c1.symm c2.symm c3.symm fit' q1 q2 q3 q4 reach hin
    (fun start S h => settled _ _ _ h) he e1
  -- the sender had finished the key generation
  obtain ⟨_, log, ok⟩ := reach_keys law' fit' reach₁
  obtain ⟨hlt, hlt', _, _, x, e₁, p1, p2, p3, p4⟩ := (share_round q4 dkg.eon b share).1.1 hin
  have m₁ : e₁ ∈ st₁.ekgs := List.mem_of_find?_eq_some p2
  simp only [Action.epochSecretKeyShare.injEq, true_and] at p4
  have he₁ : e₁.eon = dkg.eon := by rw [← ((ok.ekgs e₁ m₁).1).kgEon, ← p4.1]
  obtain ⟨d₁, n₁, w1, w2, _⟩ := ok.link e₁ m₁
  obtain ⟨S', di'⟩ := (kinv_reach (by omega) reach₁).dkgs d₁ n₁
  have hst := di'.started
  rw [w1, he₁] at hst
  obtain ⟨_, rfl⟩ := started_unique_chain di.started hst
  have hh : st₁.syncHeight = s₁.currentBlock + 1 := by
    rcases decide_height q4 with h | h
    · rw [h] at hlt'; omega
    · exact h
  have h3 : S + 3 * cx.phaseLength ≤ st₁.syncHeight := by
    have := (phase_ge cx'.phaseLength S st₁.syncHeight (by omega) (by have := di'.before; omega)).2.2.2.1 (by rw [← di'.phase, w2])
    rw [c1] at this
    exact this
  have hb := di'.before
  exact ⟨h, by omega, by omega, g2, sh, i, pks, g3, by rw [← e2]; exact v1, by rw [← e4]; exact v2, by rw [g4]; exact v3⟩

/-- **C70** Together with C69: take honest keypers of an eon, at least as many as the threshold, that are attentive. They agree on a public key
and vote for it, and as soon as the shares they publish for a batch are on the chain and one of them has decided on these blocks, it has the
key for the batch that belongs to this public key. All this whatever the other keypers do. -/
theorem C70_honest_keypers (cx : Nat → Cfg G1 G2 GT R) (crypto : Env G1 G2 GT) (law : Lawful crypto) (gammas : List Bytes → List G2)
    (share : Bytes → G1) (L : Int) (hL : 0 ≤ L) (e : Nat) (keypers : List Addr) (threshold : Nat) (pos : 1 ≤ threshold) (S : Int) (rs : Nat → List (Round G1 G2))
    (s : Nat → Observe.Shutter) (st : Nat → State G1 G2) (dkg : Nat → DKG G2) (H : Finset Nat)
    (honest : ∀ i ∈ H, Honest (cx i) codecs chain S (rs i) (s i) (st i) (dkg i))
    (attentive : ∀ i ∈ H, Attentive (cx i) codecs chain (rs i) (s i) (st i))
    (fit : ∀ i ∈ H, SlicesFit (cx i) codecs chain)
    (members : ∀ i ∈ H, keypers.idxOf? (cx i).own = some i)
    (same : ∀ i ∈ H, (cx i).crypto = crypto ∧ (cx i).gammas = gammas ∧ (cx i).share = share ∧ (cx i).phaseLength = L ∧ (dkg i).eon = e ∧
      (dkg i).keypers = keypers ∧ (dkg i).pure.state.threshold = threshold)
    (settled : ∀ upTo start S, Started (chainEvents codecs chain 0 upTo) e start S → ConfigSettled codecs chain start S)
    (enough : threshold ≤ H.card) :
    ∃ pk, (∀ i ∈ H, ∃ n, (n, Action.eonKeyBroadcast i (dkg i).startBatchIndex pk) ∈ said verdicts (rs i)) ∧
      ∀ b, ∀ i ∈ H, (∀ j ∈ H, ∃ m ∈ said (sharesFor e b) (rs j), ∃ h sh, m.1 ≤ h ∧ h < (st i).syncHeight ∧
          Published codecs chain h (.epochSecretKeyShare (cx j).own e b sh) ∧ share sh = m.2) →
        ∃ key, HasEonKey (st i) e b key ∧ IsEpochKey crypto pk b key := by
  classical
  obtain ⟨pk, hpk⟩ := C69_success cx crypto gammas L hL law.order_smul_G2 codecs chain e keypers threshold S rs s st dkg H honest members
    (fun i hi => by obtain ⟨a1, a2, _, a4, a5, a6, a7⟩ := same i hi; exact ⟨a1, a2, a4, a5, a6, a7⟩) enough
  refine ⟨pk, fun i hi => (hpk i hi).2, fun b i hi shared => ?_⟩
  obtain ⟨⟨res, hres, hrk⟩, _⟩ := hpk i hi
  obtain ⟨a1, a2, a3, a4, a5, a6, a7⟩ := same i hi
  have hth : res.threshold = threshold := by
    rw [← a7]
    unfold computeResult at hres
    split at hres
    · cases hres
    · split at hres
      · cases hres
      · split at hres
        · cases hres
        · simp only [Option.some.injEq] at hres
          rw [← hres]
  have many : res.threshold ≤ (H.image (fun j => (cx j).own)).card := by
    rw [Finset.card_image_of_injOn, hth]
    · exact enough
    · intro j hj k hk hjk
      have h1 := members j hj
      have h2 := members k hk
      simp only at hjk
      rw [hjk, h2, Option.some.injEq] at h1
      exact h1.symm
  have all : ∀ a ∈ H.image (fun j => (cx j).own), SharedBy (cx i) codecs chain (dkg i).eon b (st i).syncHeight a := by
    intro a ha
    obtain ⟨j, hj, rfl⟩ := Finset.mem_image.1 ha
    obtain ⟨m, m1, h, sh, m2, m3, m4, m5⟩ := shared j hj
    obtain ⟨b1, b2, b3, b4, b5, b6, b7⟩ := same j hj
    rw [a5]
    exact ⟨cx j, rs j, s j, st j, rfl, by rw [a4, b4], by rw [a1, b1], by rw [a2, b2], (honest j hj).lived, m, m1, h, sh, m2, m3, m4,
      by rw [a3]; exact m5⟩
  obtain ⟨key, k1, k2⟩ := C70_key_available (cx := cx i) (by rw [a1]; exact law) (by omega) (fit i hi) (attentive i hi) (honest i hi).runs
    (honest_phase (by omega) (honest i hi)) (res := res) (by rw [a1]; exact hres) (by omega) (by rw [a5]; exact settled) many all
  rw [a5] at k1
  rw [a1, hrk] at k2
  exact ⟨key, k1, k2⟩

/-! ## Concrete lives -/

section demo
open Shutter.Events Shutter.Events.Props AvailDemo

theorem AvailDemo.fit : SlicesFit Demo.cxA demoCodecs Demo.shares :=
  fit_of 11 (fun h hh => by
    unfold Demo.shares Demo.shuttermint
    simp only
    repeat rw [if_neg (by omega)]) (by decide +kernel)

theorem AvailDemo.started : Started (chainEvents demoCodecs Demo.shares 0 10) 1 0 2 := by
  have h : chainEvents demoCodecs Demo.shares 0 10 = [⟨1, .batchConfig 0 1 [kA, kB] 1⟩] ++ ⟨2, .eonStarted 1 0⟩ ::
      (chainEvents demoCodecs Demo.shares 3 10) := by decide +kernel
  exact ⟨_, _, h, by simp⟩

theorem AvailDemo.share_on_chain : Published demoCodecs Demo.shares 9 (.epochSecretKeyShare kA 1 0 (Sol.World.beBytes ((8 : Nat) • epochIDOf zEnv 0).val 32)) := by
  refine ⟨by decide, makeABCIEvent demoCodecs (.epochSecretKeyShare kA 1 0 (Sol.World.beBytes ((8 : Nat) • epochIDOf zEnv 0).val 32)), ?_, ?_⟩
  · decide +kernel
  · decide +kernel

/-- The parts of a life that count here. -/
theorem AvailDemo.parts {r : List (Round Zq Zq) × Observe.Shutter × State Zq Zq} {o : Seen} (hs : seen r = o)
    (hd : o.dkgs = [(1, true, [kA, kB], 0, 1)]) (hr : o.results = [some (Zq.of 8, [Zq.of 8, Zq.of 8], 1)]) :
    ∃ dkg ∈ r.2.2.dkgs, dkg.pure.state.phase = finalized ∧ dkg.eon = 1 ∧ dkg.keypers = [kA, kB] ∧ ∃ res, computeResult zEnv dkg.pure.state = some res ∧
      res.threshold = 1 ∧ res.publicKey = Zq.of 8 ∧ res.publicKeyShares = [Zq.of 8, Zq.of 8] := by
  subst hs
  simp only [seen, List.map_eq_singleton_iff, Prod.mk.injEq] at hd hr
  obtain ⟨d, h1, e1, e2, e3, _⟩ := hd
  obtain ⟨d', h2, e4⟩ := hr
  rw [h1] at h2
  cases h2
  rw [Option.map_eq_some_iff] at e4
  obtain ⟨res, h3, h4⟩ := e4
  simp only [Prod.mk.injEq] at h4
  exact ⟨d, by rw [h1]; simp, by simpa using e2, e1, e3, res, h3, h4.2.2, h4.1, h4.2.1⟩

/-- In the demo keyper A publishes its share of the key of eon 1 for batch 0, which gets on the chain in block 9, and it finds the key; the
hypotheses of the theorems above are met. -/
theorem C70_example : Lawful Demo.cxA.crypto ∧ SlicesFit Demo.cxA demoCodecs Demo.shares ∧
    ∃ (r : List (Round Zq Zq) × Observe.Shutter × State Zq Zq) (dkg : DKG Zq) (res : Result Zq), Attentive Demo.cxA demoCodecs Demo.shares r.1 r.2.1 r.2.2 ∧
      dkg ∈ r.2.2.dkgs ∧ dkg.pure.state.phase = finalized ∧ computeResult Demo.cxA.crypto dkg.pure.state = some res ∧ 1 ≤ res.threshold ∧
      (∀ upTo start S, Started (chainEvents demoCodecs Demo.shares 0 upTo) dkg.eon start S → ConfigSettled demoCodecs Demo.shares start S) ∧
      res.threshold ≤ ({kA} : Finset Addr).card ∧
      (∀ a ∈ ({kA} : Finset Addr), SharedBy Demo.cxA demoCodecs Demo.shares dkg.eon 0 r.2.2.syncHeight a) ∧
      Started (chainEvents demoCodecs Demo.shares 0 10) dkg.eon 0 2 ∧
      (∀ a ∈ ({kA} : Finset Addr), ∃ h, (2 : Int) < h ∧ 2 + 3 * Demo.cxA.phaseLength ≤ h ∧ h < r.2.2.syncHeight ∧
        GoodShareAt Demo.cxA demoCodecs Demo.shares dkg.keypers res dkg.eon 0 a h) ∧
      HasEonKey r.2.2 1 0 ((8 : Nat) • epochIDOf zEnv 0) := by
  obtain ⟨r, hr, hs⟩ := Option.map_eq_some_iff.1 seen_A
  obtain ⟨d, m, fin, e1, e2, res, h1, h2, h3, h4⟩ := AvailDemo.parts hs rfl rfl
  have hh : r.2.2.syncHeight = 10 := congrArg Seen.height hs
  have hsh : said (sharesFor 1 0) r.1 = [(9, (8 : Nat) • epochIDOf zEnv 0)] := congrArg Seen.shared hs
  have hk : r.2.2.ekgs.map (fun e => (e.eon, e.kg.secretKeys 0)) = [(1, some (some ((8 : Nat) • epochIDOf zEnv 0)))] := congrArg Seen.key hs
  refine ⟨zLawful, AvailDemo.fit, r, d, res, lives_attentive hr, m, fin, h1, by omega, ?_, by rw [h2]; decide, ?_, ?_, ?_, ?_⟩
  · rw [e1]; exact fun _ _ _ h => Demo.settled h
  · intro a ha
    rw [Finset.mem_singleton] at ha
    subst ha
    rw [e1, hh]
    exact ⟨Demo.cxA, r.1, r.2.1, r.2.2, rfl, rfl, rfl, rfl, lives_lived hr, _, by rw [hsh]; exact List.mem_singleton.2 rfl, 9, _, by decide, by decide,
      AvailDemo.share_on_chain, by decide +kernel⟩
  · rw [e1]; exact AvailDemo.started
  · intro a ha
    rw [Finset.mem_singleton] at ha
    subst ha
    rw [e1, e2, hh]
    exact ⟨9, by decide, by decide, by decide, _, 0, Zq.of 8, AvailDemo.share_on_chain, by decide, by rw [h4]; rfl, by decide +kernel⟩
  · simp only [List.map_eq_singleton_iff, Prod.mk.injEq] at hk
    obtain ⟨e, he, k1, k2⟩ := hk
    exact ⟨e, by rw [he]; simp, k1, k2⟩

theorem AvailDemo.published_of {h : Int} {ev : App.Event} (p : Published demoCodecs Demo.shares h ev) :
    h < 11 ∧ ∃ y ∈ (Demo.shares ((h.toNat : Nat) : Int)).flatten, makeEvent demoCodecs y = some ev := by
  obtain ⟨h0, y, hy, hev⟩ := p
  have hn : h < 11 := by
    by_contra hc
    have : Demo.shares h = [] := by
      unfold Demo.shares Demo.shuttermint
      simp only
      repeat rw [if_neg (by omega)]
    rw [this] at hy
    cases hy
  exact ⟨hn, y, by rw [show ((h.toNat : Nat) : Int) = h by omega]; exact hy, hev⟩

theorem AvailDemo.onlyA : ∀ (i : Nat), i < 11 → (Demo.shares (i : Int)).flatten.all (fun y => match makeEvent demoCodecs y with
    | some (.polyCommitment a _ g) => decide (a = kA → g = [[3]])
    | some (.apology ..) => false
    | _ => true) = true := by decide +kernel

/-- Keyper A alone, as the threshold is one, meets the hypotheses of `C70_honest_keypers`. -/
theorem C70_honest_example : ∃ (r : List (Round Zq Zq) × Observe.Shutter × State Zq Zq) (dkg : DKG Zq),
    Honest Demo.cxA demoCodecs Demo.shares 2 r.1 r.2.1 r.2.2 dkg ∧ Attentive Demo.cxA demoCodecs Demo.shares r.1 r.2.1 r.2.2 ∧
    SlicesFit Demo.cxA demoCodecs Demo.shares ∧ dkg.keypers = [kA, kB] ∧ [kA, kB].idxOf? Demo.cxA.own = some 0 ∧ dkg.eon = 1 ∧
    dkg.pure.state.threshold = 1 ∧
    (∀ upTo start S, Started (chainEvents demoCodecs Demo.shares 0 upTo) 1 start S → ConfigSettled demoCodecs Demo.shares start S) ∧
    ∃ m ∈ said (sharesFor 1 0) r.1, ∃ h sh, m.1 ≤ h ∧ h < r.2.2.syncHeight ∧
      Published demoCodecs Demo.shares h (.epochSecretKeyShare Demo.cxA.own 1 0 sh) ∧ Demo.cxA.share sh = m.2 := by
  obtain ⟨r, hr, hs⟩ := Option.map_eq_some_iff.1 seen_A
  have hh : r.2.2.syncHeight = 10 := congrArg Seen.height hs
  have hsh : said (sharesFor 1 0) r.1 = [(9, (8 : Nat) • epochIDOf zEnv 0)] := congrArg Seen.shared hs
  have h1 : said (commitmentsFor 1) r.1 = [(3, [Zq.of 3])] := congrArg Seen.com hs
  have h3 : said (accusationsFor 1) r.1 = [] := congrArg Seen.acc hs
  have h4 : said (apologiesFor 1) r.1 = [] := congrArg Seen.apo hs
  have h7 : [(firstIn 2 2 0 r.1).isSome, (firstIn 2 2 1 r.1).isSome, (firstIn 2 2 2 r.1).isSome] = _ := congrArg Seen.online hs
  have hd : r.2.2.dkgs.map (fun d => (d.eon, decide (d.pure.state.phase = finalized), d.keypers, d.startBatchIndex, d.pure.state.threshold)) =
    [(1, true, [kA, kB], 0, 1)] := congrArg Seen.dkgs hs
  simp only [List.map_eq_singleton_iff, Prod.mk.injEq] at hd
  obtain ⟨d, m, e1, e2, e3, e4, e5⟩ := hd
  refine ⟨r, d, ⟨lives_lived hr, by rw [m]; simp, ?_, ?_, ?_, ?_, ?_, ?_⟩, lives_attentive hr, AvailDemo.fit, e3, by decide, e1, e5,
    fun _ _ _ h => Demo.settled h, ?_⟩
  · rw [hh, e1, e4]
    have h : chainEvents demoCodecs Demo.shares 0 (10 - 1) = [⟨1, .batchConfig 0 1 [kA, kB] 1⟩] ++ ⟨2, .eonStarted 1 0⟩ ::
      (chainEvents demoCodecs Demo.shares 3 (10 - 1)) := by decide +kernel
    exact ⟨_, _, h, by simp⟩
  · rw [hh]; decide
  · intro P hP
    cases hP
    rw [e5]
    rfl
  · intro k hk
    simp only [List.cons.injEq] at h7
    rw [← Option.isSome_iff_ne_none]
    simp only [List.mem_cons, List.not_mem_nil, or_false] at hk
    rcases hk with rfl | rfl | rfl
    · exact h7.1
    · exact h7.2.1
    · exact h7.2.2.1
  · rw [e1]
    refine ⟨?_, ?_, ?_⟩
    · intro m hm
      rw [h1, List.mem_singleton] at hm
      subst hm
      refine ⟨3, [[3]], by decide, by decide, ⟨by decide, makeABCIEvent demoCodecs (.polyCommitment kA 1 [[3]]), ?_, ?_⟩, rfl⟩
      · decide +kernel
      · decide +kernel
    · intro m hm
      rw [h3] at hm
      simp at hm
    · intro m hm
      rw [h4] at hm
      simp at hm
  · rw [e1]
    refine ⟨?_, ?_⟩
    · intro h g p
      obtain ⟨hn, y, hy, hev⟩ := AvailDemo.published_of p
      have := List.all_eq_true.1 (AvailDemo.onlyA h.toNat (by omega)) y hy
      rw [hev] at this
      simp only [decide_eq_true_eq] at this
      exact ⟨_, by rw [h1]; exact List.mem_singleton.2 rfl, by rw [this rfl]; rfl⟩
    · intro h as es p
      obtain ⟨hn, y, hy, hev⟩ := AvailDemo.published_of p
      have := List.all_eq_true.1 (AvailDemo.onlyA h.toNat (by omega)) y hy
      rw [hev] at this
      simp at this
  · refine ⟨_, by rw [hsh]; exact List.mem_singleton.2 rfl, 9, _, by decide, by rw [hh]; decide, AvailDemo.share_on_chain, by decide +kernel⟩

/-- **C70** It does not hold without attention: in this life of keyper A the filter after the round at height 8 gets lost, as the view was busy
(keyper/keyper.go:232-235 does not wait), and the node is catching up when the view has seen the share in block 9. The keyper does not decide in
that round, but sends a filter all the same, which makes the view forget the share. The keyper never gets the key, although it has decided on
everything up to block 10, the share is good and the threshold is one. -/
theorem C70_inattentive_counterexample : Lawful Demo.cxA.crypto ∧ SlicesFit Demo.cxA demoCodecs Demo.shares ∧
    ∃ (r : List (Round Zq Zq) × Observe.Shutter × State Zq Zq) (dkg : DKG Zq) (res : Result Zq), Lived Demo.cxA demoCodecs Demo.shares r.1 r.2.1 r.2.2 ∧
      dkg ∈ r.2.2.dkgs ∧ dkg.pure.state.phase = finalized ∧ computeResult Demo.cxA.crypto dkg.pure.state = some res ∧ res.threshold = 1 ∧
      Started (chainEvents demoCodecs Demo.shares 0 10) dkg.eon 0 2 ∧ r.2.2.syncHeight = 11 ∧ 2 + 3 * Demo.cxA.phaseLength ≤ 9 ∧
      GoodShareAt Demo.cxA demoCodecs Demo.shares dkg.keypers res dkg.eon 0 kA 9 ∧ ∀ key, ¬ HasEonKey r.2.2 dkg.eon 0 key := by
  obtain ⟨r, hr, hs⟩ := Option.map_eq_some_iff.1 seen_missed
  obtain ⟨d, m, fin, e1, e2, res, h1, h2, h3, h4⟩ := AvailDemo.parts hs rfl rfl
  have hh : r.2.2.syncHeight = 11 := congrArg Seen.height hs
  have hk : r.2.2.ekgs.map (fun e => (e.eon, e.kg.secretKeys 0)) = [(1, none)] := congrArg Seen.key hs
  refine ⟨zLawful, AvailDemo.fit, r, d, res, lives_lived hr, m, fin, h1, h2, ?_, hh, by decide, ?_, ?_⟩
  · rw [e1]; exact AvailDemo.started
  · rw [e1, e2]
    exact ⟨_, 0, Zq.of 8, AvailDemo.share_on_chain, by decide, by rw [h4]; rfl, by decide +kernel⟩
  · intro key hkey
    simp only [List.map_eq_singleton_iff, Prod.mk.injEq] at hk
    obtain ⟨e, he, k1, k2⟩ := hk
    obtain ⟨e', he', _, k3⟩ := hkey
    rw [he, List.mem_singleton] at he'
    subst he'
    rw [k2] at k3
    cases k3

end demo

end Shutter.Decide.Props
