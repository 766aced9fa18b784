import Verif.Proofs.NetCarried
import Verif.Proofs.DemoNet
import Verif.Props.Avail

/-! Property theorems C71 (shuttermint/app and shuttermint/keyper together: what the keypers send through the application). -/

namespace Shutter.Net.Props
open Shutter.App Shutter.Events Shutter.Observe Shutter.Decide Shutter.Decide.Spec Shutter.Decide.Props Shutter.Crypto Shutter.Crypto.Spec
  Shutter.Dkg Shutter.Net
open Shutter.App.Props (dkgEvent dkgParties Msg.isDkg)

variable {ps : Parsers} {dev : Bool} {log : List Rec} {s : App.State} {codecs : Codecs}
variable {G1 G2 GT R : Type} [AddCommGroup G1] [AddCommGroup G2] [DecidableEq G2] [DecidableEq GT] {w : Wire G1 G2}

/-- **C71** The keypers read exactly what the application has published, at the height of the block: every event of an accepted transaction,
except commitments without any points, which they drop. -/
theorem C71_chain (h : Exec ps dev log s) (fit : Codecs.Fit ps codecs) (sane : Sane log) (few : s.eonCounter + 1 < 2 ^ 64) (ht : Int)
    (ev : Event) : Published codecs (appChain codecs log) ht ev ↔ (∀ a e, ev ≠ .polyCommitment a e []) ∧
      ∃ pre r post, log = pre ++ r :: post ∧ ev ∈ r.events ∧ ht = (heightAfter pre : Int) := by
  rw [published_app h fit sane few]
  have : hidden ev = false ↔ ∀ a e, ev ≠ .polyCommitment a e [] := by
    unfold hidden
    split
    · simp
    · next hne => simp only [true_iff]; intro a e he; exact hne a e he
  rw [this]

/-- **C71** Nobody speaks for another: a key generation message the keypers see in the name of `a` is one `a` has signed, in a transaction
of that block. -/
theorem C71_attributed (h : Exec ps dev log s) (fit : Codecs.Fit ps codecs) (sane : Sane log) (few : s.eonCounter + 1 < 2 ^ 64) {ht : Int}
    {ev : Event} (hp : Published codecs (appChain codecs log) ht ev) {e : Nat} {a : Addr} {tos : List Addr}
    (hd : dkgParties ev = some (e, a, tos)) :
    ∃ pre r post m, log = pre ++ r :: post ∧ ht = (heightAfter pre : Int) ∧ r.Accepts a m ∧ dkgEvent ps a m = some ev := by
  obtain ⟨_, pre, r, post, hl, h1, h2⟩ := (published_app h fit sane few ht ev).1 hp
  obtain ⟨a', msg, acc, _, hd'⟩ := (App.Props.C29_published_exactly h (r := r) (by rw [hl]; simp)).2 ev h1 (by rw [hd]; rfl)
  obtain ⟨e', tos', h3, h4⟩ := event_parties hd'
  rw [hd] at h4
  simp only [Option.some.injEq, Prod.mk.injEq] at h4
  obtain ⟨rfl, rfl, rfl⟩ := h4
  exact ⟨pre, r, post, msg, hl, h2, acc, hd'⟩

/-- **C71** Every keyper runs the key generation of an eon with the keypers and the threshold of the config the application started it
with, and for the announced batch (if no config for that batch is accepted after the announcement). -/
theorem C71_parameters (h : Exec ps dev log s) (fit : Codecs.Fit ps codecs) (sane : Sane log) (few : s.eonCounter + 1 < 2 ^ 64)
    {e b : Nat} {c : BatchConfig} {S : Nat} (an : Announced log e b c S) (settled : Settled log e) {cx : Cfg G1 G2 GT R}
    (hL : 0 ≤ cx.phaseLength) {sh : Observe.Shutter} {st : Decide.State G1 G2} (hr : Reach cx codecs (appChain codecs log) sh st) {dkg : DKG G2}
    (hd : dkg ∈ st.dkgs) (he : dkg.eon = e) :
    dkg.keypers = c.keypers ∧ dkg.pure.state.threshold = c.threshold ∧ dkg.startBatchIndex = b ∧ cx.own ∈ c.keypers := by
  obtain ⟨h1, h2, _, h4, h5, _⟩ := params h fit sane few an settled hL hr hd he
  exact ⟨h1, h2, h5, h4⟩

/-- **C71** The application does not lose, delay or refuse what a keyper that takes part says, and the others see nothing else in its
name: all its commitments, evaluations, accusations and apologies are in the chain the keypers read, in the right phase. -/
theorem C71_published (h : Exec ps dev log s) (fit : Codecs.Fit ps codecs) (sane : Sane log) (few : s.eonCounter + 1 < 2 ^ 64)
    (law : ∀ p : G2, order • p = 0) {e b : Nat} {c : BatchConfig} {S : Nat} (an : Announced log e b c S) (settled : Settled log e)
    (later : c.configIndex ≠ 0) {cx : Cfg G1 G2 GT R} {rs : List (Round G1 G2)} {sh : Observe.Shutter} {st : Decide.State G1 G2}
    (P : Participates ps w cx codecs log e c S rs sh st) :
    (∃ dkg, Honest cx codecs (appChain codecs log) S rs sh st dkg ∧ dkg.eon = e) ∧
    Carried cx codecs (appChain codecs log) e S rs ∧ Authentic cx codecs (appChain codecs log) e rs ∧
    Dealt cx codecs (appChain codecs log) e S rs := by
  obtain ⟨dkg, hd, he⟩ := takes_part h fit sane few an settled later P
  obtain ⟨i, Q, R⟩ := run_of h fit sane few law an settled P hd he
  exact ⟨⟨dkg, honest_of h fit sane few an P hd R, he⟩, carried_of h fit sane few an P R, authentic_of h fit sane few an P R,
    dealt_of h fit sane few law an P R⟩

/-- The key generations of the keypers that take part. -/
theorem participants (h : Exec ps dev log s) (fit : Codecs.Fit ps codecs) (sane : Sane log) (few : s.eonCounter + 1 < 2 ^ 64)
    (law : ∀ p : G2, order • p = 0) {e b : Nat} {c : BatchConfig} {S : Nat} (an : Announced log e b c S) (settled : Settled log e)
    (later : c.configIndex ≠ 0) {ws : Nat → Wire G1 G2} {cx : Nat → Cfg G1 G2 GT R} {rs : Nat → List (Round G1 G2)}
    {sh : Nat → Observe.Shutter} {st : Nat → Decide.State G1 G2} {H : Finset Nat}
    (part : ∀ i ∈ H, Participates ps (ws i) (cx i) codecs log e c S (rs i) (sh i) (st i)) :
    ∃ dkg : Nat → DKG G2, ∀ i ∈ H, Honest (cx i) codecs (appChain codecs log) S (rs i) (sh i) (st i) (dkg i) ∧ (dkg i).eon = e ∧
      (dkg i).keypers = c.keypers ∧ (dkg i).pure.state.threshold = c.threshold ∧ (dkg i).startBatchIndex = b := by
  have : ∀ i, ∃ dkg : DKG G2, i ∈ H → Honest (cx i) codecs (appChain codecs log) S (rs i) (sh i) (st i) dkg ∧ dkg.eon = e ∧
      dkg.keypers = c.keypers ∧ dkg.pure.state.threshold = c.threshold ∧ dkg.startBatchIndex = b := by
    intro i
    by_cases hi : i ∈ H
    · have P := part i hi
      obtain ⟨dkg, hd, he⟩ := takes_part h fit sane few an settled later P
      obtain ⟨k, Q, R⟩ := run_of h fit sane few law an settled P hd he
      exact ⟨dkg, fun _ => ⟨honest_of h fit sane few an P hd R, he, R.keypers, R.threshold, R.start⟩⟩
    · obtain ⟨d⟩ : Nonempty (DKG G2) := ⟨⟨0, 0, [], ⟨newPureDKG G2 0 0 0 0, [], []⟩, [], 0⟩⟩
      exact ⟨d, fun h => absurd h hi⟩
  choose dkg hdkg using this
  exact ⟨dkg, hdkg⟩

/-- **C71** If at least `threshold` many keypers of an announced eon take part, the key generation succeeds: each of them broadcasts the same
eon public key, for the batches from the announced one on. The other keypers, and anybody else, may send whatever transactions they
like. -/
theorem C71_key_generation (h : Exec ps dev log s) (fit : Codecs.Fit ps codecs) (sane : Sane log) (few : s.eonCounter + 1 < 2 ^ 64)
    (law : ∀ p : G2, order • p = 0) {e b : Nat} {c : BatchConfig} {S : Nat} (an : Announced log e b c S) (settled : Settled log e)
    (later : c.configIndex ≠ 0) (ws : Nat → Wire G1 G2) (cx : Nat → Cfg G1 G2 GT R) (crypto : Env G1 G2 GT) (gammas : List Crypto.Bytes → List G2)
    (L : Int) (rs : Nat → List (Round G1 G2)) (sh : Nat → Observe.Shutter) (st : Nat → Decide.State G1 G2) (H : Finset Nat)
    (same : ∀ i ∈ H, (cx i).crypto = crypto ∧ (cx i).gammas = gammas ∧ (cx i).phaseLength = L)
    (index : ∀ i ∈ H, c.keypers.idxOf? (cx i).own = some i)
    (part : ∀ i ∈ H, Participates ps (ws i) (cx i) codecs log e c S (rs i) (sh i) (st i))
    (enough : c.threshold ≤ H.card) :
    ∃ key, ∀ i ∈ H, ∃ n, (n, Action.eonKeyBroadcast i b key) ∈ said verdicts (rs i) := by
  obtain ⟨dkg, hdkg⟩ := participants h fit sane few law an settled later part
  rcases H.eq_empty_or_nonempty with rfl | ⟨i₀, h₀⟩
  · exact ⟨0, by simp⟩
  have hL : 0 ≤ L := by
    have := (phase_pos (part i₀ h₀)).2
    rw [(same i₀ h₀).2.2] at this
    omega
  obtain ⟨key, hkey⟩ := C69_success cx crypto gammas L hL law codecs (appChain codecs log) e c.keypers c.threshold S rs sh st dkg H
    (fun i hi => (hdkg i hi).1) index
    (fun i hi => ⟨(same i hi).1, (same i hi).2.1, (same i hi).2.2, (hdkg i hi).2.1, (hdkg i hi).2.2.1, (hdkg i hi).2.2.2.1⟩) enough
  refine ⟨key, fun i hi => ?_⟩
  obtain ⟨n, hn⟩ := (hkey i hi).2
  rw [(hdkg i hi).2.2.2.2] at hn
  exact ⟨n, hn⟩

omit [AddCommGroup G1] [AddCommGroup G2] [DecidableEq G2] [DecidableEq GT] in
/-- A delivered share is published. -/
theorem share_published (h : Exec ps dev log s) (fit : Codecs.Fit ps codecs) (sane : Sane log) (few : s.eonCounter + 1 < 2 ^ 64)
    {cx : Cfg G1 G2 GT R} (wf : Wire.Fit w ps cx) {pre r post} (hl : log = pre ++ r :: post) {e b : Nat} {p : G1}
    (arr : ActArrives w pre r cx.own (.epochSecretKeyShare e b p)) :
    Published codecs (appChain codecs log) (heightAfter pre) (.epochSecretKeyShare cx.own e b (w.share p)) := by
  obtain ⟨msg, hmsg, nonce, del, fresh⟩ := arr
  obtain rfl := Option.some.inj hmsg
  obtain ⟨o, d, hresp, hdel⟩ := h.delivered hl del rfl fresh
  simp only [deliverMessage, handleEpochSecretKeyShare, wf.share, Option.some.injEq, Prod.mk.injEq] at hdel
  exact (published_app h fit sane few _ _).2 ⟨rfl, pre, r, post, hl, by simp [Rec.events, hresp, ← hdel.2], rfl⟩

/-- **C71** As above; and if the keypers that take part have also sent their shares for batch `n` and these were delivered, each of them has
the key for the batch once it has decided on the blocks with the shares. -/
theorem C71_batch_keys [CommGroup GT] [DecidableEq G1] (h : Exec ps dev log s) (fit : Codecs.Fit ps codecs) (sane : Sane log) (few : s.eonCounter + 1 < 2 ^ 64)
    {e b : Nat} {c : BatchConfig} {S : Nat} (an : Announced log e b c S) (settled : Settled log e)
    (later : c.configIndex ≠ 0) (ws : Nat → Wire G1 G2) (cx : Nat → Cfg G1 G2 GT R) (crypto : Env G1 G2 GT) (law : Lawful crypto)
    (gammas : List Crypto.Bytes → List G2) (share : Crypto.Bytes → G1)
    (L : Int) (rs : Nat → List (Round G1 G2)) (sh : Nat → Observe.Shutter) (st : Nat → Decide.State G1 G2) (H : Finset Nat)
    (same : ∀ i ∈ H, (cx i).crypto = crypto ∧ (cx i).gammas = gammas ∧ (cx i).share = share ∧ (cx i).phaseLength = L)
    (index : ∀ i ∈ H, c.keypers.idxOf? (cx i).own = some i)
    (part : ∀ i ∈ H, Participates ps (ws i) (cx i) codecs log e c S (rs i) (sh i) (st i))
    (attentive : ∀ i ∈ H, Attentive (cx i) codecs (appChain codecs log) (rs i) (sh i) (st i))
    (slices : ∀ i ∈ H, SlicesFit (cx i) codecs (appChain codecs log))
    (enough : c.threshold ≤ H.card) :
    ∃ pk, (∀ i ∈ H, ∃ n, (n, Action.eonKeyBroadcast i b pk) ∈ said verdicts (rs i)) ∧
      ∀ n, ∀ i ∈ H, (∀ j ∈ H, ∃ m ∈ said (sharesFor e n) (rs j), ∃ pre r post, log = pre ++ r :: post ∧
          ActArrives (ws j) pre r (cx j).own (.epochSecretKeyShare e n m.2) ∧ m.1 ≤ heightAfter pre ∧
          heightAfter pre < (st i).syncHeight) →
        ∃ key, HasEonKey (st i) e n key ∧ IsEpochKey crypto pk n key := by
  obtain ⟨dkg, hdkg⟩ := participants h fit sane few law.order_smul_G2 an settled later part
  rcases H.eq_empty_or_nonempty with rfl | ⟨i₀, h₀⟩
  · exact ⟨0, by simp, by simp⟩
  have hL : 0 ≤ L := by
    have := (phase_pos (part i₀ h₀)).2
    rw [(same i₀ h₀).2.2.2] at this
    omega
  obtain ⟨pk, h1, h2⟩ := C70_honest_keypers cx crypto law gammas share L hL e c.keypers c.threshold
    (by have := (config_ok h an later).2.2; omega) S rs sh st dkg H (fun i hi => (hdkg i hi).1) attentive slices index
    (fun i hi => ⟨(same i hi).1, (same i hi).2.1, (same i hi).2.2.1, (same i hi).2.2.2, (hdkg i hi).2.1, (hdkg i hi).2.2.1, (hdkg i hi).2.2.2.1⟩)
    (fun upTo start S' hS' => by
      have hS := announced_started h fit sane few an (le_refl _)
      obtain ⟨rfl, rfl⟩ := started_unique_chain hS hS'
      exact announced_settled h fit sane few an settled) enough
  refine ⟨pk, fun i hi => ?_, fun n i hi hsh => h2 n i hi fun j hj => ?_⟩
  · obtain ⟨n, hn⟩ := h1 i hi
    rw [(hdkg i hi).2.2.2.2] at hn
    exact ⟨n, hn⟩
  · obtain ⟨m, hm, pre, r, post, hl, arr, q1, q2⟩ := hsh j hj
    refine ⟨m, hm, heightAfter pre, _, q1, q2, share_published h fit sane few (part j hj).fits hl arr, ?_⟩
    rw [← (same j hj).2.2.1]
    exact (part j hj).fits.shares m.2

/-- In the demo the keypers A and B take part in the key generation of eon 1 (with threshold 2), whereas C does not deal and makes a false
accusation; the hypotheses of the theorems above are met, so A and B agree on a key. -/
theorem C71_example : Exec App.Demo.ps false Demo.log (App.Demo.stateOf false Demo.ops) ∧ Codecs.Fit App.Demo.ps Events.Props.demoCodecs ∧ Sane Demo.log ∧
    (App.Demo.stateOf false Demo.ops).eonCounter + 1 < 2 ^ 64 ∧ Announced Demo.log 1 0 Demo.batchConfig 2 ∧ Settled Demo.log 1 ∧
    Demo.batchConfig.configIndex ≠ 0 ∧ Demo.batchConfig.threshold = 2 ∧
    ∃ r : Nat → List (Round Zq Zq) × Observe.Shutter × Decide.State Zq Zq,
      (∀ i ∈ ({0, 1} : Finset Nat), Participates App.Demo.ps Demo.wire (HonestDemo.cxOf i) Events.Props.demoCodecs Demo.log 1 Demo.batchConfig 2
        (r i).1 (r i).2.1 (r i).2.2) ∧
      ∃ key, ∀ i ∈ ({0, 1} : Finset Nat), ∃ n, (n, Action.eonKeyBroadcast i 0 key) ∈ said verdicts (r i).1 := by
  refine ⟨Demo.exec, Demo.fit, Demo.sane, by decide +kernel, Demo.announced, Demo.settled, by decide, rfl, fun i => (Demo.lives i).getD ([], newShutter, State.new Zq Zq), ?_, ?_⟩
  · intro i hi
    obtain ⟨r, hr, _⟩ := Option.map_eq_some_iff.1 (Demo.check_of hi)
    simp only [hr, Option.getD_some]
    exact Demo.participates hi hr
  · refine C71_key_generation Demo.exec Demo.fit Demo.sane (by decide +kernel) zLawful.order_smul_G2 Demo.announced Demo.settled (by decide)
      (fun _ => Demo.wire) HonestDemo.cxOf zEnv (List.map (fun b => Zq.of (beNat b))) 3 _ (fun i => ((Demo.lives i).getD ([], newShutter, State.new Zq Zq)).2.1)
      (fun i => ((Demo.lives i).getD ([], newShutter, State.new Zq Zq)).2.2) {0, 1} ?_ ?_ ?_ (by decide)
    · intro i _
      unfold HonestDemo.cxOf
      split <;> exact ⟨rfl, rfl, rfl⟩
    · intro i hi
      simp only [Finset.mem_insert, Finset.mem_singleton] at hi
      rcases hi with rfl | rfl <;> decide
    · intro i hi
      obtain ⟨r, hr, _⟩ := Option.map_eq_some_iff.1 (Demo.check_of hi)
      simp only [hr, Option.getD_some]
      exact Demo.participates hi hr

end Shutter.Net.Props
