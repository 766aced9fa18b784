import Verif.Proofs.EndToEnd

/-! Property theorems C81 (all parts together: a transaction encrypted with the key of the key broadcast contract is executed). -/

namespace Shutter.Net.Props
open Shutter.App Shutter.Events Shutter.Observe Shutter.Main Shutter.Decide Shutter.Decide.Spec Shutter.Decide.Props Shutter.Crypto Shutter.Crypto.Spec Shutter.Crypto.Props
  Shutter.Dkg Shutter.Net
open Shutter.Sol (World WorldReach WorldLater NoneTakenBack zeroHash two64)

variable {ps : Parsers} {dev : Bool} {log : List Rec} {s : App.State} {codecs : Codecs}
variable {G1 G2 GT R : Type} [AddCommGroup G1] [AddCommGroup G2] [DecidableEq G1] [DecidableEq G2] [DecidableEq GT] [CommGroup GT]

/-- All keys the keypers that take part have for a batch are the same. -/
theorem one_key (h : Exec ps dev log s) (fit : Codecs.Fit ps codecs) (sane : Sane log) (few : s.eonCounter + 1 < 2 ^ 64)
    {e b : Nat} {c : App.BatchConfig} {S : Nat} (an : Announced log e b c S) (settled : Settled log e) {n : Nat} (only : OnlyEon log e n)
    {cx cx' : Cfg G1 G2 GT R} (law : Lawful cx.crypto) (hL : 0 ≤ cx.phaseLength) (hlen : cx'.phaseLength = cx.phaseLength) (hcr : cx'.crypto = cx.crypto)
    (hga : cx'.gammas = cx.gammas) (slices : SlicesFit cx codecs (appChain codecs log)) {E : Sol.Env} {fd fd' : Nat} {sh sh' : Observe.Shutter}
    {st st' : Decide.State G1 G2} {mc mc' : MainChain} {hist hist' : Nat → World} {ml ml' : List (Moment G1 G2)}
    (ca : JointLife cx codecs (appChain codecs log) E fd sh st mc hist ml) (ca' : JointLife cx' codecs (appChain codecs log) E fd' sh' st' mc' hist' ml')
    {key key' : G1} (hk : HasEonKey st e n key) (hk' : HasKey st' n key') : HasEonKey st' e n key' ∧ key' = key := by
  have slices' : SlicesFit cx' codecs (appChain codecs log) := by unfold SlicesFit; rw [hga]; exact slices
  obtain ⟨ekg, hm, hkey⟩ := hk'
  have hE : HasEonKey st' ekg.eon n key' := ⟨ekg, hm, rfl, hkey⟩
  have heon : ekg.eon = e := by
    obtain ⟨start, upTo, keypers, threshold, pk, P, _, _, _, h1, _, _, _, senders, h2, h3⟩ :=
      C66_quorum (by rw [hcr]; exact law) slices' (watch_life (joint_watch ca')) hE
    obtain ⟨a, ha⟩ := Finset.card_pos.1 (show 0 < senders.card by omega)
    obtain ⟨i, hi, x, y, _, h4, h5, _⟩ := h3 a ha
    obtain ⟨_, hp⟩ := published_iff.1 h4
    rw [h5] at hp
    obtain ⟨_, pre, r, post, hl, hev, _⟩ := (published_app h fit sane few _ _).1 hp
    exact only r (by rw [hl]; simp) _ _ _ hev
  rw [heon] at hE
  refine ⟨hE, ?_⟩
  refine (C66_keypers_agree law hL hlen hcr hga slices (joint_reach ca) (joint_reach ca') hk hE fun start S' hS => ?_).symm
  have hS0 := announced_started h fit sane few an (le_refl _)
  obtain ⟨rfl, rfl⟩ := started_unique_chain hS0 hS
  exact announced_settled h fit sane few an settled

omit [AddCommGroup G1] [AddCommGroup G2] [DecidableEq G1] [DecidableEq G2] [DecidableEq GT] [CommGroup GT] in
/-- A published signature was delivered. -/
theorem signature_of (h : Exec ps dev log s) {r : Rec} (hr : r ∈ log) {b : Nat} {own : Addr} {sig : Crypto.Bytes} (hev : .decryptionSignature b own sig ∈ r.events) :
    ∃ m, r.Delivers own m ∧ m.msg = .decryptionSignature b sig := by
  obtain ⟨pre, post, hl⟩ := List.append_of_mem hr
  obtain ⟨a', msg, acc⟩ := h.accepted_of_event hl (List.ne_nil_of_mem hev)
  obtain ⟨hE, o, m, d, ho, hm, hop, hresp, hok, _, _, he⟩ := h.eff hl acc
  rw [show r.events = d.events by simp [Rec.events, hresp]] at hev
  generalize r.after = sa at he
  cases he with
  | decSig b' sig' bs bs' h1 h2 =>
    simp at hev; obtain ⟨rfl, rfl, rfl⟩ := hev
    exact ⟨m, hop, hm⟩
  | _ => simp [errorResponse, configEvent] at hev

/-- **C81** Let at least threshold many keypers of an announced eon take part in its key generation (and vote for one key only, with their own transactions only). Then there is an eon
public key such that

* it is the best key of the key broadcast contract, if the keypers that take part have all voted, and there are fewer other voters;
* whenever it is the turn of one of them to execute the encrypted part of a batch, these keypers have sent their shares for it, and have signed early enough, it executes the batch: with
every message that was encrypted with this key for the batch, and accepted by the batcher contract;
* and in every later state of the contracts in which the batch is the next one, and not timed out, the executor contract accepts this, and calls the target with all these messages.

Missing: what is missing in C73 and C74, and shares of other eons for the batch (see `C66_other_eon_counterexample`). -/
theorem C81_executed_partial (h : Exec ps dev log s) (fit : Codecs.Fit ps codecs) (sane : Sane log) (few : s.eonCounter + 1 < 2 ^ 64)
    {e b : Nat} {c : App.BatchConfig} {S : Nat} (an : Announced log e b c S) (settled : Settled log e)
    (later : c.configIndex ≠ 0) (ws : Nat → Wire G1 G2) (cx : Nat → Cfg G1 G2 GT R) (crypto : Env G1 G2 GT) (law : Lawful crypto)
    (codec : PointCodec G2) (codecLaw : codec.Lawful) (gammas : List Crypto.Bytes → List G2) (share : Crypto.Bytes → G1) (L : Int) {E : Sol.Env}
    (fds : Nat → Nat) (sh : Nat → Observe.Shutter) (st : Nat → Decide.State G1 G2) (mc : Nat → MainChain) (hist : Nat → World) (ml : Nat → List (Moment G1 G2)) (H : Finset Nat)
    (same : ∀ i ∈ H, (cx i).crypto = crypto ∧ (cx i).gammas = gammas ∧ (cx i).share = share ∧ (cx i).phaseLength = L ∧ (cx i).codec = codec)
    (rules : ∀ i ∈ H, ∀ j ∈ H, SameRules (cx i) (cx j)) (index : ∀ i ∈ H, c.keypers.idxOf? (cx i).own = some i)
    (lives : ∀ i ∈ H, JointLife (cx i) codecs (appChain codecs log) E (fds i) (sh i) (st i) (mc i) hist (ml i))
    (part : ∀ i ∈ H, Participates ps (ws i) (cx i) codecs log e c S (roundsOf (cx i) (ml i)) (sh i) (st i))
    (slices : ∀ i ∈ H, SlicesFit (cx i) codecs (appChain codecs log)) (enough : c.threshold ≤ H.card) (self : ∀ i ∈ H, SignsItself (cx i))
    (marshal : G2 → Crypto.Bytes) (one : ∀ i ∈ H, OneKey (roundsOf (cx i) (ml i)) b) :
    ∃ pk : G2,
      (∀ w : World, WorldReach E w → (∀ i ∈ H, GenuineKeyVotes marshal (cx i).own (roundsOf (cx i) (ml i)) w b) → (∀ i ∈ H, addrNat (cx i).own ∈ w.voters b) →
        ∀ others : Finset Sol.Address, (∀ a ∈ w.voters b, a ∈ others ∨ ∃ i ∈ H, a = addrNat (cx i).own) → others.card < H.card →
          E.keccak (w.getBestKey b) = E.keccak (marshal pk)) ∧
      ∀ (n k start stop timeout : Nat) (bc : Sol.BatchConfig) (r : Moment G1 G2), k ∈ H → r ∈ ml k → r.after = st k →
        let w := hist r.main.currentBlock
        -- it is the turn of keyper `k` to execute the encrypted part of batch `n`
        w.HasBatch n bc start stop timeout → bc.keypers.Nodup → w.executor.halfSteps = 2 * n → r.Free (cx k) (2 * n) → BatchingOn w → Moderate w →
        stop + turnDelay (cx k).staggering (addrNat (cx k).own) bc (2 * n) ≤ w.block → w.block < timeout →
        -- the keypers that take part are keypers of the batch, and have sent their shares and signatures
        (∀ i ∈ H, addrNat (cx i).own ∈ bc.keypers) → bc.threshold ≤ H.card →
        (∀ i ∈ H, ∀ j ∈ H, ShareDelivered (ws j) log (cx j).own e n (roundsOf (cx j) (ml j)) (st i).syncHeight) →
        (∀ i ∈ H, SignsEarly (ws i) log hist (ml i) (cx i).own e n timeout r.view.currentBlock) →
        -- and nothing goes wrong
        OnlyEon log e n → (∀ i ∈ H, KeysInTime hist (ml i)) → (∀ i ∈ H, NoneTakenBack hist (mc i).currentBlock) →
        (World.chainHashes E (w.accepted n .cipher) = zeroHash → w.accepted n .cipher = []) →
        ∃ txs i gas, .executeCipherBatch n (w.batcher.hashes n .cipher) txs i gas ∈ r.acts ∧ bc.keypers[i]? = some (addrNat (cx k).own) ∧
          (∀ message sigma, let x := encrypt crypto message pk (epochIDOf crypto n) sigma
            codec.inGroup x.C1 = true → marshalEncryptedMessage codec x ∈ w.accepted n .cipher → message ∈ txs) ∧
          ∀ w', WorldLater E w w' → w'.executor.halfSteps = 2 * n → w'.block < timeout → 2 * n + 1 < two64 → (w'.deposit.deposits (addrNat (cx k).own)).slashed = false →
            ∃ w'', w'.step E (.executeCipherBatch (addrNat (cx k).own) n (w.batcher.hashes n .cipher) txs i []) = some w'' ∧
              w''.executor.halfSteps = 2 * n + 1 ∧ ∀ tx ∈ txs, Executed w'' bc.targetAddress bc.targetFunctionSelector tx := by
  classical
  have att : ∀ i ∈ H, Attentive (cx i) codecs (appChain codecs log) (roundsOf (cx i) (ml i)) (sh i) (st i) := fun i hi => joint_attentive (lives i hi)
  obtain ⟨pk, hpk, hkeys⟩ := C71_batch_keys h fit sane few an settled later ws cx crypto law gammas share L (fun i => roundsOf (cx i) (ml i)) sh st H
    (fun i hi => ⟨(same i hi).1, (same i hi).2.1, (same i hi).2.2.1, (same i hi).2.2.2.1⟩) index part att slices enough
  refine ⟨pk, ?_, ?_⟩
  · intro w hw gen all others voters hlt
    exact ((votes_on_key h an later index (fun i hi => (part i hi).member) hw gen one voters hpk).2 all hlt).2
  · intro n k start stop timeout bc r hk hr hlast w hb nd next free on mod late early members thr shares signs only times untaken hz
    have hL : ∀ i ∈ H, 0 ≤ (cx i).phaseLength := fun i hi => by have := (phase_pos (part i hi)).2; omega
    have wt : ∀ i ∈ H, Watch (cx i) codecs (appChain codecs log) E (fds i) (sh i) (st i) (mc i) hist (ml i) := fun i hi => joint_watch (lives i hi)
    have none : ∀ i ∈ H, ∀ m ∈ ml i, NoneTakenBack hist m.main.currentBlock := fun i hi m hm x y hxy hy =>
      untaken i hi x y hxy (le_trans hy ((watch_observed (wt i hi)).2 m hm).2)
    obtain ⟨key, hkey, right⟩ := hkeys n k hk (fun j hj => shares k hk j hj)
    -- there is one key only
    have agree : ∀ i ∈ H, ∀ m ∈ ml i, ∀ key', HasKey m.after n key' → HasEonKey m.after e n key' ∧ key' = key := by
      intro i hi m hm key' hk'
      obtain ⟨hist', ml', ca⟩ := joint_at (lives i hi) hm
      exact one_key h fit sane few an settled only (by rw [(same k hk).1]; exact law) (hL k hk) (by rw [(same i hi).2.2.2.1, (same k hk).2.2.2.1])
        (by rw [(same i hi).1, (same k hk).1]) (by rw [(same i hi).2.1, (same k hk).2.1]) (slices k hk) (lives k hk) ca hkey hk'
    have mine : HasKey r.after n key := by
      obtain ⟨x, hx, _, hk'⟩ := hkey
      rw [hlast]
      exact ⟨x, hx, hk'⟩
    have isOver := times k hk r hr n key mine
    -- the rounds in which the keypers get it
    have gets : ∀ i, ∃ m : Moment G1 G2, i ∈ H → m ∈ ml i ∧ m.Gets e n key := by
      intro i
      by_cases hi : i ∈ H
      · obtain ⟨key', g, _⟩ := hkeys n i hi (fun j hj => shares i hi j hj)
        obtain ⟨m, hm, key2, g2⟩ := joint_gets (lives i hi) g
        have : key2 = key := by
          obtain ⟨x, hx, _, hk'⟩ := g2.has
          exact (agree i hi m hm key2 ⟨x, hx, hk'⟩).2
        subst this
        exact ⟨m, fun _ => ⟨hm, g2⟩⟩
      · exact ⟨r, fun h => absurd h hi⟩
    choose ms hms using gets
    have has : ∀ i ∈ H, HasKey (ms i).after n key := by
      intro i hi
      obtain ⟨x, hx, _, hk'⟩ := (hms i hi).2.has
      exact ⟨x, hx, hk'⟩
    have both : ∀ i ∈ H, _ := fun i hi => same_batch (wt k hk) (wt i hi) hr (hms i hi).1 isOver (times i hi _ (hms i hi).1 n key (has i hi))
    -- their signatures get through
    have sent : ∀ i ∈ H, ∀ sig, .decryptionSignature n sig ∈ (ms i).acts →
        ∃ ht ≤ r.view.currentBlock, Published codecs (appChain codecs log) ht (.decryptionSignature n (cx i).own sig) := by
      intro i hi sig hsig
      obtain ⟨pre, x, post, hl, ⟨msg, hmsg, arr⟩, hle⟩ := (signs i hi).delivered _ (hms i hi).1 sig hsig
      obtain rfl := Option.some.inj hmsg
      rcases signature_published h fit sane few hl arr (signs i hi).member with ⟨x', hx', sig', hev⟩ | hp
      · have hp' : sig' = sig := by
          have hx0 : x' ∈ log := by rw [hl]; simp [hx']
          obtain ⟨mw, hd⟩ := signature_of h hx0 hev
          obtain ⟨m', hm', act, hs', hact⟩ := (signs i hi).genuine x' hx0 _ hd.1 sig' hd.2
          rw [hd.2] at hact
          obtain rfl : act = .decryptionSignature n sig' := by
            cases act <;> simp [message] at hact
            obtain ⟨rfl, rfl⟩ := hact; rfl
          obtain ⟨e1, k1, g1, ⟨txs1, d1, rfl⟩, _⟩ := C74_signed (wt i hi) hm' hs'
          obtain ⟨e2, k2, g2, ⟨txs2, d2, rfl⟩, _⟩ := C74_signed (wt i hi) (hms i hi).1 hsig
          have q1 : HasKey m'.after n k1 := by obtain ⟨x, hx, _, hk'⟩ := g1.has; exact ⟨x, hx, hk'⟩
          have q2 : HasKey (ms i).after n k2 := by obtain ⟨x, hx, _, hk'⟩ := g2.has; exact ⟨x, hx, hk'⟩
          have v := same_batch (wt i hi) (wt i hi) hm' (hms i hi).1 (times i hi _ hm' n k1 q1) (times i hi _ (hms i hi).1 n k2 q2)
          have w1 := (agree i hi _ hm' k1 q1).2
          have w2 := (agree i hi _ (hms i hi).1 k2 q2).2
          subst w1 w2
          have htx : txs1 = txs2 := by
            unfold DecryptedWith at d1 d2
            rw [d1, d2, v.1]
          rw [htx, v.2.1]
        subst hp'
        obtain ⟨p1, p2, hp⟩ := List.append_of_mem hx'
        refine ⟨heightAfter p1, ?_, (C71_chain h fit sane few _ _).2 ⟨by simp, p1, x', p2 ++ x :: post, by rw [hl, hp]; simp, hev, rfl⟩⟩
        refine le_trans ?_ hle
        unfold heightAfter
        rw [hp, List.countP_append]
        push_cast
        omega
      · exact ⟨_, hle, hp⟩
    have able : Able (cx k) codecs (appChain codecs log) w bc n r := by
      by_cases hzero : w.batcher.hashes n .cipher = zeroHash
      · exact ⟨⟨key, mine⟩, .inl hzero⟩
      by_cases hen : ∃ i ∈ H, SignedByEnough (cx i) codecs (appChain codecs log) (ms i).view.currentBlock (hist (ms i).main.currentBlock) bc n key
      · obtain ⟨i, hi, hen⟩ := hen
        refine ⟨⟨key, mine⟩, .inr fun key' txs hk' hd => ?_⟩
        obtain rfl := (agree k hk r hr key' hk').2
        exact enough_for (rules k hk i hi) ((signs i hi).early _ (hms i hi).1 key' (hms i hi).2).1 (both i hi).1.symm (both i hi).2.1.symm hen hd
      · have hsig : ∀ i, ∃ sig, i ∈ H → .decryptionSignature n sig ∈ (ms i).acts := by
          intro i
          by_cases hi : i ∈ H
          · obtain ⟨b1, b2, b3⟩ := both i hi
            have he := (signs i hi).early _ (hms i hi).1 key (hms i hi).2
            obtain ⟨sig, _, ha⟩ := C74_signs_partial (wt i hi) (hms i hi).1 (hms i hi).2 (none i hi _ (hms i hi).1) (b3 bc start stop timeout hb) nd he.2.2 he.2.1
              (by rw [← b2]; exact hzero) (fun hx => hen ⟨i, hi, hx⟩)
            exact ⟨sig, fun _ => ha⟩
          · exact ⟨[], fun h => absurd h hi⟩
        choose sigs hsigs using hsig
        refine C74_able (H := H) (cxs := cx) (fds := fds) (ss := sh) (sts := st) (mcs := mc) (logs := ml) (ms := ms) (sigs := sigs) (key := key) wt
          (fun i hi => (hms i hi).1) hsigs (fun i hi => rules k hk i hi) self (fun i hi key' hk' => (agree i hi _ (hms i hi).1 key' hk').2) times members ?_ thr (wt k hk) hr
          (times k hk) mine (fun key' hk' => (agree k hk r hr key' hk').2) (fun i hi => sent i hi _ (hsigs i hi))
        intro i hi j hj hij
        have len : ∀ i ∈ H, (cx i).own.length = 20 := fun i hi => (config_ok h an later).2.1 _ (part i hi).member
        have := beNat_injective _ _ (by rw [len i hi, len j hj]) hij
        have h3 := index i hi
        rw [this, index j hj] at h3
        simpa using h3.symm
    obtain ⟨txs, i, gas, key', ha, hi, hk', hdec⟩ := C73_cipher_partial (wt k hk) hr next free on (none k hk r hr) mod (times k hk) hb nd (members k hk) late early able
    obtain rfl := (agree k hk r hr key' hk').2
    refine ⟨txs, i, gas, ha, hi, ?_, ?_⟩
    · intro message sigma x hin hacc
      obtain ⟨y, hy, hkey'⟩ := right
      have perm := C10_decryptTransactions_perm (cx k).crypto (cx k).codec (cx k).marshalKey (cx k).newSource (cx k).next (w.accepted n .cipher) key'
      unfold DecryptedWith at hdec
      rw [← hdec] at perm
      rw [perm.mem_iff, List.mem_filterMap]
      refine ⟨_, hacc, ?_⟩
      rw [(same k hk).2.2.2.2, (same k hk).1, C07_roundtrip codec codecLaw Option.none x hin, Option.bind_some, hkey']
      show decrypt crypto (encrypt crypto message pk (epochIDOf crypto n) sigma) _ = _
      rw [hy]
      exact C01_encrypt_decrypt crypto law y _ message sigma
    · intro w' hlater hnext hearly hfits hslash
      have o := ((watch_observed (wt k hk)).2 r hr).1
      have reach := o.chain.reach o.current
      have pl := Sol.worldLater_plater reach.preach.inv hlater
      have hb' : w'.HasBatch n bc start stop timeout := by
        obtain ⟨b1, s1, e1, t1, hB, hle⟩ := isOver
        obtain ⟨rfl, rfl, rfl, rfl⟩ := Sol.HasBatch.unique hb hB
        exact Sol.hasBatch_mono reach.preach.inv (Sol.plater_config pl) hB (le_trans (Sol.HasBatch.order hB).1 hle)
      have hh : (2 * n) / 2 = n := by omega
      obtain ⟨op, w'', h1, h2, h3⟩ := C40_accepted_partial (watch_life (wt k hk)) (List.mem_map.2 ⟨r, hr, rfl⟩) ha (h := 2 * n) rfl (none k hk r hr)
        (by rw [hh]; exact fits_of reach.preach.inv hb mod) (by rw [hh]; exact hz) hlater hnext hfits
        (by
          rw [hh]
          intro bc' a1 a2 a3 hb2
          obtain ⟨rfl, _⟩ := Sol.HasBatch.unique hb' hb2
          exact nd) hslash marshal
      simp only [Action.call, Option.some.injEq] at h1
      subst h1
      exact ⟨w'', h2, h3, cipher_executes h2 hb' hearly⟩

end Shutter.Net.Props
