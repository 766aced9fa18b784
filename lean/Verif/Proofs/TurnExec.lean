import Verif.Proofs.TurnLife
import Verif.Proofs.HonestRun

/-! # A keyper does what it is its turn to do -/

namespace Shutter.Decide
open Shutter.Crypto Shutter.Dkg Shutter.Observe Shutter.Observe.Props Shutter.Main Shutter.GoConfig Shutter.Decide.Spec
open Shutter.Sol (BatchConfig zeroHash World two64 NoneTakenBack)

variable {G1 G2 GT R : Type} [AddCommGroup G1] [AddCommGroup G2] [DecidableEq G2] [DecidableEq GT]
variable {cx : Cfg G1 G2 GT R} {codecs : Events.Codecs} {chain : Observe.Chain} {E : Sol.Env} {fd : Nat}
variable {s : Observe.Shutter} {st : State G1 G2} {mc : MainChain} {hist : Nat → World} {log : List (Moment G1 G2)}

/-- The life up to a round. -/
theorem watch_at (w : Watch cx codecs chain E fd s st mc hist log) {r : Moment G1 G2} (hr : r ∈ log) :
    ∃ hist' log' keys, Watch cx codecs chain E fd r.view r.after r.main hist' log' ∧ (∀ m ∈ log', m ∈ log) ∧ r ∈ log' ∧
      decideStep cx r.view r.main keys r.before = some (r.after, r.acts) ∧ ∀ k ≤ r.main.currentBlock, hist k = hist' k := by
  induction w with
  | init _ => cases hr
  | @round s s' st st' mc mc' hist hist' log ys keys acts w h1 h2 h3 h4 h5 h6 ih =>
    rcases List.mem_append.1 hr with hr | hr
    · obtain ⟨hist0, log0, keys0, g1, g2, g3, g4, g5⟩ := ih hr
      obtain ⟨o, ol⟩ := watch_observed w
      obtain ⟨f1, f2, f3⟩ := follows_spec h3 o
      exact ⟨hist0, log0, keys0, g1, fun m hm => List.mem_append_left _ (g2 m hm), g3, g4,
        fun k hk => (f3 k (le_trans hk (ol r hr).2)).trans (g5 k hk)⟩
    · rw [List.mem_singleton] at hr
      subst hr
      exact ⟨hist', _, keys, .round w h1 h2 h3 h4 h5 h6, fun _ h => h, by simp, h6, fun _ _ => rfl⟩
  | restart _ _ ih => exact ih hr

/-- With enough signatures on the chain, the keyper has counted enough. -/
theorem enough_counted {bc : BatchConfig} {b : Nat} {hash : Bytes} {txs : List Bytes} {bt : Batch} {v : Observe.Shutter} (nd : bc.keypers.Nodup)
    (enough : EnoughSignatures cx codecs chain v.currentBlock bc b hash txs)
    (inv : SigInv cx (known bc) b (signaturesFor b (seenEvents codecs chain v)) bt)
    (all : bt.decryptionSignatureIndex = (signaturesFor b (seenEvents codecs chain v)).length)
    (hs : bt.decryptionSignatureHash = decryptionSignatureHash cx b hash (transactionsHash cx txs)) :
    bc.threshold ≤ bt.verifiedSignatures.length := by
  obtain ⟨signers, h1, h2⟩ := enough
  rcases inv.seen with h | h
  · exact h
  · rw [all, List.take_length] at h
    have sub : signers ⊆ (bt.verifiedSignatures.map Prod.fst).toFinset := by
      intro a ha
      obtain ⟨hk, ht, sender, sig, g1, g2, rfl, g4⟩ := h2 a ha
      rw [List.mem_toFinset]
      refine h ⟨ht, .decryptionSignature b sender sig⟩ ?_ b sender sig rfl ?_ ?_
      · unfold signaturesFor seenEvents
        rw [List.mem_filter]
        exact ⟨(published_iff).2 ⟨g1, g2⟩, by simp⟩
      · unfold keyperIndex
        rw [(known_fields bc).2.2.2.2.2.2, dedupGo_nodup _ _ (by simp) nd]
        have : bc.keypers.findIdx (fun k => k == addrNat sender) < bc.keypers.length := List.findIdx_lt_length_of_exists ⟨_, hk, by simp⟩
        simp [this]
      · rw [hs]; exact g4
    have := Finset.card_le_card sub
    have := List.toFinset_card_le (bt.verifiedSignatures.map Prod.fst)
    rw [List.length_map] at this
    omega

/-- What it is the keyper's turn to do, is done. -/
theorem ready_done (w : Watch cx codecs chain E fd s st mc hist log) {r : Moment G1 G2} (hr : r ∈ log) (hs : r.view = s) (hst : r.after = st)
    (hmc : r.main = mc) (hd : decides cx s mc = true) (hne : mc.configs ≠ []) (hn : NoneTakenBack hist mc.currentBlock)
    (mod : Moderate (hist mc.currentBlock)) (hk : KeysInTime hist log) {h : Nat} (hh : mc.numHalfSteps ≤ h) (hlt : h < 2 ^ 63 + 2 ^ 62)
    (ready : Ready cx codecs chain (hist mc.currentBlock) r h) {st2 : State G1 G2} (hst2 : st2.batches = st.batches) :
    maybeExecuteHalfStep cx mc st2 h ≠ some none := by
  obtain ⟨o, _⟩ := watch_observed w
  have hw : (hist mc.currentBlock).block = mc.currentBlock := o.chain.blk o.current
  have hent := (watch_entries w hn hk).2 r hr (by rw [hs, hmc]; exact hd)
  rw [hs, hst, hmc] at hent
  have base : ∀ {b start stop timeout : Nat} {bc : BatchConfig}, (hist mc.currentBlock).HasBatch b bc start stop timeout → bc.keypers.Nodup →
      bc.keypers ≠ [] → h / 2 = b →
      maybeExecuteHalfStep cx mc st2 h =
        (if h % 2 = 0 ∧ mc.currentBlock ≥ timeout then
          if mc.currentBlock ≥ wadd timeout (turnDelay cx.staggering (addrNat cx.own) bc h) then some (some (.skipCipherBatch (h / 2)))
          else some none
        else if (keyperIndex (known bc) (addrNat cx.own)).isNone then some none
        else if mc.currentBlock ≥ wadd stop (turnDelay cx.staggering (addrNat cx.own) bc h) then
          if h % 2 = 0 then executeCipherBatch cx mc st2 (h / 2) (known bc)
          else some (some (executePlainBatch mc (h / 2) (known bc)))
        else some none) ∧ turnDelay cx.staggering (addrNat cx.own) bc h ≤ bc.executionTimeout / 2 ∧
        (keyperIndex (known bc) (addrNat cx.own) = if addrNat cx.own ∈ bc.keypers then some (bc.keypers.idxOf (addrNat cx.own)) else none) ∧
        timeout < two64 ∧ timeout = stop + bc.executionTimeout := by
    intro b start stop timeout bc hb nd hne2 hhb
    obtain ⟨c1, c2, c3, c4, c5, i, _, c6, _⟩ := configFor_of o hn hne hb
    obtain ⟨m1, m2, m3⟩ := mod.configs bc (List.mem_of_getElem? c6)
    obtain ⟨d1, d2, d3⟩ := delay_eq (cx := cx) nd hne2 m2 hlt m3
    refine ⟨?_, d3, d2, c4, c3⟩
    unfold maybeExecuteHalfStep
    rw [hhb, c1]
    simp only [d1, c2, (known_fields bc).2.2.2.1, Option.bind_eq_bind, Option.bind_some]
    have : wadd stop bc.executionTimeout = timeout := by
      unfold wadd; rw [Nat.mod_eq_of_lt (by omega)]; exact c3.symm
    rw [this]
  have mblock := mod.block
  rw [hw] at mblock
  have small : ∀ {x y : Nat}, x + y ≤ mc.currentBlock → wadd x y = x + y := by
    intro x y hxy
    unfold wadd
    exact Nat.mod_eq_of_lt (by unfold two64; omega)
  cases ready with
  | @skip b start stop timeout bc h1 nd h2 h3 =>
    obtain ⟨b1, b2, b3, b4, b5⟩ := base h1 nd h2 (by omega)
    rw [hw] at h3
    rw [b1, if_pos ⟨by omega, by omega⟩, small h3, if_pos h3]
    simp
  | @plain b start stop timeout bc h1 nd h2 h3 =>
    obtain ⟨b1, b2, b3, b4, b5⟩ := base h1 nd (List.ne_nil_of_mem h2) (by omega)
    rw [hw] at h3
    rw [if_pos h2] at b3
    rw [b1, if_neg (by omega), b3, if_neg (by simp), small h3, if_pos h3, if_neg (by omega)]
    simp
  | @cipher b start stop timeout bc h1 nd h2 h3 h4 able =>
    obtain ⟨b1, b2, b3, b4, b5⟩ := base h1 nd (List.ne_nil_of_mem h2) (by omega)
    rw [if_pos h2] at b3
    have hstop : stop ≤ (hist mc.currentBlock).block := by omega
    rw [hw] at h3 h4
    rw [b1, if_neg (by omega), b3, if_neg (by simp), small h3, if_pos h3, if_pos (by omega), show 2 * b / 2 = b by omega]
    have hset := hent b (by omega)
    obtain ⟨key, hkey⟩ := able.hasKey
    rw [hst] at hkey
    obtain ⟨bt, hbt⟩ := Option.isSome_iff_exists.mp (hset.has key hkey)
    unfold executeCipherBatch
    rw [b3, hst2, hbt]
    simp only
    split
    · next hc =>
      exfalso
      obtain ⟨⟨key', m1, m2⟩, m3, m4⟩ := hset.made bt hbt
      rcases able.signed with hz | hsig
      · rw [hz, hc.1] at m3; simp at m3
      · have hen := hsig key' bt.decryptedTransactions (by rw [hst]; exact m1) m2
        rw [hs] at hen
        have := enough_counted nd hen (hset.sigs _ _ _ _ h1 hstop bt hbt) (hset.all _ _ _ _ h1 hstop bt hbt hc.1) m4
        rw [(known_fields bc).2.2.2.2.1] at hc
        omega
    · simp

/-- The half steps of a round. -/
theorem runs_last (w : Watch cx codecs chain E fd s st mc hist log) {r : Moment G1 G2} (hr : r ∈ log) (hs : r.view = s) (hst : r.after = st)
    (hmc : r.main = mc) {keys : List Nat} (hdec : decideStep cx r.view r.main keys r.before = some (r.after, r.acts))
    (free : r.Free cx mc.numHalfSteps) (on : BatchingOn (hist mc.currentBlock)) (hn : NoneTakenBack hist mc.currentBlock)
    (mod : Moderate (hist mc.currentBlock)) (hk : KeysInTime hist log) :
    ∃ n, n ≤ 10 ∧ halfStepsOf r.acts = List.range' mc.numHalfSteps n ∧ (n < 10 → ¬ Ready cx codecs chain (hist mc.currentBlock) r (mc.numHalfSteps + n)) := by
  obtain ⟨o, _⟩ := watch_observed w
  have hd := free.awake
  rw [hs, hmc] at hd
  have hw : (hist mc.currentBlock).block = mc.currentBlock := o.chain.blk o.current
  obtain ⟨dkg, sync, pub, sigs, exec, app, acc, ekgs, g⟩ : ∃ dkg sync pub sigs exec app acc ekgs,
      Stages cx s mc keys r.before st r.acts dkg sync pub sigs exec app acc ekgs := by
    have h := hd
    unfold decides at h
    simp only [Bool.and_eq_true] at h
    rw [hs, hmc, hst] at hdec
    exact decide_ready hdec h.1.1 h.1.2 h.2
  have hne : mc.configs ≠ [] := by
    intro h0
    have := g.hpub
    simp [publishEpochSecretKeyShares, activeConfigIndex, h0] at this
  have e1 : exec.st.batches = st.batches := by
    rw [g.final]
    show exec.st.batches = acc.st.batches
    rw [(accuse_stage g.hacc).2]
    show exec.st.batches = app.st.batches
    rw [(appeal_stage g.happ).2]
  have hb : sigs.st.batches = st.batches := by rw [← e1, (exec_stage g.hexec).2]
  have hpend : sigs.st.pendingHalfStep = r.before.pendingHalfStep := by
    rw [(handleSigs_stage g.hsigs).2]
    show pub.st.pendingHalfStep = _
    rw [(publish_emits g.hpub).2]
    show sync.st.pendingHalfStep = _
    rw [(syncEKGs_stage g.hsync).2]
    obtain ⟨a, b, x, y, z, g1⟩ := g.hdkg
    rw [g1]
  have hsig : sigs.actions.filter (fun a => a.kind = .exec) = [] := by
    have e1 := (syncEKGs_stage g.hsync).1
    have e2 := (publish_emits g.hpub).1
    rw [(handleSigs_stage g.hsigs).1, e2.filter_ne (by decide), e1.filter_ne (by decide), List.filter_eq_nil_iff]
    intro a ha
    rcases g.hkind a ha with h | h | h <;> rw [h] <;> simp
  obtain ⟨config, current, a1, a2, a3, a4, a5⟩ := before_current o hn hne on mod
  have hx := g.hexec
  unfold maybeExecuteBatch at hx
  simp only [a1, a2, a3, Option.bind_eq_bind, Option.bind_some, Bool.true_eq_false, if_false] at hx
  have hno : stillPending mc.numHalfSteps sigs.st.pendingHalfStep = none := by
    rw [hpend]
    cases hp : r.before.pendingHalfStep with
    | none => rfl
    | some p => simp [stillPending, free.idle p hp]
  rw [hno] at hx
  simp only [Option.isSome_none, Bool.false_eq_true, if_false] at hx
  obtain ⟨_, new, g1, g2, g3, _⟩ := executeLoop_stage hx
  obtain ⟨new', n1, n2, n3⟩ := executeLoop_stops hx
  obtain rfl : new' = new := List.append_cancel_left (n1.symm.trans g1)
  have hnew : r.acts.filter (fun a => a.kind = .exec) = new' := by
    rw [g.filter .exec]
    simp only
    rw [g1, List.filter_append]
    simp only [hsig, List.nil_append]
    rw [List.filter_eq_self]
    intro a ha
    obtain ⟨j, hj⟩ := List.getElem?_of_mem ha
    obtain ⟨p, hp⟩ := g3 j a hj
    simpa using halfStep_kind hp
  have hsteps : halfStepsOf r.acts = List.range' mc.numHalfSteps new'.length := by
    rw [halfStepsOf_filter, hnew]
    unfold halfStepsOf
    exact filterMap_range (k := 0) (fun j a hj => by
      obtain ⟨p, hp⟩ := g3 j a hj
      obtain ⟨c, delay, e, k1, k2, k3, k4⟩ := halfStep_turn hp
      exact k4.halfStep)
  refine ⟨new'.length, le_trans g2 (numHalfSteps_le _ _), hsteps, fun hlen ready => ?_⟩
  have hcur : (mc.numHalfSteps + new'.length) / 2 < current := by
    have : ∃ b bc x y z, (hist mc.currentBlock).HasBatch b bc x y z ∧ y ≤ mc.currentBlock ∧ (mc.numHalfSteps + new'.length) / 2 = b := by
      generalize hgen : mc.numHalfSteps + new'.length = h at ready ⊢
      cases ready with
      | @skip b start stop timeout bc h1 nd h2 h3 => exact ⟨b, bc, _, _, _, h1, by rw [hw] at h3; have := (Sol.HasBatch.order h1).2; omega, by omega⟩
      | @plain b start stop timeout bc h1 nd h2 h3 => exact ⟨b, bc, _, _, _, h1, by omega, by omega⟩
      | @cipher b start stop timeout bc h1 nd h2 h3 => exact ⟨b, bc, _, _, _, h1, by omega, by omega⟩
    obtain ⟨b, bc, x, y, z, k1, k2, k3⟩ := this
    rw [k3]
    exact a5 b bc x y z k1 k2
  have hmul : wmul current 2 = current * 2 := by unfold wmul two64; exact Nat.mod_eq_of_lt (by omega)
  have hcount : new'.length < numHalfStepsToExecute mc.numHalfSteps current := by
    unfold numHalfStepsToExecute
    rw [hmul]
    split
    · omega
    · split <;> omega
  obtain ⟨p, hp⟩ := n3 hcount
  exact ready_done w hr hs hst hmc hd hne hn mod hk (by omega) (by omega) ready (st2 := { sigs.st with pendingHalfStep := p }) hb hp

/-- What is executed, is all that was accepted. -/
theorem executed_made (w : Watch cx codecs chain E fd s st mc hist log) {r : Moment G1 G2} (hr : r ∈ log)
    (hd : decides cx r.view r.main = true) (hn : NoneTakenBack hist r.main.currentBlock) (hk : KeysInTime hist log) {b k gas : Nat} {hash : Bytes}
    {txs : List Bytes} (ha : .executeCipherBatch b hash txs k gas ∈ r.acts) (hle : r.main.numHalfSteps / 2 ≤ b) :
    ∃ key, HasKey r.after b key ∧ DecryptedWith cx key ((hist r.main.currentBlock).accepted b .cipher) txs := by
  obtain ⟨hist', log', keys, w', hlog, hr', hdec, heq⟩ := watch_at w hr
  have hn' : NoneTakenBack hist' r.main.currentBlock := by
    intro x y hxy hy
    rw [← heq _ (le_trans hxy hy), ← heq _ hy]
    exact hn x y hxy hy
  have hk' : KeysInTime hist' log' := by
    intro m hm b key h
    rw [← heq _ ((watch_observed w').2 m hm).2]
    exact hk m (hlog m hm) b key h
  obtain ⟨dkg, sync, pub, sigs, exec, app, acc, ekgs, g⟩ : ∃ dkg sync pub sigs exec app acc ekgs,
      Stages cx r.view r.main keys r.before r.after r.acts dkg sync pub sigs exec app acc ekgs := by
    have h := hd
    unfold decides at h
    simp only [Bool.and_eq_true] at h
    exact decide_ready hdec h.1.1 h.1.2 h.2
  obtain ⟨new, n1, _, n3⟩ := exec_round g
  have hm : Action.executeCipherBatch b hash txs k gas ∈ new := by
    rw [← n1, List.mem_filter]
    exact ⟨ha, by simp [Action.kind]⟩
  obtain ⟨j, hj⟩ := List.getElem?_of_mem hm
  obtain ⟨config, delay, e, k1, k2, k3, k4⟩ := n3 j _ hj
  generalize hact : (Action.executeCipherBatch b hash txs k gas : Action G1 G2) = a at k4
  cases k4 with
  | skip => cases hact
  | plain => cases hact
  | @cipher k' bt _ h2 h3 h4 h5 h6 =>
    cases hact
    obtain ⟨m1, _⟩ := ((watch_entries w' hn' hk').2 r hr' hd _ hle).made bt h5
    rw [heq _ (le_refl _)]
    exact m1

end Shutter.Decide
