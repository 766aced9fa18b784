import Verif.Proofs.SignWants
import Verif.Props.Turn
import Verif.Props.Net

/-! Property theorems C74 (shuttermint/keyper/decide.go: decryption signatures). -/

namespace Shutter.Decide.Props
open Shutter.Crypto Shutter.Dkg Shutter.Observe Shutter.Decide Shutter.Main Shutter.GoConfig Shutter.Decide.Spec
open Shutter.Events (Codecs)
open Shutter.Sol (World TxType BatchConfig NoneTakenBack two64 zeroHash)

variable {G1 G2 GT R : Type} [AddCommGroup G1] [AddCommGroup G2] [DecidableEq G2] [DecidableEq GT]
variable {cx : Cfg G1 G2 GT R} {codecs : Codecs} {chain : Observe.Chain} {E : Sol.Env} {fd : Nat}
variable {s : Observe.Shutter} {st : State G1 G2} {mc : MainChain} {hist : Nat → World} {log : List (Moment G1 G2)} {r : Moment G1 G2}

/-- The conditions for a signature in terms of the contracts and of shuttermint. -/
theorem wants_iff (w : Watch cx codecs chain E fd r.view st r.main hist log) (hn : NoneTakenBack hist r.main.currentBlock) (hne : r.main.configs ≠ [])
    {b start stop timeout : Nat} {bc : BatchConfig} (hb : (hist r.main.currentBlock).HasBatch b bc start stop timeout) (nd : bc.keypers.Nodup)
    (next : (hist r.main.currentBlock).executor.halfSteps ≤ 2 * b + 1) {key : G1}
    (hsync : ∃ bt, syncBatch cx r.view r.main (freshBatch cx r.main b key) = some bt) :
    Wants cx r.view r.main b key ↔ (hist r.main.currentBlock).block + 1 < timeout ∧ (hist r.main.currentBlock).batcher.hashes b .cipher ≠ zeroHash ∧
      ¬ SignedByEnough cx codecs chain r.view.currentBlock (hist r.main.currentBlock) bc b key := by
  have o := (watch_observed w).1
  have hw : (hist r.main.currentBlock).block = r.main.currentBlock := o.chain.blk o.current
  obtain ⟨xs, g1, g2⟩ := watch_sigs w
  have hg := sigs_of g1 g2 b (by rw [Main.Props.C56_half_steps o]; omega)
  have hc := (configFor_of o hn hne hb).1
  have hto := timeout_eq o hn hne hb
  have h37 := (Main.Props.C37_exact_partial o b).1 .cipher
  have hempty : (freshBatch cx r.main b key).isEmpty = ((hist r.main.currentBlock).batcher.hashes b .cipher == zeroHash) := by
    rw [← h37.2]; unfold MainChain.hash freshBatch
    cases r.main.batches b <;> rfl
  have hdec : DecryptedWith cx key ((hist r.main.currentBlock).accepted b .cipher) (freshBatch cx r.main b key).decryptedTransactions := by
    rw [← h37.1]; unfold DecryptedWith MainChain.txs freshBatch
    cases r.main.batches b <;> rfl
  have hh : (freshBatch cx r.main b key).decryptionSignatureHash = decryptionSignatureHash cx b ((hist r.main.currentBlock).batcher.hashes b .cipher)
      (transactionsHash cx (freshBatch cx r.main b key).decryptedTransactions) := by
    rw [← h37.2]; unfold MainChain.hash freshBatch
    cases r.main.batches b <;> rfl
  have hsbe : SignedByEnough cx codecs chain r.view.currentBlock (hist r.main.currentBlock) bc b key ↔
      EnoughSignatures cx codecs chain r.view.currentBlock bc b ((hist r.main.currentBlock).batcher.hashes b .cipher)
        (freshBatch cx r.main b key).decryptedTransactions := by
    constructor
    · rintro ⟨txs, h1, h2⟩
      unfold DecryptedWith at h1 hdec
      rw [hdec, ← h1]
      exact h2
    · exact fun h => ⟨_, hdec, h⟩
  rw [hsbe, hw]
  constructor
  · rintro ⟨a1, a2, bt, config, a3, a4, a5⟩
    rw [hto] at a1
    rw [hc] at a4
    simp only [Option.some.injEq] at a4
    subst a4
    rw [(known_fields bc).2.2.2.2.1] at a5
    refine ⟨by simpa using a1, ?_, (fresh_few nd hc hg a2 a3 hh).1 a5⟩
    rw [hempty] at a2
    simpa using a2
  · rintro ⟨a1, a2, a3⟩
    have hf : (freshBatch cx r.main b key).isEmpty = false := by rw [hempty]; simpa using a2
    obtain ⟨bt, hbt⟩ := hsync
    refine ⟨by rw [hto]; simpa using a1, hf, bt, known bc, hbt, hc, ?_⟩
    rw [(known_fields bc).2.2.2.2.1]
    exact (fresh_few nd hc hg hf hbt hh).2 a3

/-- **C74** Every decryption signature a keyper sends is for a batch it gets the key of in this round; it is for the encrypted transactions that were accepted, and for what the
keyper has decrypted them to with this key; and not for a batch without encrypted transactions. It is not sent in or after the last block before the timeout, or when
enough others have signed the same. -/
theorem C74_signed (w : Watch cx codecs chain E fd s st mc hist log) (hr : r ∈ log) {b : Nat} {sig : Bytes} (ha : .decryptionSignature b sig ∈ r.acts) :
    ∃ e key, r.Gets e b key ∧ SignatureFor cx (hist r.main.currentBlock) b key sig ∧ (hist r.main.currentBlock).batcher.hashes b .cipher ≠ zeroHash ∧
      ∀ bc start stop timeout, (hist r.main.currentBlock).HasBatch b bc start stop timeout → NoneTakenBack hist r.main.currentBlock → bc.keypers.Nodup →
        (hist r.main.currentBlock).executor.halfSteps ≤ 2 * b + 1 → (hist r.main.currentBlock).block + 1 < timeout ∧
          ¬ SignedByEnough cx codecs chain r.view.currentBlock (hist r.main.currentBlock) bc b key := by
  obtain ⟨hist', log', keys, w', hlog, hr', hdec, heq⟩ := watch_at w hr
  rw [heq _ (le_refl _)]
  have o := (watch_observed w').1
  rcases decide_stages hdec with ⟨_, h0⟩ | ⟨_, _, _, _, _, _, _, _, g⟩
  · rw [h0] at ha; cases ha
  · obtain ⟨e, key, h1, h2, h3, h4⟩ := (signs_round g (life_ekgInv (watch_life w'))).1 b sig ha
    have hne : r.main.configs ≠ [] := by
      intro h0
      have := g.hpub
      simp [publishEpochSecretKeyShares, activeConfigIndex, h0] at this
    have h37 := (Main.Props.C37_exact_partial o b).1 .cipher
    refine ⟨e, key, ⟨h1, h2⟩, ?_, ?_, fun bc start stop timeout hb hn nd next => ?_⟩
    · unfold sigAction at h4
      simp only [Action.decryptionSignature.injEq, true_and] at h4
      rw [h4, SignatureFor, ← h37.1, ← h37.2]
      refine ⟨_, rfl, ?_⟩
      unfold MainChain.txs MainChain.hash freshBatch
      cases r.main.batches b <;> rfl
    · rw [← h37.2]
      have he : (freshBatch cx r.main b key).isEmpty = (r.main.hash b .cipher == zeroHash) := by
        unfold MainChain.hash freshBatch
        cases r.main.batches b <;> rfl
      have := h3.filled
      rw [he] at this
      simpa using this
    · have hn' : NoneTakenBack hist' r.main.currentBlock := by
        intro x y hxy hy
        rw [← heq _ (le_trans hxy hy), ← heq _ hy]
        exact hn x y hxy hy
      obtain ⟨bt, _, h5, _⟩ := h3.few
      have := (wants_iff w' hn' hne hb nd next ⟨bt, h5⟩).1 h3
      exact ⟨this.1, this.2.2⟩

/-- **C74** When a keyper gets the key of a batch, it signs what it decrypts, unless the batch has no encrypted transactions, it is too late, or enough others have signed
the same. Missing: configs taken back by the owner. -/
theorem C74_signs_partial (w : Watch cx codecs chain E fd s st mc hist log) (hr : r ∈ log) {e b : Nat} {key : G1} (gets : r.Gets e b key)
    (hn : NoneTakenBack hist r.main.currentBlock) {bc : BatchConfig} {start stop timeout : Nat}
    (hb : (hist r.main.currentBlock).HasBatch b bc start stop timeout) (nd : bc.keypers.Nodup)
    (next : (hist r.main.currentBlock).executor.halfSteps ≤ 2 * b + 1) (early : (hist r.main.currentBlock).block + 1 < timeout)
    (filled : (hist r.main.currentBlock).batcher.hashes b .cipher ≠ zeroHash)
    (few : ¬ SignedByEnough cx codecs chain r.view.currentBlock (hist r.main.currentBlock) bc b key) :
    ∃ sig, SignatureFor cx (hist r.main.currentBlock) b key sig ∧ .decryptionSignature b sig ∈ r.acts := by
  obtain ⟨hist', log', keys, w', hlog, hr', hdec, heq⟩ := watch_at w hr
  rw [heq _ (le_refl _)] at hb next early filled few ⊢
  have o := (watch_observed w').1
  have hn' : NoneTakenBack hist' r.main.currentBlock := by
    intro x y hxy hy
    rw [← heq _ (le_trans hxy hy), ← heq _ hy]
    exact hn x y hxy hy
  rcases decide_stages hdec with ⟨h0, _⟩ | ⟨_, _, _, _, _, _, _, _, g⟩
  · exact absurd (h0 ▸ gets.has) (gets.new key)
  · have hne : r.main.configs ≠ [] := by
      intro h0
      have := g.hpub
      simp [publishEpochSecretKeyShares, activeConfigIndex, h0] at this
    have hc := (configFor_of o hn' hne hb).1
    have hsync : ∃ bt, syncBatch cx r.view r.main (freshBatch cx r.main b key) = some bt := by
      unfold syncBatch
      rw [show (freshBatch cx r.main b key).batchIndex = b from rfl, hc]
      split
      · exact ⟨_, rfl⟩
      · simp only
        split <;> exact ⟨_, rfl⟩
    have hw := (wants_iff w' hn' hne hb nd next hsync).2 ⟨early, filled, few⟩
    have := (signs_round g (life_ekgInv (watch_life w'))).2 e b key gets.has gets.new hw
    have h37 := (Main.Props.C37_exact_partial o b).1 .cipher
    refine ⟨_, ?_, this⟩
    rw [SignatureFor, ← h37.1, ← h37.2]
    refine ⟨_, rfl, ?_⟩
    unfold MainChain.txs MainChain.hash freshBatch
    cases r.main.batches b <;> rfl

/-- **C74** The signatures fit together: if threshold many keypers of a batch have the same key as a keyper, each has signed, and the signatures are on the part of
shuttermint the keyper has seen, then the keyper is able to execute the batch. (By C66 keypers have the same key for the same eon.) -/
theorem C74_able {ι : Type} {H : Finset ι} {cxs : ι → Cfg G1 G2 GT R} {fds : ι → Nat} {ss : ι → Observe.Shutter} {sts : ι → State G1 G2}
    {mcs : ι → MainChain} {logs : ι → List (Moment G1 G2)} {ms : ι → Moment G1 G2} {sigs : ι → Bytes} {b : Nat} {key : G1} {bc : BatchConfig}
    (ws : ∀ i ∈ H, Watch (cxs i) codecs chain E (fds i) (ss i) (sts i) (mcs i) hist (logs i)) (hms : ∀ i ∈ H, ms i ∈ logs i)
    (signed : ∀ i ∈ H, .decryptionSignature b (sigs i) ∈ (ms i).acts) (same : ∀ i ∈ H, SameRules cx (cxs i)) (self : ∀ i ∈ H, SignsItself (cxs i))
    (keys : ∀ i ∈ H, ∀ key', HasKey (ms i).after b key' → key' = key) (inTime : ∀ i ∈ H, KeysInTime hist (logs i))
    (members : ∀ i ∈ H, addrNat (cxs i).own ∈ bc.keypers) (distinct : ∀ i ∈ H, ∀ j ∈ H, addrNat (cxs i).own = addrNat (cxs j).own → i = j)
    (enough : bc.threshold ≤ H.card) (w : Watch cx codecs chain E fd s st mc hist log) (hr : r ∈ log) (own : KeysInTime hist log)
    (mine : HasKey r.after b key) (only : ∀ key', HasKey r.after b key' → key' = key)
    (published : ∀ i ∈ H, ∃ h ≤ r.view.currentBlock, Published codecs chain h (.decryptionSignature b (cxs i).own (sigs i))) :
    Able cx codecs chain (hist r.main.currentBlock) bc b r := by
  classical
  refine ⟨⟨key, mine⟩, .inr fun key' txs hk' hdec => ?_⟩
  obtain rfl := only key' hk'
  refine ⟨H.image (fun i => addrNat (cxs i).own), ?_, ?_⟩
  · rw [Finset.card_image_of_injOn (fun i hi j hj h => distinct i hi j hj h)]
    exact enough
  · intro a ha
    obtain ⟨i, hi, rfl⟩ := Finset.mem_image.1 ha
    obtain ⟨h, hle, hp⟩ := published i hi
    refine ⟨members i hi, h, (cxs i).own, sigs i, hle, hp, rfl, ?_⟩
    obtain ⟨e, key2, gets, ⟨txs2, d1, d2⟩, _⟩ := C74_signed (ws i hi) (hms i hi) (signed i hi)
    have hk2 : HasKey (ms i).after b key2 := by
      obtain ⟨x, hx, _, hk⟩ := gets.has
      exact ⟨x, hx, hk⟩
    obtain rfl := keys i hi key2 hk2
    have o1 := ((watch_observed (ws i hi)).2 _ (hms i hi)).1
    have o2 := ((watch_observed w).2 _ hr).1
    have v1 := inTime i hi _ (hms i hi) b _ hk2
    have v2 := own _ hr b _ hk'
    have hacc : (hist (ms i).main.currentBlock).accepted b .cipher = (hist r.main.currentBlock).accepted b .cipher ∧
        (hist (ms i).main.currentBlock).batcher.hashes b .cipher = (hist r.main.currentBlock).batcher.hashes b .cipher := by
      rcases le_total (ms i).main.currentBlock r.main.currentBlock with hl | hl
      · have := Sol.accepted_later (o2.chain.reach o1.current).preach.inv (o2.chain.plater hl o2.current) v1 .cipher
        exact ⟨this.1.symm, this.2.1.symm⟩
      · have := Sol.accepted_later (o2.chain.reach o2.current).preach.inv (o2.chain.plater hl o1.current) v2 .cipher
        exact ⟨this.1, this.2.1⟩
    have sm := same i hi
    have htx : txs2 = txs := by
      unfold DecryptedWith at d1 hdec
      rw [d1, hdec, hacc.1, sm.crypto, sm.codec, sm.marshalKey, sm.newSource, sm.next]
    have hhash : decryptionSignatureHash (cxs i) b ((hist (ms i).main.currentBlock).batcher.hashes b .cipher) (transactionsHash (cxs i) txs2) =
        decryptionSignatureHash cx b ((hist r.main.currentBlock).batcher.hashes b .cipher) (transactionsHash cx txs) := by
      unfold decryptionSignatureHash transactionsHash
      rw [hacc.2, htx, sm.crypto, sm.batcher]
    rw [d2, hhash, ← sm.goRecover]
    exact self i hi _ (by unfold decryptionSignatureHash; exact Block.length_toBytes _)

section demo
open Shutter.Events.Props

theorem Demo.signs_of (own : App.Addr) (i : UInt8) (poly : List Nat) (h0 : 0 < i.toNat) (ho : addrNat own = i.toNat) : SignsItself (Demo.cx own i poly) := by
  intro hash hl
  have hs : beNat (World.beBytes i.toNat 32) = i.toNat := by
    rw [Crypto.beNat_beBytes]
    exact Nat.mod_eq_of_lt (lt_of_lt_of_le i.toNat_lt (by norm_num))
  have hb : (World.beBytes i.toNat 32).length = 32 := Crypto.beBytes_length _ _
  show Ecdsa.goRecover Demo.core hash (Demo.signAs i hash) = some (addrNat own)
  have hi : i.toNat < 256 := i.toNat_lt
  have hlen : (Demo.signAs i hash).length = 65 := by simp [Demo.signAs, hl, hb]
  have e1 : (Demo.signAs i hash).take 32 = hash := by
    unfold Demo.signAs; rw [List.append_assoc, ← hl, List.take_left]
  have e2 : ((Demo.signAs i hash).drop 32).take 32 = World.beBytes i.toNat 32 := by
    unfold Demo.signAs; rw [List.append_assoc, ← hl, List.drop_left, hl]
    exact List.take_left' hb
  have e3 : (Demo.signAs i hash)[64]? = some 0 := by
    unfold Demo.signAs; rw [List.getElem?_append_right (by simp [hl, hb])]; simp [hl, hb]
  have hsp : Ecdsa.split (Demo.signAs i hash) = (beNat hash, i.toNat, 0) := by
    unfold Ecdsa.split; rw [e1, e2, e3, hs]; rfl
  have hord : Ecdsa.halfOrder < Ecdsa.order ∧ 256 < Ecdsa.halfOrder := by decide
  unfold Ecdsa.goRecover
  rw [hlen, hsp]
  simp only [ne_eq, not_true_eq_false, if_false]
  rw [if_neg (by omega)]
  unfold Demo.core
  rw [if_pos ⟨rfl, h0, by omega⟩, if_pos (by omega), ho]

/-- The life of keyper B in the demo. -/
def Demo.signRun : Option (Watched Zq Zq) := watchRun Demo.cxB demoCodecs Demo.shares Demo.hist 3
  [([.sync 2 2 false], [50]), ([.sync 8 8 false], [110]), ([], [113]), ([.sync 9 9 false], [114])]

/-- What we look at in a round. -/
structure Demo.SignLook where
  view : Int
  main : Nat
  after : List (Nat × Option (Option Zq))
  before : List (Nat × Option (Option Zq))
  acts : List (Action Zq Zq)
deriving DecidableEq

def Demo.signLook (m : Moment Zq Zq) : Demo.SignLook :=
  ⟨m.view.currentBlock, m.main.currentBlock, m.after.ekgs.map (fun e => (e.eon, e.kg.secretKeys 0)), m.before.ekgs.map (fun e => (e.eon, e.kg.secretKeys 0)), m.acts⟩

theorem Demo.sign_looks : Demo.signRun.map (fun r => r.log.map Demo.signLook) = some
    [⟨2, 47, [], [], [.checkIn, .polyCommitment 1 [Zq.of 5]]⟩, ⟨8, 107, [(1, none)], [], [.eonKeyBroadcast 1 0 (Zq.of 8)]⟩,
      ⟨8, 110, [(1, none)], [(1, none)], [.epochSecretKeyShare 1 0 ((8 : Nat) • epochIDOf zEnv 0)]⟩,
      ⟨9, 111, [(1, some (some ((8 : Nat) • epochIDOf zEnv 0)))], [(1, none)], [.decryptionSignature 0 (Demo.signAs 2 Demo.sigHash)]⟩] := by
  decide +kernel

theorem Demo.over (n : Nat) (hn : n ∈ [111, 113, 127]) : (Demo.hist n).BatchOver 0 := by
  simp only [List.mem_cons, List.not_mem_nil, or_false] at hn
  rcases hn with rfl | rfl | rfl
  · exact ⟨Demo.config, 100, 110, 140, Demo.batch_of (by decide +kernel), by decide +kernel⟩
  · exact ⟨Demo.config, 100, 110, 140, Demo.batch_of (by decide +kernel), by decide +kernel⟩
  · exact ⟨Demo.config, 100, 110, 140, Demo.batch_of (by decide +kernel), by decide +kernel⟩

/-- In the demo, keyper B gets the key of batch 0 in its fourth round, at block 111, and signs what it has decrypted: a batch with one encrypted transaction. -/
theorem C74_example : ∃ x : Watched Zq Zq, Watch Demo.cxB demoCodecs Demo.shares Demo.env 3 x.s x.st x.mc Demo.hist x.log ∧ KeysInTime Demo.hist x.log ∧
    SignsItself Demo.cxB ∧ ∃ r ∈ x.log, r.main.currentBlock = 111 ∧ r.Gets 1 0 ((8 : Nat) • epochIDOf zEnv 0) ∧
      (∀ key, HasKey r.after 0 key → key = (8 : Nat) • epochIDOf zEnv 0) ∧ NoneTakenBack Demo.hist 111 ∧
      (Demo.hist 111).HasBatch 0 Demo.config 100 110 140 ∧ Demo.config.keypers = [1, 2] ∧ (Demo.hist 111).executor.halfSteps = 0 ∧ (Demo.hist 111).block = 111 ∧
      (Demo.hist 111).accepted 0 .cipher = [Demo.cipherTx] ∧ (Demo.hist 111).batcher.hashes 0 .cipher ≠ zeroHash ∧
      ¬ SignedByEnough Demo.cxB demoCodecs Demo.shares r.view.currentBlock (Demo.hist 111) Demo.config 0 ((8 : Nat) • epochIDOf zEnv 0) ∧
      .decryptionSignature 0 (Demo.signAs 2 Demo.sigHash) ∈ r.acts := by
  have h := Demo.sign_looks
  rw [Option.map_eq_some_iff] at h
  obtain ⟨x, hx, hl⟩ := h
  have w := watchRun_watch Demo.chain hx
  have h3 := congrArg (fun l => l[3]?) hl
  simp only [List.getElem?_map, List.getElem?_cons_succ, List.getElem?_cons_zero, Option.map_eq_some_iff] at h3
  obtain ⟨r, he, he'⟩ := h3
  simp only [Demo.signLook, Demo.SignLook.mk.injEq] at he'
  obtain ⟨e1, e2, e3, e4, e5⟩ := he'
  have hr := List.mem_of_getElem? he
  have hb := Demo.batch_of (hist := Demo.hist) (n := 111) (by decide +kernel)
  have only : ∀ key, HasKey r.after 0 key → key = (8 : Nat) • epochIDOf zEnv 0 := by
    rintro key ⟨e, hm, hk⟩
    have : (e.eon, e.kg.secretKeys 0) ∈ r.after.ekgs.map (fun e => (e.eon, e.kg.secretKeys 0)) := List.mem_map.2 ⟨e, hm, rfl⟩
    rw [e3, hk] at this
    simp only [List.mem_singleton, Prod.mk.injEq, Option.some.injEq] at this
    exact this.2
  have ha : .decryptionSignature 0 (Demo.signAs 2 Demo.sigHash) ∈ r.acts := by rw [e5]; simp
  have gets : r.Gets 1 0 ((8 : Nat) • epochIDOf zEnv 0) := by
    constructor
    · have : (1, some (some ((8 : Nat) • epochIDOf zEnv 0))) ∈ r.after.ekgs.map (fun e => (e.eon, e.kg.secretKeys 0)) := by rw [e3]; simp
      obtain ⟨e, hm, hk⟩ := List.mem_map.1 this
      simp only [Prod.mk.injEq] at hk
      exact ⟨e, hm, hk.1, hk.2⟩
    · rintro key ⟨e, hm, _, hk⟩
      have : (e.eon, e.kg.secretKeys 0) ∈ r.before.ekgs.map (fun e => (e.eon, e.kg.secretKeys 0)) := List.mem_map.2 ⟨e, hm, rfl⟩
      rw [e4, hk] at this
      simp at this
  have hn : NoneTakenBack Demo.hist 111 := noneTakenBack_of (by decide +kernel)
  have nd : Demo.config.keypers.Nodup := by decide +kernel
  have hs := C74_signed w hr ha
  rw [e2] at hs
  obtain ⟨e', key, g1, _, g2, g3⟩ := hs
  have hk : key = (8 : Nat) • epochIDOf zEnv 0 := by
    obtain ⟨ek, a1, _, a2⟩ := g1.has
    exact only key ⟨ek, a1, a2⟩
  subst hk
  refine ⟨x, w, ?_, Demo.signs_of _ _ _ (by decide) (by decide +kernel), r, hr, e2, gets, only, hn, hb, by decide +kernel, by decide +kernel, by decide +kernel,
    by decide +kernel, g2, (g3 _ _ _ _ hb hn nd (by decide +kernel)).2, ha⟩
  refine Demo.keys_fine w ?_ Demo.over
  have key : ∀ l ∈ [(2, 47), (8, 107), (8, 110), (9, 111)], Demo.sharesFine Demo.shares l = true := by decide +kernel
  intro m hm
  refine key _ ?_
  have h4 := congrArg (List.map (fun l : Demo.SignLook => (l.view, l.main))) hl
  simp only [List.map_map, List.map_cons, List.map_nil] at h4
  rw [← h4]
  exact List.mem_map.2 ⟨m, hm, rfl⟩

/-- Keyper B's signature makes keyper A able to execute batch 0, in its sixth round: the hypotheses of `C74_able` are met. -/
theorem C74_able_example : ∃ x : Watched Zq Zq, Watch Demo.cxA demoCodecs Demo.shares Demo.env 3 x.s x.st x.mc Demo.hist x.log ∧
    ∃ r ∈ x.log, r.main.currentBlock = 113 ∧ (Demo.hist 113).accepted 0 .cipher = [Demo.cipherTx] ∧ Demo.config.threshold = 1 ∧
      Able Demo.cxA demoCodecs Demo.shares (Demo.hist r.main.currentBlock) Demo.config 0 r := by
  obtain ⟨xB, wB, tB, sB, m, hm, _, gB, onlyB, _, _, _, _, _, _, _, _, ha⟩ := C74_example
  have h := Demo.turn_looks
  rw [Option.map_eq_some_iff] at h
  obtain ⟨x, hx, hl⟩ := h
  have w := watchRun_watch Demo.chain hx
  have h3 := congrArg (fun l => l[5]?) hl
  simp only [List.getElem?_map, List.getElem?_cons_succ, List.getElem?_cons_zero, Option.map_eq_some_iff] at h3
  obtain ⟨r, he, he'⟩ := h3
  simp only [Demo.look, Demo.Look.mk.injEq] at he'
  obtain ⟨e1, e2, e3, e4, e5, e6⟩ := he'
  refine ⟨x, w, r, List.mem_of_getElem? he, e2, Demo.hash113.1, by decide +kernel, ?_⟩
  refine C74_able (H := ({()} : Finset Unit)) (cxs := fun _ => Demo.cxB) (fds := fun _ => 3) (ss := fun _ => xB.s) (sts := fun _ => xB.st) (mcs := fun _ => xB.mc)
    (logs := fun _ => xB.log) (ms := fun _ => m) (sigs := fun _ => Demo.signAs 2 Demo.sigHash) (key := (8 : Nat) • epochIDOf zEnv 0)
    (fun _ _ => wB) (fun _ _ => hm) (fun _ _ => ha) (fun _ _ => ⟨rfl, rfl, rfl, rfl, rfl, rfl, rfl⟩) (fun _ _ => sB) (fun _ _ => onlyB) (fun _ _ => tB)
    (fun _ _ => by decide +kernel) (fun _ _ _ _ _ => rfl) (by decide +kernel) w (List.mem_of_getElem? he) ?_ ?_ ?_ ?_
  · refine Demo.keys_fine w ?_ Demo.over
    have key : ∀ l ∈ [(2, 47), (8, 107), (8, 109), (8, 110), (9, 111), (10, 113)], Demo.sharesFine Demo.shares l = true := by decide +kernel
    intro m hm
    refine key _ ?_
    have h4 := congrArg (List.map (fun l : Demo.Look => (l.view, l.main))) hl
    simp only [List.map_map, List.map_cons, List.map_nil] at h4
    rw [← h4]
    exact List.mem_map.2 ⟨m, hm, rfl⟩
  · have : some (some ((8 : Nat) • epochIDOf zEnv 0)) ∈ r.after.ekgs.map (fun e => e.kg.secretKeys 0) := by rw [e5]; simp
    obtain ⟨e, he, hk⟩ := List.mem_map.1 this
    exact ⟨e, he, hk⟩
  · rintro key ⟨e, he, hk⟩
    have : e.kg.secretKeys 0 ∈ r.after.ekgs.map (fun e => e.kg.secretKeys 0) := List.mem_map.2 ⟨e, he, rfl⟩
    rw [e5, hk] at this
    simpa using this
  · exact fun _ _ => ⟨10, by rw [e1], by decide, Events.makeABCIEvent demoCodecs (.decryptionSignature 0 kB (Demo.signAs 2 Demo.sigHash)), by simp [Demo.shares], by decide +kernel⟩

end demo

end Shutter.Decide.Props

namespace Shutter.Net.Props
open Shutter.App Shutter.Events Shutter.Decide.Spec

/-- **C74** The application publishes the first signature for a batch that a keyper of the batch sends, unchanged. (The config that counts is the one in force when
the first signature for the batch was accepted.) -/
theorem C74_published {ps dev log s} {codecs : Codecs} (h : Exec ps dev log s) (fit : Codecs.Fit ps codecs) (sane : Sane log) (few : s.eonCounter + 1 < 2 ^ 64)
    {pre : List Rec} {r : Rec} {post : List Rec} (hl : log = pre ++ r :: post) {own : Addr} {b : Nat} {sig : Crypto.Bytes}
    (arr : Arrives pre r own (.decryptionSignature b sig)) (first : ∀ r' ∈ pre, ∀ sig', .decryptionSignature b own sig' ∉ r'.events)
    {c : BatchConfig} (now : (∀ r' ∈ pre, ¬ r'.Signs b) → InForce r.before.configs b c)
    (before : ∀ r', FirstSignature pre b r' → InForce r'.before.configs b c) (member : own ∈ c.keypers) :
    Published codecs (appChain codecs log) (heightAfter pre) (.decryptionSignature b own sig) := by
  rw [C71_chain h fit sane few]
  refine ⟨by simp, pre, r, post, hl, ?_, rfl⟩
  obtain ⟨nonce, del, fresh⟩ := arr
  obtain ⟨hE, _⟩ := h.at hl
  obtain ⟨o, d, hresp, hd⟩ := h.delivered hl del rfl fresh
  have hbs : ∃ bs, getBatchState (withNonce r.before own nonce) b = some bs ∧ bs.config = c ∧ ∀ x ∈ bs.decryptionSignatures, x.1 ≠ own := by
    have hsame : (withNonce r.before own nonce).batchStates = r.before.batchStates ∧ (withNonce r.before own nonce).configs = r.before.configs := ⟨rfl, rfl⟩
    unfold getBatchState
    rw [hsame.1, hsame.2]
    obtain ⟨q1, q2⟩ := hE.batchConfigs b
    cases hb : r.before.batchStates b with
    | none =>
      have := getConfig_iff.2 (now (q1 hb))
      rw [this]
      exact ⟨_, rfl, rfl, by simp⟩
    | some bs =>
      refine ⟨bs, rfl, ?_, ?_⟩
      · obtain ⟨r', f1, f2⟩ := q2 bs hb
        have h1 := getConfig_iff.2 f2
        rw [getConfig_iff.2 (before r' f1)] at h1
        exact (Option.some.inj h1).symm
      · intro x hx hxo
        have := hE.seen_published (.signature b own) ⟨bs, hb, x, hx, hxo⟩
        rw [List.mem_flatMap] at this
        obtain ⟨ev, hev, hon⟩ := this
        unfold allEvents at hev
        rw [List.mem_flatMap] at hev
        obtain ⟨r', hr', hev⟩ := hev
        cases ev <;> simp [Event.once] at hon
        obtain ⟨rfl, rfl⟩ := hon
        exact first r' hr' _ hev
  obtain ⟨bs, k1, k2, k3⟩ := hbs
  unfold deliverMessage at hd
  simp only [deliverDecryptionSignature, k1] at hd
  have hadd : bs.addDecryptionSignature own sig = some { bs with decryptionSignatures := bs.decryptionSignatures ++ [(own, sig)] } := by
    unfold BatchState.addDecryptionSignature
    rw [if_neg, if_neg]
    · simp only [List.any_eq_true, beq_iff_eq, not_exists, not_and]
      exact k3
    · rw [k2]
      simp [BatchConfig.isKeyper, member]
  rw [hadd] at hd
  simp only [Option.some.injEq, Prod.mk.injEq] at hd
  unfold Rec.events
  rw [hresp, ← hd.2]
  simp

/-- Two keypers sign batch 150. -/
def Demo.sigOps : List Op := [.initChain App.Demo.req, App.Demo.tx (App.Demo.k 2) 7 (.decryptionSignature 150 [8]), App.Demo.tx (App.Demo.k 3) 7 (.decryptionSignature 150 [9])]

def Demo.sigLog : List Rec := App.Demo.logOf false Demo.sigOps
theorem Demo.sigLong : Demo.sigLog.length = 3 := by decide +kernel
def Demo.sigRec (i : Fin 3) : Rec := Demo.sigLog[i.1]'(by rw [Demo.sigLong]; exact i.2)
def Demo.genesis : BatchConfig := ⟨0, [App.Demo.k 1, App.Demo.k 2, App.Demo.k 3], 2, zeroAddr, 0, false, false⟩

/-- The hypotheses of `C74_published` are met, by the second of these signatures. -/
theorem C74_published_example : ∃ pre r post, Demo.sigLog = pre ++ r :: post ∧ Arrives pre r (App.Demo.k 3) (.decryptionSignature 150 [9]) ∧ (∃ r' ∈ pre, r'.Signs 150) ∧
    Published Events.Props.demoCodecs (appChain Events.Props.demoCodecs Demo.sigLog) (heightAfter pre) (.decryptionSignature 150 (App.Demo.k 3) [9]) := by
  have hs : Demo.sigLog = [Demo.sigRec 0, Demo.sigRec 1] ++ Demo.sigRec 2 :: [] := by
    refine List.ext_getElem (by rw [Demo.sigLong]; rfl) fun i h1 h2 => ?_
    rw [Demo.sigLong] at h1
    have : i = 0 ∨ i = 1 ∨ i = 2 := by omega
    rcases this with rfl | rfl | rfl <;> rfl
  have arr : Arrives [Demo.sigRec 0, Demo.sigRec 1] (Demo.sigRec 2) (App.Demo.k 3) (.decryptionSignature 150 [9]) := by
    refine ⟨7, Demo.delivers_iff.2 (by decide +kernel), ?_⟩
    intro r' hr' m' hd
    have key : [Demo.sigRec 0, Demo.sigRec 1].all (fun r => match Demo.delivered r with
      | some (a, m) => !(a == App.Demo.k 3 && m.randomNonce == 7)
      | none => true) = true := by decide +kernel
    have := List.all_eq_true.1 key r' hr'
    rw [Demo.delivers_iff.1 hd] at this
    simpa using this
  have e0 : (Demo.sigRec 0).events = [] := by decide +kernel
  have e1 : (Demo.sigRec 1).events = [.decryptionSignature 150 (App.Demo.k 2) [8]] := by decide +kernel
  have c1 : (Demo.sigRec 1).before.configs = [Demo.genesis] := by decide +kernel
  have c2 : (Demo.sigRec 2).before.configs = [Demo.genesis] := by decide +kernel
  refine ⟨_, _, _, hs, arr, ⟨Demo.sigRec 1, by simp, App.Demo.k 2, [8], by rw [e1]; simp⟩, ?_⟩
  refine C74_published (s := App.Demo.stateOf false Demo.sigOps) (App.Demo.exec_of _ _ (by decide +kernel)) Demo.fit (Demo.sane_of (by decide +kernel)) (by decide +kernel) hs arr ?_ (c := Demo.genesis) ?_ ?_ (by decide)
  · intro r' hr' sig'
    simp only [List.mem_cons, List.not_mem_nil, or_false] at hr'
    rcases hr' with rfl | rfl
    · rw [e0]; simp
    · rw [e1]; simp only [List.mem_singleton, Event.decryptionSignature.injEq, not_and]
      intro _ h; exact absurd h (by decide)
  · intro _; rw [c2]; exact ⟨[], [], rfl, by decide, by simp⟩
  · rintro r' ⟨pre, post, h1, ⟨a, sig, h2⟩, h3⟩
    have hr' : r' ∈ [Demo.sigRec 0, Demo.sigRec 1] := by rw [h1]; simp
    simp only [List.mem_cons, List.not_mem_nil, or_false] at hr'
    rcases hr' with rfl | rfl
    · rw [e0] at h2; cases h2
    · rw [c1]; exact ⟨[], [], rfl, by decide, by simp⟩

end Shutter.Net.Props
