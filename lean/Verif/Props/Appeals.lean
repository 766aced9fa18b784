import Verif.Proofs.Appeals
import Verif.Proofs.Ecdsa
import Verif.Proofs.DemoMirrored
import Verif.Proofs.DemoLate
import Verif.Props.Exec
import Verif.Props.SolSlash

/-! Property theorems C42 and C62 (shuttermint/keyper/decide.go: appeals and accusations). -/

namespace Shutter.Decide.Props
open Shutter.Crypto Shutter.Dkg Shutter.Observe Shutter.Decide Shutter.Main Shutter.GoConfig
open Shutter.Events (Codecs)
open Shutter.Sol (World TxType BatchConfig Responsible NoneTakenBack two64 zeroHash)

variable {G1 G2 GT R : Type} [AddCommGroup G1] [AddCommGroup G2] [DecidableEq G2] [DecidableEq GT]
variable {cx : Cfg G1 G2 GT R} {codecs : Codecs} {chain : Observe.Chain} {E : Sol.Env} {fd : Nat}
variable {s : Observe.Shutter} {st : State G1 G2} {mc : MainChain} {hist : Nat → World} {log : List (MainChain × List (Action G1 G2))}
variable {mc' : MainChain} {acts : List (Action G1 G2)}

omit [AddCommGroup G1] [DecidableEq GT] [AddCommGroup G2] [DecidableEq G2] in
theorem mapM_get {α β : Type} {f : α → Option β} : ∀ {l : List α} {l' : List β}, l.mapM f = some l' →
    l'.length = l.length ∧ ∀ (j : Nat) y, l'[j]? = some y → ∃ x, l[j]? = some x ∧ f x = some y := by
  intro l
  induction l with
  | nil => intro l' h; simp at h; subst h; simp
  | cons a l ih =>
    intro l' h
    rw [List.mapM_cons] at h
    simp only [Option.bind_eq_bind, Option.bind_eq_some_iff, Option.pure_def, Option.some.injEq] at h
    obtain ⟨y, h1, l1, h2, rfl⟩ := h
    obtain ⟨i1, i2⟩ := ih h2
    refine ⟨by simp [i1], fun j z hz => ?_⟩
    cases j with
    | zero => simp at hz; subst hz; exact ⟨a, by simp, h1⟩
    | succ j => simp at hz ⊢; exact i2 j z hz

/-- The indices of the signers come out strictly increasing. -/
theorem sorted_indices {config : BatchConfig} {sigs : List (Sol.Address × Bytes)} {l : List (Nat × Bytes)}
    (hd : (sigs.map Prod.fst).Nodup) (hl : sigs.mapM (fun e => (keyperIndex config e.1).map (fun i => (i, e.2))) = some l) :
    ((l.mergeSort (fun x y => decide (x.1 ≤ y.1))).map Prod.fst).Pairwise (· < ·) ∧ l.length = sigs.length ∧
      ∀ i sig, (i, sig) ∈ l → ∃ a, (a, sig) ∈ sigs ∧ keyperIndex config a = some i := by
  obtain ⟨h1, h2⟩ := mapM_get hl
  have hin : ∀ (j : Nat) i sig, l[j]? = some (i, sig) → ∃ a, sigs[j]? = some (a, sig) ∧ keyperIndex config a = some i := by
    intro j i sig hj
    obtain ⟨⟨a, sig'⟩, g1, g2⟩ := h2 j _ hj
    simp only [Option.map_eq_some_iff, Prod.mk.injEq] at g2
    obtain ⟨i', g2, rfl, rfl⟩ := g2
    exact ⟨a, g1, g2⟩
  have hnd : (l.map Prod.fst).Nodup := by
    rw [List.nodup_iff_getElem?_ne_getElem?]
    intro i j hij hj heq
    rw [List.length_map] at hj
    have hi : i < l.length := by omega
    obtain ⟨a, ga, ka⟩ := hin i l[i].1 l[i].2 (by simp [hi])
    obtain ⟨b, gb, kb⟩ := hin j l[j].1 l[j].2 (by simp [hj])
    have hx : l[i].1 = l[j].1 := by
      simpa [hi, hj] using heq
    rw [hx] at ka
    have := keyperIndex_get ka
    rw [keyperIndex_get kb] at this
    have hab : b = a := Option.some.inj this
    rw [List.nodup_iff_getElem?_ne_getElem?] at hd
    refine hd i j hij (by rw [List.length_map]; omega) ?_
    rw [List.getElem?_map, List.getElem?_map, ga, gb, hab]; rfl
  refine ⟨?_, h1, fun i sig hm => ?_⟩
  · have hperm := List.mergeSort_perm l (fun x y => decide (x.1 ≤ y.1))
    have hs := List.pairwise_mergeSort (le := fun (x y : Nat × Bytes) => decide (x.1 ≤ y.1))
      (fun a b c => by simp only [decide_eq_true_eq]; omega) (fun a b => by simp only [Bool.or_eq_true, decide_eq_true_eq]; omega) l
    have hn2 : ((l.mergeSort (fun x y => decide (x.1 ≤ y.1))).map Prod.fst).Nodup := (hperm.map Prod.fst).nodup_iff.mpr hnd
    have hle : ((l.mergeSort (fun x y => decide (x.1 ≤ y.1))).map Prod.fst).Pairwise (· ≤ ·) := by
      rw [List.pairwise_map]
      exact hs.imp (fun h => by simpa using h)
    exact (hle.and hn2).imp (fun h => by have := h.2; omega)
  · obtain ⟨j, hj⟩ := List.getElem?_of_mem hm
    obtain ⟨a, g1, g2⟩ := hin j i sig hj
    exact ⟨a, List.mem_of_getElem? g1, g2⟩

theorem receipts_later {tame : Bool} {w w' : World} (l : Sol.PLater tame E w w') {k : Nat} (hk : k < w.executor.halfSteps) :
    w'.executor.receipts k = w.executor.receipts k := by
  induction l with
  | refl => rfl
  | @tail x y l p ih =>
    have hx := lt_of_lt_of_le hk (Sol.halfSteps_later l)
    rw [← ih]
    cases p with
    | mine => rfl
    | prim p => exact Sol.receipts_prim p hx

theorem accused_later {tame : Bool} {w w' : World} (l : Sol.PLater tame E w w') {h : Nat} (ha : (w.slasher.accusations h).accused = true) :
    (w'.slasher.accusations h).accused = true := by
  induction l with
  | refl => exact ha
  | @tail x y l p ih =>
    cases p with
    | mine => exact ih
    | prim p => exact (Sol.accused_prim p ih).1

/-- The receipts the keyper goes by are those of the contract: true of all half steps but the first, and of the first if no encrypted
part was skipped (see C56). -/
def World.ReceiptKnown (w : World) (h : Nat) : Prop :=
  h ≠ 0 ∨ ∀ k, k < w.executor.halfSteps → k % 2 = 0 → (w.executor.receipts k).executed = true

theorem receipt_known (o : Observed E fd false mc' hist) {h : Nat} {r : Sol.Receipt} (hk : World.ReceiptKnown (hist mc'.currentBlock) h)
    (ha : ((hist mc'.currentBlock).executor.receipts h).executed = true) (hr : mc'.receipts h = some r) :
    r = (hist mc'.currentBlock).executor.receipts h := by
  by_cases h0 : h = 0
  · subst h0
    have hall := hk.resolve_left (by simp)
    have hlt := ((Sol.receiptInv (o.chain.reach o.current).preach).spec 0 ha).1
    have hnum := Main.Props.C56_half_steps o
    rw [Main.Props.C56_first_receipt_partial o (by omega) (by rw [hnum]; exact hall)] at hr
    exact (Option.some.inj hr).symm
  · rw [Main.Props.C56_receipts_partial o h0] at hr
    split at hr
    · exact (Option.some.inj hr).symm
    · cases hr

/-- **C42** The contract accepts the appeals of a keyper. In every round of every life of a keyper in which it appeals: the half step is
accused, the authorization is about transactions which the keyper has decrypted in this or an earlier round, at block `e`, and if the
batch was over then, the slasher contract accepts the appeal in every later state, as long as no other appeal has
succeeded. Missing: batches decrypted before they are over (see C40), signatures that are not canonical (see
`C42_mirrored_counterexample`), configs taken back by the owner, targets that call the executor contract, lost receipts (see C56) and
keypers listed twice. -/
theorem C42_accepted_partial (l : Life cx codecs chain E fd s st mc hist log) (hm : (mc', acts) ∈ log) {a : Sol.Authorization}
    (ha : .appeal a ∈ acts) (hn : NoneTakenBack hist mc'.currentBlock)
    {core : Ecdsa.Core} (law : core.Lawful) (hgo : cx.goRecover = Ecdsa.goRecover core) (hsol : E.recover = Ecdsa.recover core)
    (hkec : ∀ x, E.keccak x = (cx.crypto.keccak x).toBytes)
    (can : ∀ sig ∈ a.signatures, Ecdsa.Canonical sig)
    (tame : Sol.TameReach E (hist mc'.currentBlock)) (rk : World.ReceiptKnown (hist mc'.currentBlock) a.halfStep)
    {w : World} (later : Sol.WorldLater E (hist mc'.currentBlock) w) (hb : w.batcherAddr = cx.batcher) (h64 : a.halfStep < two64)
    (hk : ∀ bc st e t, w.HasBatch (a.halfStep / 2) bc st e t → bc.keypers.Nodup)
    (hna : (w.slasher.accusations a.halfStep).appealed = false) (marshal : G2 → Bytes) :
    ((hist mc'.currentBlock).slasher.accusations a.halfStep).accused = true ∧
    ∃ e key txs, e ≤ mc'.currentBlock ∧ HasKey st (a.halfStep / 2) key ∧
      DecryptedWith cx key ((hist e).accepted (a.halfStep / 2) .cipher) txs ∧
      a.batchHash = transactionsHash cx txs ∧
      ((hist mc'.currentBlock).executor.receipts a.halfStep).batchHash = transactionsHash cx txs ∧
      ((hist e).BatchOver (a.halfStep / 2) →
        ∃ op w', Action.call (G1 := G1) (addrNat cx.own) marshal [] (.appeal a) = some op ∧ w.step E op = some w' ∧
          (w'.slasher.accusations a.halfStep).appealed = true) := by
  have o := ((life_observed l).2 _ hm).1
  obtain ⟨batches, hok, happ, _⟩ := life_disputes l _ hm
  obtain ⟨akey, acc, receipt, b, config, l', cs, k1, k2, k3, k4, k5, k6, k7, k8, k9, k10⟩ := happ _ ha rfl
  have hreach := o.chain.reach o.current
  have pl := Sol.worldLater_plater hreach.preach.inv later
  have hacc := Main.Props.C57_accusations o akey
  obtain ⟨q1, _, q3, _⟩ := hacc.2 acc k1
  subst q1
  simp only [Action.appeal.injEq] at k10
  subst k10
  simp only at *
  generalize hh : acc.halfStep = h at *
  have haccd : ((hist mc'.currentBlock).slasher.accusations h).accused = true := by
    cases hc : ((hist mc'.currentBlock).slasher.accusations h).accused with
    | true => rfl
    | false => rw [hacc.1.mpr hc] at k1; cases k1
  obtain ⟨_, heven, hex, _, hne, _⟩ := (Sol.accInv hreach.preach).acc h haccd
  have hrec := receipt_known o rk hex k3
  obtain ⟨hlt, hhalf, _⟩ := (Sol.receiptInv hreach.preach).spec h hex
  have hrw := receipts_later pl hlt
  have binv := Sol.execInv tame.preach
  obtain ⟨n, ex, b', hash, txs', hdone, hb'⟩ := binv.receipts h hex
  have hb2 : h / 2 = b' := by omega
  obtain ⟨_, hrcpt, bc, bst, be, bt, hB, hle, _, _, hhash, _⟩ := binv.cipher n ex b' hash txs' hdone
  rw [← hb'] at hrcpt
  rw [← hb2] at hB hhash
  have hover : (hist mc'.currentBlock).BatchOver (h / 2) :=
    ⟨bc, bst, be, bt, hB, le_trans hle (Sol.preach_log_block hreach.preach _ hdone)⟩
  obtain ⟨r1, r2, ⟨v, key, ⟨⟨vacts, hv⟩, hvle⟩, r8, r3, r4, r5, r6⟩, r7⟩ := hok _ (mem_of_lookup k4)
  simp only at r1 r3 r4 r5 r6 hvle
  have ov := ((life_observed l).2 _ hv).1
  have hvt := ((Main.Props.C37_exact_partial ov (h / 2)).1 .cipher)
  have hmt := ((Main.Props.C37_exact_partial o (h / 2)).1 .cipher)
  rw [hvt.1] at r3
  rw [hvt.2] at r5
  refine ⟨haccd, v.currentBlock, key, b.decryptedTransactions, hvle, r8, r3, r2, by rw [← hrec, k5, r2], fun hovere => ?_⟩
  have hsamehash : (hist v.currentBlock).batcher.hashes (h / 2) .cipher = (hist mc'.currentBlock).batcher.hashes (h / 2) .cipher := by
    have := Main.Props.C58_closed_batches_agree ov o hvle hovere
    rw [← hvt.2, ← hmt.2]
    unfold MainChain.hash; rw [this]
  have hBw : w.HasBatch (h / 2) bc bst be bt := Sol.hasBatch_mono hreach.preach.inv (Sol.plater_config pl) hB
    (le_trans (Sol.HasBatch.order hB).1 (le_trans hle (Sol.preach_log_block hreach.preach _ hdone)))
  obtain ⟨i, hi1, hi2, _⟩ := id hBw
  -- the config the keyper goes by
  rw [r1] at k6
  obtain ⟨ic, bcc, hresp, hget, rfl, _⟩ := config_of o hn k6
  have hbc : bcc = bc := by
    obtain ⟨i', m1, m2, m3⟩ := hB
    have := Sol.Config.responsible_unique ((hreach.preach.inv.lookup_iff _ i').1 m1) hresp
    subst this
    unfold Sol.Config.scheduledConfig at m2
    simp only [Option.bind_eq_bind, Option.bind_eq_some_iff] at m2
    obtain ⟨_, _, m2⟩ := m2
    rw [Sol.Config.configs_get (Sol.get_lt hget), hget] at m2
    cases m2; rfl
  subst hbc
  have hnd := hk _ _ _ _ hBw
  have hkeep : (known bcc).keypers = bcc.keypers := by
    rw [(known_fields bcc).2.2.2.2.2.2, dedupGo_nodup _ _ (by simp) hnd]
  obtain ⟨t1, t2, t3⟩ := sorted_indices r7 k8
  obtain ⟨t4, t5⟩ := mapM_get k9
  rw [List.length_mergeSort] at t4
  have hauth : w.Authorized E bcc (w.executor.receipts h)
      ⟨h, b.decryptedBatchHash, (l'.mergeSort (fun x y => decide (x.1 ≤ y.1))).map Prod.fst, cs⟩ := by
    refine ⟨?_, by simp [t4], t1, ?_⟩
    · rw [(known_fields bcc).2.2.2.2.1] at k7
      show bcc.threshold ≤ List.length cs
      rw [t4, t2]; exact k7
    · intro j i' sig hj hsig
      simp only at hj hsig
      obtain ⟨⟨i'', sig0⟩, g1, g2⟩ := t5 j sig hsig
      rw [List.getElem?_map, g1, Option.map_some, Option.some.injEq] at hj
      simp only at hj g2
      subst hj
      have hmem : (i'', sig0) ∈ l' := (List.mergeSort_perm l' _).mem_iff.mp (List.mem_of_getElem? g1)
      obtain ⟨ad, g3, g4⟩ := t3 i'' sig0 hmem
      refine ⟨ad, by rw [← hkeep]; exact keyperIndex_get g4, ?_⟩
      have hgr := (r6 ad sig0 g3).1
      rw [hgo] at hgr
      have := Ecdsa.recover_of_go law hgr g2 (can sig (List.mem_of_getElem? hsig))
      rw [hsol]
      convert this using 2
      rw [hkec, r5]
      unfold decryptionSignatureHash World.signaturePreimage
      rw [hrw, hhalf, hb, hrcpt]
      congr 2
      have hbh : World.chainHashes E txs' = b.decryptedBatchHash := by rw [← k5, hrec, hrcpt]
      rw [hsamehash, ← hhash, ← hbh, ← beBytes_8]
  have hdone2 := (Sol.Props.C48_appeal_iff (E := E) (w := w) (addrNat cx.own)
    ⟨h, b.decryptedBatchHash, (l'.mergeSort (fun x y => decide (x.1 ≤ y.1))).map Prod.fst, cs⟩ h64).mpr
    ⟨accused_later pl haccd, hna, i, bcc, by rw [hrw, hhalf]; exact hi1, hi2, hauth⟩
  obtain ⟨w', hw'⟩ := hdone2
  refine ⟨_, w', rfl, hw', ?_⟩
  rw [World.step, World.atomic] at hw'
  simp only [World.appeal, Option.bind_eq_bind, Option.bind_eq_some_iff, Sol.require_eq_some, Sol.u64_eq_some, Option.some.injEq] at hw'
  obtain ⟨_, ⟨rfl, _⟩, _, _, _, _, _, _, rfl⟩ := hw'
  simp [World.emit, Sol.upd]

/-- The transactions executed for a half step are known by their hash. -/
theorem transactionsHash_chain (hkec : ∀ x, E.keccak x = (cx.crypto.keccak x).toBytes) (txs : List Bytes) :
    transactionsHash cx txs = World.chainHashes E txs := by
  unfold transactionsHash World.chainHashes
  have : (fun hash tx => (cx.crypto.keccak (tx ++ hash)).toBytes) = (fun hash tx => E.keccak (tx ++ hash)) := by
    funext a b; rw [hkec]
  rw [this]; rfl

/-- **C62** A keyper accuses only if something else was executed than what it has decrypted itself: in every round of every life of a
keyper in which it accuses, the encrypted part of the batch was executed, there is no accusation yet, and the
transactions executed are not those which the keyper has decrypted in this or an earlier round, at block `e`. If the
batch was over at block `e`, and the keyper is one of the batch, then the slasher contract accepts the accusation in
every later state, as long as nobody else has accused. Missing: as for `C42_accepted_partial`. -/
theorem C62_accusation_partial (l : Life cx codecs chain E fd s st mc hist log) (hm : (mc', acts) ∈ log) {h k : Nat}
    (ha : .accuse h k ∈ acts) (hn : NoneTakenBack hist mc'.currentBlock) (hkec : ∀ x, E.keccak x = (cx.crypto.keccak x).toBytes)
    (hz : World.chainHashes E ((hist mc'.currentBlock).accepted (h / 2) .cipher) = zeroHash →
      (hist mc'.currentBlock).accepted (h / 2) .cipher = [])
    (tame : Sol.TameReach E (hist mc'.currentBlock)) (rk : World.ReceiptKnown (hist mc'.currentBlock) h)
    {w : World} (later : Sol.WorldLater E (hist mc'.currentBlock) w) (h64 : h < two64)
    (hk : ∀ bc st e t, w.HasBatch (h / 2) bc st e t → bc.keypers.Nodup ∧ bc.keypers.length < two64 ∧ addrNat cx.own ∈ bc.keypers)
    (hna : (w.slasher.accusations h).accused = false) (marshal : G2 → Bytes) :
    ((hist mc'.currentBlock).slasher.accusations h).accused = false ∧
    (∃ n executor hash executed, (n, Sol.Event.cipherDone executor (h / 2) hash executed) ∈ (hist mc'.currentBlock).log ∧
      ∃ e key txs, e ≤ mc'.currentBlock ∧ HasKey st (h / 2) key ∧ DecryptedWith cx key ((hist e).accepted (h / 2) .cipher) txs ∧ executed ≠ txs ∧
        ((hist e).BatchOver (h / 2) →
          ∃ op w', Action.call (G1 := G1) (addrNat cx.own) marshal [] (.accuse h k) = some op ∧ w.step E op = some w' ∧
            (w'.slasher.accusations h).accused = true ∧ (w'.slasher.accusations h).executor = executor)) := by
  have o := ((life_observed l).2 _ hm).1
  obtain ⟨batches, hok, _, hacu⟩ := life_disputes l _ hm
  obtain ⟨h', receipt, b, config, k1, k2, k3, k4, k5, k6, k7, k8⟩ := hacu _ ha rfl
  simp only [Action.accuse.injEq] at k8
  obtain ⟨rfl, rfl⟩ := k8
  simp only at *
  have hreach := o.chain.reach o.current
  have pl := Sol.worldLater_plater hreach.preach.inv later
  have hacc := (Main.Props.C57_accusations o h).1.mp k6
  have hex : ((hist mc'.currentBlock).executor.receipts h).executed = true := by
    by_cases h0 : h = 0
    · subst h0
      exact (rk.resolve_left (by simp)) 0 (by rw [← Main.Props.C56_half_steps o]; exact k2) rfl
    · rw [Main.Props.C56_receipts_partial o h0] at k3
      split at k3
      · next hc => exact hc.2
      · cases k3
  have hrec := receipt_known o rk hex k3
  obtain ⟨hlt, hhalf, _⟩ := (Sol.receiptInv hreach.preach).spec h hex
  have hrw := receipts_later pl hlt
  have binv := Sol.execInv tame.preach
  obtain ⟨n, ex, b', hash, txs', hdone, hb'⟩ := binv.receipts h hex
  have hb2 : h / 2 = b' := by omega
  obtain ⟨_, hrcpt, bc, bst, be, bt, hB, hle, _, _, hhash, hempty⟩ := binv.cipher n ex b' hash txs' hdone
  rw [← hb'] at hrcpt
  rw [← hb2] at hB hhash hdone
  obtain ⟨r1, r2, ⟨v, key, ⟨⟨vacts, hv⟩, hvle⟩, r8, r3, r4, r5, r6⟩, r7⟩ := hok _ (mem_of_lookup k4)
  simp only at r1 r3 r4 r5 r6 hvle
  have ov := ((life_observed l).2 _ hv).1
  have hvt := ((Main.Props.C37_exact_partial ov (h / 2)).1 .cipher)
  have hmt := ((Main.Props.C37_exact_partial o (h / 2)).1 .cipher)
  rw [hvt.1] at r3
  have hne : txs' ≠ b.decryptedTransactions := by
    rintro rfl
    apply k5
    rw [r2, hrec, hrcpt, transactionsHash_chain hkec]
  refine ⟨hacc, n, ex, hash, txs', hdone, v.currentBlock, key, b.decryptedTransactions, hvle, r8, r3, hne, fun hovere => ?_⟩
  have hBw : w.HasBatch (h / 2) bc bst be bt := Sol.hasBatch_mono hreach.preach.inv (Sol.plater_config pl) hB
    (le_trans (Sol.HasBatch.order hB).1 (le_trans hle (Sol.preach_log_block hreach.preach _ hdone)))
  obtain ⟨i, hi1, hi2, _⟩ := id hBw
  obtain ⟨ic, bcc, hresp, hget, rfl, _⟩ := config_of o hn k7
  have hbc : bcc = bc := by
    obtain ⟨i', m1, m2, m3⟩ := hB
    have := Sol.Config.responsible_unique ((hreach.preach.inv.lookup_iff _ i').1 m1) hresp
    subst this
    unfold Sol.Config.scheduledConfig at m2
    simp only [Option.bind_eq_bind, Option.bind_eq_some_iff] at m2
    obtain ⟨_, _, m2⟩ := m2
    rw [Sol.Config.configs_get (Sol.get_lt hget), hget] at m2
    cases m2; rfl
  subst hbc
  obtain ⟨hnd, hlen, hown⟩ := hk _ _ _ _ hBw
  have hkeep : (known bcc).keypers = bcc.keypers := by
    rw [(known_fields bcc).2.2.2.2.2.2, dedupGo_nodup _ _ (by simp) hnd]
  obtain ⟨ki, hki⟩ : ∃ ki, keyperIndex (known bcc) (addrNat cx.own) = some ki := by
    refine ⟨(known bcc).keypers.findIdx (fun k => k == addrNat cx.own), ?_⟩
    unfold keyperIndex
    simp only
    rw [if_pos]
    rw [hkeep]
    exact List.findIdx_lt_length_of_exists ⟨addrNat cx.own, hown, by simp⟩
  have hkget : bcc.keypers[ki]? = some (addrNat cx.own) := by rw [← hkeep]; exact keyperIndex_get hki
  have hnz : (w.executor.receipts h).cipherBatchHash ≠ zeroHash := by
    intro hzero
    rw [hrw, hrcpt] at hzero
    simp only at hzero
    have hnil := hempty hzero
    rw [hhash, (Sol.batcherInv hreach.preach).hash] at hzero
    have hacc0 := hz hzero
    have hpre : (hist v.currentBlock).accepted (h / 2) .cipher = [] := by
      obtain ⟨l', hl, _⟩ := o.chain.log hvle o.current
      unfold Sol.World.accepted at hacc0 ⊢
      rw [hl, List.filterMap_append, List.append_eq_nil_iff] at hacc0
      exact hacc0.1
    rw [hpre] at r3
    exact hne (by rw [hnil, r3]; rfl)
  rw [hki, Option.getD_some]
  obtain ⟨w', hw'⟩ : ∃ w', w.step E (.accuse (addrNat cx.own) h ki) = some w' := by
    rw [World.step, World.atomic]
    simp only [World.accuse, Option.bind_eq_bind, Option.bind_eq_some_iff, Sol.require_eq_some, Sol.u64_eq_some, Option.some.injEq]
    exact ⟨_, h, ⟨rfl, h64⟩, ki, ⟨rfl, lt_of_lt_of_le (Sol.get_lt hkget) hlen.le⟩, (), k1, (), hna, i, hi1, bcc, hi2, _, hkget, (), rfl,
      (), by rw [hrw]; exact hex, (), hnz, rfl⟩
  refine ⟨_, w', rfl, hw', ?_⟩
  rw [World.step, World.atomic] at hw'
  simp only [World.accuse, Option.bind_eq_bind, Option.bind_eq_some_iff, Sol.require_eq_some, Sol.u64_eq_some, Option.some.injEq] at hw'
  obtain ⟨_, ⟨rfl, _⟩, _, ⟨rfl, _⟩, _, _, _, _, _, _, _, _, _, _, _, _, _, _, _, _, rfl⟩ := hw'
  refine ⟨by simp [World.emit, Sol.upd], ?_⟩
  simp only [World.emit, Sol.upd, if_true]
  rw [hrw, hrcpt]

/-- **C62** A keyper accuses in the first round in which it sees the execution, if it has decrypted the batch by then: let the keyper
live until it has seen the chain up to some block, and let it then have a look at the chains again and decide. If it
is in sync and one of the keypers, and the encrypted part of a batch (half step `h`) has been executed that it has not
seen executed before, with another result than the one it has on record, and nobody has accused, then it accuses.
Missing: results that come to be known later (see `C62_late_counterexample`), and configs taken back by the owner, targets that call
the executor contract and lost receipts, as for `C62_accusation_partial`. -/
theorem C62_complete_partial (l : Life cx codecs chain E fd s st mc hist log) {s' : Observe.Shutter} {st' : State G1 G2}
    {hist' : Nat → World} {ys : List LoopStep} {keys : List Nat}
    (h1 : runLoop codecs chain s ys = some s') (h2 : ∀ f ∈ filtersOf ys, f.syncHeight ≤ st.syncHeight)
    (h3 : Follows E (mc, hist) (mc', hist')) (h4 : keys.Nodup) (h5 : ∀ k, k ∈ keys ↔ (mc'.accusations k).isSome)
    (h6 : decideStep cx s' mc' keys st = some (st', acts)) (ready : isSynced s' = true ∧ mc'.nodeSynced = true ∧ isKeyper s' cx.own = true)
    (hn : NoneTakenBack hist' mc'.currentBlock) (tame : Sol.TameReach E (hist' mc'.currentBlock)) {h : Nat}
    (rk : World.ReceiptKnown (hist' mc'.currentBlock) h) (heven : h % 2 = 0)
    (hex : ((hist' mc'.currentBlock).executor.receipts h).executed = true)
    (hfirst : ∀ e ∈ log, (hist' e.1.currentBlock).executor.halfSteps ≤ h)
    (hnot : ((hist' mc'.currentBlock).slasher.accusations h).accused = false)
    {b : Batch} (hb : st'.batches.lookup (h / 2) = some b)
    (hne : ((hist' mc'.currentBlock).executor.receipts h).batchHash ≠ b.decryptedBatchHash) : ∃ k, .accuse h k ∈ acts := by
  have l' := Life.round l h1 h2 h3 h4 h5 h6
  have o := (life_observed l').1
  have hreach := o.chain.reach o.current
  obtain ⟨hlt, hhalf, _⟩ := (Sol.receiptInv hreach.preach).spec h hex
  have hnum := Main.Props.C56_half_steps o
  have hr : mc'.receipts h = some ((hist' mc'.currentBlock).executor.receipts h) := by
    by_cases h0 : h = 0
    · subst h0
      exact Main.Props.C56_first_receipt_partial o (by omega) (by rw [hnum]; exact rk.resolve_left (by simp))
    · rw [Main.Props.C56_receipts_partial o h0, if_pos]
      exact ⟨heven, hex⟩
  have hacc := (Main.Props.C57_accusations o h).1.mpr hnot
  have binv := Sol.execInv tame.preach
  obtain ⟨n, ex, b', hash, txs', hdone, hb'⟩ := binv.receipts h hex
  have hb2 : h / 2 = b' := by omega
  obtain ⟨_, _, bc, bst, be, bt, hB, _⟩ := binv.cipher n ex b' hash txs' hdone
  rw [← hb2] at hB
  obtain ⟨_, _, _, _, _, _, _, _, g⟩ := decide_ready h6 ready.1 ready.2.1 ready.2.2
  have hc := config_found o hn g.configs hB
  have hchk : st.halfStepsChecked ≤ h := by
    refine life_checked l (fun e he _ => ?_)
    have oe := ((life_observed l').2 e (List.mem_append_left _ he)).1
    rw [Main.Props.C56_half_steps oe]
    exact hfirst e he
  exact ⟨_, accuse_round_complete h6 ready hchk (by omega) heven hr hb (fun x => hne x.symm) hacc hc⟩

/-! ### The hypotheses are met -/

section demo
open Shutter.Events Shutter.Events.Props
open Shutter.Sol (Op)

theorem Demo.tame {n : Nat} (hn : n < two64) : Sol.TameReach Demo.env (Demo.hist n) :=
  chainOf_flat _ Demo.start_deployed rfl (by decide +kernel) hn

theorem Demo.known117 : World.ReceiptKnown (Demo.hist 117) 0 := by
  refine .inr fun k hk he => ?_
  have h1 : (Demo.hist 117).executor.halfSteps = 1 := by decide +kernel
  rw [h1] at hk
  have : k = 0 := by omega
  subst this
  decide +kernel

theorem Demo.batch118 : (Demo.hist 118).HasBatch 0 ((Demo.hist 118).config.scheduled[1]?.getD Sol.zeroConfig) 100 110 140 :=
  ⟨1, by decide +kernel, by decide +kernel, by decide +kernel⟩

theorem Demo.nodup118 (bc : BatchConfig) (st e t : Nat) (hB : (Demo.hist 118).HasBatch 0 bc st e t) : bc.keypers.Nodup := by
  have h := (Sol.HasBatch.unique Demo.batch118 hB).1
  rw [h]
  decide +kernel

theorem Demo.over111 : (Demo.hist 111).BatchOver 0 :=
  ⟨(Demo.hist 111).config.scheduled[1]?.getD Sol.zeroConfig, 100, 110, 140, ⟨1, by decide +kernel, by decide +kernel, by decide +kernel⟩, by decide +kernel⟩

/-- In the demo, keyper A appeals in its seventh round, at block 117; all hypotheses of `C42_accepted_partial` are met, also by the
state of the contracts one block later; and the batch was over when it was decrypted. -/
theorem C42_example : ∃ r : Run Zq Zq, Life Demo.cxA demoCodecs Demo.shares Demo.env 3 r.s r.st r.mc Demo.hist r.log ∧
    (∃ mc' acts, (mc', acts) ∈ r.log ∧ mc'.currentBlock = 117 ∧
      .appeal ⟨0, World.chainHashes Demo.env [Demo.message], [1], [(Demo.signAs 2 Demo.sigHash).set 64 27]⟩ ∈ acts) ∧
    NoneTakenBack Demo.hist 117 ∧ Demo.core.Lawful ∧ Demo.cxA.goRecover = Ecdsa.goRecover Demo.core ∧
    Demo.env.recover = Ecdsa.recover Demo.core ∧ (∀ x, Demo.env.keccak x = (Demo.cxA.crypto.keccak x).toBytes) ∧
    Ecdsa.Canonical ((Demo.signAs 2 Demo.sigHash).set 64 27) ∧ Sol.TameReach Demo.env (Demo.hist 117) ∧
    World.ReceiptKnown (Demo.hist 117) 0 ∧ Sol.WorldLater Demo.env (Demo.hist 117) (Demo.hist 118) ∧
    (Demo.hist 118).batcherAddr = Demo.cxA.batcher ∧ (∀ bc st e t, (Demo.hist 118).HasBatch 0 bc st e t → bc.keypers.Nodup) ∧
    ((Demo.hist 118).slasher.accusations 0).appealed = false ∧ (Demo.hist 111).BatchOver 0 := by
  have h := Demo.actionsA_eq
  unfold Demo.actionsA at h
  rw [Option.map_eq_some_iff] at h
  obtain ⟨r, hr, hl⟩ := h
  have h3 := congrArg (fun l => l[6]?) hl
  simp only [List.getElem?_map, List.getElem?_cons_succ, List.getElem?_cons_zero, Option.map_eq_some_iff] at h3
  obtain ⟨e, he, he'⟩ := h3
  simp only [Prod.mk.injEq] at he'
  exact ⟨r, Demo.runA_life hr, ⟨e.1, e.2, List.mem_of_getElem? he, he'.1, by rw [he'.2]; exact List.mem_singleton.mpr rfl⟩,
    noneTakenBack_of (by decide +kernel), Demo.core_lawful, rfl, rfl, fun x => rfl, ⟨by decide +kernel, by decide +kernel⟩,
    Demo.tame (by decide), Demo.known117, Demo.chain.later (by decide) (by decide), by decide +kernel, Demo.nodup118, by decide +kernel,
    Demo.over111⟩

/-- An authorization the contracts accept, with a recovery made from a lawful one: the appeal of the demo is executed. -/
example : Demo.env.recover = Ecdsa.recover Demo.core ∧ (Demo.hist 118).step Demo.env (.appeal 6
    ⟨0, World.chainHashes Demo.env [Demo.message], [1], [(Demo.signAs 2 Demo.sigHash).set 64 27]⟩) ≠ none :=
  ⟨rfl, by decide +kernel⟩

/-! ### The other signature -/

/-- Why signatures have to be canonical: keyper B publishes the valid signature with the larger `s`, keyper A takes it for good and appeals
with it, and the contract refuses the appeal, although keyper A acts on a batch that was over and executed correctly. -/
theorem C42_mirrored_counterexample : ∃ r : Run Zq Zq, Life Demo.cxA demoCodecs mirroredShares Demo.env 3 r.s r.st r.mc Demo.hist r.log ∧
    Demo.core.Lawful ∧ (∃ mc' acts, (mc', acts) ∈ r.log ∧ mc'.currentBlock = 117 ∧ .appeal mirroredAppeal ∈ acts) ∧
    (∃ op, Action.call (G1 := Zq) (addrNat Demo.cxA.own) Demo.codec.compress [] (.appeal mirroredAppeal) = some op ∧
      (Demo.hist 118).step Demo.env op = none) := by
  have h := mirroredRun_eq
  rw [Option.map_eq_some_iff] at h
  obtain ⟨r, hr, hl⟩ := h
  rw [Option.map_eq_some_iff] at hl
  obtain ⟨e, he, he'⟩ := hl
  simp only [Prod.mk.injEq] at he'
  exact ⟨r, lifeRun_life Demo.chain hr, Demo.core_lawful, ⟨e.1, e.2, List.mem_of_getElem? he, he'.1, by rw [he'.2]; exact List.mem_singleton.mpr rfl⟩,
    _, rfl, mirrored_refused118⟩

/-! ### Accusations -/

theorem wrong_known117 : World.ReceiptKnown (wrongHist 117) 0 := by
  refine .inr fun k hk he => ?_
  have h1 : (wrongHist 117).executor.halfSteps = 1 := by decide +kernel
  rw [h1] at hk
  have : k = 0 := by omega
  subst this
  decide +kernel

theorem wrong_batch118 : (wrongHist 118).HasBatch 0 ((wrongHist 118).config.scheduled[1]?.getD Sol.zeroConfig) 100 110 140 :=
  ⟨1, by decide +kernel, by decide +kernel, by decide +kernel⟩

theorem wrong_keypers118 (bc : BatchConfig) (st e t : Nat) (hB : (wrongHist 118).HasBatch 0 bc st e t) :
    bc.keypers.Nodup ∧ bc.keypers.length < two64 ∧ addrNat Demo.cxA.own ∈ bc.keypers := by
  have h := (Sol.HasBatch.unique wrong_batch118 hB).1
  rw [h]
  decide +kernel

theorem wrong_over111 : (wrongHist 111).BatchOver 0 :=
  ⟨(wrongHist 111).config.scheduled[1]?.getD Sol.zeroConfig, 100, 110, 140, ⟨1, by decide +kernel, by decide +kernel, by decide +kernel⟩,
    by decide +kernel⟩

/-- Keyper A accuses keyper B; all hypotheses of `C62_accusation_partial` are met. -/
theorem C62_example : ∃ r : Run Zq Zq, Life Demo.cxA demoCodecs Demo.shares Demo.env 3 r.s r.st r.mc wrongHist r.log ∧
    (∃ mc' acts, (mc', acts) ∈ r.log ∧ mc'.currentBlock = 117 ∧ .accuse 0 0 ∈ acts) ∧
    NoneTakenBack wrongHist 117 ∧ (∀ x, Demo.env.keccak x = (Demo.cxA.crypto.keccak x).toBytes) ∧
    World.chainHashes Demo.env ((wrongHist 117).accepted 0 .cipher) ≠ zeroHash ∧ Sol.TameReach Demo.env (wrongHist 117) ∧
    World.ReceiptKnown (wrongHist 117) 0 ∧ Sol.WorldLater Demo.env (wrongHist 117) (wrongHist 118) ∧
    (∀ bc st e t, (wrongHist 118).HasBatch 0 bc st e t →
      bc.keypers.Nodup ∧ bc.keypers.length < two64 ∧ addrNat Demo.cxA.own ∈ bc.keypers) ∧
    ((wrongHist 118).slasher.accusations 0).accused = false ∧ (wrongHist 111).BatchOver 0 := by
  have h := wrongRun_eq
  rw [Option.map_eq_some_iff] at h
  obtain ⟨r, hr, hl⟩ := h
  rw [Option.map_eq_some_iff] at hl
  obtain ⟨e, he, he'⟩ := hl
  simp only [Prod.mk.injEq] at he'
  exact ⟨r, lifeRun_life wrongChain hr, ⟨e.1, e.2, List.mem_of_getElem? he, he'.1, by rw [he'.2]; exact List.mem_singleton.mpr rfl⟩,
    noneTakenBack_of (by decide +kernel), fun x => rfl, by decide +kernel, chainOf_flat _ Demo.start_deployed rfl (by decide +kernel) (by decide),
    wrong_known117, wrongChain.later (by decide) (by decide), wrong_keypers118, by decide +kernel, wrong_over111⟩

theorem late_receipt : ((wrongHist 119).executor.receipts 0).executed = true ∧
    ((wrongHist 119).executor.receipts 0).batchHash ≠ World.chainHashes Demo.env [Demo.message] ∧
    ((wrongHist 119).slasher.accusations 0).accused = false := by decide +kernel

/-- Keypers do not come back to executions they could not check at first: keyper A sees that batch 0 was executed before it can decrypt
it. Afterwards it decrypts the batch, with another result than the one executed, and signs. It has accused nobody, and
whatever it sees in its next round, it does not accuse then either. -/
theorem C62_late_counterexample : ∃ r : Run Zq Zq, Life Demo.cxA demoCodecs Demo.shares Demo.env 3 r.s r.st r.mc wrongHist r.log ∧
    r.mc.currentBlock = 119 ∧ ((wrongHist 119).executor.receipts 0).executed = true ∧
    (∃ b, r.st.batches.lookup 0 = some b ∧ b.decryptedTransactions = [Demo.message] ∧
      ((wrongHist 119).executor.receipts 0).batchHash ≠ b.decryptedBatchHash) ∧
    ((wrongHist 119).slasher.accusations 0).accused = false ∧
    (∀ mc' acts k, (mc', acts) ∈ r.log → .accuse 0 k ∉ acts) ∧
    (∀ s' mc' keys st' acts k, decideStep Demo.cxA s' mc' keys r.st = some (st', acts) → .accuse 0 k ∉ acts) := by
  have h := lateRun_facts
  rw [Option.any_eq_true] at h
  obtain ⟨r, hr, hfacts⟩ := h
  simp only [lateFacts, Bool.and_eq_true, decide_eq_true_eq, Option.map_eq_some_iff, Prod.mk.injEq] at hfacts
  obtain ⟨⟨⟨hlog, hchk⟩, hcur⟩, b, hb, hb1, hb2⟩ := hfacts
  refine ⟨r, lifeRun_life wrongChain hr, hcur, late_receipt.1, ⟨b, hb, hb1, by rw [hb2]; exact late_receipt.2.1⟩, late_receipt.2.2, ?_, ?_⟩
  · intro mc' acts k hm ha
    have hmem : (mc'.currentBlock, acts) ∈ r.log.map (fun e => (e.1.currentBlock, e.2)) := List.mem_map.mpr ⟨_, hm, rfl⟩
    rw [hlog] at hmem
    simp only [List.mem_cons, Prod.mk.injEq, List.not_mem_nil, or_false] at hmem
    rcases hmem with ⟨_, rfl⟩ | ⟨_, rfl⟩ | ⟨_, rfl⟩ | ⟨_, rfl⟩ | ⟨_, rfl⟩ | ⟨_, rfl⟩ | ⟨_, rfl⟩ <;> simp at ha
  · intro s' mc' keys st' acts k hd ha
    have := accuse_round_new hd ha
    omega

end demo

/-- **C48** With the recovery of the contracts' library, whatever the precompiled contract answers: every signature of an authorization
the contracts accept is 65 bytes long and of the canonical form, it is one by the keyper it is given for, and that keyper is not the zero
address, which the precompiled contract returns for garbage. -/
theorem C48_signatures_genuine {E : Sol.Env} {w : Sol.World} {bc : Sol.BatchConfig} {r : Sol.Receipt} {a : Sol.Authorization}
    {core : Ecdsa.Core} (hsol : E.recover = Ecdsa.recover core) (ha : w.Authorized E bc r a) (j i : Nat) {sig : Crypto.Bytes}
    (hi : a.signerIndices[j]? = some i) (hs : a.signatures[j]? = some sig) :
    ∃ keyper, bc.keypers[i]? = some keyper ∧ keyper ≠ 0 ∧ sig.length = 65 ∧ Ecdsa.Canonical sig ∧
      ∃ v < 2, sig[64]? = some (UInt8.ofNat (27 + v)) ∧
        core (E.keccak (Sol.World.signaturePreimage w.batcherAddr r)) (Crypto.beNat (sig.take 32)) (Crypto.beNat ((sig.drop 32).take 32)) v =
          some keyper := by
  obtain ⟨k, h1, h2⟩ := ha.2.2.2 j i sig hi hs
  rw [hsol] at h2
  exact ⟨k, h1, Ecdsa.recover_some h2⟩

end Shutter.Decide.Props
