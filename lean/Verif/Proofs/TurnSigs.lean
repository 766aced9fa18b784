import Verif.Proofs.Turn
import Verif.Proofs.Avail

/-! # The signatures a keyper counts -/

namespace Shutter.Decide
open Shutter.Crypto Shutter.Dkg Shutter.Observe Shutter.Main Shutter.GoConfig
open Shutter.App (findAddressIndex)
open Shutter.Sol (BatchConfig zeroHash World two64)

variable {G1 G2 GT R : Type}

theorem lookup_mapSet {β : Type} (m : List (Nat × β)) (k b : Nat) (v : β) : (mapSet m k v).lookup b = if b = k then some v else m.lookup b := by
  unfold mapSet
  rw [List.lookup_append]
  by_cases h : b = k
  · subst h
    have : (m.filter (fun x => x.1 != b)).lookup b = none := by
      rw [List.lookup_eq_none_iff]
      intro p hp
      simp only [List.mem_filter, bne_iff_ne, ne_eq] at hp
      simp only [bne_iff_ne, ne_eq]
      exact fun h => hp.2 h.symm
    rw [this, if_pos rfl]
    simp
  · rw [if_neg h]
    have h1 : ([(k, v)] : List (Nat × β)).lookup b = none := by
      rw [List.lookup_cons, beq_eq_false_iff_ne.mpr h]
      rfl
    rw [h1, Option.or_none]
    induction m with
    | nil => rfl
    | cons x m ih =>
      obtain ⟨y, z⟩ := x
      rw [List.filter_cons, List.lookup_cons]
      by_cases hy : y = k
      · subst hy
        simp only [bne_self_eq_false, Bool.false_eq_true, if_false, beq_eq_false_iff_ne.mpr h]
        exact ih
      · simp only [bne_iff_ne, ne_eq, hy, not_false_eq_true, if_true, List.lookup_cons, ih]

/-- What a keyper has of a batch right after it has decrypted it. -/
def freshBatch [AddCommGroup G2] [DecidableEq G2] (cx : Cfg G1 G2 GT R) (mc : MainChain) (b : Nat) (key : G1) : Batch :=
  let batch := (mc.batches b).getD Main.Batch.empty
  let txs := Crypto.decryptTransactions cx.crypto cx.codec cx.marshalKey cx.newSource cx.next batch.encryptedTransactions key
  let hash := transactionsHash cx txs
  { batchIndex := b
    decryptionSignatureHash := decryptionSignatureHash cx b batch.encryptedBatchHash hash
    decryptedTransactions := txs
    decryptedBatchHash := hash
    decryptionSignatureIndex := 0
    verifiedSignatures := []
    isEmpty := batch.encryptedBatchHash == zeroHash }

/-- What a round can do to what a keyper has of a batch. -/
inductive EntryStep [AddCommGroup G2] [DecidableEq G2] (cx : Cfg G1 G2 GT R) (sh : Observe.Shutter) (mc : MainChain) (b : Nat) (K : G1 → Prop) :
    Option Batch → Option Batch → Prop
  | fresh (o : Option Batch) (key : G1) : K key → EntryStep cx sh mc b K o (some (freshBatch cx mc b key))
  | sync {bt bt' : Batch} : syncBatch cx sh mc bt = some bt' → EntryStep cx sh mc b K (some bt) (some bt')

abbrev Entry [AddCommGroup G2] [DecidableEq G2] (cx : Cfg G1 G2 GT R) (sh : Observe.Shutter) (mc : MainChain) (b : Nat)
    (K : G1 → Prop) : Option Batch → Option Batch → Prop := Relation.ReflTransGen (EntryStep cx sh mc b K)

section entry
variable [AddCommGroup G2] [DecidableEq G2] {cx : Cfg G1 G2 GT R} {sh : Observe.Shutter} {mc : MainChain} {b : Nat} {K : G1 → Prop}

theorem Entry.isSome {o o' : Option Batch} (h : Entry cx sh mc b K o o') (hs : o.isSome) : o'.isSome := by
  induction h with
  | refl => exact hs
  | tail _ h _ => cases h <;> rfl

theorem decryptBatch_entry {key : G1} {k : Nat} {d : Decider G1 G2} (hK : k = b → K key) :
    Entry cx sh mc b K (d.st.batches.lookup b) ((decryptBatch cx mc key k d).st.batches.lookup b) ∧
      (k = b → ((decryptBatch cx mc key k d).st.batches.lookup b).isSome) := by
  have h : (decryptBatch cx mc key k d).st.batches = mapSet d.st.batches k (freshBatch cx mc k key) := rfl
  rw [h, lookup_mapSet]
  split
  · next he => subst he; exact ⟨.single (.fresh _ _ (hK rfl)), fun _ => rfl⟩
  · next he => exact ⟨.refl, fun h => absurd h.symm he⟩

theorem sendSig_entry {k : Nat} {d d' : Decider G1 G2} (h : sendDecryptionSignature cx sh mc k d = some d') :
    Entry cx sh mc b K (d.st.batches.lookup b) (d'.st.batches.lookup b) := by
  unfold sendDecryptionSignature at h
  split at h
  · cases h; exact .refl
  · next bt hb =>
    simp only [Option.bind_eq_bind, Option.bind_eq_some_iff] at h
    obtain ⟨bt', h1, _, _, _, _, h⟩ := h
    have : d'.st.batches = mapSet d.st.batches k bt' := by split at h <;> cases h <;> rfl
    rw [this, lookup_mapSet]
    split
    · next he => subst he; rw [hb]; exact .single (.sync h1)
    · exact .refl

variable [AddCommGroup G1] [DecidableEq GT]

omit [AddCommGroup G2] [DecidableEq G2] in
/-- If a share gives a key, that is reported. -/
theorem handleShare_new {env : Crypto.Env G1 G2 GT} {kg kg' : EpochKG G1 G2} {m : EpochShare G1} {ok : Bool}
    (h : kg.handleShare env m = some (kg', ok)) {k : Nat} {key : G1} (hk : kg'.secretKeys k = some (some key)) :
    kg.secretKeys k = some (some key) ∨ k = m.epoch ∧ ok = true := by
  unfold EpochKG.handleShare at h
  split at h
  · cases h; exact .inl hk
  · split at h
    · cases h
    · split at h
      · cases h; exact .inl hk
      · simp only [Option.some.injEq] at h
        unfold EpochKG.addShare at h
        simp only at h
        split at h
        · cases h; exact .inl hk
        · split at h
          · cases h; exact .inl hk
          · cases h
            simp only at hk
            split at hk
            · next he =>
              simp only [Option.some.injEq] at hk
              exact .inr ⟨he, by rw [hk]; rfl⟩
            · exact .inl hk

theorem shareEvent_entry {ekg ekg' : EKG G1 G2} {d d' : Decider G1 G2} {x : Stamped}
    (hK : ∀ key, ekg'.kg.secretKeys b = some (some key) → K key) (hs : handleShareEvent cx sh mc ekg d x = some (ekg', d')) :
    Entry cx sh mc b K (d.st.batches.lookup b) (d'.st.batches.lookup b) ∧
      ∀ key, ekg'.kg.secretKeys b = some (some key) → ekg.kg.secretKeys b = some (some key) ∨ (d'.st.batches.lookup b).isSome := by
  unfold handleShareEvent at hs
  split at hs
  · next sender eon epoch share hev =>
    split at hs
    · cases hs; exact ⟨.refl, fun _ h => .inl h⟩
    · split at hs
      · cases hs; exact ⟨.refl, fun _ h => .inl h⟩
      · simp only [Option.bind_eq_bind, Option.bind_eq_some_iff, Prod.exists] at hs
        obtain ⟨kg, ok, hh, hs⟩ := hs
        split at hs
        · next hok =>
          cases hs
          refine ⟨.refl, fun key hk => ?_⟩
          rcases handleShare_new hh hk with h | ⟨_, h⟩
          · exact .inl h
          · rw [hok] at h; cases h
        · split at hs
          · next key0 hkey =>
            simp only [Option.bind_eq_some_iff] at hs
            obtain ⟨t, _, hs⟩ := hs
            have hkg : ekg'.kg = kg := by
              split at hs
              · cases hs; rfl
              · rw [Option.map_eq_some_iff] at hs
                obtain ⟨d1, h1, hs⟩ := hs
                cases hs; rfl
            obtain ⟨e1, e2⟩ := decryptBatch_entry (cx := cx) (sh := sh) (mc := mc) (b := b) (K := K) (key := key0) (k := epoch) (d := d)
              (fun he => hK _ (by rw [hkg, ← he]; exact hkey))
            have fin : Entry cx sh mc b K (d.st.batches.lookup b) (d'.st.batches.lookup b) ∧ (epoch = b → (d'.st.batches.lookup b).isSome) ∧ ekg'.kg = kg := by
              split at hs
              · cases hs; exact ⟨e1, e2, rfl⟩
              · rw [Option.map_eq_some_iff] at hs
                obtain ⟨d1, h1, hs⟩ := hs
                cases hs
                have := sendSig_entry (b := b) (K := K) h1
                exact ⟨e1.trans this, fun h => this.isSome (e2 h), rfl⟩
            refine ⟨fin.1, fun key hk => ?_⟩
            rw [fin.2.2] at hk
            rcases handleShare_new hh hk with h | ⟨h, _⟩
            · exact .inl h
            · exact .inr (fin.2.1 h.symm)
          · next hno =>
            cases hs
            refine ⟨.refl, fun key hk => ?_⟩
            rcases handleShare_new hh hk with h | ⟨h, _⟩
            · exact .inl h
            · exfalso
              simp only at h hk
              subst h
              exact hno key hk
  · cases hs; exact ⟨.refl, fun _ h => .inl h⟩

theorem syncEKG_entry : ∀ {xs : List Stamped} {ekg ekg' : EKG G1 G2} {d d' : Decider G1 G2},
    (∀ key, ekg'.kg.secretKeys b = some (some key) → K key) → syncEKGWithEon cx sh mc ekg d xs = some (ekg', d') →
    Entry cx sh mc b K (d.st.batches.lookup b) (d'.st.batches.lookup b) ∧
      ∀ key, ekg'.kg.secretKeys b = some (some key) → ekg.kg.secretKeys b = some (some key) ∨ (d'.st.batches.lookup b).isSome := by
  intro xs
  induction xs with
  | nil => intro ekg ekg' d d' _ hs; cases hs; exact ⟨.refl, fun _ h => .inl h⟩
  | cons x xs ih =>
    intro ekg ekg' d d' hK hs
    simp only [syncEKGWithEon, Option.bind_eq_bind, Option.bind_eq_some_iff, Prod.exists] at hs
    obtain ⟨e1, d1, h1, h2⟩ := hs
    obtain ⟨a1, a2⟩ := shareEvent_entry (b := b) (K := K) (fun key hk => hK key ((syncEKG_keeps h2).keys _ _ hk)) h1
    obtain ⟨b1, b2⟩ := ih hK h2
    refine ⟨a1.trans b1, fun key hk => ?_⟩
    rcases b2 key hk with h | h
    · rcases a2 key h with h | h
      · exact .inl h
      · exact .inr (b1.isSome h)
    · exact .inr h

theorem syncEKGs_entry : ∀ {l l' : List (EKG G1 G2)} {d d' : Decider G1 G2},
    (∀ e ∈ l', ∀ key, e.kg.secretKeys b = some (some key) → K key) → syncEKGs cx sh mc l d = some (l', d') →
    Entry cx sh mc b K (d.st.batches.lookup b) (d'.st.batches.lookup b) ∧
      ∀ e' ∈ l', ∀ key, e'.kg.secretKeys b = some (some key) →
        (∃ e ∈ l, e.kg.secretKeys b = some (some key)) ∨ (d'.st.batches.lookup b).isSome := by
  intro l
  induction l with
  | nil => intro l' d d' _ hs; cases hs; exact ⟨.refl, by simp⟩
  | cons x l ih =>
    intro l' d d' hK hs
    simp only [syncEKGs, Option.bind_eq_bind, Option.bind_eq_some_iff, Prod.exists, Option.some.injEq, Prod.mk.injEq] at hs
    obtain ⟨eon, _, e1, d1, h1, l1, d2, h2, rfl, rfl⟩ := hs
    obtain ⟨a1, a2⟩ := syncEKG_entry (b := b) (hK e1 (by simp)) h1
    obtain ⟨b1, b2⟩ := ih (fun e he => hK e (by simp [he])) h2
    refine ⟨a1.trans b1, fun e' he key hk => ?_⟩
    rcases List.mem_cons.1 he with rfl | he
    · rcases a2 key hk with h | h
      · exact .inl ⟨x, by simp, h⟩
      · exact .inr (b1.isSome h)
    · rcases b2 e' he key hk with ⟨e, h, h'⟩ | h
      · exact .inl ⟨e, by simp [h], h'⟩
      · exact .inr h

omit [AddCommGroup G2] [DecidableEq G2] [AddCommGroup G1] [DecidableEq GT] in
theorem mapM_lookup {f : Nat → Batch → Option Batch} : ∀ {l l' : List (Nat × Batch)},
    l.mapM (fun e => (f e.1 e.2).map (fun bt => (e.1, bt))) = some l' →
    (∀ bt, l.lookup b = some bt → ∃ bt', f b bt = some bt' ∧ l'.lookup b = some bt') ∧ (l.lookup b = none → l'.lookup b = none) := by
  intro l
  induction l with
  | nil => intro l' h; simp at h; subst h; simp
  | cons a l ih =>
    intro l' h
    rw [List.mapM_cons] at h
    simp only [Option.bind_eq_bind, Option.bind_eq_some_iff, Option.pure_def, Option.some.injEq, Option.map_eq_some_iff] at h
    obtain ⟨y, ⟨bt', h1, rfl⟩, bs, h2, rfl⟩ := h
    obtain ⟨i1, i2⟩ := ih h2
    obtain ⟨k, bt⟩ := a
    simp only at h1
    simp only [List.lookup_cons]
    by_cases hk : b = k
    · subst hk
      simp only [beq_self_eq_true]
      exact ⟨fun x hx => ⟨bt', by cases hx; exact h1, rfl⟩, by simp⟩
    · rw [beq_eq_false_iff_ne.mpr hk]
      exact ⟨i1, i2⟩

omit [AddCommGroup G2] [DecidableEq G2] [AddCommGroup G1] [DecidableEq GT] in
theorem handleSigs_entry {d d' : Decider G1 G2} (hs : handleDecryptionSignatures cx sh mc d = some d') :
    (∀ bt, d.st.batches.lookup b = some bt → ∃ bt', syncBatch cx sh mc bt = some bt' ∧ d'.st.batches.lookup b = some bt') ∧
      (d.st.batches.lookup b = none → d'.st.batches.lookup b = none) := by
  unfold handleDecryptionSignatures at hs
  rw [Option.map_eq_some_iff] at hs
  obtain ⟨bs, h1, rfl⟩ := hs
  exact mapM_lookup (f := fun _ => syncBatch cx sh mc) h1

/-- The EKGs a key generation gives have no keys. -/
theorem newEkgs_empty {keys : List Nat} {st st' : State G1 G2} {acts : List (Action G1 G2)}
    {dkg sync pub sigs exec app acc : Decider G1 G2} {ekgs : List (EKG G1 G2)}
    (g : Stages cx sh mc keys st st' acts dkg sync pub sigs exec app acc ekgs) {e : EKG G1 G2} (he : e ∈ dkg.st.ekgs) {k : Nat} {key : G1}
    (hk : e.kg.secretKeys k = some (some key)) : e ∈ st.ekgs := by
  have hf := g.hfirst
  simp only [decideDKGs, Option.bind_eq_bind, Option.bind_eq_some_iff, Prod.exists, Option.some.injEq] at hf
  obtain ⟨dkgs, new, a, hh, hd⟩ := hf
  have hek : (maybeSendBatchConfig sh mc (maybeSendCheckIn cx sh ⟨st, []⟩)).st.ekgs = st.ekgs := by
    rw [(batchConfig_stage sh mc _).2, (checkIn_stage cx sh _).2]
  rw [← hd] at he
  simp only [hek, List.mem_append] at he
  rcases he with he | he
  · exact he
  · obtain ⟨x, _, y, e1, a1, h1, h2, _⟩ := handleDKGs_ekg hh e he
    obtain ⟨res, _, rfl, _⟩ := handleDKG_ekg h1 h2
    simp [newEpochKG] at hk

/-- What a round does to what a keyper has of a batch. -/
theorem entry_round {keys : List Nat} {st st' : State G1 G2} {acts : List (Action G1 G2)}
    {dkg sync pub sigs exec app acc : Decider G1 G2} {ekgs : List (EKG G1 G2)}
    (g : Stages cx sh mc keys st st' acts dkg sync pub sigs exec app acc ekgs) :
    ∃ o, Entry cx sh mc b (HasKey st' b) (st.batches.lookup b) o ∧
      (∀ bt, o = some bt → ∃ bt', syncBatch cx sh mc bt = some bt' ∧ st'.batches.lookup b = some bt') ∧
      (o = none → st'.batches.lookup b = none) ∧
      ∀ key, HasKey st' b key → HasKey st b key ∨ o.isSome := by
  obtain ⟨a, c, x, y, z, g1⟩ := g.hdkg
  have i1 : dkg.st.batches = st.batches := by rw [g1]
  obtain ⟨i2, i2'⟩ := syncEKGs_entry (b := b) (K := HasKey st' b) (fun e he key hk => ⟨e, by rw [ekgs_final g]; exact he, hk⟩) g.hsync
  rw [i1] at i2
  have i3 : pub.st.batches = sync.st.batches := by rw [(publish_emits g.hpub).2]
  obtain ⟨i4, i5⟩ := handleSigs_entry (b := b) g.hsigs
  rw [i3] at i4 i5
  have e1 : exec.st.batches = sigs.st.batches := by rw [(exec_stage g.hexec).2]
  have e2 : app.st.batches = exec.st.batches := by rw [(appeal_stage g.happ).2]
  have e3 : acc.st.batches = app.st.batches := by rw [(accuse_stage g.hacc).2]
  have e4 : st'.batches = sigs.st.batches := by rw [g.final, ← e1, ← e2, ← e3]
  refine ⟨sync.st.batches.lookup b, i2, fun bt h => ?_, fun h => ?_, fun key ⟨ekg, he, hk⟩ => ?_⟩
  · rw [e4]; exact i4 bt h
  · rw [e4]; exact i5 h
  · rw [ekgs_final g] at he
    rcases i2' ekg he key hk with ⟨e, h, h'⟩ | h
    · exact .inl ⟨e, newEkgs_empty g h h', h'⟩
    · exact .inr h

end entry

/-! ## Counting -/

/-- The signatures up to where the keyper has looked are counted, unless there are enough. -/
structure SigInv (cx : Cfg G1 G2 GT R) (config : BatchConfig) (b : Nat) (sigs : List Stamped) (bt : Batch) : Prop where
  index : bt.batchIndex = b
  le : bt.decryptionSignatureIndex ≤ sigs.length
  seen : config.threshold ≤ bt.verifiedSignatures.length ∨ ∀ x ∈ sigs.take bt.decryptionSignatureIndex, ∀ b' sender sig,
    x.ev = .decryptionSignature b' sender sig → (keyperIndex config (addrNat sender)).isSome →
    cx.goRecover bt.decryptionSignatureHash sig = some (addrNat sender) → addrNat sender ∈ bt.verifiedSignatures.map Prod.fst

theorem syncSignatures_complete (cx : Cfg G1 G2 GT R) (config : BatchConfig) : ∀ (xs : List Stamped) (b : Batch),
    (∀ a ∈ b.verifiedSignatures.map Prod.fst, a ∈ (syncSignatures cx config b xs).verifiedSignatures.map Prod.fst) ∧
    (config.threshold ≤ (syncSignatures cx config b xs).verifiedSignatures.length ∨
    ∀ x ∈ xs, ∀ b' sender sig, x.ev = .decryptionSignature b' sender sig → (keyperIndex config (addrNat sender)).isSome →
      cx.goRecover b.decryptionSignatureHash sig = some (addrNat sender) →
      addrNat sender ∈ (syncSignatures cx config b xs).verifiedSignatures.map Prod.fst) := by
  intro xs
  induction xs with
  | nil => intro b; exact ⟨by simp [syncSignatures], .inr (by simp)⟩
  | cons x xs ih =>
    intro b
    unfold syncSignatures
    split
    · next e sender signature heq =>
      simp only
      split_ifs with h1 h2 h3 h4
      · obtain ⟨i1, i2⟩ := ih b
        refine ⟨i1, i2.imp id fun h y hy b' s sig hev hk hr => ?_⟩
        rcases List.mem_cons.1 hy with rfl | hy
        · rw [heq] at hev; cases hev
          rw [← Option.not_isNone, h1] at hk; cases hk
        · exact h y hy b' s sig hev hk hr
      · obtain ⟨i1, i2⟩ := ih b
        refine ⟨i1, i2.imp id fun h y hy b' s sig hev hk hr => ?_⟩
        rcases List.mem_cons.1 hy with rfl | hy
        · rw [heq] at hev; cases hev
          obtain ⟨v, hv⟩ := Option.isSome_iff_exists.mp h2
          exact i1 _ (List.mem_map.2 ⟨_, mem_of_lookup hv, rfl⟩)
        · exact h y hy b' s sig hev hk hr
      · obtain ⟨i1, i2⟩ := ih b
        refine ⟨i1, i2.imp id fun h y hy b' s sig hev hk hr => ?_⟩
        rcases List.mem_cons.1 hy with rfl | hy
        · rw [heq] at hev; cases hev
          exact absurd hr h3
        · exact h y hy b' s sig hev hk hr
      · exact ⟨by simp only [List.map_append, List.mem_append]; exact fun a h => .inl h, .inl h4⟩
      · obtain ⟨i1, i2⟩ := ih { b with verifiedSignatures := b.verifiedSignatures ++ [(addrNat sender, signature)] }
        simp only [List.map_append, List.mem_append] at i1
        refine ⟨fun a h => i1 a (.inl h), i2.imp id fun h y hy b' s sig hev hk hr => ?_⟩
        rcases List.mem_cons.1 hy with rfl | hy
        · rw [heq] at hev; cases hev
          exact i1 _ (.inr (by simp))
        · exact h y hy b' s sig hev hk hr
    · next hne =>
      obtain ⟨i1, i2⟩ := ih b
      refine ⟨i1, i2.imp id fun h y hy b' s sig hev hk hr => ?_⟩
      rcases List.mem_cons.1 hy with rfl | hy
      · exact absurd hev (hne b' s sig)
      · exact h y hy b' s sig hev hk hr

theorem syncBatch_inv [AddCommGroup G2] [DecidableEq G2] {cx : Cfg G1 G2 GT R} {sh : Observe.Shutter} {mc : MainChain} {b : Nat} {config : BatchConfig}
    (hc : configForBatchIndex mc b = some (some config)) {bt bt' : Batch} (inv : SigInv cx config b (getBatchData sh b) bt)
    (hs : syncBatch cx sh mc bt = some bt') : SigInv cx config b (getBatchData sh b) bt' ∧ bt'.isEmpty = bt.isEmpty ∧
      (bt'.isEmpty = false → bt'.decryptionSignatureIndex = (getBatchData sh b).length) := by
  unfold syncBatch at hs
  rw [inv.index] at hs
  split at hs
  · next hn =>
    cases hs
    refine ⟨inv, rfl, fun _ => ?_⟩
    have := inv.le
    unfold getBatchData at this ⊢
    rw [hn] at this ⊢
    simpa using this
  · next sigs hsg =>
    rw [hc] at hs
    simp only at hs
    have hg : getBatchData sh b = sigs := by unfold getBatchData; rw [hsg]; rfl
    split at hs
    · next he => cases hs; exact ⟨inv, rfl, fun h => by rw [he] at h; cases h⟩
    · cases hs
      rw [hg] at inv ⊢
      obtain ⟨new, g1, _, _⟩ := syncSignatures_spec cx config (sigs.drop bt.decryptionSignatureIndex) bt
      obtain ⟨c1, c2⟩ := syncSignatures_complete cx config (sigs.drop bt.decryptionSignatureIndex) bt
      rw [g1] at c1 c2 ⊢
      refine ⟨⟨inv.index, le_refl _, ?_⟩, rfl, fun _ => rfl⟩
      simp only at c1 c2 ⊢
      rcases c2 with c2 | c2
      · exact .inl c2
      · rcases inv.seen with h | h
        · left; rw [List.length_append]; omega
        · right
          intro x hx b' sender sig hev hk hr
          rw [List.take_length] at hx
          rw [← List.take_append_drop bt.decryptionSignatureIndex sigs, List.mem_append] at hx
          rcases hx with hx | hx
          · exact c1 _ (h x hx b' sender sig hev hk hr)
          · exact c2 x hx b' sender sig hev hk hr

end Shutter.Decide
