import Verif.Spec.Batches
import Verif.Proofs.Life

/-! # What a keyper knows of the batches it has decrypted -/

namespace Shutter.Decide
open Shutter.Crypto Shutter.Dkg Shutter.Observe Shutter.Main Shutter.GoConfig
open Shutter.App (Addr findAddressIndex)
open Shutter.Sol (BatchConfig zeroHash World)

variable {G1 G2 GT R : Type}

/-- A batch was decrypted in the view `e`; its signatures were verified in the same or in later views. -/
structure BatchOk [AddCommGroup G2] [DecidableEq G2] (cx : Cfg G1 G2 GT R) (V : MainChain → Prop) (K : Nat → G1 → Prop) (k : Nat) (b : Batch) : Prop where
  index : b.batchIndex = k
  hash : b.decryptedBatchHash = transactionsHash cx b.decryptedTransactions
  made : ∃ e key, V e ∧ K k key ∧ DecryptedWith cx key (e.txs k .cipher) b.decryptedTransactions ∧ b.isEmpty = (e.hash k .cipher == zeroHash) ∧
    b.decryptionSignatureHash = decryptionSignatureHash cx k (e.hash k .cipher) b.decryptedBatchHash ∧
    ∀ a sig, (a, sig) ∈ b.verifiedSignatures → cx.goRecover b.decryptionSignatureHash sig = some a ∧
      ∃ e' config, V e' ∧ e.currentBlock ≤ e'.currentBlock ∧ configForBatchIndex e' k = some (some config) ∧
        (keyperIndex config a).isSome
  nodup : (b.verifiedSignatures.map Prod.fst).Nodup

def BatchesOk [AddCommGroup G2] [DecidableEq G2] (cx : Cfg G1 G2 GT R) (V : MainChain → Prop) (K : Nat → G1 → Prop) (bs : List (Nat × Batch)) : Prop :=
  ∀ e ∈ bs, BatchOk cx V K e.1 e.2

variable [AddCommGroup G2] [DecidableEq G2] {cx : Cfg G1 G2 GT R} {V W : MainChain → Prop} {K L : Nat → G1 → Prop}

theorem BatchOk.mono {k : Nat} {b : Batch} (h : BatchOk cx V K k b) (hv : ∀ e, V e → W e) (hk : ∀ k key, K k key → L k key) :
    BatchOk cx W L k b := by
  obtain ⟨h1, h2, ⟨e, key, h3, hkk, h4, h5, h6, h7⟩, h8⟩ := h
  refine ⟨h1, h2, ⟨e, key, hv e h3, hk _ _ hkk, h4, h5, h6, fun a sig hs => ?_⟩, h8⟩
  obtain ⟨g1, e', c, g2, g3, g4⟩ := h7 a sig hs
  exact ⟨g1, e', c, hv e' g2, g3, g4⟩

theorem mem_mapSet {β : Type} {m : List (Nat × β)} {k : Nat} {v : β} {e : Nat × β} (h : e ∈ mapSet m k v) : e = (k, v) ∨ e ∈ m := by
  unfold mapSet at h
  rw [List.mem_append, List.mem_filter, List.mem_singleton] at h
  rcases h with ⟨h, _⟩ | h
  · exact .inr h
  · exact .inl h

theorem BatchesOk.set {bs : List (Nat × Batch)} {k : Nat} {b : Batch} (h : BatchesOk cx V K bs) (hb : BatchOk cx V K k b) :
    BatchesOk cx V K (mapSet bs k b) := by
  intro e he
  rcases mem_mapSet he with rfl | he
  · exact hb
  · exact h e he

theorem mem_of_lookup {β : Type} {l : List (Nat × β)} {k : Nat} {v : β} (h : l.lookup k = some v) : (k, v) ∈ l := by
  induction l with
  | nil => cases h
  | cons x l ih =>
    obtain ⟨k', v'⟩ := x
    rw [List.lookup_cons] at h
    split at h
    · next hk =>
      cases h
      rw [beq_iff_eq.mp hk]
      exact List.mem_cons_self
    · exact List.mem_cons_of_mem _ (ih h)

theorem lookup_none {β : Type} {l : List (Nat × β)} {k : Nat} (h : (l.lookup k).isSome = false) (v : β) : (k, v) ∉ l := by
  induction l with
  | nil => simp
  | cons x l ih =>
    obtain ⟨k', v'⟩ := x
    rw [List.lookup_cons] at h
    split at h
    · cases h
    · next hk =>
      rw [List.mem_cons]
      rintro (h1 | h1)
      · cases h1; simp at hk
      · exact ih h h1

theorem decryptBatch_ok {mc : MainChain} {key : G1} {k : Nat} {d : Decider G1 G2} (h : BatchesOk cx V K d.st.batches) (hv : V mc) (hk : K k key) :
    BatchesOk cx V K (decryptBatch cx mc key k d).st.batches := by
  refine h.set ⟨rfl, rfl, ⟨mc, key, hv, hk, ?_, ?_, ?_, by simp⟩, by simp⟩
  · unfold DecryptedWith MainChain.txs
    cases mc.batches k <;> rfl
  · unfold MainChain.hash
    cases mc.batches k <;> rfl
  · unfold MainChain.hash
    cases mc.batches k <;> rfl

/-- The signatures a keyper takes are new, by keypers, and valid. -/
theorem syncSignatures_spec (cx : Cfg G1 G2 GT R) (config : BatchConfig) : ∀ (xs : List Stamped) (b : Batch), ∃ new,
    syncSignatures cx config b xs = { b with verifiedSignatures := b.verifiedSignatures ++ new } ∧
    ((b.verifiedSignatures.map Prod.fst).Nodup → ((b.verifiedSignatures ++ new).map Prod.fst).Nodup) ∧
    ∀ a sig, (a, sig) ∈ new → (keyperIndex config a).isSome ∧ cx.goRecover b.decryptionSignatureHash sig = some a := by
  intro xs
  induction xs with
  | nil => intro b; exact ⟨[], by simp [syncSignatures], by simp, by simp⟩
  | cons x xs ih =>
    intro b
    unfold syncSignatures
    split
    · next e sender signature heq =>
      simp only
      split_ifs with h1 h2 h3 h4
      · exact ih b
      · exact ih b
      · exact ih b
      · refine ⟨[(addrNat sender, signature)], rfl, fun hn => ?_, fun a sig hs => ?_⟩
        · rw [List.map_append, List.nodup_append]
          refine ⟨hn, by simp, ?_⟩
          intro y hy z hz
          simp only [List.map_cons, List.map_nil, List.mem_singleton] at hz
          subst hz
          rintro rfl
          rw [List.mem_map] at hy
          obtain ⟨⟨y1, y2⟩, hy, he⟩ := hy
          simp only at he
          subst he
          exact lookup_none (Bool.eq_false_iff.mpr h2) _ hy
        · rw [List.mem_singleton] at hs
          cases hs
          exact ⟨by rw [← Option.not_isNone, Bool.eq_false_iff.mpr h1]; rfl, by simpa using h3⟩
      · obtain ⟨new, g1, g2, g3⟩ := ih { b with verifiedSignatures := b.verifiedSignatures ++ [(addrNat sender, signature)] }
        refine ⟨(addrNat sender, signature) :: new, by rw [g1]; simp, fun hn => ?_, fun a sig hs => ?_⟩
        · have := g2 (by
            simp only
            rw [List.map_append, List.nodup_append]
            refine ⟨hn, by simp, ?_⟩
            intro y hy z hz
            simp only [List.map_cons, List.map_nil, List.mem_singleton] at hz
            subst hz
            rintro rfl
            rw [List.mem_map] at hy
            obtain ⟨⟨y1, y2⟩, hy, he⟩ := hy
            simp only at he
            subst he
            exact lookup_none (Bool.eq_false_iff.mpr h2) _ hy)
          simpa using this
        · rw [List.mem_cons] at hs
          rcases hs with hs | hs
          · cases hs
            exact ⟨by rw [← Option.not_isNone, Bool.eq_false_iff.mpr h1]; rfl, by simpa using h3⟩
          · exact g3 a sig hs
    · exact ih b

theorem syncBatch_ok {sh : Observe.Shutter} {mc : MainChain} {k : Nat} {b b' : Batch} (h : BatchOk cx V K k b) (hv : V mc)
    (hlast : ∀ e, V e → e.currentBlock ≤ mc.currentBlock) (hs : syncBatch cx sh mc b = some b') : BatchOk cx V K k b' := by
  unfold syncBatch at hs
  split at hs
  · cases hs; exact h
  · split at hs
    · cases hs
    · cases hs
    · next _ sigs _ _ config hc =>
      split at hs
      · cases hs; exact h
      · cases hs
        obtain ⟨new, g1, g2, g3⟩ := syncSignatures_spec cx config (sigs.drop b.decryptionSignatureIndex) b
        rw [g1]
        obtain ⟨h1, h2, ⟨e, key, h3, hkk, h4, h5, h6, h7⟩, h8⟩ := h
        refine ⟨h1, h2, ⟨e, key, h3, hkk, h4, h5, h6, fun a sig hm => ?_⟩, g2 h8⟩
        simp only [List.mem_append] at hm
        rcases hm with hm | hm
        · exact h7 a sig hm
        · obtain ⟨k1, k2⟩ := g3 a sig hm
          exact ⟨k2, mc, config, hv, hlast e h3, by rw [← h1]; exact hc, k1⟩

theorem sendSig_ok {sh : Observe.Shutter} {mc : MainChain} {k : Nat} {d d' : Decider G1 G2} (h : BatchesOk cx V K d.st.batches) (hv : V mc)
    (hlast : ∀ e, V e → e.currentBlock ≤ mc.currentBlock) (hs : sendDecryptionSignature cx sh mc k d = some d') :
    BatchesOk cx V K d'.st.batches := by
  unfold sendDecryptionSignature at hs
  split at hs
  · cases hs; exact h
  · next b hb =>
    simp only [Option.bind_eq_bind, Option.bind_eq_some_iff] at hs
    obtain ⟨b', h1, _, _, _, _, hs⟩ := hs
    have hok := syncBatch_ok (h _ (mem_of_lookup hb)) hv hlast h1
    split at hs <;> cases hs <;> exact h.set hok

variable [AddCommGroup G1] [DecidableEq GT]

/-- The epoch secret keys an EKG has. -/
def KeysIn (K : Nat → G1 → Prop) (ekg : EKG G1 G2) : Prop := ∀ k key, ekg.kg.secretKeys k = some (some key) → K k key

/-- An EKG goes on: it keeps the keys it has. -/
structure Keeps (a b : EKG G1 G2) : Prop where
  eon : b.eon = a.eon
  keypers : b.keypers = a.keypers
  keys : ∀ k key, a.kg.secretKeys k = some key → b.kg.secretKeys k = some key

omit [AddCommGroup G2] [DecidableEq G2] [AddCommGroup G1] [DecidableEq GT] in
theorem Keeps.refl (a : EKG G1 G2) : Keeps a a := ⟨rfl, rfl, fun _ _ h => h⟩

omit [AddCommGroup G2] [DecidableEq G2] [AddCommGroup G1] [DecidableEq GT] in
theorem Keeps.trans {a b c : EKG G1 G2} (h : Keeps a b) (g : Keeps b c) : Keeps a c :=
  ⟨g.eon.trans h.eon, g.keypers.trans h.keypers, fun k key x => g.keys k key (h.keys k key x)⟩

omit [AddCommGroup G2] [DecidableEq G2] [AddCommGroup G1] [DecidableEq GT] in
theorem Keeps.in {a b : EKG G1 G2} (h : Keeps a b) (g : KeysIn K b) : KeysIn K a := fun k key x => g k key (h.keys k _ x)

omit [AddCommGroup G2] [DecidableEq G2] in
theorem handleShare_keeps {env : Crypto.Env G1 G2 GT} {kg kg' : EpochKG G1 G2} {m : EpochShare G1} {ok : Bool}
    (h : kg.handleShare env m = some (kg', ok)) (k : Nat) (key : Option G1) (hk : kg.secretKeys k = some key) :
    kg'.secretKeys k = some key := by
  unfold EpochKG.handleShare at h
  split at h
  · cases h; exact hk
  · next hn =>
    have hne : k ≠ m.epoch := by
      rintro rfl
      rw [hk] at hn
      exact hn rfl
    split at h
    · cases h
    · split at h
      · cases h; exact hk
      · simp only [Option.some.injEq] at h
        unfold EpochKG.addShare at h
        simp only at h
        split at h
        · cases h; exact hk
        · split at h
          · cases h; exact hk
          · cases h
            simp only [if_neg hne, hk]

omit [AddCommGroup G2] [DecidableEq G2] in
theorem shareEvent_keeps [AddCommGroup G2] [DecidableEq G2] {sh : Observe.Shutter} {mc : MainChain} {ekg ekg' : EKG G1 G2}
    {d d' : Decider G1 G2} {x : Stamped} (hs : handleShareEvent cx sh mc ekg d x = some (ekg', d')) : Keeps ekg ekg' := by
  unfold handleShareEvent at hs
  split at hs
  · split at hs
    · cases hs; exact .refl _
    · split at hs
      · cases hs; exact .refl _
      · simp only [Option.bind_eq_bind, Option.bind_eq_some_iff, Prod.exists] at hs
        obtain ⟨kg, ok, hh, hs⟩ := hs
        have key : Keeps ekg { ekg with kg := kg } := ⟨rfl, rfl, fun k key hk => handleShare_keeps hh k key hk⟩
        split at hs
        · cases hs; exact key
        · split at hs
          · simp only [Option.bind_eq_some_iff] at hs
            obtain ⟨t, _, hs⟩ := hs
            split at hs
            · cases hs; exact key
            · rw [Option.map_eq_some_iff] at hs
              obtain ⟨d1, h1, hs⟩ := hs
              cases hs
              exact key
          · cases hs; exact key
  · cases hs; exact .refl _

theorem syncEKG_keeps {sh : Observe.Shutter} {mc : MainChain} : ∀ {xs : List Stamped} {ekg ekg' : EKG G1 G2} {d d' : Decider G1 G2},
    syncEKGWithEon cx sh mc ekg d xs = some (ekg', d') → Keeps ekg ekg' := by
  intro xs
  induction xs with
  | nil => intro ekg ekg' d d' hs; cases hs; exact .refl _
  | cons x xs ih =>
    intro ekg ekg' d d' hs
    simp only [syncEKGWithEon, Option.bind_eq_bind, Option.bind_eq_some_iff, Prod.exists] at hs
    obtain ⟨e1, d1, h1, h2⟩ := hs
    exact (shareEvent_keeps h1).trans (ih h2)

theorem syncEKGs_keeps {sh : Observe.Shutter} {mc : MainChain} : ∀ {l l' : List (EKG G1 G2)} {d d' : Decider G1 G2},
    syncEKGs cx sh mc l d = some (l', d') → List.Forall₂ Keeps l l' := by
  intro l
  induction l with
  | nil => intro l' d d' hs; cases hs; exact .nil
  | cons x l ih =>
    intro l' d d' hs
    simp only [syncEKGs, Option.bind_eq_bind, Option.bind_eq_some_iff, Prod.exists, Option.some.injEq, Prod.mk.injEq] at hs
    obtain ⟨eon, _, e1, d1, h1, l1, d2, h2, rfl, rfl⟩ := hs
    exact .cons (syncEKG_keeps h1) (ih h2)

theorem shareEvent_ok {sh : Observe.Shutter} {mc : MainChain} {ekg ekg' : EKG G1 G2} {d d' : Decider G1 G2} {x : Stamped}
    (h : BatchesOk cx V K d.st.batches) (hv : V mc) (hlast : ∀ e, V e → e.currentBlock ≤ mc.currentBlock) (hk : KeysIn K ekg')
    (hs : handleShareEvent cx sh mc ekg d x = some (ekg', d')) : BatchesOk cx V K d'.st.batches := by
  unfold handleShareEvent at hs
  split at hs
  · split at hs
    · cases hs; exact h
    · split at hs
      · cases hs; exact h
      · simp only [Option.bind_eq_bind, Option.bind_eq_some_iff, Prod.exists] at hs
        obtain ⟨kg, ok, _, hs⟩ := hs
        split at hs
        · cases hs; exact h
        · split at hs
          · next key hkey =>
            simp only [Option.bind_eq_some_iff] at hs
            obtain ⟨t, _, hs⟩ := hs
            split at hs
            · cases hs; exact decryptBatch_ok h hv (hk _ _ hkey)
            · rw [Option.map_eq_some_iff] at hs
              obtain ⟨d1, h1, hs⟩ := hs
              cases hs
              exact sendSig_ok (decryptBatch_ok h hv (hk _ _ hkey)) hv hlast h1
          · cases hs; exact h
  · cases hs; exact h

theorem syncEKG_ok {sh : Observe.Shutter} {mc : MainChain} (hv : V mc) (hlast : ∀ e, V e → e.currentBlock ≤ mc.currentBlock) :
    ∀ {xs : List Stamped} {ekg ekg' : EKG G1 G2} {d d' : Decider G1 G2}, BatchesOk cx V K d.st.batches → KeysIn K ekg' →
      syncEKGWithEon cx sh mc ekg d xs = some (ekg', d') → BatchesOk cx V K d'.st.batches := by
  intro xs
  induction xs with
  | nil => intro ekg ekg' d d' h hk hs; cases hs; exact h
  | cons x xs ih =>
    intro ekg ekg' d d' h hk hs
    simp only [syncEKGWithEon, Option.bind_eq_bind, Option.bind_eq_some_iff, Prod.exists] at hs
    obtain ⟨e1, d1, h1, h2⟩ := hs
    exact ih (shareEvent_ok h hv hlast ((syncEKG_keeps h2).in hk) h1) hk h2

theorem syncEKGs_ok {sh : Observe.Shutter} {mc : MainChain} (hv : V mc) (hlast : ∀ e, V e → e.currentBlock ≤ mc.currentBlock) :
    ∀ {l l' : List (EKG G1 G2)} {d d' : Decider G1 G2}, BatchesOk cx V K d.st.batches → (∀ e ∈ l', KeysIn K e) →
      syncEKGs cx sh mc l d = some (l', d') → BatchesOk cx V K d'.st.batches := by
  intro l
  induction l with
  | nil => intro l' d d' h hk hs; cases hs; exact h
  | cons x l ih =>
    intro l' d d' h hk hs
    simp only [syncEKGs, Option.bind_eq_bind, Option.bind_eq_some_iff, Prod.exists, Option.some.injEq, Prod.mk.injEq] at hs
    obtain ⟨eon, _, e1, d1, h1, l1, d2, h2, rfl, rfl⟩ := hs
    exact ih (syncEKG_ok hv hlast h (hk _ (by simp)) h1) (fun e he => hk e (by simp [he])) h2

theorem mapM_mem {α β : Type} {f : α → Option β} : ∀ {l : List α} {l' : List β}, l.mapM f = some l' → ∀ y ∈ l', ∃ x ∈ l, f x = some y := by
  intro l
  induction l with
  | nil => intro l' h; simp at h; subst h; simp
  | cons a l ih =>
    intro l' h y hy
    rw [List.mapM_cons] at h
    simp only [Option.bind_eq_bind, Option.bind_eq_some_iff, Option.pure_def, Option.some.injEq] at h
    obtain ⟨b, h1, bs, h2, rfl⟩ := h
    rw [List.mem_cons] at hy
    rcases hy with rfl | hy
    · exact ⟨a, List.mem_cons_self, h1⟩
    · obtain ⟨x, hx, hx'⟩ := ih h2 y hy
      exact ⟨x, List.mem_cons_of_mem _ hx, hx'⟩

omit [AddCommGroup G1] [DecidableEq GT] in
theorem handleSigs_ok {sh : Observe.Shutter} {mc : MainChain} {d d' : Decider G1 G2} (h : BatchesOk cx V K d.st.batches) (hv : V mc)
    (hlast : ∀ e, V e → e.currentBlock ≤ mc.currentBlock) (hs : handleDecryptionSignatures cx sh mc d = some d') :
    BatchesOk cx V K d'.st.batches := by
  unfold handleDecryptionSignatures at hs
  rw [Option.map_eq_some_iff] at hs
  obtain ⟨bs, h1, rfl⟩ := hs
  intro e he
  obtain ⟨x, hx, hx'⟩ := mapM_mem h1 e he
  rw [Option.map_eq_some_iff] at hx'
  obtain ⟨b, hb, rfl⟩ := hx'
  exact syncBatch_ok (h x hx) hv hlast hb

variable {codecs : Events.Codecs} {chain : Observe.Chain} {E : Sol.Env} {fd : Nat}

/-- The views of a life. -/
def Seen (log : List (MainChain × List (Action G1 G2))) (e : MainChain) : Prop := ∃ acts, (e, acts) ∈ log

theorem ekgs_final {sh : Observe.Shutter} {mc : MainChain} {keys : List Nat} {st st' : State G1 G2} {acts : List (Action G1 G2)}
    {dkg sync pub sigs exec app acc : Decider G1 G2} {ekgs : List (EKG G1 G2)}
    (g : Stages cx sh mc keys st st' acts dkg sync pub sigs exec app acc ekgs) : st'.ekgs = ekgs := by
  have e0 : pub.st.ekgs = ekgs := by rw [(publish_emits g.hpub).2]
  have e1 : sigs.st.ekgs = pub.st.ekgs := by rw [(handleSigs_stage g.hsigs).2]
  have e2 : exec.st.ekgs = sigs.st.ekgs := by rw [(exec_stage g.hexec).2]
  have e3 : app.st.ekgs = exec.st.ekgs := by rw [(appeal_stage g.happ).2]
  have e4 : acc.st.ekgs = app.st.ekgs := by rw [(accuse_stage g.hacc).2]
  rw [g.final]
  show acc.st.ekgs = ekgs
  rw [e4, e3, e2, e1, e0]

/-- A keyper keeps its keys. -/
theorem hasKey_round {sh : Observe.Shutter} {mc : MainChain} {keys : List Nat} {st st' : State G1 G2} {acts : List (Action G1 G2)}
    (h : decideStep cx sh mc keys st = some (st', acts)) {k : Nat} {key : G1} (hk : HasKey st k key) : HasKey st' k key := by
  rcases decide_stages h with ⟨rfl, rfl⟩ | ⟨dkg, sync, pub, sigs, exec, app, acc, ekgs, g⟩
  · exact hk
  · obtain ⟨a, b, x, y, z, g1⟩ := g.hdkg
    obtain ⟨ekg, he, hkey⟩ := hk
    have hs := syncEKGs_keeps g.hsync
    rw [g1] at hs
    obtain ⟨i, hi⟩ := List.getElem?_of_mem (List.mem_append_left z he)
    obtain ⟨ekg', hi', hkeep⟩ : ∃ e', ekgs[i]? = some e' ∧ Keeps ekg e' := by
      rw [List.forall₂_iff_get] at hs
      obtain ⟨hl, hs⟩ := hs
      obtain ⟨hlt, rfl⟩ := List.getElem?_eq_some_iff.mp hi
      exact ⟨ekgs[i]'(hl ▸ hlt), List.getElem?_eq_getElem _, hs i hlt (hl ▸ hlt)⟩
    exact ⟨ekg', by rw [ekgs_final g]; exact List.mem_of_getElem? hi', hkeep.keys _ _ hkey⟩

/-- A round keeps the batches in order; they are those on which it decides what to execute. -/
theorem batches_round {sh : Observe.Shutter} {mc : MainChain} {keys : List Nat} {st st' : State G1 G2} {acts : List (Action G1 G2)}
    {dkg sync pub sigs exec app acc : Decider G1 G2} {ekgs : List (EKG G1 G2)}
    (g : Stages cx sh mc keys st st' acts dkg sync pub sigs exec app acc ekgs)
    (h : BatchesOk cx V K st.batches) (hv : V mc) (hlast : ∀ e, V e → e.currentBlock ≤ mc.currentBlock)
    (hk : ∀ k key, HasKey st' k key → K k key) :
    BatchesOk cx V K st'.batches ∧ sigs.st.batches = st'.batches ∧ exec.st.batches = st'.batches := by
  obtain ⟨a, b, x, y, z, g1⟩ := g.hdkg
  have i1 : BatchesOk cx V K dkg.st.batches := by rw [g1]; exact h
  have i2 := syncEKGs_ok hv hlast i1 (fun e he k key hkey => hk k key ⟨e, by rw [ekgs_final g]; exact he, hkey⟩) g.hsync
  have i3 : BatchesOk cx V K pub.st.batches := by
    rw [(publish_emits g.hpub).2]
    exact i2
  have i4 := handleSigs_ok i3 hv hlast g.hsigs
  have e1 : exec.st.batches = sigs.st.batches := by rw [(exec_stage g.hexec).2]
  have e2 : app.st.batches = exec.st.batches := by rw [(appeal_stage g.happ).2]
  have e3 : acc.st.batches = app.st.batches := by rw [(accuse_stage g.hacc).2]
  have e4 : st'.batches = acc.st.batches := by rw [g.final]
  refine ⟨by rw [e4, e3, e2, e1]; exact i4, by rw [e4, e3, e2, e1], by rw [e4, e3, e2]⟩

theorem life_batches {s : Observe.Shutter} {st : State G1 G2} {mc : MainChain} {hist : Nat → World}
    {log : List (MainChain × List (Action G1 G2))} (l : Life cx codecs chain E fd s st mc hist log) :
    BatchesOk cx (Seen log) (HasKey st) st.batches := by
  induction l with
  | init _ => intro e he; cases he
  | @round s s' st st' mc mc' hist hist' log ys keys acts l h1 h2 h3 h4 h5 h6 ih =>
    have mono : ∀ e, Seen log e → Seen (log ++ [(mc', acts)]) e := fun e ⟨a, ha⟩ => ⟨a, List.mem_append_left _ ha⟩
    have ih' : BatchesOk cx (Seen (log ++ [(mc', acts)])) (HasKey st') st.batches :=
      fun e he => (ih e he).mono mono (fun _ _ => hasKey_round h6)
    rcases decide_stages h6 with ⟨rfl, rfl⟩ | ⟨_, _, _, _, _, _, _, _, g⟩
    · exact ih'
    · refine (batches_round g ih' ⟨acts, by simp⟩ ?_ (fun _ _ h => h)).1
      rintro e ⟨a, ha⟩
      exact ((life_observed (Life.round l h1 h2 h3 h4 h5 h6)).2 (e, a) ha).2
  | restart f _ ih =>
    intro e he
    unfold loadState at he ⊢
    split at he <;> next hc =>
      simp only [hc, if_true, if_false]
      exact ih e he

end Shutter.Decide
