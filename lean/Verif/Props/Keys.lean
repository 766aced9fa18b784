import Verif.Proofs.Keys
import Verif.Props.Exec
import Verif.Props.Driver
import Verif.Props.Encoding
import Verif.Proofs.DemoOther

/-! Property theorems C66 (shuttermint/keyper/decide.go: the keys batches are decrypted with). -/

namespace Shutter.Decide.Props
open Shutter.Crypto Shutter.Crypto.Spec Shutter.Dkg Shutter.Dkg.Spec Shutter.Observe Shutter.Decide Shutter.Decide.Spec Shutter.Main
open Shutter.Crypto.Props
open Shutter.App (Addr)
open Shutter.Events (Codecs)
open Shutter.Sol (World TxType NoneTakenBack)

variable {G1 G2 GT R : Type} [AddCommGroup G1] [AddCommGroup G2] [CommGroup GT] [DecidableEq G1] [DecidableEq G2] [DecidableEq GT]
variable {cx : Cfg G1 G2 GT R} {codecs : Codecs} {chain : Observe.Chain} {E : Sol.Env} {fd : Nat}
variable {s : Observe.Shutter} {st : State G1 G2} {mc : MainChain} {hist : Nat → World} {log : List (MainChain × List (Action G1 G2))}

/-- **C66** Whatever was on shuttermint, and whatever the other keypers did: a key that a keyper has for a batch belongs to an eon public
key that the keyper has voted for, for the batches from the first batch of an announced eon on. -/
theorem C66_right_key (law : Lawful cx.crypto) (fit : SlicesFit cx codecs chain) (l : Life cx codecs chain E fd s st mc hist log)
    {eon b : Nat} {key : G1} (hk : HasEonKey st eon b key) :
    ∃ start pk, Announced codecs chain eon start ∧ Broadcast log start pk ∧ IsEpochKey cx.crypto pk b key := by
  obtain ⟨ekg, he, rfl, hk⟩ := hk
  obtain ⟨ok, start, upTo, h1, h2, h3⟩ := (life_keys law fit l).ekgs ekg he
  refine ⟨start, _, h1, h3, ?_⟩
  rcases ok.kg with ⟨_, h0⟩ | ⟨P, hist, sh, inv, _⟩
  · rw [h0] at hk; cases hk
  · have := (inv.done b _ hk).1
    simp only [Option.some.injEq] at this
    exact ⟨_, sh.pk, this⟩

omit [DecidableEq G1] in
/-- **C66** It needs a quorum: a keyper only has the key if, of the keypers of the eon's config, at least as many as the threshold have put
their correct share of the key for the eon and the batch on shuttermint. The shares belong together: they are on a polynomial of a degree below the
threshold, whose value at zero is the secret of the eon public key the keyper has voted for. -/
theorem C66_quorum (law : Lawful cx.crypto) (fit : SlicesFit cx codecs chain) (l : Life cx codecs chain E fd s st mc hist log)
    {eon b : Nat} {key : G1} (hk : HasEonKey st eon b key) :
    ∃ start upTo keypers threshold pk P, Announced codecs chain eon start ∧
      configFor (chainEvents codecs chain 0 upTo) start = some (keypers, threshold) ∧ Broadcast log start pk ∧
      1 ≤ threshold ∧ P.length = threshold ∧ pk = secret P • cx.crypto.g2 ∧ key = secret P • epochIDOf cx.crypto b ∧
      ∃ senders : Finset Addr, threshold ≤ senders.card ∧ ∀ a ∈ senders, ∃ i n x sh, keypers[i]? = some a ∧
        x ∈ chainEvents codecs chain 0 n ∧ x.ev = .epochSecretKeyShare a eon b sh ∧ cx.share sh = polyValue P (i + 1) • epochIDOf cx.crypto b := by
  classical
  obtain ⟨ekg, he, rfl, hk⟩ := hk
  obtain ⟨ok, start, upTo, h1, h2, h3⟩ := (life_keys law fit l).ekgs ekg he
  rcases ok.kg with ⟨_, h0⟩ | ⟨P, hist, sh, inv, from_⟩
  · rw [h0] at hk; cases hk
  · have hd := inv.done b _ hk
    simp only [Option.some.injEq] at hd
    refine ⟨start, upTo, ekg.keypers, ekg.kg.threshold, _, P, h1, h2, h3, sh.pos, sh.len, sh.pk, hd.1, ?_⟩
    have key : ∀ i ∈ correctSenders cx.crypto (fun j => polyValue P (j + 1)) hist b, ∃ a, App.findAddressIndex ekg.keypers a = some i ∧
        ∃ j n x y, ekg.keypers[j]? = some a ∧ x ∈ chainEvents codecs chain 0 n ∧ x.ev = .epochSecretKeyShare a ekg.eon b y ∧
        cx.share y = polyValue P (j + 1) • epochIDOf cx.crypto b := by
      intro i hi
      simp only [correctSenders, List.mem_toFinset, List.mem_map, List.mem_filter, decide_eq_true_eq] at hi
      obtain ⟨m, ⟨hm, rfl, hsh⟩, rfl⟩ := hi
      obtain ⟨n, x, a, y, f1, f2, f3, f4⟩ := from_ m hm
      refine ⟨a, f3, m.sender, n, x, y, ?_, f1, f2, by rw [← f4, hsh]⟩
      rw [findAddressIndex_eq] at f3
      obtain ⟨h, h', _⟩ := List.idxOf?_eq_some_iff.1 f3
      rw [List.getElem?_eq_getElem h, h']
    choose! addr k5 k1 using key
    refine ⟨(correctSenders cx.crypto (fun j => polyValue P (j + 1)) hist b).image addr, ?_, ?_⟩
    · rw [Finset.card_image_of_injOn]
      · exact hd.2
      · intro i hi j hj hij
        have a1 := k5 i hi
        have a2 := k5 j hj
        rw [show addr i = addr j from hij, a2] at a1
        exact (Option.some.inj a1).symm
    · intro a ha
      obtain ⟨i, hi, rfl⟩ := Finset.mem_image.1 ha
      exact k1 i hi

/-- **C66** The key for an eon public key and a batch is unique. -/
theorem C66_unique (law : Lawful cx.crypto) {pk : G2} {b : Nat} {key key' : G1} (h : IsEpochKey cx.crypto pk b key)
    (h' : IsEpochKey cx.crypto pk b key') : key = key' := by
  obtain ⟨x, rfl, rfl⟩ := h
  obtain ⟨y, hxy, rfl⟩ := h'
  rw [← sub_eq_zero]
  apply law.nondegenerate
  have e : cx.crypto.pair cx.crypto.g2 (x • epochIDOf cx.crypto b - y • epochIDOf cx.crypto b) *
      cx.crypto.pair cx.crypto.g2 (y • epochIDOf cx.crypto b) = cx.crypto.pair cx.crypto.g2 (x • epochIDOf cx.crypto b) := by
    rw [← law.pair_add_right, sub_add_cancel]
  rw [law.pair_smul_right, law.pair_smul_right, ← law.pair_smul_left, ← law.pair_smul_left, hxy] at e
  exact mul_eq_right.1 e

/-- **C66** Two keypers with keys for the same eon and the same batch have the same key, provided no config for the first batch of the eon is
announced any more once the eon is announced. -/
theorem C66_keypers_agree {cx₁ cx₂ : Cfg G1 G2 GT R} (law : Lawful cx₁.crypto) (hL : 0 ≤ cx₁.phaseLength)
    (hlen : cx₂.phaseLength = cx₁.phaseLength) (hcr : cx₂.crypto = cx₁.crypto) (hga : cx₂.gammas = cx₁.gammas)
    (fit : SlicesFit cx₁ codecs chain) {s₁ s₂ : Observe.Shutter} {st₁ st₂ : State G1 G2}
    (h₁ : Reach cx₁ codecs chain s₁ st₁) (h₂ : Reach cx₂ codecs chain s₂ st₂) {eon b : Nat} {key₁ key₂ : G1}
    (k₁ : HasEonKey st₁ eon b key₁) (k₂ : HasEonKey st₂ eon b key₂)
    (settled : ∀ start S, Started (acted codecs chain st₁) eon start S → ConfigSettled codecs chain start S) : key₁ = key₂ := by
  have fit₂ : SlicesFit cx₂ codecs chain := by
    unfold SlicesFit
    rw [hga]
    exact fit
  have law₂ : Lawful cx₂.crypto := by rw [hcr]; exact law
  obtain ⟨_, log₁, ok₁⟩ := reach_keys law fit h₁
  obtain ⟨_, log₂, ok₂⟩ := reach_keys law₂ fit₂ h₂
  obtain ⟨e₁, m₁, rfl, k₁⟩ := k₁
  obtain ⟨e₂, m₂, he, k₂⟩ := k₂
  obtain ⟨d₁, n₁, q₁, f₁, r₁, c₁, p₁, _⟩ := ok₁.link e₁ m₁
  obtain ⟨d₂, n₂, q₂, f₂, r₂, c₂, p₂, _⟩ := ok₂.link e₂ m₂
  have hde : d₁.eon = d₂.eon := by rw [q₁, q₂, he]
  obtain ⟨hk, ht⟩ := C54_same_parameters hL (by omega) h₁ h₂ n₁ n₂ hde (by rw [q₁]; exact settled)
  have hpk := ((C54_agreement hL hlen hcr hga h₁ h₂ n₁ n₂ hde hk ht f₁ f₂).2 r₁ r₂ c₁ c₂).1
  have right : ∀ {cx : Cfg G1 G2 GT R} {e : EKG G1 G2} {key : G1}, EkgOk cx codecs chain e → e.kg.secretKeys b = some (some key) →
      IsEpochKey cx.crypto e.kg.publicKey b key := by
    intro cx e key ok hk
    rcases ok.kg with ⟨_, h0⟩ | ⟨P, hist, sh, inv, _⟩
    · rw [h0] at hk; cases hk
    · have := (inv.done b _ hk).1
      simp only [Option.some.injEq] at this
      exact ⟨_, sh.pk, this⟩
  have a₁ := right (ok₁.ekgs e₁ m₁).1 k₁
  have a₂ := right (ok₂.ekgs e₂ m₂).1 k₂
  rw [hcr, p₂, ← hpk, ← p₁] at a₂
  exact C66_unique law a₁ a₂

/-- **C66** When a keyper executes the encrypted part of a batch, its transactions are decrypted with the key that belongs to an eon public key
the keyper has voted for: every transaction that was encrypted correctly for the batch with this eon public key and accepted by the
batcher contract is executed. Missing: the eon need not be the one responsible for the batch (see `C66_other_eon_counterexample`), and what is
missing in `C40_cipher_partial`. -/
theorem C66_executed_partial (law : Lawful cx.crypto) (codecLaw : cx.codec.Lawful) (fit : SlicesFit cx codecs chain)
    (l : Life cx codecs chain E fd s st mc hist log) {mc' : MainChain} {acts : List (Action G1 G2)} (hm : (mc', acts) ∈ log)
    {b k gas : Nat} {hash : Bytes} {txs : List Bytes} (ha : .executeCipherBatch b hash txs k gas ∈ acts)
    (hn : NoneTakenBack hist mc'.currentBlock) (hf : (hist mc'.currentBlock).Fits b) :
    ∃ eon start pk e, e ≤ mc'.currentBlock ∧ Announced codecs chain eon start ∧ Broadcast log start pk ∧
      ((hist e).BatchOver b → (hist e).accepted b .cipher = (hist mc'.currentBlock).accepted b .cipher) ∧
      (∀ message sigma, let c := encrypt cx.crypto message pk (epochIDOf cx.crypto b) sigma
        cx.codec.inGroup c.C1 = true → marshalEncryptedMessage cx.codec c ∈ (hist e).accepted b .cipher → message ∈ txs) ∧
      ∀ tx ∈ txs, ∃ enc ∈ (hist e).accepted b .cipher, ∃ c key, unmarshalEncryptedMessage cx.codec none enc = some c ∧
        IsEpochKey cx.crypto pk b key ∧ decrypt cx.crypto c key = some tx := by
  obtain ⟨bc, start, stop, timeout, _, _, _, _, _, _, e, key, he, hk, hdec, sigs, _, _, hover⟩ := C40_cipher_partial l hm ha hn hf
  obtain ⟨ekg, hekg, hk⟩ := hk
  obtain ⟨first, pk, h1, h2, x, hx, hkey⟩ := C66_right_key law fit l (eon := ekg.eon) ⟨ekg, hekg, rfl, hk⟩
  have perm := C10_decryptTransactions_perm cx.crypto cx.codec cx.marshalKey cx.newSource cx.next ((hist e).accepted b .cipher) key
  rw [← hdec] at perm
  refine ⟨ekg.eon, first, pk, e, he, h1, h2, fun h => (hover h).1, ?_, ?_⟩
  · intro message sigma c hin hacc
    rw [perm.mem_iff, List.mem_filterMap]
    refine ⟨_, hacc, ?_⟩
    rw [C07_roundtrip cx.codec codecLaw none c hin, Option.bind_some, hkey]
    show decrypt cx.crypto (encrypt cx.crypto message pk (epochIDOf cx.crypto b) sigma) _ = _
    rw [hx]
    exact C01_encrypt_decrypt cx.crypto law x _ message sigma
  · intro tx htx
    rw [perm.mem_iff, List.mem_filterMap] at htx
    obtain ⟨enc, henc, hd⟩ := htx
    rw [Option.bind_eq_some_iff] at hd
    obtain ⟨c, hc, hd⟩ := hd
    exact ⟨enc, henc, c, key, hc, ⟨x, hx, hkey⟩, hd⟩

/-! ## Examples -/

section demo
open Shutter.Events Shutter.Events.Props

theorem chain_mem {codecs : Codecs} {chain : Observe.Chain} {hi : Int} {x : Stamped} (hx : x ∈ chainEvents codecs chain 0 hi) :
    0 ≤ x.height ∧ ∃ ev ∈ (chain x.height).flatten, makeEvent codecs ev = some x.ev := by
  unfold chainEvents at hx
  simp only [List.mem_flatMap, List.mem_filterMap, Option.map_eq_some_iff] at hx
  obtain ⟨i, _, ev, h1, e, hm, rfl⟩ := hx
  exact ⟨by simp, ev, h1, hm⟩

/-- The lists in an event are short. -/
def shortLists (cx : Cfg Zq Zq (Multiplicative Zq) Unit) (ev : App.Event) : Bool :=
  match ev with
  | .batchConfig _ _ keypers _ => keypers.length < 2 ^ 63
  | .polyCommitment _ _ gammas => (cx.gammas gammas).length < 2 ^ 63
  | _ => true

theorem fit_of {cx : Cfg Zq Zq (Multiplicative Zq) Unit} {chain : Observe.Chain} (n : Nat) (h0 : ∀ h : Int, n ≤ h → chain h = [])
    (h : ∀ i < n, (chain (i : Int)).flatten.all (fun ev => ((makeEvent demoCodecs ev).map (shortLists cx)).getD true) = true) :
    SlicesFit cx demoCodecs chain := by
  intro upTo x hx
  obtain ⟨h1, ev, hm, he⟩ := chain_mem hx
  have hn : x.height < n := by
    by_contra hc
    rw [h0 _ (by omega)] at hm
    cases hm
  have := h x.height.toNat (by omega)
  rw [show ((x.height.toNat : Nat) : Int) = x.height by omega, List.all_eq_true] at this
  have := this ev hm
  rw [he] at this
  simp only [Option.map_some, Option.getD_some] at this
  unfold shortLists at this
  cases hev : x.ev with
  | batchConfig a b c d => rw [hev] at this; simpa using this
  | polyCommitment a b c => rw [hev] at this; simpa using this
  | _ => trivial

theorem Demo.codec_lawful : Demo.codec.Lawful := by
  refine ⟨fun p => by simp [Demo.codec], fun p _ => ?_⟩
  show some (Zq.of (beNat (World.beBytes p.val 96))) = some p
  rw [Shutter.Crypto.beNat_beBytes, Nat.mod_eq_of_lt (lt_trans p.lt (by unfold order; norm_num))]
  congr 1
  exact Zq.ext' (Nat.mod_eq_of_lt p.lt)

theorem Demo.fit : SlicesFit Demo.cxA demoCodecs otherChain :=
  fit_of 14 (fun h hh => by
    unfold otherChain Demo.shuttermint
    simp only
    repeat rw [if_neg (by omega)]) (by decide +kernel)

/-- Has a keyper this key? -/
def hasKey (eon b : Nat) (key : Zq) (r : Run Zq Zq) : Bool :=
  r.st.ekgs.any (fun e => decide (e.eon = eon ∧ e.kg.secretKeys b = some (some key)))

theorem hasKey_mem {eon b : Nat} {key : Zq} {o : Option (Run Zq Zq)} (h : o.any (hasKey eon b key) = true) :
    ∃ r, o = some r ∧ HasEonKey r.st eon b key := by
  rw [Option.any_eq_true] at h
  obtain ⟨r, hr, hf⟩ := h
  unfold hasKey at hf
  simp only [List.any_eq_true, decide_eq_true_eq] at hf
  obtain ⟨e, he, h1, h2⟩ := hf
  exact ⟨r, hr, e, he, h1, h2⟩

/-- The rounds of keyper B. -/
def agreeB : Option (Run Zq Zq) := lifeRun Demo.cxB demoCodecs Demo.shares Demo.hist 3 [([.sync 2 2 false], [50]), ([.sync 9 9 false], [110])]

theorem agreeA_key : (Demo.runA 5).any (hasKey 1 0 ((8 : Nat) • epochIDOf zEnv 0)) = true := by decide +kernel
theorem agreeB_key : agreeB.any (hasKey 1 0 ((8 : Nat) • epochIDOf zEnv 0)) = true := by decide +kernel

/-- In the demo, both keypers get the key of eon 1 for batch 0; the hypotheses of the theorems above are met. -/
theorem C66_example : Lawful Demo.cxA.crypto ∧ SlicesFit Demo.cxA demoCodecs Demo.shares ∧
    (∃ r : Run Zq Zq, Life Demo.cxA demoCodecs Demo.shares Demo.env 3 r.s r.st r.mc Demo.hist r.log ∧
      HasEonKey r.st 1 0 ((8 : Nat) • epochIDOf zEnv 0)) ∧
    ∃ s₁ st₁ s₂ st₂, Reach Demo.cxA demoCodecs Demo.shares s₁ st₁ ∧ Reach Demo.cxB demoCodecs Demo.shares s₂ st₂ ∧
      HasEonKey st₁ 1 0 ((8 : Nat) • epochIDOf zEnv 0) ∧ HasEonKey st₂ 1 0 ((8 : Nat) • epochIDOf zEnv 0) ∧
      ∀ start S, Started (acted demoCodecs Demo.shares st₁) 1 start S → ConfigSettled demoCodecs Demo.shares start S := by
  obtain ⟨r, hr, h1⟩ := hasKey_mem agreeA_key
  obtain ⟨r', hr', h2⟩ := hasKey_mem agreeB_key
  have late : ∀ h : Int, 11 ≤ h → Demo.shares h = [] := fun h hh => by
    unfold Demo.shares Demo.shuttermint
    simp only
    repeat rw [if_neg (by omega)]
  refine ⟨zLawful, fit_of 11 (fun h hh => late h (by omega)) (by decide +kernel), ⟨r, Demo.runA_life hr, h1⟩, r.s, r.st, r'.s, r'.st,
    lifeRun_reach hr, lifeRun_reach hr', h1, h2, ?_⟩
  intro start S hS n x hx hlt b t ks c hev
  exfalso
  have one : ∀ (i : Nat), i < 11 → (Demo.shares (i : Int)).flatten.all (fun ev => match makeEvent demoCodecs ev with
      | some (.batchConfig ..) => decide (i = 1)
      | some (.eonStarted ..) => decide (i = 2)
      | _ => true) = true := by decide +kernel
  have key : ∀ {n : Int} {x : Stamped}, x ∈ chainEvents demoCodecs Demo.shares 0 n → (∀ {b t ks c}, x.ev = .batchConfig b t ks c → x.height = 1) ∧
      (∀ {e b}, x.ev = .eonStarted e b → x.height = 2) := by
    intro n x hx
    obtain ⟨x0, ev, hm, he⟩ := chain_mem hx
    have hn : x.height < 11 := by
      by_contra hc
      rw [late _ (by omega)] at hm
      cases hm
    have := one x.height.toNat (by omega)
    rw [show ((x.height.toNat : Nat) : Int) = x.height by omega, List.all_eq_true] at this
    have := this ev hm
    rw [he] at this
    constructor
    · intro b t ks c hev
      rw [hev] at this
      simp only [decide_eq_true_eq] at this
      omega
    · intro e b hev
      rw [hev] at this
      simp only [decide_eq_true_eq] at this
      omega
  have k1 := (key hx).1 hev
  obtain ⟨pre, post, hp, _⟩ := hS
  have k2 := (key (x := ⟨S, .eonStarted 1 start⟩) (by unfold acted at hp; rw [hp]; simp)).2 rfl
  simp only at k2
  omega

/-- **C66** The eon of the key a batch is decrypted with need not be the one responsible for the batch. In this life of a keyper, the
transaction accepted for batch 0 is encrypted with the key of eon 1, which the keyper has voted for, for all batches from 0 on; the keyper also has
a part in eon 2, for the batches from 5 on. Then one keyper of the second eon, who is no keyper of batch 0, puts
its share of the key of *its* eon for *batch 0* on shuttermint. The keyper decrypts the batch again, now with the key of the wrong eon, signs the
result, and executes the batch without the transaction. All hypotheses of the theorems above are met. -/
theorem C66_other_eon_counterexample : Lawful Demo.cxA.crypto ∧ Demo.cxA.codec.Lawful ∧ SlicesFit Demo.cxA demoCodecs otherChain ∧
    ∃ r : Run Zq Zq, Life Demo.cxA demoCodecs otherChain Demo.env 3 r.s r.st r.mc Demo.hist r.log ∧
      Broadcast r.log 0 (Zq.of 8) ∧ Broadcast r.log 5 (Zq.of 10) ∧
      HasEonKey r.st 1 0 ((8 : Nat) • epochIDOf zEnv 0) ∧ HasEonKey r.st 2 0 ((10 : Nat) • epochIDOf zEnv 0) ∧
      (∃ mc' acts, (mc', acts) ∈ r.log ∧ mc'.currentBlock = 111 ∧ .decryptionSignature 0 (Demo.signAs 1 Demo.sigHash) ∈ acts) ∧
      (∃ mc' acts, (mc', acts) ∈ r.log ∧ mc'.currentBlock = 113 ∧
        .executeCipherBatch 0 (World.chainHashes Demo.env [Demo.cipherTx]) [] 0 0 ∈ acts) ∧
      (Demo.hist 113).accepted 0 .cipher =
        [marshalEncryptedMessage Demo.cxA.codec (encrypt zEnv Demo.message (Zq.of 8) (epochIDOf zEnv 0) Demo.sigma)] ∧
      NoneTakenBack Demo.hist 113 ∧ (Demo.hist 113).Fits 0 := by
  refine ⟨zLawful, Demo.codec_lawful, Demo.fit, ?_⟩
  have h := otherRun_facts
  rw [Option.any_eq_true] at h
  obtain ⟨r, hr, hf⟩ := h
  unfold otherFacts at hf
  simp only [Bool.and_eq_true, decide_eq_true_eq] at hf
  obtain ⟨f1, f2⟩ := hf
  rw [← List.map_drop] at f1
  have entry : ∀ (i : Nat) (x : Nat × List (Action Zq Zq)), ((r.log.drop 2).map (fun e => (e.1.currentBlock, e.2)))[i]? = some x →
      ∃ mc', (mc', x.2) ∈ r.log ∧ mc'.currentBlock = x.1 := by
    intro i x hx
    rw [List.getElem?_map, Option.map_eq_some_iff] at hx
    obtain ⟨e, he, rfl⟩ := hx
    exact ⟨e.1, List.mem_of_mem_drop (List.mem_of_getElem? he), rfl⟩
  rw [f1] at entry
  obtain ⟨m0, a0, _⟩ := entry 0 _ rfl
  obtain ⟨m1, a1, b1⟩ := entry 1 _ rfl
  obtain ⟨m3, a3, b3⟩ := entry 3 _ rfl
  have key : ∀ (i : Nat) (x : Nat × Option (Option Zq)), (r.st.ekgs.map (fun e => (e.eon, e.kg.secretKeys 0)))[i]? = some x →
      ∃ e ∈ r.st.ekgs, e.eon = x.1 ∧ e.kg.secretKeys 0 = x.2 := by
    intro i x hx
    rw [List.getElem?_map, Option.map_eq_some_iff] at hx
    obtain ⟨e, he, rfl⟩ := hx
    exact ⟨e, List.mem_of_getElem? he, rfl, rfl⟩
  rw [f2] at key
  exact ⟨r, lifeRun_life Demo.chain hr, ⟨m0, _, 0, a0, by simp⟩, ⟨m0, _, 0, a0, by simp⟩, key 0 _ rfl, key 1 _ rfl,
    ⟨m1, _, a1, b1, by simp⟩, ⟨m3, _, a3, b3, by simp⟩, Demo.hash113.1, noneTakenBack_of (by decide +kernel), Demo.fits113⟩

end demo

end Shutter.Decide.Props
