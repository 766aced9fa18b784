import Verif.Spec.Keys
import Verif.Proofs.Batches
import Verif.Proofs.DriverParams
import Verif.Proofs.EpochKG
import Verif.Props.Dkg

/-! The keys of a keyper over its life. -/

namespace Shutter.Decide
open Shutter.Crypto Shutter.Crypto.Spec Shutter.Dkg Shutter.Observe Shutter.Main Shutter.Decide.Spec
open Shutter.App (Addr findAddressIndex)
open Shutter.Events (Codecs makeEvent parseUint)
open Shutter.Observe.Props
open Shutter.Sol (World)

variable {G1 G2 GT R : Type}

/-! ## The chain -/

theorem parseUint_lt {t : Events.Text} {n : Nat} (h : parseUint t = some n) : n < 2 ^ 64 := by
  unfold parseUint at h
  split at h
  · cases h
  · split at h
    · cases h
    · split at h
      · next hlt => cases h; exact hlt
      · cases h

theorem makeEvent_threshold {codecs : Codecs} {ev : Events.AbciEvent} {b t i : Nat} {ks : List Addr}
    (h : makeEvent codecs ev = some (.batchConfig b t ks i)) : t < 2 ^ 64 := by
  unfold makeEvent at h
  split at h
  · split at h
    · simp only [Option.bind_eq_bind, Option.bind_eq_some_iff, Option.pure_def, Option.some.injEq, reduceCtorEq, and_false, exists_false] at h
    · cases h
  · split at h
    · split at h
      · simp only [Option.bind_eq_bind, Option.bind_eq_some_iff, Option.pure_def, Option.some.injEq, App.Event.batchConfig.injEq] at h
        obtain ⟨_, _, t', ht, _, _, _, _, _, rfl, _⟩ := h
        exact parseUint_lt ht
      · cases h
    · repeat' split at h
      all_goals first
        | cases h; done
        | (simp only [Option.bind_eq_bind, Option.bind_eq_some_iff, Option.pure_def, Option.some.injEq, reduceCtorEq, and_false, exists_false] at h)

theorem chain_threshold {codecs : Codecs} {chain : Observe.Chain} {lo hi : Int} {x : Stamped} (hx : x ∈ chainEvents codecs chain lo hi)
    {b t i : Nat} {ks : List Addr} (he : x.ev = .batchConfig b t ks i) : t < 2 ^ 64 := by
  unfold chainEvents at hx
  simp only [List.mem_flatMap, List.mem_filterMap, Option.map_eq_some_iff] at hx
  obtain ⟨_, _, ev, _, e, hm, rfl⟩ := hx
  simp only at he
  subst he
  exact makeEvent_threshold hm

/-- The config in force was announced. -/
theorem configFor_mem {evs : List Stamped} {b t : Nat} {ks : List Addr} (h : configFor evs b = some (ks, t)) :
    ∃ x ∈ evs, ∃ start i, start ≤ b ∧ x.ev = .batchConfig start t ks i := by
  unfold configFor at h
  have := List.mem_of_getLast? h
  rw [List.mem_filterMap] at this
  obtain ⟨x, hx, he⟩ := this
  refine ⟨x, hx, ?_⟩
  split at he
  · next start thr keypers i hev =>
    split at he
    · next hle => cases he; exact ⟨start, i, hle, hev⟩
    · cases he
  · cases he

/-- What the view of an eon returns was on the chain. -/
theorem query_mem {codecs : Codecs} {chain : Observe.Chain} {ys : List LoopStep} {s : Observe.Shutter}
    (h : runLoop codecs chain newShutter ys = some s) {eon : Nat} {x : Eon} (hx : findEon s eon = some x) {k : Observe.Kind} {from_ : Int}
    {y : Stamped} (hy : y ∈ x.query k from_) : y ∈ chainEvents codecs chain 0 s.currentBlock ∧ eonMessage y.ev = some (k, eon) := by
  obtain ⟨thr, b0, inv⟩ := runLoop_inv_some h
  obtain ⟨hm, rfl⟩ := (findEon_eq_some inv.inc).1 hx
  rw [x.query_eq, getFrom_eq_filter (inv.listSorted hm k)] at hy
  have hy := (inv.lsub x hm k).mem (List.mem_filter.1 hy).1
  refine ⟨(messages_sublist _ _ _).mem hy, ?_⟩
  unfold messages at hy
  simpa using (List.mem_filter.1 hy).2

section
variable [AddCommGroup G2] [DecidableEq G2]

/-! ## The key generations -/

/-- A key generation of a keyper: its eon, keypers and threshold were announced, and its commitments are slices. -/
structure DkgOk (own : Addr) (codecs : Codecs) (chain : Observe.Chain) (dkg : DKG G2) : Prop where
  announced : Announced codecs chain dkg.eon dkg.startBatchIndex
  config : ∃ upTo, configFor (chainEvents codecs chain 0 upTo) dkg.startBatchIndex = some (dkg.keypers, dkg.pure.state.threshold)
  num : dkg.pure.state.numKeypers = dkg.keypers.length
  eon : dkg.pure.state.eon = dkg.eon
  index : findAddressIndex dkg.keypers own = some dkg.pure.state.keyper
  commits : ∀ d c, HasCommit dkg.pure.state d c → c.length < 2 ^ 63

theorem run_commits (env : Crypto.Env G1 G2 GT) {ops : List (Op G2)} {w w' : Dkg.World G2} (h : Dkg.run env w ops = some w')
    (hops : ∀ m, Op.commitment m ∈ ops → m.gammas.length < 2 ^ 63) (hw : ∀ d c, HasCommit w.state d c → c.length < 2 ^ 63) :
    ∀ d c, HasCommit w'.state d c → c.length < 2 ^ 63 := by
  refine run_induct env (fun x => ∀ d c, HasCommit x.state d c → c.length < 2 ^ 63) ops w w' hw ?_ h
  intro a op b ho ha hb d c hc
  simp only [exec, Option.map_eq_some_iff] at hb
  obtain ⟨o, hs, rfl⟩ := hb
  rcases ((step_spec env a.state op o hs).commit d c).1 hc with hc | ⟨_, m, rfl, _, rfl⟩
  · exact ha d c hc
  · exact hops m ho

theorem commitmentOf_gammas {p : Params G2} {x : Stamped} {m : PolyCommitmentMsg G2} (h : Op.commitment m ∈ commitmentOf p x) :
    ∃ sender eon gs, x.ev = .polyCommitment sender eon gs ∧ m.gammas = p.gammas gs := by
  unfold commitmentOf at h
  split at h
  · next sender eon gs hx =>
    split at h
    · simp only [Option.mem_toList, Option.map_eq_some_iff, Op.commitment.injEq] at h
      obtain ⟨i, _, rfl⟩ := h
      exact ⟨sender, eon, gs, hx, rfl⟩
    · simp at h
  · simp at h

theorem no_commitment {p : Params G2} {x : Stamped} {m : PolyCommitmentMsg G2} :
    Op.commitment m ∉ evalsOf p x ∧ Op.commitment m ∉ accusationsOf p x ∧ Op.commitment m ∉ apologiesOf p x := by
  refine ⟨?_, ?_, ?_⟩
  · unfold evalsOf
    split
    · split <;> simp
    · simp
  · unfold accusationsOf
    split
    · split <;> simp
    · simp
  · unfold apologiesOf
    split
    · split <;> simp
    · simp

theorem handleDKG_ok {cx : Cfg G1 G2 GT R} {codecs : Codecs} {chain : Observe.Chain} (fit : SlicesFit cx codecs chain) {ys : List LoopStep}
    {sh : Observe.Shutter} (hv : runLoop codecs chain newShutter ys = some sh) {h : Int} {a b : DKG G2} {ekgs : List (EKG G1 G2)}
    {acts : List (Action G1 G2)} (ok : DkgOk cx.own codecs chain a) (hr : handleDKG cx sh h a = some (b, ekgs, acts)) : DkgOk cx.own codecs chain b := by
  obtain ⟨sd, sp⟩ := handleDKG_params hr
  refine ⟨by rw [sd.eon, sd.sbi]; exact ok.announced, by rw [sd.sbi, sd.keypers, sp.thr]; exact ok.config,
    by rw [sp.num, sd.keypers]; exact ok.num, by rw [sp.eon, sd.eon]; exact ok.eon,
    by rw [sp.keyper, sd.keypers]; exact ok.index, ?_⟩
  rcases handleDKG_calls hr with ⟨_, rfl⟩ | ⟨_, eon, b', ac, he, hs, hp, hd⟩
  · exact ok.commits
  · obtain ⟨hc, _⟩ := syncDKG_calls hs
    rw [hp]
    refine run_commits _ hc.1 ?_ ok.commits
    intro m hm
    simp only [List.mem_append, List.mem_flatMap] at hm
    have none1 : ∀ (c : Prop) [Decidable c] (op : Op G2), (∀ m, op ≠ .commitment m) → Op.commitment m ∉ (if c then [op] else []) := by
      intro c _ op hne
      split
      · simpa using (hne m).symm
      · simp
    rcases hm with ((((((h1 | ⟨x, hx, h1⟩) | ⟨x, hx, h1⟩) | h1) | ⟨x, hx, h1⟩) | h1) | ⟨x, hx, h1⟩) | h1
    · exact absurd h1 (none1 _ _ (by simp))
    · obtain ⟨sender, e, gs, hev, hg⟩ := commitmentOf_gammas h1
      have := fit _ x (query_mem hv he hx).1
      rw [hev] at this
      rw [hg]
      exact this
    · exact absurd h1 no_commitment.1
    · exact absurd h1 (none1 _ _ (by simp))
    · exact absurd h1 no_commitment.2.1
    · exact absurd h1 (none1 _ _ (by simp))
    · exact absurd h1 no_commitment.2.2
    · exact absurd h1 (none1 _ _ (by simp))

theorem startDKG_ok {cx : Cfg G1 G2 GT R} {codecs : Codecs} {chain : Observe.Chain} {ys : List LoopStep} {sh : Observe.Shutter}
    (hv : runLoop codecs chain newShutter ys = some sh) {eon : Eon} (he : eon ∈ sh.eons) {dkg : DKG G2} (hs : startDKG cx sh eon = some dkg) :
    DkgOk cx.own codecs chain dkg := by
  obtain ⟨thr, b0, inv⟩ := runLoop_inv_some hv
  unfold startDKG at hs
  simp only [Option.map_eq_some_iff] at hs
  obtain ⟨k, hk, rfl⟩ := hs
  refine ⟨⟨sh.currentBlock, eon.startHeight, (inv.started _ _ _).1 ⟨eon, he, rfl, rfl, rfl⟩⟩, ⟨sh.currentBlock, ?_⟩, rfl, rfl, hk, ?_⟩
  · have e := findBatchConfig_eq sh _ eon.startBatchIndex inv.configs
    show configFor (seenEvents codecs chain sh) _ = _
    cases hc : configFor (seenEvents codecs chain sh) eon.startBatchIndex with
    | none =>
      rw [hc, Option.getD_none, Prod.mk.injEq] at e
      rw [e.1] at hk
      cases hk
    | some c =>
      rw [hc, Option.getD_some] at e
      rw [← e]
      rfl
  · intro d c hc
    simp only [HasCommit, newWorld, newPureDKG, List.getElem?_replicate] at hc
    split at hc <;> simp at hc

/-- A key generation with result: the joint polynomial. -/
structure Shares (env : Crypto.Env G1 G2 GT) (keypers : List Addr) (threshold : Nat) (pk : G2) (pks : List G2) (P : List Nat) : Prop where
  len : P.length = threshold
  pos : 1 ≤ threshold
  pk : pk = secret P • env.g2
  num : pks.length = keypers.length
  pks : ∀ j (h : j < pks.length), pks[j] = polyValue P (j + 1) • env.g2

end

section
variable [AddCommGroup G1] [AddCommGroup G2] [CommGroup GT] [DecidableEq G1] [DecidableEq G2] [DecidableEq GT]

theorem sizes {cx : Cfg G1 G2 GT R} {codecs : Codecs} {chain : Observe.Chain} (fit : SlicesFit cx codecs chain) {upTo : Int} {b t : Nat}
    {ks : List Addr} (h : configFor (chainEvents codecs chain 0 upTo) b = some (ks, t)) : t < 2 ^ 64 ∧ ks.length < 2 ^ 63 := by
  obtain ⟨x, hx, start, i, _, hev⟩ := configFor_mem h
  have := fit _ x hx
  rw [hev] at this
  exact ⟨chain_threshold hx hev, this⟩

/-! ## The epoch keys -/

/-- A share that was on the chain. -/
def FromChain (cx : Cfg G1 G2 GT R) (codecs : Codecs) (chain : Observe.Chain) (eon : Nat) (keypers : List Addr) (m : EpochShare G1) : Prop :=
  ∃ upTo x a sh, x ∈ chainEvents codecs chain 0 upTo ∧ x.ev = .epochSecretKeyShare a eon m.epoch sh ∧
    findAddressIndex keypers a = some m.sender ∧ m.share = cx.share sh

/-- The keys of an EKG are right. -/
structure EkgOk (cx : Cfg G1 G2 GT R) (codecs : Codecs) (chain : Observe.Chain) (ekg : EKG G1 G2) : Prop where
  size : ekg.keypers.length < 2 ^ 63
  kgEon : ekg.kg.eon = ekg.eon
  index : findAddressIndex ekg.keypers cx.own = some ekg.kg.keyper
  share : ekg.kg.publicKeyShares[ekg.kg.keyper]? = some (ekg.kg.secretKeyShare • cx.crypto.g2)
  kg : (ekg.kg.threshold = 0 ∧ ∀ k, ekg.kg.secretKeys k = none) ∨
    ∃ P hist, Shares cx.crypto ekg.keypers ekg.kg.threshold ekg.kg.publicKey ekg.kg.publicKeyShares P ∧
      KGInv cx.crypto P ekg.kg.publicKeyShares hist ekg.kg ∧ ∀ m ∈ hist, FromChain cx codecs chain ekg.eon ekg.keypers m

/-- What stays the same in an EKG. -/
structure SameEkg (a b : EKG G1 G2) : Prop where
  eon : b.eon = a.eon
  keypers : b.keypers = a.keypers
  thr : b.kg.threshold = a.kg.threshold
  pk : b.kg.publicKey = a.kg.publicKey
  pks : b.kg.publicKeyShares = a.kg.publicKeyShares
  kgEon : b.kg.eon = a.kg.eon
  index : b.kg.keyper = a.kg.keyper
  sks : b.kg.secretKeyShare = a.kg.secretKeyShare

omit [AddCommGroup G1] [AddCommGroup G2] [CommGroup GT] [DecidableEq G1] [DecidableEq G2] [DecidableEq GT] in
theorem SameEkg.trans {a b c : EKG G1 G2} (h : SameEkg a b) (g : SameEkg b c) : SameEkg a c :=
  ⟨g.eon.trans h.eon, g.keypers.trans h.keypers, g.thr.trans h.thr, g.pk.trans h.pk, g.pks.trans h.pks,
    g.kgEon.trans h.kgEon, g.index.trans h.index, g.sks.trans h.sks⟩

omit [AddCommGroup G2] [CommGroup GT] [DecidableEq G1] [DecidableEq G2] in
theorem handleShare_same {env : Crypto.Env G1 G2 GT} {kg kg' : EpochKG G1 G2} {m : EpochShare G1} {ok : Bool}
    (h : kg.handleShare env m = some (kg', ok)) : kg'.threshold = kg.threshold ∧ kg'.publicKey = kg.publicKey ∧
      kg'.publicKeyShares = kg.publicKeyShares ∧ (kg'.eon = kg.eon ∧ kg'.keyper = kg.keyper ∧ kg'.secretKeyShare = kg.secretKeyShare) ∧ (kg.threshold = 0 → (∀ k, kg.secretKeys k = none) → ∀ k, kg'.secretKeys k = none) := by
  unfold EpochKG.handleShare at h
  split at h
  · cases h; exact ⟨rfl, rfl, rfl, ⟨rfl, rfl, rfl⟩, fun _ h => h⟩
  · split at h
    · cases h
    · split at h
      · cases h; exact ⟨rfl, rfl, rfl, ⟨rfl, rfl, rfl⟩, fun _ h => h⟩
      · simp only [Option.some.injEq] at h
        unfold EpochKG.addShare at h
        simp only at h
        split at h
        · cases h; exact ⟨rfl, rfl, rfl, ⟨rfl, rfl, rfl⟩, fun _ h => h⟩
        · split at h
          · cases h; exact ⟨rfl, rfl, rfl, ⟨rfl, rfl, rfl⟩, fun _ h => h⟩
          · next hlen =>
            cases h
            refine ⟨rfl, rfl, rfl, ⟨rfl, rfl, rfl⟩, fun h0 => ?_⟩
            simp [h0] at hlen

theorem shareEvent_ekg {cx : Cfg G1 G2 GT R} (law : Lawful cx.crypto) {codecs : Codecs} {chain : Observe.Chain}
    {sh : Observe.Shutter} {mc : MainChain} {ekg ekg' : EKG G1 G2} {d d' : Decider G1 G2} {x : Stamped} {upTo : Int}
    (hx : x ∈ chainEvents codecs chain 0 upTo) (hxe : eonMessage x.ev = some (.share, ekg.eon)) (ok : EkgOk cx codecs chain ekg)
    (hs : handleShareEvent cx sh mc ekg d x = some (ekg', d')) : EkgOk cx codecs chain ekg' ∧ SameEkg ekg ekg' := by
  have refl : EkgOk cx codecs chain ekg ∧ SameEkg ekg ekg := ⟨ok, rfl, rfl, rfl, rfl, rfl, rfl, rfl, rfl⟩
  unfold handleShareEvent at hs
  split at hs
  · next sender eon epoch share hev =>
    split at hs
    · cases hs; exact refl
    · next i hi =>
      split at hs
      · cases hs; exact refl
      · simp only [Option.bind_eq_bind, Option.bind_eq_some_iff, Prod.exists] at hs
        obtain ⟨kg, ok', hh, hs⟩ := hs
        have heon : eon = ekg.eon := by
          rw [hev] at hxe
          simp only [eonMessage, Option.some.injEq, Prod.mk.injEq, true_and] at hxe
          exact hxe
        obtain ⟨s1, s2, s3, ⟨t1, t2, t3⟩, s4⟩ := handleShare_same hh
        have key : EkgOk cx codecs chain { ekg with kg := kg } ∧ SameEkg ekg { ekg with kg := kg } := by
          refine ⟨⟨ok.size, t1.trans ok.kgEon, by rw [t2]; exact ok.index, by rw [s3, t2, t3]; exact ok.share, ?_⟩, rfl, rfl, s1, s2, s3, t1, t2, t3⟩
          rcases ok.kg with ⟨h0, hn⟩ | ⟨P, hist, hP, inv, hf⟩
          · left
            exact ⟨s1.trans h0, s4 h0 hn⟩
          · right
            refine ⟨P, hist ++ [⟨eon, epoch, i, cx.share share⟩], ⟨hP.len.trans s1.symm, by rw [s1]; exact hP.pos, by rw [s2]; exact hP.pk, by rw [s3]; exact hP.num, ?_⟩, ?_, ?_⟩
            · rw [s3]; exact hP.pks
            · rw [s3]
              exact kg_step cx.crypto law P _ hP.pks (by rw [hP.num]; exact le_of_lt ok.size) hist ekg.kg kg _ ok' inv hh
            · intro m hm
              rcases List.mem_append.1 hm with hm | hm
              · exact hf m hm
              · simp only [List.mem_singleton] at hm
                subst hm
                exact ⟨upTo, x, sender, share, hx, by rw [hev, heon], hi, rfl⟩
        split at hs
        · cases hs; exact key
        · split at hs
          · simp only [Option.bind_eq_some_iff] at hs
            obtain ⟨t, _, hs⟩ := hs
            split at hs
            · cases hs; exact key
            · rw [Option.map_eq_some_iff] at hs
              obtain ⟨d1, h1, hs⟩ := hs
              cases hs
              exact key
          · cases hs; exact key
  · cases hs; exact refl

theorem syncEKG_ekg {cx : Cfg G1 G2 GT R} (law : Lawful cx.crypto) {codecs : Codecs} {chain : Observe.Chain} {sh : Observe.Shutter}
    {mc : MainChain} {upTo : Int} : ∀ {xs : List Stamped} {ekg ekg' : EKG G1 G2} {d d' : Decider G1 G2},
    (∀ x ∈ xs, x ∈ chainEvents codecs chain 0 upTo ∧ eonMessage x.ev = some (.share, ekg.eon)) → EkgOk cx codecs chain ekg →
    syncEKGWithEon cx sh mc ekg d xs = some (ekg', d') → EkgOk cx codecs chain ekg' ∧ SameEkg ekg ekg' := by
  intro xs
  induction xs with
  | nil => intro ekg ekg' d d' _ ok hs; cases hs; exact ⟨ok, rfl, rfl, rfl, rfl, rfl, rfl, rfl, rfl⟩
  | cons x xs ih =>
    intro ekg ekg' d d' hx ok hs
    simp only [syncEKGWithEon, Option.bind_eq_bind, Option.bind_eq_some_iff, Prod.exists] at hs
    obtain ⟨e1, d1, h1, h2⟩ := hs
    obtain ⟨ok1, s1⟩ := shareEvent_ekg law (hx x (by simp)).1 (hx x (by simp)).2 ok h1
    obtain ⟨ok2, s2⟩ := ih (fun y hy => by rw [s1.eon]; exact hx y (by simp [hy])) ok1 h2
    exact ⟨ok2, s1.trans s2⟩

theorem syncEKGs_ekg {cx : Cfg G1 G2 GT R} (law : Lawful cx.crypto) {codecs : Codecs} {chain : Observe.Chain} {ys : List LoopStep}
    {sh : Observe.Shutter} (hv : runLoop codecs chain newShutter ys = some sh) {mc : MainChain} :
    ∀ {l l' : List (EKG G1 G2)} {d d' : Decider G1 G2}, (∀ e ∈ l, EkgOk cx codecs chain e) →
    syncEKGs cx sh mc l d = some (l', d') → List.Forall₂ (fun a b => EkgOk cx codecs chain b ∧ SameEkg a b) l l' := by
  intro l
  induction l with
  | nil => intro l' d d' _ hs; cases hs; exact .nil
  | cons x l ih =>
    intro l' d d' ok hs
    simp only [syncEKGs, Option.bind_eq_bind, Option.bind_eq_some_iff, Prod.exists, Option.some.injEq, Prod.mk.injEq] at hs
    obtain ⟨eon, he, e1, d1, h1, l1, d2, h2, rfl, rfl⟩ := hs
    exact .cons (syncEKG_ekg law (fun y hy => query_mem (k := .share) hv he hy) (ok x (by simp)) h1)
      (ih (fun e h => ok e (by simp [h])) h2)

omit [AddCommGroup G1] [CommGroup GT] [DecidableEq G1] [DecidableEq GT] in
/-- An EKG comes from a finished key generation with a result, which is broadcast. -/
theorem handleDKG_ekg {cx : Cfg G1 G2 GT R} {sh : Observe.Shutter} {h : Int} {a b : DKG G2} {ekgs : List (EKG G1 G2)}
    {acts : List (Action G1 G2)} (hr : handleDKG cx sh h a = some (b, ekgs, acts)) {e : EKG G1 G2} (he : e ∈ ekgs) :
    ∃ res, computeResult cx.crypto b.pure.state = some res ∧ e = ⟨b.eon, b.keypers, newEpochKG res⟩ ∧
      .eonKeyBroadcast res.keyper b.startBatchIndex res.publicKey ∈ acts ∧ b.pure.state.phase = finalized := by
  unfold handleDKG at hr
  split at hr
  · cases hr; cases he
  · simp only [Option.bind_eq_bind, Option.bind_eq_some_iff, Prod.exists, Option.some.injEq] at hr
    obtain ⟨eon, _, b', e1, a1, h1, b2, a2, h2, hx⟩ := hr
    cases hx
    obtain ⟨q1, q2⟩ := sendPolyEvals_same h2
    simp only [syncDKGWithEon, Option.bind_eq_bind, Option.bind_eq_some_iff, Prod.exists] at h1
    obtain ⟨d1, a1, r1, d2, r2, d3, r3, d4, a2, r4, d5, r5, d6, a3, r6, d7, r7, h1⟩ := h1
    split at h1
    · rw [Option.map_eq_some_iff] at h1
      obtain ⟨r, hf, h1⟩ := h1
      simp only [Prod.mk.injEq] at h1
      obtain ⟨rfl, rfl, rfl⟩ := h1
      obtain ⟨hrun, sd⟩ := finalize_calls (b := r.1) (ekgs := r.2.1) (acts := r.2.2) hf
      have hph : r.1.pure.state.phase = finalized := by
        rw [run_cons] at hrun
        obtain ⟨w, hw, hrun⟩ := hrun
        cases hrun
        rw [(exec_fin _ hw).1]
      unfold dkgFinalize at hf
      rw [Option.map_eq_some_iff] at hf
      obtain ⟨o, ho, hf⟩ := hf
      split at hf
      · next hn => subst hf; cases he
      · next res hres =>
        subst hf
        simp only [List.mem_singleton] at he
        refine ⟨res, by rw [q1]; exact hres, ?_, ?_, by rw [q1]; exact hph⟩
        · rw [he, q2.eon, q2.keypers, sd.eon, sd.keypers]
        · rw [q2.sbi, sd.sbi]; simp
    · cases h1; cases he

omit [AddCommGroup G1] [CommGroup GT] [DecidableEq G1] [DecidableEq GT] in
theorem handleDKGs_ekg {cx : Cfg G1 G2 GT R} {sh : Observe.Shutter} {h : Int} : ∀ {l l' : List (DKG G2)} {ekgs : List (EKG G1 G2)}
    {acts : List (Action G1 G2)}, handleDKGs cx sh h l = some (l', ekgs, acts) → ∀ e ∈ ekgs,
    ∃ a ∈ l, ∃ b e1 a1, handleDKG cx sh h a = some (b, e1, a1) ∧ e ∈ e1 ∧ b ∈ l' ∧ ∀ x ∈ a1, x ∈ acts := by
  intro l
  induction l with
  | nil => intro l' ekgs acts hr e he; cases hr; cases he
  | cons a l ih =>
    intro l' ekgs acts hr e he
    simp only [handleDKGs, Option.bind_eq_bind, Option.bind_eq_some_iff, Prod.exists, Option.some.injEq] at hr
    obtain ⟨b, e1, a1, h1, l2, e2, a2, h2, hx⟩ := hr
    cases hx
    rcases List.mem_append.1 he with he | he
    · exact ⟨a, by simp, b, e1, a1, h1, he, by simp, fun x hx => by simp [hx]⟩
    · obtain ⟨a', ha', b', e1', a1', k1, k2, k3, k4⟩ := ih h2 e he
      exact ⟨a', by simp [ha'], b', e1', a1', k1, k2, by simp [k3], fun x hx => by simp [k4 x hx]⟩

/-! ## The life -/

/-- The EKG has the result of the finished key generation for its eon. -/
def Linked (cx : Cfg G1 G2 GT R) (dkgs : List (DKG G2)) (ekg : EKG G1 G2) : Prop :=
  ∃ dkg ∈ dkgs, dkg.eon = ekg.eon ∧ dkg.pure.state.phase = finalized ∧
    ∃ res, computeResult cx.crypto dkg.pure.state = some res ∧ ekg.kg.publicKey = res.publicKey ∧
      ekg.kg.publicKeyShares = res.publicKeyShares ∧ ekg.keypers = dkg.keypers

/-- The state of a keyper: its key generations and its keys. -/
structure KeysOk (cx : Cfg G1 G2 GT R) (codecs : Codecs) (chain : Observe.Chain) (st : State G1 G2)
    (log : List (MainChain × List (Action G1 G2))) : Prop where
  dkgs : ∀ dkg ∈ st.dkgs, DkgOk cx.own codecs chain dkg
  ekgs : ∀ ekg ∈ st.ekgs, EkgOk cx codecs chain ekg ∧ ∃ start upTo, Announced codecs chain ekg.eon start ∧
    configFor (chainEvents codecs chain 0 upTo) start = some (ekg.keypers, ekg.kg.threshold) ∧ Broadcast log start ekg.kg.publicKey
  link : ∀ ekg ∈ st.ekgs, Linked cx st.dkgs ekg

theorem newEkg_ok {cx : Cfg G1 G2 GT R} (law : Lawful cx.crypto) {codecs : Codecs} {chain : Observe.Chain}
    (fit : SlicesFit cx codecs chain) {b : DKG G2} {res : Result G2} (ok : DkgOk cx.own codecs chain b)
    (hres : computeResult cx.crypto b.pure.state = some res) : EkgOk cx codecs chain ⟨b.eon, b.keypers, newEpochKG res⟩ ∧
      ∃ upTo, configFor (chainEvents codecs chain 0 upTo) b.startBatchIndex = some (b.keypers, res.threshold) := by
  obtain ⟨upTo, hc⟩ := ok.config
  obtain ⟨s1, s2⟩ := sizes fit hc
  have hthr : res.threshold = b.pure.state.threshold := by
    obtain ⟨ces, _, _, _, rfl⟩ := computeResult_some _ _ _ hres
    rfl
  have hres' := computeResult_some _ _ _ hres
  have hmem : b.pure.state.keyper < b.pure.state.numKeypers := by
    have := ok.index
    rw [findAddressIndex_eq] at this
    rw [ok.num]
    exact (List.idxOf?_eq_some_iff.1 this).1
  have hshare := Dkg.Props.C14_result_consistent cx.crypto law _ res hres hmem
  obtain ⟨ces, _, _, _, hr⟩ := hres'
  have heon : res.eon = b.eon := by rw [hr]; exact ok.eon
  have hkey : res.keyper = b.pure.state.keyper := by rw [hr]
  clear hr
  refine ⟨⟨s2, heon, by show _ = some res.keyper; rw [hkey]; exact ok.index, hshare, ?_⟩, upTo, by rw [hthr]; exact hc⟩
  rcases Nat.eq_zero_or_pos b.pure.state.threshold with h0 | h0
  · exact .inl ⟨by show res.threshold = 0; rw [hthr, h0], fun _ => rfl⟩
  · right
    obtain ⟨hlen, P, h1, h2, h3⟩ := Dkg.Props.C14_joint_polynomial cx.crypto law _ res hres h0 s1
      (fun d c hc => lt_trans (ok.commits d c hc) (by norm_num))
    refine ⟨P, [], ⟨h1, by show 1 ≤ res.threshold; omega, h2, by show res.publicKeyShares.length = _; rw [hlen, ok.num], h3⟩,
      kg_init cx.crypto res P h1.symm (by omega), by simp⟩

theorem keys_round {cx : Cfg G1 G2 GT R} (law : Lawful cx.crypto) {codecs : Codecs} {chain : Observe.Chain}
    (fit : SlicesFit cx codecs chain) {ys : List LoopStep} {sh : Observe.Shutter} (hv : runLoop codecs chain newShutter ys = some sh)
    {mc : MainChain} {keys : List Nat} {st st' : State G1 G2} {acts : List (Action G1 G2)}
    {log : List (MainChain × List (Action G1 G2))} (ok : KeysOk cx codecs chain st log)
    (h : decideStep cx sh mc keys st = some (st', acts)) : KeysOk cx codecs chain st' (log ++ [(mc, acts)]) := by
  have more : ∀ start pk, Broadcast log start pk → Broadcast (log ++ [(mc, acts)]) start pk := by
    rintro start pk ⟨m, a, i, h1, h2⟩
    exact ⟨m, a, i, List.mem_append_left _ h1, h2⟩
  have ok0 : ∀ ekg ∈ st.ekgs, EkgOk cx codecs chain ekg ∧ ∃ start upTo, Announced codecs chain ekg.eon start ∧
      configFor (chainEvents codecs chain 0 upTo) start = some (ekg.keypers, ekg.kg.threshold) ∧
      Broadcast (log ++ [(mc, acts)]) start ekg.kg.publicKey := by
    intro ekg he
    obtain ⟨h1, start, upTo, h2, h3, h4⟩ := ok.ekgs ekg he
    exact ⟨h1, start, upTo, h2, h3, more _ _ h4⟩
  rcases decide_stages h with ⟨rfl, rfl⟩ | ⟨dkg, sync, pub, sigs, exec, app, acc, ekgs, g⟩
  · exact ⟨ok.dkgs, ok0, ok.link⟩
  · obtain ⟨xa, xb, xc, xd, xe, gst⟩ := g.hdkg
    have hst : st'.dkgs = dkg.st.dkgs := by
      have e0 : pub.st.dkgs = sync.st.dkgs := by rw [(publish_emits g.hpub).2]
      have e1 : sigs.st.dkgs = pub.st.dkgs := by rw [(handleSigs_stage g.hsigs).2]
      have e2 : exec.st.dkgs = sigs.st.dkgs := by rw [(exec_stage g.hexec).2]
      have e3 : app.st.dkgs = exec.st.dkgs := by rw [(appeal_stage g.happ).2]
      have e4 : acc.st.dkgs = app.st.dkgs := by rw [(accuse_stage g.hacc).2]
      have e5 : sync.st.dkgs = dkg.st.dkgs := by rw [(syncEKGs_stage g.hsync).2]
      rw [g.final]
      show acc.st.dkgs = _
      rw [e4, e3, e2, e1, e0, e5]
    have hf := g.hfirst
    simp only [decideDKGs, Option.bind_eq_bind, Option.bind_eq_some_iff, Prod.exists, Option.some.injEq] at hf
    obtain ⟨dkgs, new, a, hh, hd⟩ := hf
    have hk0 := (dkgPart_batchConfig sh mc (maybeSendCheckIn cx sh ⟨st, []⟩)).trans (dkgPart_checkIn cx sh ⟨st, []⟩)
    simp only [State.dkgPart, Prod.mk.injEq] at hk0
    have hek : (maybeSendBatchConfig sh mc (maybeSendCheckIn cx sh ⟨st, []⟩)).st.ekgs = st.ekgs := by
      rw [(batchConfig_stage sh mc _).2, (checkIn_stage cx sh _).2]
    obtain ⟨_, _, m3, _⟩ := maybeStartDKG_spec cx sh sh.eons (maybeSendBatchConfig sh mc (maybeSendCheckIn cx sh ⟨st, []⟩)).st.lastEonStarted
    have old : ∀ x ∈ (maybeSendBatchConfig sh mc (maybeSendCheckIn cx sh ⟨st, []⟩)).st.dkgs ++ (maybeStartDKG cx sh
        (maybeSendBatchConfig sh mc (maybeSendCheckIn cx sh ⟨st, []⟩)).st.lastEonStarted sh.eons).1, DkgOk cx.own codecs chain x := by
      intro x hx
      rcases List.mem_append.1 hx with hx | hx
      · have : x ∈ st.dkgs := by
          have := hk0
          simp_all
        exact ok.dkgs x this
      · obtain ⟨⟨e, he, _, hs⟩, _⟩ := m3 x hx
        exact startDKG_ok hv he hs
    have hdk : dkg.st.dkgs = dkgs := by rw [← hd]
    have hall := handleDKGs_spec hh
    have newok : ∀ x ∈ dkgs, DkgOk cx.own codecs chain x := by
      intro x hx
      obtain ⟨i, hi, rfl⟩ := List.mem_iff_getElem.1 hx
      obtain ⟨e, ac', hs, _⟩ := (List.forall₂_iff_get.1 hall).2 i (by have := hall.length_eq; omega) hi
      exact handleDKG_ok fit hv (old _ (List.getElem_mem _)) hs
    have hacts : ∀ x ∈ a, x ∈ acts := by
      intro x hx
      have hx' : x ∈ dkg.actions := by rw [← hd]; simp [hx]
      have hkind : x.kind = .keygen := handleDKGs_kind hh x hx
      have := g.filter .keygen
      simp only at this
      have hm : x ∈ dkg.actions.filter (fun a => a.kind = .keygen) := by simp [hx', hkind]
      rw [← this] at hm
      exact (List.mem_filter.1 hm).1
    have pre : ∀ ekg ∈ dkg.st.ekgs, EkgOk cx codecs chain ekg ∧ ∃ start upTo, Announced codecs chain ekg.eon start ∧
        configFor (chainEvents codecs chain 0 upTo) start = some (ekg.keypers, ekg.kg.threshold) ∧
        Broadcast (log ++ [(mc, acts)]) start ekg.kg.publicKey := by
      intro ekg he
      rw [← hd] at he
      simp only at he
      rw [hek] at he
      rcases List.mem_append.1 he with he | he
      · exact ok0 ekg he
      · obtain ⟨x, hx, b, e1, a1, k1, k2, k3, k4⟩ := handleDKGs_ekg hh ekg he
        obtain ⟨res, r1, rfl, r3, _⟩ := handleDKG_ekg k1 k2
        obtain ⟨n1, upTo, n2⟩ := newEkg_ok law fit (newok b k3) r1
        exact ⟨n1, b.startBatchIndex, upTo, (newok b k3).announced, n2, mc, acts, res.keyper, by simp, hacts _ (k4 _ r3)⟩
    have prelink : ∀ ekg ∈ dkg.st.ekgs, Linked cx dkgs ekg := by
      intro ekg he
      rw [← hd] at he
      simp only at he
      rw [hek] at he
      rcases List.mem_append.1 he with he | he
      · obtain ⟨x, hx, e1, e2, e3⟩ := ok.link ekg he
        have hx' : x ∈ (maybeSendBatchConfig sh mc (maybeSendCheckIn cx sh ⟨st, []⟩)).st.dkgs ++ (maybeStartDKG cx sh
            (maybeSendBatchConfig sh mc (maybeSendCheckIn cx sh ⟨st, []⟩)).st.lastEonStarted sh.eons).1 := by
          have := hk0
          simp_all
        obtain ⟨i, hi, rfl⟩ := List.mem_iff_getElem.1 hx'
        have hi' : i < dkgs.length := by have := hall.length_eq; omega
        obtain ⟨e, ac', hs, _⟩ := (List.forall₂_iff_get.1 hall).2 i hi hi'
        refine ⟨dkgs[i], List.getElem_mem _, ?_⟩
        simp only [List.get_eq_getElem] at hs
        rcases handleDKG_calls hs with ⟨_, hb⟩ | ⟨hne, _⟩
        · rw [hb]; exact ⟨e1, e2, e3⟩
        · exact absurd e2 hne
      · obtain ⟨x, hx, b, e1, a1, k1, k2, k3, k4⟩ := handleDKGs_ekg hh ekg he
        obtain ⟨res, r1, rfl, r3, r4⟩ := handleDKG_ekg k1 k2
        exact ⟨b, k3, rfl, r4, res, r1, rfl, rfl, rfl⟩
    refine ⟨fun x hx => newok x (by rw [hst, hdk] at hx; exact hx), ?_, ?_⟩
    rotate_left
    · intro ekg he
      rw [ekgs_final g] at he
      have hs := syncEKGs_ekg law hv (fun e he => (pre e he).1) g.hsync
      obtain ⟨i, hi, rfl⟩ := List.mem_iff_getElem.1 he
      obtain ⟨h1, h2⟩ := (List.forall₂_iff_get.1 hs).2 i (by have := hs.length_eq; omega) hi
      obtain ⟨x, hx, p1, p2, p3⟩ := prelink _ (List.getElem_mem (l := dkg.st.ekgs) (n := i) (by have := hs.length_eq; omega))
      simp only [List.get_eq_getElem] at h1 h2
      exact ⟨x, by rw [hst, hdk]; exact hx, by rw [h2.eon]; exact p1, p2, by rw [h2.pk, h2.pks, h2.keypers]; exact p3⟩
    intro ekg he
    rw [ekgs_final g] at he
    have hs := syncEKGs_ekg law hv (fun e he => (pre e he).1) g.hsync
    obtain ⟨i, hi, rfl⟩ := List.mem_iff_getElem.1 he
    obtain ⟨h1, h2⟩ := (List.forall₂_iff_get.1 hs).2 i (by have := hs.length_eq; omega) hi
    obtain ⟨_, start, upTo, p1, p2, p3⟩ := pre _ (List.getElem_mem (l := dkg.st.ekgs) (n := i) (by have := hs.length_eq; omega))
    simp only [List.get_eq_getElem] at h1 h2
    exact ⟨h1, start, upTo, by rw [h2.eon]; exact p1, by rw [h2.keypers, h2.thr]; exact p2, by rw [h2.pk]; exact p3⟩

omit [CommGroup GT] [DecidableEq G1] in
theorem life_view {cx : Cfg G1 G2 GT R} {codecs : Codecs} {chain : Observe.Chain} {E : Sol.Env} {fd : Nat} {s : Observe.Shutter}
    {st : State G1 G2} {mc : MainChain} {hist : Nat → World} {log : List (MainChain × List (Action G1 G2))}
    (l : Life cx codecs chain E fd s st mc hist log) : ∃ ys, runLoop codecs chain newShutter ys = some s := by
  induction l with
  | init _ => exact ⟨[], rfl⟩
  | round _ h1 _ _ _ _ _ ih =>
    obtain ⟨ys, hy⟩ := ih
    exact ⟨_, runLoop_append hy h1⟩
  | restart _ _ ih => exact ih

theorem life_keys {cx : Cfg G1 G2 GT R} (law : Lawful cx.crypto) {codecs : Codecs} {chain : Observe.Chain}
    (fit : SlicesFit cx codecs chain) {E : Sol.Env} {fd : Nat} {s : Observe.Shutter} {st : State G1 G2} {mc : MainChain} {hist : Nat → World}
    {log : List (MainChain × List (Action G1 G2))} (l : Life cx codecs chain E fd s st mc hist log) : KeysOk cx codecs chain st log := by
  induction l with
  | init _ => exact ⟨by simp [State.new], by simp [State.new], by simp [State.new]⟩
  | round l h1 _ _ _ _ h6 ih =>
    obtain ⟨ys, hy⟩ := life_view l
    exact keys_round law fit (runLoop_append hy h1) ih h6
  | restart f _ ih =>
    obtain ⟨h1, h2, h3⟩ := ih
    unfold loadState
    split
    · exact ⟨h1, h2, h3⟩
    · exact ⟨h1, h2, h3⟩

theorem reach_keys {cx : Cfg G1 G2 GT R} (law : Lawful cx.crypto) {codecs : Codecs} {chain : Observe.Chain}
    (fit : SlicesFit cx codecs chain) {s : Observe.Shutter} {st : State G1 G2} (r : Reach cx codecs chain s st) :
    (∃ ys, runLoop codecs chain newShutter ys = some s) ∧ ∃ log, KeysOk cx codecs chain st log := by
  induction r with
  | init => exact ⟨⟨[], rfl⟩, [], by simp [State.new], by simp [State.new], by simp [State.new]⟩
  | @round s s' st st' ys mc keys acts _ h1 _ h6 ih =>
    obtain ⟨⟨ys, hy⟩, log, ih⟩ := ih
    exact ⟨⟨_, runLoop_append hy h1⟩, _, keys_round law fit (runLoop_append hy h1) ih h6⟩
  | restart _ hn ih =>
    unfold loadState
    rw [hn]
    exact ih

end
end Shutter.Decide
