import Verif.Proofs.Exec
import Verif.Model.Ecdsa

/-! # Which accusations and appeals a keyper makes -/

namespace Shutter.Decide
open Shutter.Crypto Shutter.Dkg Shutter.Observe Shutter.Main Shutter.GoConfig
open Shutter.Events (Codecs)
open Shutter.Sol (BatchConfig zeroHash World two64 NoneTakenBack Responsible)

variable {G1 G2 GT R : Type}

/-- What it takes for an appeal. -/
def AppealTurn (mc : MainChain) (batches : List (Nat × Batch)) (a : Action G1 G2) : Prop :=
  ∃ key acc receipt b config l cs, mc.accusations key = some acc ∧ acc.appealed = false ∧ mc.receipts acc.halfStep = some receipt ∧
    batches.lookup (acc.halfStep / 2) = some b ∧ receipt.batchHash = b.decryptedBatchHash ∧
    configForBatchIndex mc b.batchIndex = some (some config) ∧ config.threshold ≤ b.verifiedSignatures.length ∧
    b.verifiedSignatures.mapM (fun e => (keyperIndex config e.1).map (fun i => (i, e.2))) = some l ∧
    (l.mergeSort (fun x y => decide (x.1 ≤ y.1))).mapM (fun s => toContractFormat s.2) = some cs ∧
    a = .appeal ⟨acc.halfStep, b.decryptedBatchHash, (l.mergeSort (fun x y => decide (x.1 ≤ y.1))).map Prod.fst, cs⟩

theorem appealStep_turn {mc : MainChain} {d d' : Decider G1 G2} {key : Nat} (h : appealStep mc d key = some d') :
    d'.actions = d.actions ∨ ∃ a, d'.actions = d.actions ++ [a] ∧ AppealTurn mc d.st.batches a := by
  unfold appealStep at h
  split at h
  · cases h; exact .inl rfl
  · next acc hacc =>
    split at h
    · cases h; exact .inl rfl
    · next happ =>
      split at h
      · cases h; exact .inl rfl
      · split at h
        · cases h; exact .inl rfl
        · next receipt hr =>
          split at h
          · cases h; exact .inl rfl
          · next b hb =>
            split at h
            · cases h; exact .inl rfl
            · next hh =>
              split at h
              · cases h
              · cases h; exact .inl rfl
              · next sigs hs =>
                rw [Option.map_eq_some_iff] at h
                obtain ⟨cs, hcs, rfl⟩ := h
                unfold sortedSignatures at hs
                split at hs
                · cases hs
                · cases hs
                · next config hc =>
                  split at hs
                  · cases hs
                  · next ht =>
                    rw [Option.some.injEq, Option.map_eq_some_iff] at hs
                    obtain ⟨l, hl, rfl⟩ := hs
                    exact .inr ⟨_, rfl, key, acc, receipt, b, config, l, cs, hacc, by simpa using happ, hr, hb, by simpa using hh, hc,
                      by omega, hl, hcs, rfl⟩

/-- What it takes for an accusation. -/
def AccuseTurn (cx : Cfg G1 G2 GT R) (mc : MainChain) (batches : List (Nat × Batch)) (a : Action G1 G2) : Prop :=
  ∃ halfStep receipt b config, halfStep % 2 = 0 ∧ halfStep < mc.numHalfSteps ∧ mc.receipts halfStep = some receipt ∧
    batches.lookup (halfStep / 2) = some b ∧ b.decryptedBatchHash ≠ receipt.batchHash ∧ mc.accusations halfStep = none ∧
    configForBatchIndex mc (halfStep / 2) = some (some config) ∧
    a = .accuse halfStep ((keyperIndex config (addrNat cx.own)).getD 0)

theorem accuseStep_turn {cx : Cfg G1 G2 GT R} {mc : MainChain} {d d' : Decider G1 G2} {halfStep : Nat} (hlt : halfStep < mc.numHalfSteps)
    (h : accuseStep cx mc d halfStep = some d') :
    d'.actions = d.actions ∨ ∃ a, d'.actions = d.actions ++ [a] ∧ AccuseTurn cx mc d.st.batches a := by
  unfold accuseStep at h
  split at h
  · cases h; exact .inl rfl
  · next heven =>
    split at h
    · cases h; exact .inl rfl
    · next receipt hr =>
      split at h
      · cases h; exact .inl rfl
      · next b hb =>
        split at h
        · cases h; exact .inl rfl
        · next hne =>
          split at h
          · cases h; exact .inl rfl
          · next hacc =>
            split at h
            · cases h
            · cases h; exact .inl rfl
            · next config hc =>
              cases h
              exact .inr ⟨_, rfl, halfStep, receipt, b, config, by simpa using heven, hlt, hr, hb, hne, by simpa using hacc, hc, rfl⟩

theorem foldlM_inv_mem {α β : Type} (P : β → Prop) (f : β → α → Option β) : ∀ (l : List α) (b b' : β),
    (∀ b x b', x ∈ l → f b x = some b' → P b → P b') → l.foldlM f b = some b' → P b → P b' := by
  intro l
  induction l with
  | nil =>
    intro b b' _ h hb
    simp only [List.foldlM_nil, Option.pure_def, Option.some.injEq] at h
    subst h; exact hb
  | cons x l ih =>
    intro b b' hf h hb
    rw [List.foldlM_cons] at h
    simp only [Option.bind_eq_bind, Option.bind_eq_some_iff] at h
    obtain ⟨b1, h1, h2⟩ := h
    exact ih b1 b' (fun b y b' hy => hf b y b' (List.mem_cons_of_mem _ hy)) h2 (hf b x b1 List.mem_cons_self h1 hb)

theorem appeal_turns {mc : MainChain} {keys : List Nat} {d d' : Decider G1 G2} (h : maybeAppeal mc keys d = some d') :
    ∀ a ∈ d'.actions, a ∈ d.actions ∨ AppealTurn mc d.st.batches a := by
  unfold maybeAppeal at h
  refine (foldlM_option_inv (fun x => x.st.batches = d.st.batches ∧ ∀ a ∈ x.actions, a ∈ d.actions ∨ AppealTurn mc d.st.batches a) _ ?_ _ _ _ h
    ⟨rfl, fun a ha => .inl ha⟩).2
  intro b k b' hb hp
  refine ⟨by rw [(appealStep_stage hb).2]; exact hp.1, fun a ha => ?_⟩
  rcases appealStep_turn hb with h1 | ⟨a', h1, h2⟩
  · rw [h1] at ha; exact hp.2 a ha
  · rw [h1, List.mem_append, List.mem_singleton] at ha
    rcases ha with ha | rfl
    · exact hp.2 a ha
    · rw [hp.1] at h2; exact .inr h2

theorem accuse_turns {cx : Cfg G1 G2 GT R} {mc : MainChain} {d d' : Decider G1 G2} (h : maybeAccuse cx mc d = some d') :
    ∀ a ∈ d'.actions, a ∈ d.actions ∨ AccuseTurn cx mc d.st.batches a := by
  unfold maybeAccuse at h
  rw [Option.map_eq_some_iff] at h
  obtain ⟨d1, h, rfl⟩ := h
  refine (foldlM_inv_mem (fun x => x.st.batches = d.st.batches ∧ ∀ a ∈ x.actions, a ∈ d.actions ∨ AccuseTurn cx mc d.st.batches a) _ _ _ _ ?_ h
    ⟨rfl, fun a ha => .inl ha⟩).2
  intro b k b' hk hb hp
  refine ⟨by rw [(accuseStep_stage hb).2]; exact hp.1, fun a ha => ?_⟩
  rw [List.mem_range'_1] at hk
  rcases accuseStep_turn (by omega) hb with h1 | ⟨a', h1, h2⟩
  · rw [h1] at ha; exact hp.2 a ha
  · rw [h1, List.mem_append, List.mem_singleton] at ha
    rcases ha with ha | rfl
    · exact hp.2 a ha
    · rw [hp.1] at h2; exact .inr h2

/-- Only half steps that have not been checked before are accused. -/
theorem accuse_new {cx : Cfg G1 G2 GT R} {mc : MainChain} {d d' : Decider G1 G2} (h : maybeAccuse cx mc d = some d') {half k : Nat}
    (hm : .accuse half k ∈ d'.actions) : .accuse half k ∈ d.actions ∨ d.st.halfStepsChecked ≤ half := by
  unfold maybeAccuse at h
  rw [Option.map_eq_some_iff] at h
  obtain ⟨d1, h, rfl⟩ := h
  refine foldlM_inv_mem (fun x => .accuse half k ∈ x.actions → .accuse half k ∈ d.actions ∨ d.st.halfStepsChecked ≤ half) _ _ _ _ ?_ h .inl hm
  intro b i b' hi hb hp ha
  rw [List.mem_range'_1] at hi
  rcases accuseStep_turn (by omega) hb with h1 | ⟨a', h1, h2⟩
  · rw [h1] at ha; exact hp ha
  · rw [h1, List.mem_append, List.mem_singleton] at ha
    rcases ha with ha | rfl
    · exact hp ha
    · unfold accuseStep at hb
      split at hb
      · cases hb; simp at h1
      · split at hb
        · cases hb; simp at h1
        · split at hb
          · cases hb; simp at h1
          · split at hb
            · cases hb; simp at h1
            · split at hb
              · cases hb; simp at h1
              · split at hb
                · cases hb
                · cases hb; simp at h1
                · cases hb
                  simp only [Decider.add, List.append_cancel_left_eq, List.cons.injEq, Action.accuse.injEq] at h1
                  right
                  omega

theorem foldlM_reaches {α β : Type} (Q P : β → Prop) (f : β → α → Option β) (x : α) (hq : ∀ b y b', f b y = some b' → Q b → Q b')
    (hkeep : ∀ b y b', f b y = some b' → P b → P b') (hx : ∀ b b', Q b → f b x = some b' → P b') :
    ∀ (l : List α) (b b' : β), x ∈ l → l.foldlM f b = some b' → Q b → P b' := by
  intro l
  induction l with
  | nil => simp
  | cons y l ih =>
    intro b b' hm h hb
    rw [List.foldlM_cons] at h
    simp only [Option.bind_eq_bind, Option.bind_eq_some_iff] at h
    obtain ⟨b1, h1, h2⟩ := h
    rw [List.mem_cons] at hm
    rcases hm with rfl | hm
    · exact foldlM_option_inv P f (fun b y b' => hkeep b y b') l b1 b' h2 (hx b b1 hb h1)
    · exact ih b1 b' hm h2 (hq b y b1 h1 hb)

/-- A half step that was executed differently is accused. -/
theorem accuse_complete {cx : Cfg G1 G2 GT R} {mc : MainChain} {d d' : Decider G1 G2} (h : maybeAccuse cx mc d = some d') {half : Nat}
    {receipt : Sol.Receipt} {b : Batch} {config : BatchConfig} (h1 : d.st.halfStepsChecked ≤ half) (h2 : half < mc.numHalfSteps)
    (heven : half % 2 = 0) (hr : mc.receipts half = some receipt) (hb : d.st.batches.lookup (half / 2) = some b)
    (hne : b.decryptedBatchHash ≠ receipt.batchHash) (hacc : mc.accusations half = none)
    (hc : configForBatchIndex mc (half / 2) = some (some config)) :
    .accuse half ((keyperIndex config (addrNat cx.own)).getD 0) ∈ d'.actions := by
  unfold maybeAccuse at h
  rw [Option.map_eq_some_iff] at h
  obtain ⟨d1, h, rfl⟩ := h
  refine foldlM_reaches (fun x => x.st = d.st) (fun x => .accuse half ((keyperIndex config (addrNat cx.own)).getD 0) ∈ x.actions)
    _ half ?_ ?_ ?_ _ _ _ (by rw [List.mem_range'_1]; omega) h rfl
  · intro x i x' hx hs
    rw [(accuseStep_stage hx).2, hs]
  · intro x i x' hx hm
    unfold accuseStep at hx
    split at hx
    · cases hx; exact hm
    · split at hx
      · cases hx; exact hm
      · split at hx
        · cases hx; exact hm
        · split at hx
          · cases hx; exact hm
          · split at hx
            · cases hx; exact hm
            · split at hx
              · cases hx
              · cases hx; exact hm
              · cases hx; exact List.mem_append_left _ hm
  · intro x x' hs hx
    unfold accuseStep at hx
    rw [if_neg (by omega)] at hx
    rw [hr] at hx
    simp only [hs, hb, if_neg hne, hacc, hc] at hx
    simp only [Option.isSome_none, Bool.false_eq_true, if_false, Option.some.injEq] at hx
    subst hx
    simp [Decider.add]

variable [AddCommGroup G1] [AddCommGroup G2] [DecidableEq G2] [DecidableEq GT]
variable {cx : Cfg G1 G2 GT R} {codecs : Codecs} {chain : Observe.Chain} {E : Sol.Env} {fd : Nat}

/-- The accusations and appeals of one round. -/
def DisputeRound (cx : Cfg G1 G2 GT R) (V : MainChain → Prop) (K : Nat → G1 → Prop) (mc : MainChain) (acts : List (Action G1 G2)) : Prop :=
  ∃ batches, BatchesOk cx V K batches ∧
    (∀ a ∈ acts, a.kind = .appeal → AppealTurn mc batches a) ∧ (∀ a ∈ acts, a.kind = .accuse → AccuseTurn cx mc batches a)

theorem dispute_round {sh : Observe.Shutter} {mc : MainChain} {keys : List Nat} {st st' : State G1 G2} {acts : List (Action G1 G2)}
    {dkg sync pub sigs exec app acc : Decider G1 G2} {ekgs : List (EKG G1 G2)}
    (g : Stages cx sh mc keys st st' acts dkg sync pub sigs exec app acc ekgs) :
    (∀ a ∈ acts, a.kind = .appeal → AppealTurn mc st'.batches a) ∧ (∀ a ∈ acts, a.kind = .accuse → AccuseTurn cx mc st'.batches a) := by
  have e2 : app.st.batches = st'.batches := by
    rw [g.final]
    show app.st.batches = acc.st.batches
    rw [(accuse_stage g.hacc).2]
  have e1 : exec.st.batches = st'.batches := by
    rw [← e2]
    rw [(appeal_stage g.happ).2]
  have noexec : ∀ a ∈ exec.actions, a.kind ≠ .appeal ∧ a.kind ≠ .accuse := by
    have key : ∀ k, k = Kind.appeal ∨ k = Kind.accuse → exec.actions.filter (fun a => a.kind = k) = [] := by
      intro k hk
      have n1 : Kind.exec ≠ k := by rcases hk with rfl | rfl <;> decide
      have n2 : Kind.share ≠ k := by rcases hk with rfl | rfl <;> decide
      have n3 : Kind.signature ≠ k := by rcases hk with rfl | rfl <;> decide
      rw [(exec_stage g.hexec).1.filter_ne n1, (handleSigs_stage g.hsigs).1, (publish_emits g.hpub).1.filter_ne n2,
        (syncEKGs_stage g.hsync).1.filter_ne n3, List.filter_eq_nil_iff]
      intro a ha
      rcases g.hkind a ha with h | h | h <;> rcases hk with rfl | rfl <;> rw [h] <;> decide
    intro a ha
    have h1 := List.filter_eq_nil_iff.mp (key _ (.inl rfl)) a ha
    have h2 := List.filter_eq_nil_iff.mp (key _ (.inr rfl)) a ha
    exact ⟨by simpa using h1, by simpa using h2⟩
  constructor
  · intro a ha hk
    have : a ∈ acts.filter (fun a => a.kind = .appeal) := List.mem_filter.mpr ⟨ha, by simpa using hk⟩
    rw [g.filter .appeal] at this
    have ha' := (List.mem_filter.mp this).1
    rcases appeal_turns g.happ a ha' with h | h
    · exact absurd hk (noexec a h).1
    · rw [e1] at h; exact h
  · intro a ha hk
    rw [g.hacts] at ha
    rcases accuse_turns g.hacc a ha with h | h
    · rcases appeal_turns g.happ a h with h | h
      · exact absurd hk (noexec a h).2
      · obtain ⟨_, _, _, _, _, _, _, _, _, _, _, _, _, _, _, _, rfl⟩ := h
        cases hk
    · rw [e2] at h; exact h

theorem life_disputes {s : Observe.Shutter} {st : State G1 G2} {mc : MainChain} {hist : Nat → World}
    {log : List (MainChain × List (Action G1 G2))} (l : Life cx codecs chain E fd s st mc hist log) :
    ∀ e ∈ log, DisputeRound cx (fun v => Seen log v ∧ v.currentBlock ≤ e.1.currentBlock) (HasKey st) e.1 e.2 := by
  induction l with
  | init _ => simp
  | @round s s' st st' mc mc' hist hist' log ys keys acts l h1 h2 h3 h4 h5 h6 ih =>
    have mono : ∀ e, Seen log e → Seen (log ++ [(mc', acts)]) e := fun e ⟨a, ha⟩ => ⟨a, List.mem_append_left _ ha⟩
    intro e he
    rw [List.mem_append, List.mem_singleton] at he
    rcases he with he | rfl
    · obtain ⟨st2, g1, g2⟩ := ih e he
      exact ⟨st2, fun x hx => (g1 x hx).mono (fun v hv => ⟨mono v hv.1, hv.2⟩) (fun _ _ => hasKey_round h6), g2⟩
    · have hle := (life_observed (Life.round l h1 h2 h3 h4 h5 h6)).2
      have ih' : BatchesOk cx (fun v => Seen (log ++ [(mc', acts)]) v ∧ v.currentBlock ≤ mc'.currentBlock) (HasKey st') st.batches :=
        fun x hx => (life_batches l x hx).mono (fun v hv => ⟨mono v hv, by
          obtain ⟨a, ha⟩ := mono v hv
          exact (hle (v, a) ha).2⟩) (fun _ _ => hasKey_round h6)
      rcases decide_stages h6 with ⟨rfl, rfl⟩ | ⟨_, _, _, _, _, _, _, _, g⟩
      · exact ⟨st'.batches, ih', by simp, by simp⟩
      · exact ⟨st'.batches, (batches_round g ih' ⟨⟨acts, by simp⟩, le_refl _⟩ (fun e he => he.2) (fun _ _ h => h)).1, dispute_round g⟩
  | restart f _ ih =>
    intro e he
    have := ih e he
    unfold loadState
    split <;> exact this

/-- How far a keyper has checked. -/
theorem life_checked {s : Observe.Shutter} {st : State G1 G2} {mc : MainChain} {hist : Nat → World}
    {log : List (MainChain × List (Action G1 G2))} (l : Life cx codecs chain E fd s st mc hist log) {n : Nat}
    (hn : ∀ e ∈ log, e.1.nodeSynced = true → e.1.numHalfSteps ≤ n) : st.halfStepsChecked ≤ n := by
  induction l with
  | init _ => exact Nat.zero_le _
  | @round s s' st st' mc mc' hist hist' log ys keys acts l h1 h2 h3 h4 h5 h6 ih =>
    rcases decide_stages h6 with ⟨rfl, rfl⟩ | ⟨_, _, _, _, _, _, _, _, g⟩
    · exact ih (fun e he => hn e (List.mem_append_left _ he))
    · rw [g.final]
      show State.halfStepsChecked (Decider.st _) ≤ n
      rw [(accuse_stage g.hacc).2]
      exact hn (mc', acts) (by simp) g.ready.2.1
  | @restart s st mc hist log f l ih =>
    show (loadState s st).halfStepsChecked ≤ n
    unfold loadState
    split
    · exact ih hn
    · exact ih hn

/-- A round accuses everything executed differently that has not been checked before. -/
theorem accuse_round_complete {sh : Observe.Shutter} {mc : MainChain} {keys : List Nat} {st st' : State G1 G2} {acts : List (Action G1 G2)}
    (hd : decideStep cx sh mc keys st = some (st', acts)) (ready : isSynced sh = true ∧ mc.nodeSynced = true ∧ isKeyper sh cx.own = true)
    {half : Nat} {receipt : Sol.Receipt} {b : Batch} {config : BatchConfig} (h1 : st.halfStepsChecked ≤ half) (h2 : half < mc.numHalfSteps)
    (heven : half % 2 = 0) (hr : mc.receipts half = some receipt) (hb : st'.batches.lookup (half / 2) = some b)
    (hne : b.decryptedBatchHash ≠ receipt.batchHash) (hacc : mc.accusations half = none)
    (hc : configForBatchIndex mc (half / 2) = some (some config)) :
    .accuse half ((keyperIndex config (addrNat cx.own)).getD 0) ∈ acts := by
  obtain ⟨_, _, _, _, _, app, acc, _, g⟩ := decide_ready hd ready.1 ready.2.1 ready.2.2
  have e2 : app.st.batches = st'.batches := by
    rw [g.final]
    show app.st.batches = acc.st.batches
    rw [(accuse_stage g.hacc).2]
  rw [g.hacts]
  exact accuse_complete g.hacc (by rw [g.checked]; exact h1) h2 heven hr (by rw [e2]; exact hb) hne hacc hc

/-- What was checked before is not accused. -/
theorem accuse_round_new {sh : Observe.Shutter} {mc : MainChain} {keys : List Nat} {st st' : State G1 G2} {acts : List (Action G1 G2)}
    (hd : decideStep cx sh mc keys st = some (st', acts)) {half k : Nat} (hm : .accuse half k ∈ acts) : st.halfStepsChecked ≤ half := by
  rcases decide_stages hd with ⟨rfl, rfl⟩ | ⟨dkg, sync, pub, sigs, exec, app, acc, ekgs, g⟩
  · simp at hm
  · rw [g.hacts] at hm
    rcases accuse_new g.hacc hm with h | h
    · exfalso
      have : (.accuse half k : Action G1 G2) ∈ app.actions.filter (fun a => a.kind = .accuse) := List.mem_filter.mpr ⟨h, by simp [Action.kind]⟩
      have hn : app.actions.filter (fun a => a.kind = .accuse) = [] := by
        rw [(appeal_stage g.happ).1.filter_ne (by decide), (exec_stage g.hexec).1.filter_ne (by decide), (handleSigs_stage g.hsigs).1,
          (publish_emits g.hpub).1.filter_ne (by decide), (syncEKGs_stage g.hsync).1.filter_ne (by decide), List.filter_eq_nil_iff]
        intro a ha
        rcases g.hkind a ha with h | h | h <;> rw [h] <;> decide
      rw [hn] at this
      simp at this
    · rw [g.checked] at h; exact h

/-- A keyper that knows any config knows the one of each batch. -/
theorem config_found {mc : MainChain} {hist : Nat → World} (o : Observed E fd false mc hist) (hn : NoneTakenBack hist mc.currentBlock)
    (hne : mc.configs ≠ []) {b : Nat} {bc : BatchConfig} {st e t : Nat} (hB : (hist mc.currentBlock).HasBatch b bc st e t) :
    configForBatchIndex mc b = some (some (known bc)) := by
  have hi := (o.chain.reach o.current).preach.inv
  obtain ⟨i, h1, h2, h3⟩ := hB
  have hr := (hi.lookup_iff b i).1 h1
  have hspan : 0 < bc.batchSpan := by
    unfold Sol.Config.scheduledConfig at h2
    unfold Sol.Config.batchBoundaryBlocks at h3
    simp only [Option.bind_eq_bind, Option.bind_eq_some_iff] at h2 h3
    obtain ⟨_, _, h2⟩ := h2
    simp [h2, Sol.require_eq_some] at h3
    omega
  have hsch : (hist mc.currentBlock).config.scheduled[i]? = some bc := by
    obtain ⟨⟨x, hx, _⟩, _⟩ := hr
    unfold Sol.Config.scheduledConfig at h2
    simp only [Option.bind_eq_bind, Option.bind_eq_some_iff] at h2
    obtain ⟨_, _, h2⟩ := h2
    rw [Sol.Config.configs_get (Sol.get_lt hx), hx] at h2
    cases h2; exact hx
  rcases configView o hn with hv | hv
  · exact absurd hv hne
  · have hk : mc.configs[i]? = some (known bc) := by rw [hv, List.getElem?_map, hsch]; rfl
    have hf : (List.range mc.configs.length).reverse.find?
        (fun i => (mc.configs[i]?).any (fun c => decide (c.startBatchIndex ≤ b))) = some i := by
      have g := Sol.last_find mc.configs (fun c => decide (c.startBatchIndex ≤ b))
      obtain ⟨⟨x, hx, hxb⟩, hlast⟩ := hr
      rw [hsch] at hx
      cases hx
      cases hc : (List.range mc.configs.length).reverse.find? (fun i => (mc.configs[i]?).any (fun c => decide (c.startBatchIndex ≤ b))) with
      | none =>
        rw [hc] at g
        have := g _ (List.mem_of_getElem? hk)
        exact absurd hxb (of_decide_eq_false this)
      | some k =>
        rw [hc] at g
        obtain ⟨⟨c, g1, g2⟩, g3⟩ := g
        rcases Nat.lt_trichotomy k i with hlt | rfl | hlt
        · have := g3 i _ hlt hk
          exact absurd hxb (of_decide_eq_false this)
        · rfl
        · rw [hv, List.getElem?_map, Option.map_eq_some_iff] at g1
          obtain ⟨y, hy, rfl⟩ := g1
          have := hlast k y hlt hy
          have g2 := of_decide_eq_true g2
          exact absurd this (by simpa [known] using g2)
    unfold configForBatchIndex configIndexForBatchIndex
    rw [hf]
    simp only [hk]
    have : isActive (known bc) = true := by simpa [isActive, known] using hspan
    simp [this, hk]

theorem Stages.configs {sh : Observe.Shutter} {mc : MainChain} {keys : List Nat} {st st' : State G1 G2} {acts : List (Action G1 G2)}
    {dkg sync pub sigs exec app acc : Decider G1 G2} {ekgs : List (EKG G1 G2)}
    (g : Stages cx sh mc keys st st' acts dkg sync pub sigs exec app acc ekgs) : mc.configs ≠ [] := by
  intro hc
  have h := g.hexec
  simp [maybeExecuteBatch, activeConfig, activeConfigIndex, hc] at h

theorem appealed_prim {tame : Bool} {w w' : Sol.World} (p : Sol.Prim tame E w w') {h : Nat}
    (ha : (w.slasher.accusations h).accused = true ∧ (w.slasher.accusations h).appealed = true) :
    (w'.slasher.accusations h).accused = true ∧ (w'.slasher.accusations h).appealed = true := by
  refine ⟨(Sol.accused_prim p ha.1).1, ?_⟩
  obtain ⟨ha, hb⟩ := ha
  cases p
  case accused h' _ _ _ _ _ hn _ _ _ _ _ =>
    have : h ≠ h' := by rintro rfl; simp [ha] at hn
    simp [World.emit, Sol.upd, this, hb]
  case appealed a _ _ _ =>
    by_cases he : h = a.halfStep
    · subst he; simp [World.emit, Sol.upd]
    · simp [World.emit, Sol.upd, he, hb]
  case slashedMark h' _ _ =>
    by_cases he : h = h'
    · subst he; simp [World.emit, Sol.upd, hb]
    · simp [World.emit, Sol.upd, he, hb]
  all_goals exact hb

theorem appealed_later' {tame : Bool} {w w' : Sol.World} (l : Sol.PLater tame E w w') {h : Nat}
    (ha : (w.slasher.accusations h).accused = true ∧ (w.slasher.accusations h).appealed = true) :
    (w'.slasher.accusations h).accused = true ∧ (w'.slasher.accusations h).appealed = true := by
  induction l with
  | refl => exact ha
  | @tail x y l p ih =>
    cases p with
    | mine => exact ih
    | prim p => exact appealed_prim p ih

end Shutter.Decide
