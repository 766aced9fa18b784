import Verif.Proofs.Batches
import Verif.Props.SolConfig
import Verif.Props.MainChain

/-! # Which half steps a keyper executes -/

namespace Shutter.Sol

/-- Calls of targets that make no calls themselves. -/
theorem runTargets_nil (E : Env) (w : World) (t : Address × Bytes) (txs : List Bytes) :
    (World.runTargets E w t txs []).executor = w.executor ∧ (World.runTargets E w t txs []).batcher = w.batcher := by
  rw [World.runTargets]
  induction txs generalizing w with
  | nil => exact ⟨rfl, rfl⟩
  | cons tx txs ih => exact ih _

theorem chainHashes_zero {E : Env} (hz : ∀ x, E.keccak x ≠ zeroHash) {txs : List Bytes} (h : World.chainHashes E txs = zeroHash) : txs = [] := by
  rcases List.eq_nil_or_concat txs with rfl | ⟨l, tx, rfl⟩
  · rfl
  · rw [World.chainHashes, List.concat_eq_append, List.foldl_append] at h
    exact absurd h (hz _)

end Shutter.Sol

namespace Shutter.Decide
open Shutter.Crypto Shutter.Dkg Shutter.Observe Shutter.Main Shutter.GoConfig
open Shutter.Sol (BatchConfig zeroHash World two64 NoneTakenBack Responsible)

variable {G1 G2 GT R : Type}

/-- What it takes for a half step to be executed or skipped. -/
inductive Turn (cx : Cfg G1 G2 GT R) (mc : MainChain) (st : State G1 G2) (h : Nat) (config : BatchConfig) (e delay : Nat) :
    Action G1 G2 → Prop
  | skip : h % 2 = 0 → wadd e config.executionTimeout ≤ mc.currentBlock →
      wadd (wadd e config.executionTimeout) delay ≤ mc.currentBlock → Turn cx mc st h config e delay (.skipCipherBatch (h / 2))
  | cipher {k : Nat} {b : Batch} : h % 2 = 0 → mc.currentBlock < wadd e config.executionTimeout → wadd e delay ≤ mc.currentBlock →
      keyperIndex config (addrNat cx.own) = some k → st.batches.lookup (h / 2) = some b →
      (b.isEmpty = true ∨ config.threshold ≤ b.verifiedSignatures.length) →
      Turn cx mc st h config e delay (.executeCipherBatch (h / 2) (mc.hash (h / 2) .cipher) b.decryptedTransactions k config.transactionGasLimit)
  | plain : h % 2 = 1 → wadd e delay ≤ mc.currentBlock → (keyperIndex config (addrNat cx.own)).isSome →
      Turn cx mc st h config e delay (.executePlainBatch (h / 2) (mc.txs (h / 2) .plain) config.transactionGasLimit)

theorem hash_getD (mc : MainChain) (b : Nat) : ((mc.batches b).getD Main.Batch.empty).encryptedBatchHash = mc.hash b .cipher := by
  unfold MainChain.hash
  cases mc.batches b <;> rfl

theorem txs_getD (mc : MainChain) (b : Nat) : ((mc.batches b).getD Main.Batch.empty).plainTransactions = mc.txs b .plain := by
  unfold MainChain.txs
  cases mc.batches b <;> rfl

theorem halfStep_turn {cx : Cfg G1 G2 GT R} {mc : MainChain} {st : State G1 G2} {h : Nat} {a : Action G1 G2}
    (hm : maybeExecuteHalfStep cx mc st h = some (some a)) : ∃ config delay e,
      configForBatchIndex mc (h / 2) = some (some config) ∧ executionDelay cx config h = some delay ∧
      batchEndBlock config (h / 2) = some e ∧ Turn cx mc st h config e delay a := by
  unfold maybeExecuteHalfStep at hm
  split at hm
  · cases hm
  · cases hm
  · next config hc =>
    simp only [Option.bind_eq_bind, Option.bind_eq_some_iff] at hm
    obtain ⟨delay, hd, e, he, hm⟩ := hm
    refine ⟨config, delay, e, hc, hd, he, ?_⟩
    split at hm
    · next h1 =>
      split at hm
      · next h2 => cases hm; exact .skip h1.1 h1.2 h2
      · cases hm
    · next h1 =>
      split at hm
      · cases hm
      · next h2 =>
        split at hm
        · next h3 =>
          split at hm
          · next h4 =>
            unfold executeCipherBatch at hm
            simp only at hm
            split at hm
            · cases hm
            · next k hk =>
              split at hm
              · cases hm
              · next b hb =>
                split at hm
                · cases hm
                · next h5 =>
                  cases hm
                  rw [hash_getD]
                  refine .cipher h4 (by omega) h3 hk hb ?_
                  by_cases hem : b.isEmpty = true
                  · exact .inl hem
                  · exact .inr (by simp only [not_and, Nat.not_lt] at h5; exact h5 (by simpa using hem))
          · next h4 =>
            cases hm
            unfold executePlainBatch
            rw [txs_getD]
            exact .plain (by omega) h3 (by rw [← Option.not_isNone, Bool.eq_false_iff.mpr h2]; rfl)
        · cases hm

/-- The half step of a turn. -/
theorem Turn.halfStep {cx : Cfg G1 G2 GT R} {mc : MainChain} {st : State G1 G2} {h e delay : Nat} {config : BatchConfig} {a : Action G1 G2}
    (t : Turn cx mc st h config e delay a) : a.halfStep? = some h := by
  cases t <;> simp only [Action.halfStep?, Option.some.injEq] <;> omega

theorem Turn.congr {cx : Cfg G1 G2 GT R} {mc : MainChain} {st st' : State G1 G2} {h e delay : Nat} {config : BatchConfig} {a : Action G1 G2}
    (t : Turn cx mc st h config e delay a) (hs : st.batches = st'.batches) : Turn cx mc st' h config e delay a := by
  cases t with
  | skip h1 h2 h3 => exact .skip h1 h2 h3
  | cipher h1 h2 h3 h4 h5 h6 => exact .cipher h1 h2 h3 h4 (hs ▸ h5) h6
  | plain h1 h2 h3 => exact .plain h1 h2 h3

theorem kind_of_halfStep {a : Action G1 G2} {h : Nat} (hh : a.halfStep? = some h) : a.kind = .exec := by
  cases a <;> simp [Action.halfStep?] at hh <;> rfl

theorem halfStepsOf_filter (l : List (Action G1 G2)) : halfStepsOf l = halfStepsOf (l.filter (fun a => a.kind = .exec)) := by
  unfold halfStepsOf
  rw [List.filterMap_filter]
  congr 1
  funext a
  cases a <;> rfl

theorem numHalfSteps_le (n b : Nat) : numHalfStepsToExecute n b ≤ 10 := by
  unfold numHalfStepsToExecute
  split_ifs <;> omega

variable [AddCommGroup G1] [AddCommGroup G2] [DecidableEq G2] [DecidableEq GT]
variable {cx : Cfg G1 G2 GT R} {codecs : Events.Codecs} {chain : Observe.Chain} {E : Sol.Env} {fd : Nat}

/-- The half steps of a round. -/
theorem exec_round {sh : Observe.Shutter} {mc : MainChain} {keys : List Nat} {st st' : State G1 G2} {acts : List (Action G1 G2)}
    {dkg sync pub sigs exec app acc : Decider G1 G2} {ekgs : List (EKG G1 G2)}
    (g : Stages cx sh mc keys st st' acts dkg sync pub sigs exec app acc ekgs) :
    ∃ new : List (Action G1 G2), acts.filter (fun a => a.kind = .exec) = new ∧ new.length ≤ 10 ∧
      ∀ (j : Nat) a, new[j]? = some a → ∃ config delay e, configForBatchIndex mc ((mc.numHalfSteps + j) / 2) = some (some config) ∧
        executionDelay cx config (mc.numHalfSteps + j) = some delay ∧ batchEndBlock config ((mc.numHalfSteps + j) / 2) = some e ∧
        Turn cx mc st' (mc.numHalfSteps + j) config e delay a := by
  have e1 : exec.st.batches = st'.batches := by
    rw [g.final]
    show exec.st.batches = acc.st.batches
    rw [(accuse_stage g.hacc).2]
    show exec.st.batches = app.st.batches
    rw [(appeal_stage g.happ).2]
  have hb : sigs.st.batches = exec.st.batches := by rw [(exec_stage g.hexec).2]
  have hsig : sigs.actions.filter (fun a => a.kind = .exec) = [] := by
    have e1 := (syncEKGs_stage g.hsync).1
    have e2 := (publish_emits g.hpub).1
    rw [(handleSigs_stage g.hsigs).1, e2.filter_ne (by decide), e1.filter_ne (by decide), List.filter_eq_nil_iff]
    intro a ha
    rcases g.hkind a ha with h | h | h <;> rw [h] <;> simp
  rw [g.filter .exec]
  simp only
  have h := g.hexec
  unfold maybeExecuteBatch at h
  simp only [Option.bind_eq_bind, Option.bind_eq_some_iff] at h
  obtain ⟨config, _, h⟩ := h
  split at h
  · cases h; exact ⟨[], hsig, by simp, by simp⟩
  · simp only [Option.bind_eq_some_iff] at h
    obtain ⟨_, _, h⟩ := h
    split at h
    · cases h; exact ⟨[], hsig, by simp, by simp⟩
    · obtain ⟨_, new, g1, g2, g3, _⟩ := executeLoop_stage h
      refine ⟨new, ?_, le_trans g2 (numHalfSteps_le _ _), fun j a hj => ?_⟩
      · rw [g1, List.filter_append, hsig, List.nil_append, List.filter_eq_self]
        intro a ha
        obtain ⟨j, hj⟩ := List.getElem?_of_mem ha
        obtain ⟨p, hp⟩ := g3 j a hj
        simpa using halfStep_kind hp
      · obtain ⟨p, hp⟩ := g3 j a hj
        obtain ⟨c, delay, e, k1, k2, k3, k4⟩ := halfStep_turn hp
        exact ⟨c, delay, e, k1, k2, k3, k4.congr (hb.trans e1)⟩

/-- The delay is at most the execution timeout. -/
theorem executionDelay_le {cx : Cfg G1 G2 GT R} {config : BatchConfig} {h delay : Nat} (hlen : config.keypers.length ≤ 2 ^ 63)
    (hd : executionDelay cx config h = some delay) : delay ≤ config.executionTimeout ∧ config.keypers.length ≠ 0 := by
  unfold executionDelay at hd
  simp only [Option.bind_eq_some_iff] at hd
  obtain ⟨m, hm, hd⟩ := hd
  split at hd
  · cases hd
  · next h0 =>
    refine ⟨?_, h0⟩
    cases hd
    have hdiv : (config.keypers.length + (two64 - 1)) % two64 = config.keypers.length - 1 := by
      unfold two64
      omega
    rw [hdiv] at hm
    obtain ⟨n, hn⟩ : ∃ n, config.keypers.length = n + 1 := ⟨config.keypers.length - 1, by omega⟩
    rw [hn] at hm hlen ⊢
    simp only [Nat.add_sub_cancel] at hm
    refine le_trans (Nat.mod_le _ _) ?_
    have hst : (if cx.staggering ≥ m then m else cx.staggering) ≤ m := by split <;> omega
    refine le_trans (Nat.mul_le_mul_left _ hst) ?_
    have hlt : wadd h ((keyperIndex config (addrNat cx.own)).getD 0) % (n + 1) ≤ n := by
      have := Nat.mod_lt (wadd h ((keyperIndex config (addrNat cx.own)).getD 0)) (show 0 < n + 1 by omega)
      omega
    refine le_trans (Nat.mul_le_mul_right _ hlt) ?_
    split at hm
    · next hz => subst hz; simp
    · next hz =>
      have h2 : wmul 2 n = 2 * n := by
        unfold wmul two64
        exact Nat.mod_eq_of_lt (by omega)
      rw [h2, if_neg (by omega)] at hm
      cases hm
      rw [← Nat.div_div_eq_div_mul]
      exact le_trans (Nat.mul_div_le _ _) (Nat.div_le_self _ _)

/-- The config the keyper takes for a batch is the one of the contract. -/
theorem config_of {mc : MainChain} {hist : Nat → World} (o : Observed E fd false mc hist) (hn : NoneTakenBack hist mc.currentBlock) {b : Nat} {config : BatchConfig}
    (hc : configForBatchIndex mc b = some (some config)) :
    ∃ i bc, Responsible (hist mc.currentBlock).config i b ∧ (hist mc.currentBlock).config.scheduled[i]? = some bc ∧
      config = known bc ∧ 0 < bc.batchSpan := by
  unfold configForBatchIndex at hc
  rw [Option.map_eq_some_iff] at hc
  obtain ⟨o', h1, h2⟩ := hc
  rw [Option.bind_eq_some_iff] at h2
  obtain ⟨i, rfl, hi⟩ := h2
  unfold configIndexForBatchIndex at h1
  split at h1
  · cases h1
  · next i' hf =>
    split at h1
    · next hact =>
      cases h1
      have g := Sol.last_find mc.configs (fun c => decide (c.startBatchIndex ≤ b))
      rw [hf] at g
      obtain ⟨⟨c, g1, g1'⟩, g2⟩ := g
      rw [hi] at hact g1
      cases g1
      rcases configView o hn with hv | hv
      · rw [hv] at hi; simp at hi
      · rw [hv] at hi g2
        rw [List.getElem?_map, Option.map_eq_some_iff] at hi
        obtain ⟨bc, hbc, rfl⟩ := hi
        refine ⟨i, bc, ⟨⟨bc, hbc, of_decide_eq_true g1'⟩, fun j x hj hx => ?_⟩, hbc, rfl, by simpa [isActive, known] using hact⟩
        have := g2 j (known x) hj (by rw [List.getElem?_map, hx]; rfl)
        exact Nat.lt_of_not_le (of_decide_eq_false this)
    · cases h1

theorem known_fields (bc : BatchConfig) : (known bc).startBatchIndex = bc.startBatchIndex ∧ (known bc).startBlockNumber = bc.startBlockNumber ∧
    (known bc).batchSpan = bc.batchSpan ∧ (known bc).executionTimeout = bc.executionTimeout ∧ (known bc).threshold = bc.threshold ∧
    (known bc).transactionGasLimit = bc.transactionGasLimit ∧ (known bc).keypers = dedupGo [] bc.keypers := ⟨rfl, rfl, rfl, rfl, rfl, rfl, rfl⟩

theorem endBlock_of {bc : BatchConfig} {b e : Nat} (hb : bc.startBatchIndex ≤ b) (fits : bc.nominalEnd b < two64)
    (h : batchEndBlock (known bc) b = some e) : e = bc.nominalEnd b := by
  unfold batchEndBlock batchStartBlock at h
  rw [if_neg (by rw [(known_fields bc).1]; omega)] at h
  simp only [Option.map_some, Option.some.injEq, (known_fields bc).1, (known_fields bc).2.1, (known_fields bc).2.2.1] at h
  unfold BatchConfig.nominalEnd BatchConfig.nominalStart at fits ⊢
  unfold wadd wmul at h
  have h1 : (b - bc.startBatchIndex) * bc.batchSpan < two64 := by omega
  have h2 : bc.startBlockNumber + (b - bc.startBatchIndex) * bc.batchSpan < two64 := by omega
  rw [Nat.mod_eq_of_lt h1, Nat.mod_eq_of_lt h2, Nat.mod_eq_of_lt (by omega)] at h
  exact h.symm

theorem dedupGo_length (l : List Sol.Address) : ∀ seen, (dedupGo seen l).length ≤ l.length := by
  induction l with
  | nil => intro seen; exact le_refl _
  | cons a l ih =>
    intro seen
    unfold dedupGo
    split
    · have := ih seen; simp only [List.length_cons]; omega
    · have := ih (a :: seen); simp only [List.length_cons]; omega

/-- What a turn means in terms of the contracts: the config of the batch, its end, and no overflow. -/
theorem turn_world {mc : MainChain} {hist : Nat → World} (o : Observed E fd false mc hist) (hn : NoneTakenBack hist mc.currentBlock)
    {h delay e : Nat} {config : BatchConfig} (hc : configForBatchIndex mc (h / 2) = some (some config))
    (hd : executionDelay cx config h = some delay) (he : batchEndBlock config (h / 2) = some e)
    (hf : (hist mc.currentBlock).Fits (h / 2)) :
    ∃ bc start, config = known bc ∧ (hist mc.currentBlock).HasBatch (h / 2) bc start e (e + bc.executionTimeout) ∧
      wadd e config.executionTimeout = e + bc.executionTimeout ∧ e ≤ wadd e delay ∧ (hist mc.currentBlock).block = mc.currentBlock := by
  obtain ⟨i, bc, hr, hbc, rfl, hact⟩ := config_of o hn hc
  obtain ⟨hk, hfit⟩ := hf i bc hr hbc
  have hstart : bc.startBatchIndex ≤ h / 2 := by
    obtain ⟨⟨x, hx, hx'⟩, _⟩ := hr
    rw [hbc] at hx; cases hx; exact hx'
  have he' := endBlock_of hstart (by omega) he
  subst he'
  have hw : (hist mc.currentBlock).block = mc.currentBlock := o.chain.blk o.current
  have hinv := (o.chain.reach o.current).preach.inv
  have hil : i < (hist mc.currentBlock).config.scheduled.length := (List.getElem?_eq_some_iff.1 hbc).1
  have hg : (hist mc.currentBlock).config.configs[i]? = some bc := by rw [Sol.Config.configs_get hil]; exact hbc
  refine ⟨bc, _, rfl, ⟨i, (hinv.lookup_iff _ i).2 hr, ?_, Sol.Config.boundary_iff.2 ⟨bc, hg, hact, hstart, rfl, rfl, hfit, rfl⟩⟩,
    ?_, ?_, hw⟩
  · unfold Sol.Config.scheduledConfig
    simp only [Option.bind_eq_bind, Option.bind_eq_some_iff, Sol.require_eq_some]
    exact ⟨(), by simp only [Sol.Config.numConfigs, Sol.Config.configs, List.length_append, List.length_singleton]; omega, hg⟩
  · rw [(known_fields bc).2.2.2.1]; exact Nat.mod_eq_of_lt hfit
  · have := (executionDelay_le (le_trans (dedupGo_length _ _) hk) hd).1
    rw [(known_fields bc).2.2.2.1] at this
    unfold wadd
    rw [Nat.mod_eq_of_lt (by omega)]
    omega

/-- What a keyper executes in a round, and the batches it knows then. -/
def ExecRound (cx : Cfg G1 G2 GT R) (V : MainChain → Prop) (K : Nat → G1 → Prop) (mc : MainChain) (acts : List (Action G1 G2)) : Prop :=
  ∃ (st2 : State G1 G2), BatchesOk cx V K st2.batches ∧ (acts.filter (fun a => a.kind = .exec)).length ≤ 10 ∧
    ∀ (j : Nat) (a : Action G1 G2), (acts.filter (fun a => a.kind = .exec))[j]? = some a → ∃ config delay e,
      configForBatchIndex mc ((mc.numHalfSteps + j) / 2) = some (some config) ∧
      executionDelay cx config (mc.numHalfSteps + j) = some delay ∧ batchEndBlock config ((mc.numHalfSteps + j) / 2) = some e ∧
      Turn cx mc st2 (mc.numHalfSteps + j) config e delay a

theorem life_exec {s : Observe.Shutter} {st : State G1 G2} {mc : MainChain} {hist : Nat → World}
    {log : List (MainChain × List (Action G1 G2))} (l : Life cx codecs chain E fd s st mc hist log) :
    ∀ e ∈ log, ExecRound cx (fun v => Seen log v ∧ v.currentBlock ≤ e.1.currentBlock) (HasKey st) e.1 e.2 := by
  induction l with
  | init _ => simp
  | @round s s' st st' mc mc' hist hist' log ys keys acts l h1 h2 h3 h4 h5 h6 ih =>
    have mono : ∀ e, Seen log e → Seen (log ++ [(mc', acts)]) e := fun e ⟨a, ha⟩ => ⟨a, List.mem_append_left _ ha⟩
    intro e he
    rw [List.mem_append, List.mem_singleton] at he
    rcases he with he | rfl
    · obtain ⟨st2, g1, g2, g3⟩ := ih e he
      exact ⟨st2, fun x hx => (g1 x hx).mono (fun v hv => ⟨mono v hv.1, hv.2⟩) (fun _ _ => hasKey_round h6), g2, g3⟩
    · have hle := (life_observed (Life.round l h1 h2 h3 h4 h5 h6)).2
      have ih' : BatchesOk cx (fun v => Seen (log ++ [(mc', acts)]) v ∧ v.currentBlock ≤ mc'.currentBlock) (HasKey st') st.batches :=
        fun x hx => (life_batches l x hx).mono (fun v hv => ⟨mono v hv, by
          obtain ⟨a, ha⟩ := mono v hv
          exact (hle (v, a) ha).2⟩) (fun _ _ => hasKey_round h6)
      rcases decide_stages h6 with ⟨rfl, rfl⟩ | ⟨_, _, _, _, _, _, _, _, g⟩
      · exact ⟨st', ih', by simp, by simp⟩
      · obtain ⟨new, k1, k2, k3⟩ := exec_round g
        refine ⟨st', (batches_round g ih' ⟨⟨acts, by simp⟩, le_refl _⟩ (fun e he => he.2) (fun _ _ h => h)).1, ?_, ?_⟩
        · simp only; rw [k1]; exact k2
        · simp only; rw [k1]; exact k3
  | restart f _ ih =>
    intro e he
    have := ih e he
    unfold loadState
    split <;> exact this

/-- The actions of a round that execute half steps. -/
theorem ExecRound.turn {V : MainChain → Prop} {K : Nat → G1 → Prop} {mc : MainChain} {acts : List (Action G1 G2)} (r : ExecRound cx V K mc acts)
    {a : Action G1 G2} (ha : a ∈ acts) {h : Nat} (hh : a.halfStep? = some h) :
    ∃ (st2 : State G1 G2) (config : BatchConfig) (delay e : Nat), BatchesOk cx V K st2.batches ∧
      configForBatchIndex mc (h / 2) = some (some config) ∧ executionDelay cx config h = some delay ∧
      batchEndBlock config (h / 2) = some e ∧ Turn cx mc st2 h config e delay a := by
  obtain ⟨st2, g1, _, g2⟩ := r
  have hm : a ∈ acts.filter (fun a => a.kind = .exec) := List.mem_filter.mpr ⟨ha, by simpa using kind_of_halfStep hh⟩
  obtain ⟨j, hj⟩ := List.getElem?_of_mem hm
  obtain ⟨config, delay, e, k1, k2, k3, k4⟩ := g2 j a hj
  have := k4.halfStep
  rw [hh] at this
  cases this
  exact ⟨st2, config, delay, e, g1, k1, k2, k3, k4⟩

omit [AddCommGroup G1] [DecidableEq GT] in
theorem filterMap_range {f : Action G1 G2 → Option Nat} {k : Nat} : ∀ {l : List (Action G1 G2)} {n : Nat},
    (∀ (j : Nat) (a : Action G1 G2), l[j]? = some a → f a = some (n + j)) → l.filterMap f = List.range' n l.length := by
  intro l
  induction l with
  | nil => intro n _; rfl
  | cons a l ih =>
    intro n h
    have h0 := h 0 a rfl
    rw [List.filterMap_cons, h0]
    simp only [Nat.add_zero, List.length_cons, List.range'_succ]
    rw [ih (n := n + 1) (fun j b hb => by rw [h (j + 1) b (by simpa using hb)]; congr 1; omega)]

theorem ExecRound.order {V : MainChain → Prop} {mc : MainChain} {acts : List (Action G1 G2)} (r : ExecRound cx V K mc acts) :
    ∃ n, n ≤ 10 ∧ halfStepsOf acts = List.range' mc.numHalfSteps n := by
  obtain ⟨st2, _, g1, g2⟩ := r
  refine ⟨_, g1, ?_⟩
  rw [halfStepsOf_filter]
  unfold halfStepsOf
  exact filterMap_range (k := 0) (fun j a hj => by
    obtain ⟨_, _, _, _, _, _, k4⟩ := g2 j a hj
    exact k4.halfStep)

theorem dedupGo_mem {a : Sol.Address} : ∀ (l seen : List Sol.Address), a ∈ dedupGo seen l → a ∈ l := by
  intro l
  induction l with
  | nil => intro seen h; exact h
  | cons x l ih =>
    intro seen h
    unfold dedupGo at h
    split at h
    · exact List.mem_cons_of_mem _ (ih _ h)
    · rw [List.mem_cons] at h
      rcases h with rfl | h
      · exact List.mem_cons_self
      · exact List.mem_cons_of_mem _ (ih _ h)

theorem keyperIndex_get {config : BatchConfig} {a : Sol.Address} {k : Nat} (h : keyperIndex config a = some k) :
    config.keypers[k]? = some a := by
  unfold keyperIndex at h
  simp only at h
  split at h
  · next hlt =>
    cases h
    have := List.findIdx_getElem (w := hlt)
    rw [List.getElem?_eq_getElem hlt]
    rw [beq_iff_eq] at this
    rw [this]
  · cases h

theorem dedupGo_nodup : ∀ (l seen : List Sol.Address), (∀ a ∈ l, a ∉ seen) → l.Nodup → dedupGo seen l = l := by
  intro l
  induction l with
  | nil => intro _ _ _; rfl
  | cons x l ih =>
    intro seen h hn
    rw [List.nodup_cons] at hn
    unfold dedupGo
    rw [if_neg (by simpa using h x List.mem_cons_self), ih (x :: seen) ?_ hn.2]
    intro a ha
    rw [List.mem_cons]
    rintro (rfl | hs)
    · exact hn.1 ha
    · exact h a (List.mem_cons_of_mem _ ha) hs

end Shutter.Decide
