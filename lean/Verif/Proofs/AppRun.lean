import Verif.Proofs.AppReplay
import Verif.Proofs.AppPanic

/-! # Determinism, CheckTx, crash and replay -/

namespace Shutter.App

def idOrders : Orders := ⟨id, id, id, id⟩

theorem idOrders_lawful : idOrders.Lawful := ⟨fun _ => .refl _, fun _ => .refl _, fun _ => .refl _, fun _ => .refl _⟩

/-- The uninterrupted run with the maps visited in insertion order. -/
def runOps (ps : Parsers) (s : State) : List Op → Option (State × List Resp)
  | [] => some (s, [])
  | op :: ops => match step ps idOrders s op with
    | none => none
    | some (s', r) => (runOps ps s' ops).map (fun p => (p.1, r :: p.2))

theorem runOps_append (ps s l l') : runOps ps s (l ++ l') =
    (runOps ps s l).bind (fun p => (runOps ps p.1 l').map (fun q => (q.1, p.2 ++ q.2))) := by
  induction l generalizing s with
  | nil => simp [runOps]
  | cons op l ih =>
    simp only [List.cons_append, runOps]
    cases hst : step ps idOrders s op with
    | none => rfl
    | some p =>
      obtain ⟨s', r⟩ := p
      simp only [ih]
      cases runOps ps s' l with
      | none => rfl
      | some q =>
        simp only [Option.bind_some, Option.map_some]
        cases runOps ps q.1 l' <;> simp

theorem runOps_snoc {ps s l op s' rs s'' r} (h : runOps ps s l = some (s', rs))
    (h' : step ps idOrders s' op = some (s'', r)) : runOps ps s (l ++ [op]) = some (s'', rs ++ [r]) := by
  rw [runOps_append, h]; simp [runOps, h']

theorem runOps_length {ps s l s' rs} (h : runOps ps s l = some (s', rs)) : rs.length = l.length := by
  induction l generalizing s rs with
  | nil => simp [runOps] at h; simp [← h.2]
  | cons op l ih =>
    simp only [runOps] at h
    split at h
    · simp at h
    · simp only [Option.map_eq_some_iff, Prod.mk.injEq] at h
      obtain ⟨p, hp, h1, h2⟩ := h
      have := ih (rs := p.2) (s := _) (by rw [hp, ← h1])
      rw [← h2]; simp [this]

theorem SameButCheckTx.inv {s t} (h : SameButCheckTx s t) (hi : Inv s) : Inv t := by
  rw [← h.2]; exact ⟨hi.cfg, hi.cv, hi.ev⟩

theorem SameButCheckTx.validators {s t} (h : SameButCheckTx s t) : t.validators = s.validators := by
  rw [← h.2]

theorem SameButCheckTx.height {s t} (h : SameButCheckTx s t) : t.lastBlockHeight = s.lastBlockHeight := by
  rw [← h.2]

/-- One consensus call on two states that agree but for CheckTx, with any two lawful orders. -/
theorem step_sim {ps} {o o' : Orders} {s t s' op r} (ho : o.Lawful) (ho' : o'.Lawful) (hi : Inv s)
    (hv : keysNodup s.validators) (h : SameButCheckTx s t) (hop : op.isCheckTx = false)
    (hs : step ps o s op = some (s', r)) :
    ∃ t', step ps o' t op = some (t', r) ∧ SameButCheckTx s' t' ∧ (op = .commit → s' = t') := by
  have hop' : ∀ tx, op ≠ .checkTx tx := by rintro tx rfl; simp [Op.isCheckTx] at hop
  have hst : step ps o t op = step ps o' t op := step_ord ho ho' (h.inv hi) (h.validators ▸ hv) op
  rcases step_same (ps := ps) (o := o) h hop' with ⟨h1, _⟩ | ⟨s₁, t₁, r₁, h1, h2, h3, h4⟩
  · rw [hs] at h1; simp at h1
  · rw [hs] at h1
    simp only [Option.some.injEq, Prod.mk.injEq] at h1
    obtain ⟨rfl, rfl⟩ := h1
    exact ⟨t₁, by rw [← hst, h2], h3, h4⟩

/-- Every execution is, up to CheckTx, the canonical run of its consensus calls. -/
theorem Exec.canonical {ps dev log s} (h : Exec ps dev log s) :
    ∃ t, runOps ps (newApp dev) ((consensusCalls log).map (·.op)) = some (t, (consensusCalls log).map (·.resp)) ∧
      SameButCheckTx s t := by
  induction h with
  | start => exact ⟨_, rfl, SameButCheckTx.refl _⟩
  | @step log s o op s' r hE ho hs ih =>
    obtain ⟨t, ih1, ih2⟩ := ih
    by_cases hop : op.isCheckTx = true
    · have : consensusCalls (log ++ [⟨s, op, r, s'⟩]) = consensusCalls log := by
        simp [consensusCalls, List.filter_append, hop]
      rw [this]
      refine ⟨t, ih1, ?_⟩
      cases op with
      | checkTx tx =>
        simp only [App.step, Option.some.injEq, Prod.mk.injEq] at hs
        exact (hs.1 ▸ (checkTx_same s tx)).symm.trans ih2
      | _ => simp [Op.isCheckTx] at hop
    · have hop : op.isCheckTx = false := by simpa using hop
      have : consensusCalls (log ++ [⟨s, op, r, s'⟩]) = consensusCalls log ++ [⟨s, op, r, s'⟩] := by
        simp [consensusCalls, List.filter_append, hop]
      rw [this]
      obtain ⟨t', h1, h2, _⟩ := step_sim ho idOrders_lawful hE.inv hE.validators ih2 hop hs
      refine ⟨t', ?_, h2⟩
      simp only [List.map_append, List.map_cons, List.map_nil]
      exact runOps_snoc ih1 h1

/-- The canonical run is an execution. -/
theorem Exec.ofRun {ps dev} {log₀ s₀} (h₀ : Exec ps dev log₀ s₀) {ops s rs} (h : runOps ps s₀ ops = some (s, rs)) :
    ∃ log, Exec ps dev (log₀ ++ log) s ∧ log.map (·.op) = ops ∧ log.map (·.resp) = rs := by
  induction ops generalizing log₀ s₀ rs with
  | nil => simp [runOps] at h; obtain ⟨rfl, rfl⟩ := h; exact ⟨[], by simpa using h₀, rfl, rfl⟩
  | cons op ops ih =>
    simp only [runOps] at h
    split at h
    · simp at h
    next s₁ r hst =>
    simp only [Option.map_eq_some_iff, Prod.mk.injEq] at h
    obtain ⟨p, hp, rfl, rfl⟩ := h
    obtain ⟨log, h1, h2, h3⟩ := ih (Exec.step _ _ _ _ h₀ idOrders_lawful hst) hp
    exact ⟨⟨s₀, op, r, s₁⟩ :: log, by simpa using h1, by simp [h2], by simp [h3]⟩

/-- The canonical run with all its records. -/
def runLog (ps : Parsers) (s : State) : List Op → Option (List Rec × State)
  | [] => some ([], s)
  | op :: ops => match step ps idOrders s op with
    | none => none
    | some (s', r) => (runLog ps s' ops).map (fun p => (⟨s, op, r, s'⟩ :: p.1, p.2))

theorem Exec.ofRunLog {ps dev} {log₀ s₀} (h₀ : Exec ps dev log₀ s₀) {ops s log} (h : runLog ps s₀ ops = some (log, s)) :
    Exec ps dev (log₀ ++ log) s := by
  induction ops generalizing log₀ s₀ log with
  | nil => simp [runLog] at h; obtain ⟨rfl, rfl⟩ := h; simpa using h₀
  | cons op ops ih =>
    simp only [runLog] at h
    split at h
    · simp at h
    next s₁ r hst =>
    simp only [Option.map_eq_some_iff, Prod.mk.injEq] at h
    obtain ⟨p, hp, rfl, rfl⟩ := h
    have h1 := ih (Exec.step _ _ _ _ h₀ idOrders_lawful hst) hp
    simpa using h1

theorem consensusCalls_of_ops {log : List Rec} (h : ∀ op ∈ log.map (·.op), op.isCheckTx = false) :
    consensusCalls log = log := by
  unfold consensusCalls
  rw [List.filter_eq_self]
  intro r hr
  simp [h r.op (List.mem_map_of_mem hr)]

/-! ## CheckTx -/

theorem Eff.members {ps ord s a m s' r} (h : Eff ps ord s a m s' r)
    (hm : s.checkTxState.members = s.configs.flatMap (·.keypers)) :
    s'.checkTxState.members = s'.configs.flatMap (·.keypers) ∧
    s'.checkTxState.txCounts = s.checkTxState.txCounts ∧ s'.checkTxState.nonces = s.checkTxState.nonces := by
  cases h <;> first | exact ⟨hm, rfl, rfl⟩ | exact ⟨rfl, rfl, rfl⟩

theorem flatMap_keypers_ids (s : State) : s.configs.flatMap (·.keypers) = (ids s).flatMap (·.keypers) := by
  simp [ids, List.flatMap_map, BatchConfig.erase]

theorem addTx_true {c : CheckTxState} {a m} (h : (c.addTx a m).1 = true) :
    (c.members = [] ∨ a ∈ c.members) ∧ c.txCounts a < maxTxsPerBlock ∧ c.nonces a m.randomNonce = false ∧
    (c.addTx a m).2 = { c with txCounts := Function.update c.txCounts a (c.txCounts a + 1)
                               nonces := c.nonces.add a m.randomNonce } := by
  unfold CheckTxState.addTx at h ⊢
  split at h; · simp at h
  next h1 =>
  split at h; · simp at h
  next h2 =>
  split at h; · simp at h
  next h3 =>
  refine ⟨?_, by omega, by simpa [NonceTracker.check] using h3, ?_⟩
  · by_cases h0 : c.members = []
    · exact .inl h0
    · right
      have : c.members.length > 0 := List.length_pos_iff.2 h0
      simpa [this] using h1
  · rw [if_neg h1, if_neg h2, if_neg h3]

theorem addTx_false {c : CheckTxState} {a m} (h : (c.addTx a m).1 = false) : (c.addTx a m).2 = c := by
  unfold CheckTxState.addTx at h ⊢
  split_ifs at h ⊢ <;> first | rfl | simp at h

theorem checkTx_cases (s : State) (tx : Tx) :
    checkTx s tx = (s, false) ∨ ∃ a m, tx = some (a, m) ∧ m.chainId = s.chainID ∧
      s.nonceTracker a m.randomNonce = false ∧ (s.checkTxState.addTx a m).1 = true ∧
      checkTx s tx = ({ s with checkTxState := (s.checkTxState.addTx a m).2 }, true) := by
  unfold checkTx
  cases tx with
  | none => left; rfl
  | some p =>
    obtain ⟨a, m⟩ := p
    simp only
    by_cases h1 : m.chainId = s.chainID
    · rw [if_neg (not_not.2 h1)]
      by_cases h2 : s.nonceTracker a m.randomNonce = false
      · rw [if_neg (by simp [NonceTracker.check, h2])]
        cases h3 : (s.checkTxState.addTx a m).1 with
        | true => right; exact ⟨a, m, rfl, h1, h2, h3, rfl⟩
        | false => left; rw [addTx_false h3]
      · left; rw [if_pos (by simp [NonceTracker.check, h2])]
    · left; rw [if_pos h1]

theorem Exec.checkTxInv {ps dev log s} (h : Exec ps dev log s) :
    s.checkTxState.members = s.configs.flatMap (·.keypers) ∧ (∀ a, s.checkTxState.txCounts a ≤ maxTxsPerBlock) ∧
    ∀ pre seg, log = pre ++ seg → (∀ r ∈ seg, ¬ r.resetsCheckTx) →
      (seg.filterMap Rec.admits).Nodup ∧
      (∀ a, (seg.filterMap Rec.admits).countP (fun x => decide (x.1 = a)) ≤ s.checkTxState.txCounts a) ∧
      ∀ x ∈ seg.filterMap Rec.admits, s.checkTxState.nonces x.1 x.2 = true := by
  induction h with
  | start =>
    refine ⟨rfl, fun a => by simp [newApp, newCheckTxState], ?_⟩
    intro pre seg hl _
    have : seg = [] := by simp at hl; exact hl.2
    subst this; simp
  | @step log s o op s' r hE ho hs ih =>
    obtain ⟨ih1, ih2, ih3⟩ := ih
    -- the shape of a suffix of the longer log
    have shape : ∀ pre seg, log ++ [⟨s, op, r, s'⟩] = pre ++ seg → seg = [] ∨ ∃ seg', seg = seg' ++ [⟨s, op, r, s'⟩] ∧
        log = pre ++ seg' := by
      intro pre seg hl
      rcases List.eq_nil_or_concat seg with rfl | ⟨seg', x, rfl⟩
      · exact .inl rfl
      · right
        rw [List.concat_eq_append, ← List.append_assoc] at hl
        have := List.append_inj' hl rfl
        simp at this
        exact ⟨seg', by simp [this.2], this.1⟩
    -- calls that let nothing in and change no counters
    have keep : s'.checkTxState.members = s'.configs.flatMap (·.keypers) →
        s'.checkTxState.txCounts = s.checkTxState.txCounts → s'.checkTxState.nonces = s.checkTxState.nonces →
        (Rec.mk s op r s').admits = none →
        s'.checkTxState.members = s'.configs.flatMap (·.keypers) ∧
        (∀ a, s'.checkTxState.txCounts a ≤ maxTxsPerBlock) ∧
        ∀ pre seg, log ++ [⟨s, op, r, s'⟩] = pre ++ seg → (∀ r ∈ seg, ¬ r.resetsCheckTx) →
          (seg.filterMap Rec.admits).Nodup ∧
          (∀ a, (seg.filterMap Rec.admits).countP (fun x => decide (x.1 = a)) ≤ s'.checkTxState.txCounts a) ∧
          ∀ x ∈ seg.filterMap Rec.admits, s'.checkTxState.nonces x.1 x.2 = true := by
      intro hm ht hn ha
      refine ⟨hm, ht ▸ ih2, fun pre seg hl hseg => ?_⟩
      rcases shape pre seg hl with rfl | ⟨seg', rfl, rfl⟩
      · simp
      · have := ih3 pre seg' rfl (fun r hr => hseg r (List.mem_append_left _ hr))
        simpa [List.filterMap_append, ha, ht, hn] using this
    -- calls that reset the counters
    have reset : s'.checkTxState.members = s'.configs.flatMap (·.keypers) →
        (∀ a, s'.checkTxState.txCounts a ≤ maxTxsPerBlock) → (Rec.mk s op r s').resetsCheckTx →
        s'.checkTxState.members = s'.configs.flatMap (·.keypers) ∧
        (∀ a, s'.checkTxState.txCounts a ≤ maxTxsPerBlock) ∧
        ∀ pre seg, log ++ [⟨s, op, r, s'⟩] = pre ++ seg → (∀ r ∈ seg, ¬ r.resetsCheckTx) →
          (seg.filterMap Rec.admits).Nodup ∧
          (∀ a, (seg.filterMap Rec.admits).countP (fun x => decide (x.1 = a)) ≤ s'.checkTxState.txCounts a) ∧
          ∀ x ∈ seg.filterMap Rec.admits, s'.checkTxState.nonces x.1 x.2 = true := by
      intro hm ht hr
      refine ⟨hm, ht, fun pre seg hl hseg => ?_⟩
      rcases shape pre seg hl with rfl | ⟨seg', rfl, rfl⟩
      · simp
      · exact absurd hr (hseg _ (by simp))
    cases op with
    | initChain req =>
      simp only [App.step, Option.map_eq_some_iff] at hs
      obtain ⟨s₁, hi, he⟩ := hs
      simp only [Prod.mk.injEq] at he
      obtain ⟨rfl, rfl⟩ := he
      rcases initChain_cases hi with ⟨ks, t, c, pm, _, _, hc, hk, _, rfl⟩ | ⟨rfl, _⟩
      · exact reset (by simp [CheckTxState.setMembers]) (by simp [CheckTxState.setMembers, newCheckTxState])
          (.inr ⟨_, rfl⟩)
      · exact reset ih1 ih2 (.inr ⟨_, rfl⟩)
    | commit =>
      simp only [App.step, Option.some.injEq, Prod.mk.injEq] at hs
      obtain ⟨rfl, rfl⟩ := hs
      exact reset ih1 (by simp [commit, CheckTxState.reset]) (.inl rfl)
    | endBlock ht =>
      have hids : ids s' = ids s := by
        simp only [App.step, Option.map_eq_some_iff] at hs
        obtain ⟨p, hi, he⟩ := hs
        simp only [Prod.mk.injEq] at he
        rw [← he.1]; exact ids_endBlock hi
      have hcs : s'.checkTxState = s.checkTxState := by
        simp only [App.step, Option.map_eq_some_iff] at hs
        obtain ⟨p, hi, he⟩ := hs
        simp only [Prod.mk.injEq] at he
        obtain ⟨_, _, _, _, _, _, h', _⟩ := endBlock_cases hi
        rw [← he.1, h']
      refine keep ?_ (by rw [hcs]) (by rw [hcs]) rfl
      rw [hcs, ih1, flatMap_keypers_ids, flatMap_keypers_ids, hids]
    | deliverTx tx =>
      simp only [App.step, Option.map_eq_some_iff] at hs
      obtain ⟨p, hi, he⟩ := hs
      simp only [Prod.mk.injEq] at he
      obtain ⟨rfl, rfl⟩ := he
      rcases deliverTx_cases hi with ⟨h1, h2⟩ | ⟨a, m, _, _, _, hE'⟩
      · rw [h1] at keep ⊢; exact keep ih1 rfl rfl rfl
      · have := hE'.members (s := withNonce s a m.randomNonce) ih1
        exact keep this.1 this.2.1 this.2.2 rfl
    | checkTx tx =>
      simp only [App.step, Option.some.injEq, Prod.mk.injEq] at hs
      obtain ⟨h1, h2⟩ := hs
      rcases checkTx_cases s tx with hc | ⟨a, m, rfl, hch, hn, hadd, hc⟩
      · rw [hc] at h1 h2
        subst h1; subst h2
        refine keep ih1 rfl rfl ?_
        unfold Rec.admits; split <;> simp_all
      · rw [hc] at h1 h2
        obtain ⟨hmem, hcnt, hnon, hst⟩ := addTx_true hadd
        rw [hst] at h1
        subst h1; subst h2
        refine ⟨ih1, ?_, ?_⟩
        · intro b
          by_cases hb : b = a
          · subst hb; simp; omega
          · simp [Function.update_of_ne hb, ih2 b]
        · intro pre seg hl hseg
          rcases shape pre seg hl with rfl | ⟨seg', rfl, rfl⟩
          · simp
          · obtain ⟨j1, j2, j3⟩ := ih3 pre seg' rfl (fun r hr => hseg r (List.mem_append_left _ hr))
            rw [List.filterMap_append]
            simp only [List.filterMap_cons, List.filterMap_nil, Rec.admits]
            refine ⟨?_, ?_, ?_⟩
            · refine List.nodup_append.2 ⟨j1, by simp, ?_⟩
              intro x hx y hy hxy
              simp at hy
              have := j3 x hx
              rw [hxy, hy] at this
              simp [hnon] at this
            · intro b
              rw [List.countP_append]
              by_cases hb : b = a
              · subst hb; have := j2 b; simp; omega
              · have := j2 b
                have hb' : ¬ a = b := fun h => hb h.symm
                simp [Function.update_of_ne hb, hb', this]
            · intro x hx
              rcases List.mem_append.1 hx with hx | hx
              · exact (nonce_add _ _ _ _ _).2 (.inr (j3 x hx))
              · simp at hx; subst hx
                exact (nonce_add _ _ _ _ _).2 (.inl ⟨rfl, rfl⟩)

end Shutter.App
