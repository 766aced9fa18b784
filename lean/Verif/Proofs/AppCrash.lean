import Verif.Proofs.AppRun

/-! # Crash and replay; Tendermint's validator set -/

namespace Shutter.App

theorem chainOps_snoc (req bs txs) : chainOps req (bs ++ [txs]) =
    chainOps req bs ++ (txs.map Op.deliverTx ++ [.endBlock (bs.length + 1), .commit]) := by
  simp [chainOps, List.zipIdx_append]

theorem chainOps_noCheck (req bs) : ∀ op ∈ chainOps req bs, op.isCheckTx = false := by
  intro op h
  simp only [chainOps, List.mem_cons, List.mem_flatMap] at h
  rcases h with rfl | ⟨b, _, hb⟩
  · rfl
  · simp at hb
    rcases hb with ⟨tx, _, rfl⟩ | rfl | rfl <;> rfl

theorem chainOps_prefix (req) (bs : List (List Tx)) (h) : chainOps req (bs.take h) <+: chainOps req bs := by
  induction bs using List.reverseRecOn with
  | nil => simp
  | append_singleton bs txs ih =>
    by_cases hh : h ≤ bs.length
    · rw [List.take_append_of_le_length hh]
      exact ih.trans (chainOps_snoc req bs txs ▸ List.prefix_append _ _)
    · rw [List.take_of_length_le (by simp; omega)]

/-- A `Commit` closes a block of known height. -/
theorem chainOps_commit {req} {bs : List (List Tx)} {p} (h : (chainOps req bs)[p]? = some .commit) :
    ∃ ht q, ht ≠ 0 ∧ p = q + 1 ∧ p + 1 = (chainOps req (bs.take ht)).length ∧
      (chainOps req bs)[q]? = some (.endBlock ht) := by
  induction bs using List.reverseRecOn with
  | nil =>
    cases p with
    | zero => simp [chainOps] at h
    | succ p => simp [chainOps] at h
  | append_singleton bs txs ih =>
    rw [chainOps_snoc] at h ⊢
    by_cases hp : p < (chainOps req bs).length
    · rw [List.getElem?_append_left hp] at h
      obtain ⟨ht, q, h1, h2, h3, h4⟩ := ih h
      refine ⟨ht, q, h1, h2, ?_, ?_⟩
      · by_cases hh : ht ≤ bs.length
        · rw [List.take_append_of_le_length hh]; exact h3
        · exfalso
          rw [List.take_of_length_le (by omega)] at h3
          -- the height found is at most the number of blocks
          have hq : q < (chainOps req bs).length := (List.getElem?_eq_some_iff.1 h4).1
          have hmem : Op.endBlock ht ∈ chainOps req bs := List.mem_of_getElem? h4
          simp only [chainOps, List.mem_cons, List.mem_flatMap, reduceCtorEq, false_or] at hmem
          obtain ⟨b, hb, hb'⟩ := hmem
          simp at hb'
          have := List.mem_zipIdx hb
          omega
      · rw [List.getElem?_append_left (by omega)]; exact h4
    · rw [List.getElem?_append_right (by omega)] at h
      -- only the last element of the block is a commit
      have hlen : p - (chainOps req bs).length = txs.length + 1 := by
        generalize p - (chainOps req bs).length = k at h
        by_cases hk : k < txs.length
        · rw [List.getElem?_append_left (by simpa using hk)] at h
          simp at h
        · rw [List.getElem?_append_right (by simpa using hk)] at h
          simp at h
          match hj : k - txs.length, h with
          | 0, h => simp at h
          | 1, _ => omega
          | j + 2, h => simp at h
      refine ⟨bs.length + 1, p - 1, by omega, by omega, ?_, ?_⟩
      · rw [List.take_of_length_le (by simp), chainOps_snoc]
        simp; omega
      · rw [List.getElem?_append_right (by omega), show p - 1 - (chainOps req bs).length = txs.length by omega]
        rw [List.getElem?_append_right (by simp)]
        simp

theorem take_succ_of_get {α} {l : List α} {n x} (h : l[n]? = some x) : l.take (n + 1) = l.take n ++ [x] := by
  rw [List.take_add_one, h]; rfl

/-- What is known about a node. -/
structure NodeInv (ps : Parsers) (dev : Bool) (req : InitRequest) (blocks : List (List Tx)) (n : Node) : Prop where
  app : ∃ t rs, runOps ps (newApp dev) ((chainOps req blocks).take n.pos) = some (t, rs) ∧ SameButCheckTx n.app t
  disk : ∀ d, n.disk = some d → d.lastBlockHeight ≠ 0 ∧
    ∃ t rs, runOps ps (newApp dev) ((chainOps req blocks).take (resumePos req blocks d.lastBlockHeight)) = some (t, rs) ∧
      SameButCheckTx d t
  out : ∀ x ∈ n.out, ∃ t rs, runOps ps (newApp dev) ((chainOps req blocks).take (x.1 + 1)) = some (t, rs) ∧
    rs[x.1]? = some x.2

theorem runOps_inv {ps dev ops t rs} (h : runOps ps (newApp dev) ops = some (t, rs)) :
    Inv t ∧ keysNodup t.validators := by
  obtain ⟨log, hE, _⟩ := Exec.ofRun (Exec.start (ps := ps) (dev := dev)) h
  exact ⟨hE.inv, hE.validators⟩

theorem NodeInv.call {ps dev req blocks n} (hn : NodeInv ps dev req blocks n) {o : Orders} {op app' r}
    (ho : o.Lawful) (hop : (chainOps req blocks)[n.pos]? = some op) (hs : App.step ps o n.app op = some (app', r)) :
    ∃ t rs, runOps ps (newApp dev) ((chainOps req blocks).take (n.pos + 1)) = some (t, rs) ∧ SameButCheckTx app' t ∧
      rs[n.pos]? = some r := by
  obtain ⟨t, rs, h1, h2⟩ := hn.app
  have hi := runOps_inv h1
  have hcheck : op.isCheckTx = false := chainOps_noCheck req blocks op (List.mem_of_getElem? hop)
  obtain ⟨t', h3, h4, _⟩ := step_sim ho idOrders_lawful (h2.symm.inv hi.1) (h2.symm.validators ▸ hi.2) h2 hcheck hs
  have hlen := runOps_length h1
  have hp : n.pos < (chainOps req blocks).length := (List.getElem?_eq_some_iff.1 hop).1
  refine ⟨t', rs ++ [r], ?_, h4, ?_⟩
  · rw [take_succ_of_get hop]; exact runOps_snoc h1 h3
  · rw [List.length_take, Nat.min_eq_left hp.le] at hlen
    rw [List.getElem?_append_right (by omega)]; simp [hlen]

theorem runOps_take {ps s ops t rs} (h : runOps ps s ops = some (t, rs)) (k) :
    ∃ t', runOps ps s (ops.take k) = some (t', rs.take k) := by
  have hl := runOps_length h
  rw [← List.take_append_drop k ops, runOps_append] at h
  cases hk : runOps ps s (ops.take k) with
  | none => simp [hk] at h
  | some p =>
    rw [hk] at h
    simp only [Option.bind_some, Option.map_eq_some_iff, Prod.mk.injEq] at h
    obtain ⟨q, hq, _, h2⟩ := h
    refine ⟨p.1, ?_⟩
    have hpl := runOps_length (ps := ps) (s := s) (l := ops.take k) (s' := p.1) (rs := p.2) hk
    rw [← h2]
    rw [List.length_take] at hpl
    have : p.2 = (p.2 ++ q.2).take k := by
      by_cases hkl : k ≤ ops.length
      · rw [Nat.min_eq_left hkl] at hpl
        rw [List.take_append_of_le_length (by omega), List.take_of_length_le (by omega)]
      · have hq' := runOps_length (ps := ps) (s := p.1) (l := ops.drop k) (s' := q.1) (rs := q.2) hq
        have : q.2 = [] := by
          rw [List.drop_of_length_le (by omega)] at hq'
          exact List.length_eq_zero_iff.1 hq'
        rw [this, List.append_nil, List.take_of_length_le (by omega)]
    rw [← this]

theorem runOps_snoc_inv {ps s ops op t rs} (h : runOps ps s (ops ++ [op]) = some (t, rs)) :
    ∃ t₀ rs₀ r, runOps ps s ops = some (t₀, rs₀) ∧ App.step ps idOrders t₀ op = some (t, r) := by
  rw [runOps_append] at h
  cases hk : runOps ps s ops with
  | none => simp [hk] at h
  | some p =>
    rw [hk] at h
    simp only [Option.bind_some, Option.map_eq_some_iff, Prod.mk.injEq] at h
    obtain ⟨q, hq, h1, _⟩ := h
    simp only [runOps] at hq
    split at hq
    · simp at hq
    next s' r hst =>
    simp at hq
    refine ⟨p.1, p.2, r, rfl, ?_⟩
    rw [hst, ← h1, ← hq]

theorem NodeInv.step {ps dev req blocks n n'} (hn : NodeInv ps dev req blocks n)
    (hs : NodeStep ps dev req blocks n n') : NodeInv ps dev req blocks n' := by
  cases hs with
  | call o op app' r ho hop hst =>
    obtain ⟨t, rs, h1, h2, h3⟩ := hn.call ho hop hst
    refine ⟨⟨t, rs, h1, h2⟩, hn.disk, ?_⟩
    intro x hx
    rcases List.mem_append.1 hx with hx | hx
    · exact hn.out x hx
    · simp at hx; subst hx; exact ⟨t, rs, h1, h3⟩
  | callAndPersist o app' r ho hop hst =>
    obtain ⟨t, rs, h1, h2, h3⟩ := hn.call ho hop hst
    refine ⟨⟨t, rs, h1, h2⟩, ?_, ?_⟩
    · intro d hd
      simp at hd; subst hd
      obtain ⟨ht, q, h0, hpq, hlen, hend⟩ := chainOps_commit hop
      -- the height stored is that of the block just committed
      have hheight : app'.lastBlockHeight = ht := by
        rw [← h2.height]
        rw [take_succ_of_get hop] at h1
        obtain ⟨t₀, rs₀, r₀, h4, h5⟩ := runOps_snoc_inv h1
        rw [hpq, take_succ_of_get hend] at h4
        obtain ⟨t₁, rs₁, r₁, h6, h7⟩ := runOps_snoc_inv h4
        simp only [App.step, Option.some.injEq, Prod.mk.injEq] at h5
        rw [← h5.1]
        simp only [App.step, Option.map_eq_some_iff] at h7
        obtain ⟨p, hp, hp'⟩ := h7
        simp only [Prod.mk.injEq] at hp'
        obtain ⟨_, _, _, _, _, _, h', _⟩ := endBlock_cases hp
        rw [← hp'.1, h']; rfl
      rw [hheight]
      refine ⟨h0, t, rs, ?_, h2⟩
      rw [resumePos, if_neg h0, ← hlen]; exact h1
    · intro x hx
      rcases List.mem_append.1 hx with hx | hx
      · exact hn.out x hx
      · simp at hx; subst hx; exact ⟨t, rs, h1, h3⟩
  | checkTx tx =>
    obtain ⟨t, rs, h1, h2⟩ := hn.app
    exact ⟨⟨t, rs, h1, (checkTx_same _ _).symm.trans h2⟩, hn.disk, hn.out⟩
  | crash =>
    refine ⟨?_, hn.disk, hn.out⟩
    cases hd : n.disk with
    | none => exact ⟨newApp dev, [], by simp [resumePos, newApp, runOps], SameButCheckTx.refl _⟩
    | some d =>
      obtain ⟨_, t, rs, h1, h2⟩ := hn.disk d hd
      exact ⟨t, rs, h1, h2⟩

theorem NodeReach.inv {ps dev req blocks n} (h : NodeReach ps dev req blocks n) : NodeInv ps dev req blocks n := by
  induction h with
  | start => exact ⟨⟨newApp dev, [], by simp [runOps], SameButCheckTx.refl _⟩, by simp, by simp⟩
  | step _ hs ih => exact ih.step hs

/-! ## Tendermint's validator set -/

theorem tmValidators_snoc (log r) : tmValidators (log ++ [r]) = r.tmValidators (tmValidators log) := by
  simp [tmValidators]

theorem Exec.tmValidators {ps log s} (h : Exec ps false log s)
    (hinit : ∀ pre r post, log = pre ++ r :: post → (∃ req, r.op = .initChain req) → pre = []) :
    s.devMode = false ∧ App.tmValidators log = s.validators.get := by
  induction h with
  | start => exact ⟨rfl, by ext k; simp [App.tmValidators, newApp, Powermap.get]⟩
  | @step log s o op s' r hE ho hs ih =>
    obtain ⟨ih1, ih2⟩ := ih (by
      intro pre r' post hl hr
      exact hinit pre r' (post ++ [_]) (by rw [hl]; simp; rfl) hr)
    rw [tmValidators_snoc, ih2]
    cases op with
    | initChain req =>
      have hlog : log = [] := hinit log _ [] rfl ⟨req, rfl⟩
      subst hlog
      have hs0 : s = newApp false := by
        generalize hl : ([] : List Rec) = l at hE
        cases hE with
        | start => rfl
        | step => simp at hl
      subst hs0
      simp only [App.step, Option.map_eq_some_iff] at hs
      obtain ⟨s₁, hi, he⟩ := hs
      simp only [Prod.mk.injEq] at he
      obtain ⟨rfl, rfl⟩ := he
      rcases initChain_cases hi with ⟨ks, t, c, pm, _, _, hc, hk, hg, rfl⟩ | ⟨rfl, c, hc, hv⟩
      · refine ⟨rfl, ?_⟩
        ext k
        simp only [Rec.tmValidators, genesisPower]
        rw [genesisPowermap_get hg k]
        simp [Powermap.get]
      · simp [newApp] at hc; subst hc; simp [BatchConfig.ensureValid, BatchConfig.zero] at hv
    | commit =>
      simp only [App.step, Option.some.injEq, Prod.mk.injEq] at hs
      obtain ⟨rfl, rfl⟩ := hs
      exact ⟨ih1, rfl⟩
    | checkTx tx =>
      simp only [App.step, Option.some.injEq, Prod.mk.injEq] at hs
      obtain ⟨rfl, rfl⟩ := hs
      obtain ⟨c, hc⟩ := checkTx_eq (s := s) (tx := tx)
      rw [hc]; exact ⟨ih1, rfl⟩
    | endBlock ht =>
      simp only [App.step, Option.map_eq_some_iff] at hs
      obtain ⟨⟨s₁, ups⟩, hi, he⟩ := hs
      simp only [Prod.mk.injEq] at he
      obtain ⟨rfl, rfl⟩ := he
      obtain ⟨_, _, _, h4, _, _⟩ := endBlock_validators ho hE.validators hi
      refine ⟨?_, h4 ih1⟩
      obtain ⟨_, _, _, _, _, _, h', _⟩ := endBlock_cases hi
      rw [h']; exact ih1
    | deliverTx tx =>
      simp only [App.step, Option.map_eq_some_iff] at hs
      obtain ⟨p, hi, he⟩ := hs
      simp only [Prod.mk.injEq] at he
      obtain ⟨rfl, rfl⟩ := he
      rcases deliverTx_cases hi with ⟨h1, h2⟩ | ⟨a, m, _, _, _, hE'⟩
      · rw [h1]; exact ⟨ih1, rfl⟩
      · have : p.1.validators = s.validators ∧ p.1.devMode = s.devMode := by
          generalize m.msg = msg at hE'
          generalize p.1 = s' at hE'; generalize p.2 = d at hE'
          cases hE' <;> exact ⟨rfl, rfl⟩
        exact ⟨this.2.trans ih1, by simp only [Rec.tmValidators]; rw [this.1]⟩

end Shutter.App
