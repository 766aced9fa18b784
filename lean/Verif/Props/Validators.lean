import Verif.Proofs.Validators
import Verif.Proofs.AppDemo

/-!
# C79 Validator updates never stop the chain
-/

namespace Shutter.App

variable {ps : Parsers} {log : List Rec} {s : State}

theorem Begins.once {req : InitRequest} (hb : Begins log req) :
    ∀ pre r post, log = pre ++ r :: post → (∃ req, r.op = .initChain req) → pre = [] := by
  obtain ⟨r0, rest, rfl, _, h⟩ := hb
  rintro pre r post hs ⟨req', hr⟩
  cases pre with
  | nil => rfl
  | cons a l =>
    simp only [List.cons_append, List.cons.injEq] at hs
    exact absurd hr (h r (by rw [hs.2]; simp) req')

theorem Begins.take {req : InitRequest} {pre post : List Rec} {r : Rec} (hb : Begins log req) (split : log = pre ++ r :: post)
    {height : Nat} (call : r.op = .endBlock height) : Begins pre req := by
  obtain ⟨r0, rest, h1, h2, h3⟩ := hb
  cases pre with
  | nil =>
    rw [h1] at split
    simp only [List.nil_append, List.cons.injEq] at split
    rw [split.1, call] at h2; cases h2
  | cons a l =>
    rw [h1] at split
    simp only [List.cons_append, List.cons.injEq] at split
    obtain ⟨rfl, rfl⟩ := split
    exact ⟨r0, l, rfl, h2, fun r' hr => h3 r' (List.mem_append_left _ hr)⟩

theorem Begins.snoc {req : InitRequest} {pre post : List Rec} {r : Rec} (hb : Begins log req) (split : log = pre ++ r :: post) :
    Begins (pre ++ [r]) req := by
  obtain ⟨r0, rest, h1, h2, h3⟩ := hb
  rw [h1] at split
  cases pre with
  | nil =>
    simp only [List.nil_append, List.cons.injEq] at split
    exact ⟨r0, [], by simp [split.1], h2, by simp⟩
  | cons a l =>
    simp only [List.cons_append, List.cons.injEq] at split
    obtain ⟨rfl, rfl⟩ := split
    exact ⟨r0, l ++ [r], rfl, h2, fun r' hr => h3 r' (by simp only [List.mem_append, List.mem_cons] at hr ⊢; simp at hr; tauto)⟩

/-- **C79** Whatever the application is sent, with whatever iteration orders of its maps: Tendermint can apply the validator updates
of every block to the validators it has. (Powers stay within Tendermint's bounds as long as no config has about 2^55 keypers.) -/
theorem C79_applicable (h : Exec ps false log s) {req : InitRequest} (begins : Begins log req) (genesis : GoodGenesis req)
    (sizes : ∀ r ∈ log, ∀ c ∈ r.after.configs, 10 * c.keypers.length < 2 ^ 59)
    {pre post : List Rec} {r : Rec} (split : log = pre ++ r :: post)
    {height : Nat} {ups : Powermap} (call : r.op = .endBlock height) (resp : r.resp = .endBlock ups) :
    Applicable (tmValidators pre) ups := by
  have hbp := begins.take split call
  have hbs := begins.snoc split
  obtain ⟨hE, o, ho, hst⟩ := h.at split
  have hE' : Exec ps false (pre ++ [r]) r.after := hE.step o _ _ _ ho hst
  obtain ⟨hd, ht⟩ := hE.tmValidators hbp.once
  have hz : ∀ r' ∈ log, ∀ c ∈ r'.after.configs, 10 * (c.keypers.length : Int) ≤ 2 ^ 59 - 1 := by
    intro r' hr c hc
    have := sizes r' hr c hc
    omega
  have hg : (req.validators.map (·.2)).sum ≤ 2 ^ 59 - 1 := Int.le_sub_one_of_lt genesis.total
  have g := hE.good hbp genesis hg (fun r' hr => hz r' (by rw [split]; exact List.mem_append_left _ hr))
  have g' := hE'.good hbs genesis hg (fun r' hr => hz r' (by
    rw [split]; simp only [List.mem_append, List.mem_cons] at hr ⊢; simp at hr; tauto))
  rw [call, resp] at hst
  simp only [App.step, Option.map_eq_some_iff, Prod.mk.injEq] at hst
  obtain ⟨⟨s₁, ups'⟩, hi, he, hu⟩ := hst
  simp at he hu
  subst he; subst hu
  rw [ht]
  exact applicable_of (by unfold maxTotalVotingPower; norm_num) g g' ho hE.validators hE'.validators hd hi

/-- **C79** (partial) After each block, more than two thirds of the voting power belongs to validators of the genesis document or to keypers that
have checked in, provided that in every accepted config more than two thirds of the keypers are needed to decide, and that no accepted
config claims that its validators are in force. The code asks for neither: see `C79_counterexample`. -/
theorem C79_live_partial (h : Exec ps false log s) {req : InitRequest} (begins : Begins log req)
    (flags : NotUpdated log) (quorum : ∀ r ∈ log, ∀ c ∈ r.after.configs, 2 * c.keypers.length < 3 * c.threshold)
    {pre post : List Rec} {r : Rec} (split : log = pre ++ r :: post) {height : Nat} (call : r.op = .endBlock height) :
    LiveSet req r.after (tmValidators (pre ++ [r])) := by
  have hbs := begins.snoc split
  obtain ⟨hE, o, ho, hst⟩ := h.at split
  have hE' : Exec ps false (pre ++ [r]) r.after := hE.step o _ _ _ ho hst
  obtain ⟨_, ht⟩ := hE'.tmValidators hbs.once
  rw [ht]
  rcases hE'.genesisOr hbs with hg | hf
  · exact Or.inl hg
  right
  obtain ⟨c, hc, hu, hfind⟩ := hf.find
  have hupd : Updated r.after := hE'.updated (fun r' hr => flags r' (by
    rw [split]; simp only [List.mem_append, List.mem_cons] at hr ⊢; simp at hr; tauto))
  have hcount := hupd c hc hu
  have hq := quorum r (by rw [split]; simp) c hc
  rw [call] at hst
  simp only [App.step, Option.map_eq_some_iff, Prod.mk.injEq] at hst
  obtain ⟨⟨s₁, ups'⟩, hi, he, hu'⟩ := hst
  simp only at he hu'
  subst he
  obtain ⟨_, _, _, _, _, _, hs', _⟩ := endBlock_cases hi
  have hid : r.after.identities = r.before.identities := by rw [hs']
  obtain ⟨_, _, _, _, _, hv⟩ := endBlock_validators ho hE.validators hi
  rw [hfind] at hv
  simp only at hv
  refine ⟨c, hc, ?_, ?_⟩
  · intro k
    rw [hv, makePowermap_get]
    simp only [keyOf, hid]
  · unfold countCheckedInKeypers at hcount
    have := List.length_eq_countP_add_countP (fun a => (r.after.identities a).isSome) (l := c.keypers)
    have h2 : c.keypers.countP (fun a => (r.after.identities a).isNone) =
        c.keypers.countP (fun a => decide (¬ (r.after.identities a).isSome = true)) := by
      apply List.countP_congr
      intro a _
      cases r.after.identities a <;> simp
    omega

namespace Demo

theorem begins_of {log : List Rec} {req : InitRequest} (h : (log.head?.map (·.op)) = some (.initChain req))
    (h2 : (log.drop 1).all (fun r => match r.op with | .initChain _ => false | _ => true) = true) : Begins log req := by
  cases log with
  | nil => simp at h
  | cons r l =>
    refine ⟨r, l, rfl, by simpa using h, ?_⟩
    intro r' hr req' he
    have := List.all_eq_true.1 h2 r' (by simpa using hr)
    rw [he] at this; cases this

theorem good : GoodGenesis req := ⟨by decide, by decide, by decide⟩

theorem begins : Begins (logOf false ops) req := begins_of (by
  rw [show (logOf false ops).head?.map (·.op) = some (.initChain req) from by rfl]) (by decide +kernel)

theorem notUpdated_of {log : List Rec} (h : log.all (fun r => decide (r.after.configs.length = r.before.configs.length) ||
    (r.after.configs.getLast?.map (·.validatorsUpdated) == some false)) = true) : NotUpdated log := by
  intro r hr c hc
  have := List.all_eq_true.1 h r hr
  rw [hc] at this
  simpa using this

theorem sizes : ∀ r ∈ logOf false ops, ∀ c ∈ r.after.configs, 10 * c.keypers.length < 2 ^ 59 := by decide +kernel

/-- Three genesis keypers, all of them needed; then a config with four keypers, three of which are needed. -/
def req4 : InitRequest := ⟨some ([k 1, k 2, k 3], 3), [(some (pk 9), 10)], chain⟩
def cfg4 : BatchConfigMsg := ⟨100, [k 1, k 2, k 3, k 4], 3, zeroAddr, 1, false, false⟩
def ops4 : List Op :=
  [ .initChain req4,
    .endBlock 1,
    .commit,
    tx (k 1) 1 (.checkIn (pk 1) [5]),
    tx (k 2) 1 (.checkIn (pk 2) [6]),
    tx (k 3) 1 (.checkIn (pk 3) [7]),
    tx (k 1) 2 (.batchConfig cfg4),
    tx (k 2) 2 (.batchConfig cfg4),
    tx (k 3) 2 (.batchConfig cfg4),
    tx (k 1) 3 (.batchConfigStarted 1),
    tx (k 2) 3 (.batchConfigStarted 1),
    tx (k 3) 3 (.batchConfigStarted 1),
    .endBlock 2,
    .commit ]

end Demo

/-- The hypotheses of `C79_applicable` are met by the demo chain, where call 10 changes validators. -/
theorem C79_example : Exec Demo.ps false (Demo.logOf false Demo.ops) (Demo.stateOf false Demo.ops) ∧
    Begins (Demo.logOf false Demo.ops) Demo.req ∧ GoodGenesis Demo.req ∧
    (∀ r ∈ Demo.logOf false Demo.ops, ∀ c ∈ r.after.configs, 10 * c.keypers.length < 2 ^ 59) ∧
    (Demo.logOf false Demo.ops)[10]?.map (fun r => r.resp) =
      some (.endBlock [(Demo.pk 2, 10), (Demo.pk 3, 10), (Demo.pk 9, 0), (nonExistentValidator, 10)]) :=
  ⟨Demo.exec, Demo.begins, Demo.good, Demo.sizes, by decide +kernel⟩

/-- The hypotheses of `C79_live_partial` are met by a chain where the validators of a config with a keyper that has not checked in
come into force. -/
theorem C79_live_example : Exec Demo.ps false (Demo.logOf false Demo.ops4) (Demo.stateOf false Demo.ops4) ∧
    Begins (Demo.logOf false Demo.ops4) Demo.req4 ∧ NotUpdated (Demo.logOf false Demo.ops4) ∧
    (∀ r ∈ Demo.logOf false Demo.ops4, ∀ c ∈ r.after.configs, 2 * c.keypers.length < 3 * c.threshold) ∧
    (Demo.logOf false Demo.ops4)[12]?.map (fun r => r.resp) =
      some (.endBlock [(Demo.pk 1, 10), (Demo.pk 2, 10), (Demo.pk 3, 10), (Demo.pk 9, 0), (nonExistentValidator, 10)]) :=
  ⟨Demo.exec_of _ _ (by decide +kernel), Demo.begins_of (by
    rw [show (Demo.logOf false Demo.ops4).head?.map (·.op) = some (.initChain Demo.req4) from by rfl]) (by decide +kernel),
    Demo.notUpdated_of (by decide +kernel), by decide +kernel, by decide +kernel⟩

/-- **C79** The second half is false of the code: with a config that needs two of three keypers, two of which have checked in, a third of the
power is given to a key that nobody holds, and the other two thirds are not enough for Tendermint (it needs more than two thirds). -/
theorem C79_counterexample : ∃ (ps : Parsers) (log : List Rec) (s : State) (req : InitRequest) (pre post : List Rec) (r : Rec) (height : Nat),
    Exec ps false log s ∧ Begins log req ∧ GoodGenesis req ∧ NotUpdated log ∧ log = pre ++ r :: post ∧ r.op = .endBlock height ∧
    ¬ LiveSet req r.after (tmValidators (pre ++ [r])) := by
  have hex : ∃ r, (Demo.logOf false Demo.ops)[10]? = some r ∧ r.op = .endBlock 1 ∧
      r.after.configs.map (·.keypers) = [[Demo.k 1, Demo.k 2, Demo.k 3], [Demo.k 2, Demo.k 3, Demo.k 4]] ∧
      (r.after.identities (Demo.k 1)).isSome = true ∧ r.after.identities (Demo.k 2) = some (Demo.pk 2) ∧
      r.after.identities (Demo.k 3) = some (Demo.pk 3) ∧ r.after.identities (Demo.k 4) = none ∧
      r.after.identities (Demo.k 1) = some (Demo.pk 1) ∧
      r.after.validators.get (Demo.pk 9) = 0 ∧ r.after.validators.get nonExistentValidator = 10 := by
    have : ((Demo.logOf false Demo.ops)[10]?.map (fun r => (r.op, r.after.configs.map (·.keypers), r.after.identities (Demo.k 1),
        r.after.identities (Demo.k 2), r.after.identities (Demo.k 3), r.after.identities (Demo.k 4),
        r.after.validators.get (Demo.pk 9), r.after.validators.get nonExistentValidator))) =
        some (.endBlock 1, [[Demo.k 1, Demo.k 2, Demo.k 3], [Demo.k 2, Demo.k 3, Demo.k 4]], some (Demo.pk 1), some (Demo.pk 2),
          some (Demo.pk 3), none, 0, 10) := by rfl
    obtain ⟨r, hr, he⟩ := Option.map_eq_some_iff.1 this
    simp only [Prod.mk.injEq] at he
    obtain ⟨e1, e2, e3, e4, e5, e6, e7, e8⟩ := he
    exact ⟨r, hr, e1, e2, by rw [e3]; rfl, e4, e5, e6, e3, e7, e8⟩
  obtain ⟨r, hr, hop, hcs, _, i2, i3, i4, i1, p9, pn⟩ := hex
  have hs := Demo.split_log hr
  refine ⟨_, _, _, Demo.req, _, _, r, 1, Demo.exec, Demo.begins, Demo.good, Demo.notUpdated_of (by decide +kernel), hs, hop, ?_⟩
  obtain ⟨hE, o, ho, hst⟩ := Demo.exec.at hs
  have hE' := hE.step o _ _ _ ho hst
  rw [(hE'.tmValidators (Demo.begins.snoc hs).once).2]
  rintro (hg | ⟨c, hc, hk, hn⟩)
  · have := congrFun hg (Demo.pk 9)
    rw [p9] at this
    revert this; decide +kernel
  · have hc' : c.keypers = [Demo.k 1, Demo.k 2, Demo.k 3] ∨ c.keypers = [Demo.k 2, Demo.k 3, Demo.k 4] := by
      have : c.keypers ∈ r.after.configs.map (·.keypers) := List.mem_map_of_mem hc
      rw [hcs] at this
      simpa using this
    rcases hc' with hc' | hc'
    · have := hk nonExistentValidator
      rw [pn, hc'] at this
      simp only [keyOf, List.countP_cons, i1, i2, i3, List.countP_nil] at this
      revert this; decide +kernel
    · rw [hc'] at hn
      simp [i2, i3, i4] at hn

end Shutter.App
