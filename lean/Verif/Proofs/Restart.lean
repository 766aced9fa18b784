import Verif.Proofs.AppRestart
import Verif.Props.App

/-! # Failed key generations are repeated -/

namespace Shutter.App

variable {ps : Parsers} {dev : Bool} {log : List Rec} {s : State}

/-- The start batches announced with configs. -/
def configStarts (log : List Rec) : List Nat := (announcedConfigs (allEvents log)).map (·.1)

theorem allEvents_append (l l' : List Rec) : allEvents (l ++ l') = allEvents l ++ allEvents l' := by simp [allEvents]

theorem starts_mono {l l' : List Rec} {b : Nat} (h : b ∈ configStarts l) : b ∈ configStarts (l ++ l') := by
  unfold configStarts at *
  rw [allEvents_append, announcedConfigs_append, List.map_append]
  exact List.mem_append_left _ h

theorem Exec.starts_ids (h : Exec ps dev log s) : configStarts log = (ids s).tail.map (·.startBatchIndex) := by
  unfold configStarts
  rw [h.announced, List.map_map]
  rfl

/-- Config `c` in force for `b` starts at or after every config that starts at or before `b`. -/
theorem InForce.latest (inv : Inv s) {b : Nat} {c : BatchConfig} (hf : InForce s.configs b c) {d : BatchConfig} (hd : d ∈ ids s)
    (hb : d.startBatchIndex ≤ b) : d.startBatchIndex ≤ c.startBatchIndex := by
  obtain ⟨a, z, h1, h2, h3⟩ := hf
  have hids : ids s = a.map BatchConfig.erase ++ c.erase :: z.map BatchConfig.erase := by simp [ids, h1]
  have hp := inv.cfg.start
  rw [hids, List.pairwise_append] at hp
  rw [hids, List.mem_append, List.mem_cons] at hd
  rcases hd with hd | rfl | hd
  · exact hp.2.2 _ hd c.erase (by simp)
  · exact le_refl _
  · obtain ⟨y, hy, rfl⟩ := List.mem_map.1 hd
    have := h3 y hy
    simp only [erase_start] at hb
    omega

theorem InForce.starts (inv : Inv s) {b : Nat} {c : BatchConfig} (hf : InForce s.configs b c)
    (hb : b = 0 ∨ b ∈ (ids s).tail.map (·.startBatchIndex)) : c.startBatchIndex = b := by
  have h1 : c.startBatchIndex ≤ b := by obtain ⟨_, _, _, h, _⟩ := hf; exact h
  rcases hb with rfl | hb
  · omega
  · obtain ⟨d, hd, rfl⟩ := List.mem_map.1 hb
    have := hf.latest inv (List.mem_of_mem_tail hd) (le_refl _)
    omega

theorem inForce_exists (inv : Inv s) (b : Nat) : ∃ c, InForce s.configs b c := by
  obtain ⟨c, rest, h1, h2, _⟩ := inv.cfg.first
  cases hg : getConfig s.configs b with
  | some c => exact ⟨c, getConfig_iff.1 hg⟩
  | none =>
    unfold getConfig at hg
    rw [List.find?_eq_none] at hg
    have hmem : c ∈ ids s := by rw [h1]; simp
    obtain ⟨c', hc', rfl⟩ := List.mem_map.1 hmem
    have := hg c' (by simpa using hc')
    simp only [erase_start] at h2
    simp [h2] at this

/-- Faithful keypers vote for the start batches of configs, and so every eon is for the start batch of a config. -/
theorem Exec.eon_starts (h : Exec ps dev log s) (maj : HonestMajority log) : ∀ n : Nat, ∀ pre r post, log = pre ++ r :: post →
    pre.length = n → ∀ e b, .eonStarted e b ∈ r.events → b = 0 ∨ b ∈ configStarts (pre ++ [r]) := by
  intro n
  induction n using Nat.strong_induction_on with
  | _ n ih =>
  intro pre r post hl hn e b hev
  have hvoter : ∀ x, Faithful log x → (r.Accepts x (.eonStartVote b) ∨ ∃ ci, CurrentVote pre x ci b) → b = 0 ∨ b ∈ configStarts (pre ++ [r]) := by
    intro x hx hv
    have back : ∀ p q, pre = p ++ q → (∃ r' ∈ p, ∃ e, .eonStarted e b ∈ r'.events) → b = 0 ∨ b ∈ configStarts (pre ++ [r]) := by
      rintro p q rfl ⟨r', hr', e', he'⟩
      obtain ⟨p1, p2, rfl⟩ := List.append_of_mem hr'
      have hlen : p1.length < n := by
        rw [← hn]; simp only [List.length_append, List.length_cons]; omega
      rcases ih _ hlen p1 r' (p2 ++ q ++ r :: post) (by rw [hl]; simp) rfl e' b he' with h0 | h0
      · exact .inl h0
      · right
        have := starts_mono (l' := p2 ++ q ++ [r]) h0
        simpa using this
    rcases hv with hv | ⟨ci, p, r₀, q, rfl, ⟨hv, _⟩, _⟩
    · exact back pre [] (by simp) (hx pre r post b hl hv)
    · exact back p (r₀ :: q) rfl (hx p r₀ (q ++ r :: post) b (by rw [hl]; simp) hv)
  rcases Props.C27_eon_sources h (r := r) (by rw [hl]; simp) hev with ⟨a, hv⟩ | ⟨c, hc, hs⟩
  · obtain ⟨_, c, hf, hq⟩ := Props.C27_eon_quorum h hl hv (List.ne_nil_of_mem hev)
    have hmem : c ∈ r.before.configs := by obtain ⟨p, q, h1, _⟩ := hf; rw [h1]; simp
    have hak : a ∈ c.keypers := by
      obtain ⟨_, o, m, d, ho, hm, hop, hresp, hok, _, _, he⟩ := h.eff hl hv
      have hne : d.events ≠ [] := by
        have := List.ne_nil_of_mem hev
        rw [show r.events = d.events by simp [Rec.events, hresp]] at this
        exact this
      generalize hmsg : Msg.eonStartVote b = msg at he
      generalize r.after = sa at he
      cases he with
      | eonStarted b' c' i start hc hk hout hcand =>
        simp at hmsg; subst hmsg
        rw [hf.unique (getConfig_iff.1 hc)]
        exact isKeyper_iff.1 hk
      | rejected => simp [errorResponse] at hne
      | eonVoted => simp at hne
      | _ => simp at hmsg
    obtain ⟨ht, F, hF, hcard⟩ := maj r (by rw [hl]; simp) c hmem (List.ne_nil_of_mem hak)
    obtain ⟨V, hV, hVk⟩ := hq ht
    have : ∃ x ∈ V, x ∈ F := by
      by_contra hno
      push Not at hno
      have hdis : Disjoint V F := Finset.disjoint_left.2 hno
      have hsub : V ∪ F ⊆ c.keypers.toFinset := by
        intro x hx
        rcases Finset.mem_union.1 hx with hx | hx
        · exact List.mem_toFinset.2 (hVk x hx).1
        · exact List.mem_toFinset.2 (hF x hx).1
      have h1 := Finset.card_le_card hsub
      rw [Finset.card_union_of_disjoint hdis] at h1
      have h2 := List.toFinset_card_le c.keypers
      omega
    obtain ⟨x, hx, hxF⟩ := this
    refine hvoter x (hF x hxF).2 ?_
    rcases (hVk x hx).2 with rfl | hcv
    · exact .inl hv
    · exact .inr ⟨_, hcv⟩
  · right
    rw [(Net.after_exec h hl).starts_ids]
    obtain ⟨hE, _⟩ := h.at hl
    have hne : ids r.before ≠ [] := by
      obtain ⟨c, rest, h1, _⟩ := hE.inv.cfg.first
      rw [h1]; simp
    have : ids r.after = ids r.before ++ [c.erase] := by unfold ids; rw [hc]; simp
    rw [this, List.tail_append_of_ne_nil hne, List.map_append]
    exact List.mem_append_right _ (by simp [hs])

/-- A faithful vote is for the start batch of the config in force for it. -/
theorem Exec.faithful_vote (h : Exec ps dev log s) (maj : HonestMajority log) {pre r post} (hl : log = pre ++ r :: post) {x : Addr}
    (hx : Faithful log x) {ci b : Nat} (hv : r.EonVote x ci b) : ∃ c, InForce r.before.configs b c ∧ c.configIndex = ci ∧ c.startBatchIndex = b := by
  obtain ⟨acc, c, hf, hci⟩ := hv
  refine ⟨c, hf, hci, hf.starts (h.at hl).1.inv ?_⟩
  obtain ⟨r', hr', e, he⟩ := hx pre r post b hl acc
  obtain ⟨p1, p2, rfl⟩ := List.append_of_mem hr'
  rw [← (h.at hl).1.starts_ids]
  rcases h.eon_starts maj _ p1 r' (p2 ++ r :: post) (by rw [hl]; simp) rfl e b he with h0 | h0
  · exact .inl h0
  · right
    have := starts_mono (l' := p2) h0
    simpa using this

end Shutter.App

namespace Shutter.Net
open Shutter.App

variable {ps : Parsers} {dev : Bool} {log : List Rec} {s : App.State}

/-- The config in force stays in force as long as no config for the batch is accepted. -/
theorem in_force_later {pre mid : List Rec} {r : Rec} {s' : App.State} (hx : Exec ps dev (pre ++ [r]) r.after)
    (h' : Exec ps dev (pre ++ r :: mid) s') {b : Nat} {c : BatchConfig} (hf : InForce r.after.configs b c) (hc : c.configIndex ≠ 0)
    (later : ∀ r' ∈ mid, ∀ start t ks i, .batchConfig start t ks i ∈ r'.events → b < start) :
    ∃ c', InForce s'.configs b c' ∧ announcement c' = announcement c := by
  have h1 := h'.announced
  rw [show pre ++ r :: mid = (pre ++ [r]) ++ mid by simp, allEvents_append, announcedConfigs_append, hx.announced] at h1
  have h2 : (announcedConfigs (allEvents mid)).filter (fun x => decide (x.1 ≤ b)) = [] := by
    rw [List.filter_eq_nil_iff]
    intro x hx
    unfold announcedConfigs allEvents at hx
    obtain ⟨ev, hev, hm⟩ := List.mem_filterMap.1 hx
    obtain ⟨r', hr', hev⟩ := List.mem_flatMap.1 hev
    split at hm
    · simp only [Option.some.injEq] at hm
      subst hm
      have := later r' hr' _ _ _ _ hev
      rw [decide_eq_true_eq]
      show ¬ _ ≤ b
      omega
    · cases hm
  obtain ⟨c', hc'⟩ := inForce_exists h'.inv b
  have h3 := inForce_announced hx.inv hf hc
  refine ⟨c', hc', ?_⟩
  by_cases hz : c'.configIndex = 0
  · have h4 := inForce_genesis h'.inv hc' hz
    rw [← h1, List.filter_append, h2, List.append_nil] at h4
    rw [h4] at h3
    simp at h3
  · have h4 := inForce_announced h'.inv hc' hz
    rw [← h1, List.filter_append, h2, List.append_nil, h3] at h4
    exact (Option.some.inj h4).symm

/-- Later eons have higher numbers. -/
theorem eon_lt (h : Exec ps dev log s) {pre pre' post' : List Rec} {r r' : Rec} (hl : log = pre' ++ r' :: post') (hr : r ∈ pre')
    {e b e' b' : Nat} (he : .eonStarted e b ∈ r.events) (he' : .eonStarted e' b' ∈ r'.events) : e < e' := by
  have hx := (after_exec h hl).eons.1
  rw [events_concat, eonsOf_append] at hx
  have hsort : (eonsOf (allEvents pre') ++ eonsOf r'.events).Pairwise (· < ·) := by
    rw [hx]
    exact List.pairwise_lt_range'
  refine (List.pairwise_append.1 hsort).2.2 e ?_ e' ?_
  · unfold eonsOf allEvents
    exact List.mem_filterMap.2 ⟨.eonStarted e b, List.mem_flatMap.2 ⟨r, hr, he⟩, rfl⟩
  · unfold eonsOf
    exact List.mem_filterMap.2 ⟨.eonStarted e' b', he', rfl⟩

/-- The last element of a list with a property. -/
theorem last_with {α : Type} (p : α → Prop) : ∀ l : List α, (∃ x ∈ l, p x) → ∃ a x z, l = a ++ x :: z ∧ p x ∧ ∀ y ∈ z, ¬ p y := by
  intro l
  induction l using List.reverseRecOn with
  | nil => rintro ⟨x, hx, _⟩; cases hx
  | append_singleton l y ih =>
    rintro ⟨x, hx, hp⟩
    by_cases hy : p y
    · exact ⟨l, y, [], rfl, hy, by simp⟩
    · rcases List.mem_append.1 hx with hx | hx
      · obtain ⟨a, x', z, rfl, h1, h2⟩ := ih ⟨x, hx, hp⟩
        refine ⟨a, x', z ++ [y], by simp, h1, ?_⟩
        intro w hw
        rcases List.mem_append.1 hw with hw | hw
        · exact h2 w hw
        · simp at hw; subst hw; exact hy
      · simp at hx; subst hx; exact absurd hp hy

/-- A delivered vote of a keyper of the config in force is accepted. -/
theorem vote_accepted (h : Exec ps dev log s) {pre r post} (hl : log = pre ++ r :: post) {x : Addr} {b : Nat}
    (arr : Arrives pre r x (.eonStartVote b)) {c : BatchConfig} (hf : InForce r.before.configs b c) (hx : x ∈ c.keypers) :
    r.EonVote x c.configIndex b := by
  obtain ⟨nonce, del, fresh⟩ := arr
  obtain ⟨o, d, hresp, hdel⟩ := h.delivered hl del rfl fresh
  have hc : getConfig (withNonce r.before x nonce).configs b = some c := getConfig_iff.2 hf
  simp only [deliverMessage, deliverEonStartVote, hc, isKeyper_iff.2 hx, Bool.not_true, Bool.false_eq_true, if_false] at hdel
  have hok : d.ok = true := by
    split at hdel
    · cases hdel
    · simp only [Option.some.injEq, Prod.mk.injEq] at hdel; rw [← hdel.2]
    · simp only [Option.some.injEq, Prod.mk.injEq] at hdel; rw [← hdel.2]
  refine ⟨⟨_, rfl, del, d.events, ?_⟩, c, hf, rfl⟩
  rw [hresp]
  cases d
  simp only at hok
  rw [hok]

/-- The announced eon is repeated. -/
theorem restarted (h : Exec ps dev log s) (maj : HonestMajority log) {e b : Nat} {c : BatchConfig} {S : Nat} (an : Announced log e b c S)
    (settled : Settled log e) (hc : c.configIndex ≠ 0) (V : Finset Addr) (hV : ∀ x ∈ V, x ∈ c.keypers ∧ Faithful log x)
    (enough : c.threshold ≤ V.card)
    (votes : ∀ x ∈ V, ∃ pre r post, log = pre ++ r :: post ∧ Arrives pre r x (.eonStartVote b) ∧ S < heightAfter pre) (hne : V.Nonempty) :
    ∃ e' c' S', e < e' ∧ S ≤ S' ∧ Announced log e' b c' S' ∧ announcement c' = announcement c := by
  obtain ⟨pre, r, post, hl, hev, hst, rfl⟩ := an
  obtain ⟨_, hf, _⟩ := h.starts hl hev hst
  have hx := after_exec h hl
  have hlater : ∀ mid z, post = mid ++ z → ∀ r' ∈ mid, ∀ start t ks i, .batchConfig start t ks i ∈ r'.events → b < start := by
    rintro mid z rfl r' hr' start t ks i he
    exact settled pre r _ b hl hev r' (by simp [hr']) start t ks i he
  have hb : c.startBatchIndex = b := by
    refine hf.starts hx.inv ?_
    rw [← hx.starts_ids]
    exact h.eon_starts maj _ pre r post hl rfl e b hev
  -- a config of the same number, at a later call
  have hsame : ∀ mid z r', post = mid ++ r' :: z → ∃ c', InForce r'.before.configs b c' ∧ announcement c' = announcement c ∧
      ∀ b₁ c₁, InForce r'.before.configs b₁ c₁ → c₁.configIndex = c.configIndex → c₁ = c' := by
    rintro mid z r' rfl
    have hl' : log = (pre ++ r :: mid) ++ r' :: z := by rw [hl]; simp
    obtain ⟨c', h1, h2⟩ := in_force_later hx (h.at hl').1 hf hc (hlater mid _ rfl)
    refine ⟨c', h1, h2, ?_⟩
    intro b₁ c₁ hf₁ hi
    have hi' : c₁.configIndex = c'.configIndex := by
      have := congrArg (fun x => x.2.2.2) h2
      simp only [announcement] at this
      rw [this]; exact hi
    obtain ⟨p, q, h3, _⟩ := h1
    obtain ⟨p₁, q₁, h4, _⟩ := hf₁
    have hp := (h.at hl').1.inv.cfg.index
    have hm : c' ∈ r'.before.configs := by rw [h3]; simp
    have hm₁ : c₁ ∈ r'.before.configs := by rw [h4]; simp
    unfold ids at hp
    rw [List.pairwise_map] at hp
    by_contra hne
    obtain ⟨i, hi1, hi2⟩ := List.getElem_of_mem hm
    obtain ⟨j, hj1, hj2⟩ := List.getElem_of_mem hm₁
    rw [List.pairwise_iff_getElem] at hp
    rcases Nat.lt_trichotomy i j with hij | hij | hij
    · have := hp i j hi1 hj1 hij
      rw [hi2, hj2] at this
      simp only [erase_index] at this
      omega
    · subst hij
      exact hne (hj2.symm.trans hi2)
    · have := hp j i hj1 hi1 hij
      rw [hi2, hj2] at this
      simp only [erase_index] at this
      omega
  by_cases hre : ∃ r' ∈ post, r'.Restarts c.configIndex
  · obtain ⟨r', hr', ⟨⟨a, b', acc, c₁, hf₁, hi₁⟩, hne'⟩⟩ := hre
    obtain ⟨mid, z, rfl⟩ := List.append_of_mem hr'
    have hl' : log = (pre ++ r :: mid) ++ r' :: z := by rw [hl]; simp
    obtain ⟨c', h1, h2, h3⟩ := hsame mid z r' rfl
    have hcc := h3 b' c₁ hf₁ hi₁
    subst hcc
    obtain ⟨⟨e', hev'⟩, _⟩ := App.Props.C27_eon_quorum h hl' acc hne'
    have hmem : Event.eonStarted e' b' ∈ r'.events := by rw [hev']; simp
    have hst' : r'.StartsEon e' c₁ := ⟨⟨b', hmem⟩, .inr ⟨a, b', acc, hf₁⟩⟩
    have hb' : c₁.startBatchIndex = b' := by
      obtain ⟨_, hfa, _⟩ := h.starts hl' hmem hst'
      refine hfa.starts (after_exec h hl').inv ?_
      rw [← (after_exec h hl').starts_ids]
      exact h.eon_starts maj _ _ r' z hl' rfl e' b' hmem
    have hbb : b' = b := by
      have := congrArg (fun x => x.1) h2
      simp only [announcement] at this
      omega
    subst hbb
    refine ⟨e', c₁, _, eon_lt (pre := pre) h hl' (r := r) (by simp) hev hmem, heightAfter_append _ _, ⟨pre ++ r :: mid, r', z, hl', hmem, hst', rfl⟩, h2⟩
  · exfalso
    push Not at hre
    have hcur : ∀ x ∈ V, CurrentVote log x c.configIndex b := by
      intro x hxV
      obtain ⟨pre₁, r₁, post₁, hl₁, arr, hS⟩ := votes x hxV
      obtain ⟨hk, hfaith⟩ := hV x hxV
      have hr₁ : r₁ ∈ post := later_post (hl.symm.trans hl₁) hS
      obtain ⟨mid, hmid⟩ : ∃ mid, pre₁ = pre ++ r :: mid := by
        rcases List.append_eq_append_iff.1 (hl.symm.trans hl₁) with ⟨l, h1, h2⟩ | ⟨l, h1, h2⟩
        · cases l with
          | nil => simp only [List.append_nil] at h1; rw [h1] at hS; omega
          | cons y l =>
            simp only [List.cons_append, List.cons.injEq] at h2
            exact ⟨l, by rw [h1, h2.1]⟩
        · have := heightAfter_append pre₁ l
          rw [← h1] at this
          omega
      have hpost : post = mid ++ r₁ :: post₁ := by
        have := hl.symm.trans hl₁
        rw [hmid, List.append_assoc, List.append_cancel_left_eq, List.cons_append, List.cons.injEq] at this
        exact this.2
      obtain ⟨c', h1, h2, _⟩ := hsame mid post₁ r₁ hpost
      have hk' : x ∈ c'.keypers := by
        have := congrArg (fun x => x.2.2.1) h2
        simp only [announcement] at this
        rw [this]; exact hk
      have hi' : c'.configIndex = c.configIndex := congrArg (fun x => x.2.2.2) h2
      have hvote : r₁.EonVote x c.configIndex b := hi' ▸ vote_accepted h hl₁ arr h1 hk'
      obtain ⟨a, y, z, hz1, ⟨b', hz2⟩, hz3⟩ := last_with (fun r' : Rec => ∃ b', r'.EonVote x c.configIndex b') post ⟨r₁, hr₁, b, hvote⟩
      have hl' : log = (pre ++ r :: a) ++ y :: z := by rw [hl, hz1]; simp
      obtain ⟨c₁, g1, g2, g3⟩ := h.faithful_vote maj hl' hfaith hz2
      obtain ⟨c₂, k1, k2, k3⟩ := hsame a z y hz1
      have := k3 _ _ g1 g2
      subst this
      have hbb : b' = b := by
        have := congrArg (fun x => x.1) k2
        simp only [announcement] at this
        omega
      subst hbb
      refine ⟨_, y, z, hl', hz2, fun r' hr' b'' hv => hz3 r' hr' ⟨b'', hv⟩, ?_⟩
      intro r' hr'
      refine hre r' ?_
      rw [hz1]
      exact List.mem_append_right _ hr'
    obtain ⟨c', h1, h2⟩ := in_force_later hx (by rw [← hl]; exact h) hf hc (hlater post [] (by simp))
    have hi' : c'.configIndex = c.configIndex := congrArg (fun x => x.2.2.2) h2
    have ht' : c'.threshold = c.threshold := congrArg (fun x => x.2.1) h2
    have hmem : c' ∈ s.configs := by obtain ⟨p, q, h3, _⟩ := h1; rw [h3]; simp
    have ht : c.threshold < 2 ^ 63 := by
      obtain ⟨x₀, hx₀⟩ := hne
      obtain ⟨pre₁, r₁, post₁, hl₁, arr, hS⟩ := votes x₀ hx₀
      have hr₁ : r₁ ∈ post := later_post (hl.symm.trans hl₁) hS
      obtain ⟨mid, z, hpost⟩ := List.append_of_mem hr₁
      obtain ⟨c₁, g1, g2, _⟩ := hsame mid z r₁ hpost
      have g3 : c₁.threshold = c.threshold := congrArg (fun x => x.2.1) g2
      have g4 : c₁.keypers = c.keypers := congrArg (fun x => x.2.2.1) g2
      rw [← g3]
      refine (maj r₁ (by rw [hl, hpost]; simp) c₁ ?_ ?_).1
      · obtain ⟨p, q, h3, _⟩ := g1; rw [h3]; simp
      · rw [g4]; exact List.ne_nil_of_mem (hV x₀ hx₀).1
    have := h.votesBelow hmem (ht' ▸ ht) hne (fun x hx => hi' ▸ hcur x hx)
    omega

end Shutter.Net
