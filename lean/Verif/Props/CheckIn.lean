import Verif.Proofs.CheckIn
import Verif.Proofs.DemoCheckIn
import Verif.Props.Validators

set_option linter.unusedSectionVars false

/-!
# C86: A keyper that runs the program becomes known with its own keys

The vocabulary (`GenuineCheckIns`, `CheckInArrives`, `Appointed`, `CheckedInBefore`) is in `Verif.Spec.CheckIn`, `Career` in `Verif.Spec.Vote`,
`keyAt` in `Verif.Spec.Sent`, `Begins` and `keyOf` in `Verif.Spec.Validators`.
-/

namespace Shutter.Net.Props
open Shutter.App Shutter.Events Shutter.Observe Shutter.Decide Shutter.Decide.Spec Shutter.Crypto

variable {ps : Parsers} {dev : Bool} {log : List Rec} {s : App.State} {codecs : Codecs}
variable {G1 G2 GT R : Type} [AddCommGroup G1] [AddCommGroup G2] [DecidableEq G2] [DecidableEq GT] {w : Wire G1 G2}
variable {cx : Cfg G1 G2 GT R} {chain : Observe.Chain} {E : Sol.Env} {fd : Nat} {sh : Observe.Shutter} {st : Decide.State G1 G2} {mc : Main.MainChain}
  {hist : Nat → Sol.World} {rounds : List (Main.MainChain × Round G1 G2)}

/-- **C86** A keyper checks in only when a config with it is announced on shuttermint and it has seen no check-in of its own. -/
theorem C86_only (l : Career cx codecs chain E fd sh st mc hist rounds) {x : Main.MainChain × Round G1 G2} (hx : x ∈ rounds)
    (hs : .checkIn ∈ x.2.sent) : Appointed codecs chain cx.own x.2.next ∧ keyAt codecs chain cx.own x.2.next = none :=
  checkIn_only l hx hs

/-- **C86** A keyper that decides in some round (a config with it is announced then) has checked in, in this round or before, unless
somebody else has done it with its signature. -/
theorem C86_sent (h : Exec ps dev log s) (fit : Codecs.Fit ps codecs) (sane : Sane log) (few : s.eonCounter + 1 < 2 ^ 64)
    (l : Career cx codecs (appChain codecs log) E fd sh st mc hist rounds) (genuine : GenuineCheckIns w log cx.own (rounds.map (·.2)))
    {before after : List (Main.MainChain × Round G1 G2)} {x : Main.MainChain × Round G1 G2} (hr : rounds = before ++ x :: after)
    (deciding : x.2.deciding = true) :
    Appointed codecs (appChain codecs log) cx.own x.2.next ∧ ∃ y ∈ before ++ [x], .checkIn ∈ y.2.sent := by
  refine ⟨deciding_appointed l (by rw [hr]; simp) deciding, ?_⟩
  rcases checkIn_due l hr deciding with h1 | ⟨k, hk⟩
  · exact h1
  · obtain ⟨y, hy, hev⟩ := lastCheckIn_mem hk
    obtain ⟨pre, r, post, hl, hlt, hev', _, _⟩ := (mem_below h fit sane few).1 hy
    rw [hev] at hev'
    obtain ⟨vk, ek, acc, _⟩ := checkIn_event h hl hev'
    obtain ⟨_, _, z, hz, hs, hn⟩ := genuine_accept genuine hl acc
    refine ⟨z, ?_, hs⟩
    rw [hr, List.mem_append, List.mem_cons] at hz
    rcases hz with hz | rfl | hz
    · exact List.mem_append_left _ hz
    · simp
    · exfalso
      have hm := (next_mono l).1
      rw [hr, List.pairwise_append, List.pairwise_cons] at hm
      have := hm.2.1.1 z hz
      omega

/-- **C86** If nobody else checks in with its signature and its check-in is delivered, a keyper that has decided in some round is registered by
the application with its own validator key, and its own encryption key is published; this stays so. -/
theorem C86_known (h : Exec ps dev log s) (fit : Codecs.Fit ps codecs) (sane : Sane log) (few : s.eonCounter + 1 < 2 ^ 64)
    (l : Career cx codecs (appChain codecs log) E fd sh st mc hist rounds) (genuine : GenuineCheckIns w log cx.own (rounds.map (·.2)))
    (arrives : CheckInArrives w log cx.own (rounds.map (·.2))) (len : w.validatorKey.length = 32) {key : App.Bytes}
    (hk : ps.pubkey w.encryptionKey = some key) {x : Main.MainChain × Round G1 G2} (hx : x ∈ rounds) (deciding : x.2.deciding = true) :
    s.identities cx.own = some w.validatorKey ∧ ∃ pre r post, log = pre ++ r :: post ∧ r.events = [.checkIn cx.own key] ∧
      ∀ r' ∈ post, r'.before.identities cx.own = some w.validatorKey := by
  obtain ⟨before, after, hr⟩ := List.append_of_mem hx
  obtain ⟨_, y, hy, hs⟩ := C86_sent h fit sane few l genuine hr deciding
  have hy : y ∈ rounds := by
    rw [hr]
    simp only [List.mem_append, List.mem_cons] at hy ⊢
    tauto
  obtain ⟨pre, r, post, hl, arr, hn⟩ := arrives y.2 (List.mem_map.2 ⟨y, hy, rfl⟩) hs
  obtain ⟨_, pre', r', post', hl', _, hev, _⟩ := checkIn_lands h fit sane few l genuine hy hs hl arr hn len hk
  obtain ⟨vk, ek, acc, _⟩ := checkIn_event h hl' (by rw [hev]; simp : .checkIn cx.own key ∈ r'.events)
  obtain ⟨rfl, rfl, _⟩ := genuine_accept genuine hl' acc
  refine ⟨(App.Props.C28_check_in h hl' acc).2.2.2, pre', r', post', hl', hev, ?_⟩
  intro z hz
  obtain ⟨p, q, hpq⟩ := List.append_of_mem hz
  have e : log = (pre' ++ r' :: p) ++ z :: q := by rw [hl', hpq]; simp
  exact (App.Props.C28_check_in (h.at e).1 (pre := pre') (r := r') (post := p) rfl acc).2.2.2

/-- **C86** No other key is ever taken for the keyper's: whatever encryption key the others know for it is its own, and whatever validator key is
registered for it is its own. -/
theorem C86_no_other (h : Exec ps dev log s) (fit : Codecs.Fit ps codecs) (sane : Sane log) (few : s.eonCounter + 1 < 2 ^ 64)
    (genuine : GenuineCheckIns w log cx.own (rounds.map (·.2))) :
    (∀ next key, keyAt codecs (appChain codecs log) cx.own next = some key → ps.pubkey w.encryptionKey = some key) ∧
    ∀ vk, s.identities cx.own = some vk → vk = w.validatorKey := by
  constructor
  · intro next key hk
    obtain ⟨y, hy, hev⟩ := lastCheckIn_mem hk
    obtain ⟨pre, r, post, hl, hlt, hev', _, _⟩ := (mem_below h fit sane few).1 hy
    rw [hev] at hev'
    obtain ⟨vk, ek, acc, hp, _⟩ := checkIn_event h hl hev'
    obtain ⟨_, rfl, _⟩ := genuine_accept genuine hl acc
    exact hp
  · intro vk hv
    obtain ⟨r, hr, ek, acc⟩ := App.Props.C28_identities h hv
    obtain ⟨pre, post, hl⟩ := List.append_of_mem hr
    exact (genuine_accept genuine hl acc).1

/-- **C86** The others know: every keyper that has read the chain up to the block of the check-in has the encryption key of the keyper. -/
theorem C86_others (h : Exec ps dev log s) (fit : Codecs.Fit ps codecs) (sane : Sane log) (few : s.eonCounter + 1 < 2 ^ 64)
    {a : Addr} {key : App.Bytes} {xs : List LoopStep} {v : Observe.Shutter} (hv : runLoop codecs (appChain codecs log) newShutter xs = some v)
    (checked : CheckedInBefore log a key (v.currentBlock + 1)) : v.keyperEncryptionKeys a = some key := by
  obtain ⟨pre, r, post, hl, hev, hlt⟩ := checked
  rw [checkedIn_seen hv]
  have hmem : (⟨heightAfter pre, .checkIn a key⟩ : Stamped) ∈ chainEvents codecs (appChain codecs log) 0 (v.currentBlock + 1 - 1) :=
    (mem_below h fit sane few).2 ⟨pre, r, post, hl, hlt, by rw [hev]; simp, rfl, rfl⟩
  rw [show v.currentBlock + 1 - 1 = v.currentBlock by omega] at hmem
  obtain ⟨k', hk'⟩ := lastCheckIn_some.2 ⟨_, hmem, key, rfl⟩
  rw [hk']
  obtain ⟨y, hy, hev'⟩ := lastCheckIn_mem hk'
  rw [show v.currentBlock = v.currentBlock + 1 - 1 by omega] at hy
  obtain ⟨pre', r', post', hl', hlt', hmem', _, _⟩ := (mem_below h fit sane few).1 hy
  rw [hev'] at hmem'
  obtain ⟨vk, ek, acc, _, _⟩ := checkIn_event h hl (by rw [hev]; simp : .checkIn a key ∈ r.events)
  obtain ⟨vk', ek', acc', _, hev''⟩ := checkIn_event h hl' hmem'
  have : r = r' := by
    have e := hl.symm.trans hl'
    rcases List.append_eq_append_iff.1 e with ⟨m, h1, h2⟩ | ⟨m, h1, h2⟩
    · cases m with
      | nil => simp at h2; exact h2.1
      | cons z m =>
        simp only [List.cons_append, List.cons.injEq] at h2
        obtain ⟨rfl, h2⟩ := h2
        exact absurd acc' (App.Props.C28_check_in_once h (pre := pre) (mid := m) (post := post') (by rw [hl', h1]) acc)
    · cases m with
      | nil => simp at h2; exact h2.1.symm
      | cons z m =>
        simp only [List.cons_append, List.cons.injEq] at h2
        obtain ⟨rfl, h2⟩ := h2
        exact absurd acc (App.Props.C28_check_in_once h (pre := pre') (mid := m) (post := post) (by rw [hl, h1]) acc')
  subst this
  rw [hev] at hev''
  simp at hev''
  rw [hev'']

/-- **C86** After a block, if the config in force (the latest that is started and whose validators are updated) has the keyper, then
Tendermint gives its validator key the power 10 at least, and exactly 10 if no other keyper of the config has the same key. -/
theorem C86_validator (h : Exec ps false log s) {req : InitRequest} (begins : Begins log req) {pre post : List Rec} {r : Rec}
    (split : log = pre ++ r :: post) {height : Nat} (call : r.op = .endBlock height) {a : Addr} {vk : App.Bytes}
    (registered : r.before.identities a = some vk) {c : BatchConfig}
    (inForce : r.after.configs.reverse.find? (fun c => c.started && c.validatorsUpdated) = some c) (member : a ∈ c.keypers) :
    10 ≤ tmValidators (pre ++ [r]) vk ∧
    ((∀ a' ∈ c.keypers, a' ≠ a → keyOf r.before a' ≠ vk) → c.keypers.Nodup → tmValidators (pre ++ [r]) vk = 10) := by
  have hbs := App.Begins.snoc begins split
  obtain ⟨hE, o, ho, hst⟩ := h.at split
  have hE' : Exec ps false (pre ++ [r]) r.after := hE.step o _ _ _ ho hst
  obtain ⟨_, ht⟩ := hE'.tmValidators (App.Begins.once hbs)
  rw [call] at hst
  simp only [App.step, Option.map_eq_some_iff, Prod.mk.injEq] at hst
  obtain ⟨⟨s₁, ups'⟩, hi, he, hu'⟩ := hst
  simp only at he hu'
  subst he
  obtain ⟨_, _, _, _, _, hv⟩ := endBlock_validators ho hE.validators hi
  rw [inForce] at hv
  simp only at hv
  rw [ht, hv, makePowermap_get]
  have hp : (fun a => decide ((r.before.identities a).getD nonExistentValidator = vk)) a = true := by simp [registered]
  have h1 : 0 < c.keypers.countP (fun a => decide ((r.before.identities a).getD nonExistentValidator = vk)) :=
    List.countP_pos_iff.2 ⟨a, member, hp⟩
  refine ⟨by omega, fun hd hn => ?_⟩
  have h2 : c.keypers.countP (fun a => decide ((r.before.identities a).getD nonExistentValidator = vk)) = c.keypers.count a := by
    unfold List.count
    refine List.countP_congr fun x hx => ?_
    simp only [decide_eq_true_eq, beq_iff_eq]
    constructor
    · intro h0
      by_contra hne
      exact hd x hx hne h0
    · rintro rfl
      simp [registered]
  rw [h2, List.count_eq_one_of_mem hn member]
  norm_num

open CheckInDemo in
/-- In the demo the keyper 7 is one of config number 1, which shuttermint accepts in block 2. In a round after this block it decides to check in;
this is delivered in block 3. The hypotheses of the theorems above are met: from then on it is registered with its own key, and after
block 3, when config number 1 comes into force, it is a validator with power 10. -/
theorem C86_example : Exec App.Demo.ps false CheckInDemo.log state ∧ Codecs.Fit App.Demo.ps Events.Props.demoCodecs ∧ Sane CheckInDemo.log ∧ Begins CheckInDemo.log req ∧
    (∃ r : CRun Zq Zq, Career (VoteDemo.cxOf (App.Demo.k 7)) Events.Props.demoCodecs (appChain Events.Props.demoCodecs CheckInDemo.log) Sol.Demo.env 0 r.s r.st r.mc
        (VoteDemo.hist VoteDemo.active) r.rounds ∧
      GenuineCheckIns wire CheckInDemo.log (App.Demo.k 7) (r.rounds.map (·.2)) ∧ CheckInArrives wire CheckInDemo.log (App.Demo.k 7) (r.rounds.map (·.2)) ∧
      (∃ x ∈ r.rounds, x.2.deciding = true) ∧ CheckedInBefore CheckInDemo.log (App.Demo.k 7) [7, 7] (r.s.currentBlock + 1) ∧
      state.identities (App.Demo.k 7) = some (App.Demo.pk 3) ∧ r.s.keyperEncryptionKeys (App.Demo.k 7) = some [7, 7]) ∧
    ∃ pre r post, CheckInDemo.log = pre ++ r :: post ∧ r.op = .endBlock 3 ∧ r.before.identities (App.Demo.k 7) = some (App.Demo.pk 3) ∧
      (∃ c, r.after.configs.reverse.find? (fun c => c.started && c.validatorsUpdated) = some c ∧ App.Demo.k 7 ∈ c.keypers ∧ c.keypers.Nodup ∧
        ∀ a' ∈ c.keypers, a' ≠ App.Demo.k 7 → keyOf r.before a' ≠ App.Demo.pk 3) ∧ tmValidators (pre ++ [r]) (App.Demo.pk 3) = 10 := by
  have begins : Begins CheckInDemo.log req := App.Demo.begins_of (by rfl) (by decide +kernel)
  refine ⟨exec, Demo.fit, sane, begins, ?_, ?_⟩
  · obtain ⟨r, l, f1, f2, f3, f4⟩ := checked (VoteDemo.chain _) facts
    have gen := genuine_of f1
    have arr := arrives f2
    have hdec : ∃ x ∈ r.rounds, x.2.deciding = true := by
      have : ((true, 3, true) : Bool × Int × Bool) ∈ r.rounds.map (fun x => sees x.2) := by
        rw [f3]; simp
      obtain ⟨x, hx, he⟩ := List.mem_map.1 this
      simp only [sees, Prod.mk.injEq] at he
      exact ⟨x, hx, he.1⟩
    have hchk : CheckedInBefore CheckInDemo.log (App.Demo.k 7) [7, 7] (r.s.currentBlock + 1) := by
      rw [f4]
      obtain ⟨x, hx⟩ : ∃ x, CheckInDemo.log[9]? = some x := Option.isSome_iff_exists.1 (by decide +kernel)
      obtain ⟨h9, he⟩ := List.getElem?_eq_some_iff.1 hx
      refine ⟨CheckInDemo.log.take 9, x, CheckInDemo.log.drop 10, by rw [← he, ← List.drop_eq_getElem_cons h9, List.take_append_drop], ?_, by decide +kernel⟩
      have e : (CheckInDemo.log[9]?).map Rec.events = some [.checkIn (App.Demo.k 7) [7, 7]] := by decide +kernel
      rw [hx] at e
      simpa using e
    obtain ⟨xs, hxs⟩ := l.loop
    obtain ⟨x, hx, hd⟩ := hdec
    exact ⟨r, l, gen, arr, ⟨x, hx, hd⟩, hchk,
      (C86_known (key := [7, 7]) exec Demo.fit sane (by decide +kernel) l gen arr (by decide) (by decide) hx hd).1,
      C86_others exec Demo.fit sane (by decide +kernel) hxs hchk⟩
  · obtain ⟨x, hx⟩ : ∃ x, CheckInDemo.log[12]? = some x := Option.isSome_iff_exists.1 (by decide +kernel)
    obtain ⟨h9, he⟩ := List.getElem?_eq_some_iff.1 hx
    have hl : CheckInDemo.log = CheckInDemo.log.take 12 ++ x :: CheckInDemo.log.drop 13 := by rw [← he, ← List.drop_eq_getElem_cons h9, List.take_append_drop]
    have e : (CheckInDemo.log[12]?).map (fun r => (endHeight r.op,
        r.after.configs.reverse.find? (fun c => c.started && c.validatorsUpdated), r.before.identities (App.Demo.k 7),
        decide (∀ a' ∈ [App.Demo.k 5, App.Demo.k 6], keyOf r.before a' ≠ App.Demo.pk 3))) =
        some (some 3, some ⟨0, [App.Demo.k 5, App.Demo.k 6, App.Demo.k 7], 2, zeroAddr, 1, true, true⟩, some (App.Demo.pk 3), true) := by decide +kernel
    rw [hx] at e
    simp only [Option.map_some, Option.some.injEq, Prod.mk.injEq, decide_eq_true_eq] at e
    obtain ⟨e1, e2, e3, e4⟩ := e
    have eop : x.op = .endBlock 3 := endHeight_some e1
    have hne : ∀ a' ∈ [App.Demo.k 5, App.Demo.k 6, App.Demo.k 7], a' ≠ App.Demo.k 7 → keyOf x.before a' ≠ App.Demo.pk 3 := by
      intro a' ha hn
      refine e4 a' ?_
      simp only [List.mem_cons, List.not_mem_nil, or_false] at ha ⊢
      tauto
    have hv := C86_validator exec begins hl eop e3 e2 (by simp)
    exact ⟨_, x, _, hl, eop, e3, ⟨_, e2, by simp, by decide, hne⟩, hv.2 hne (by decide)⟩

end Shutter.Net.Props
