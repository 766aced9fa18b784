import Verif.Spec.CheckIn
import Verif.Proofs.VoteAccept
import Verif.Proofs.Once
import Verif.Proofs.AppValidators
import Verif.Props.App

set_option linter.unusedSectionVars false

/-! # Check-ins: what a keyper decides on, what the application makes of it, and what the others see -/

namespace Shutter.Decide
open Shutter.Crypto Shutter.Dkg Shutter.Observe Shutter.Main
open Shutter.Events (Codecs)
open Shutter.Sol (World)

variable {G1 G2 GT R : Type} [AddCommGroup G1] [AddCommGroup G2] [DecidableEq G2] [DecidableEq GT]
variable {cx : Cfg G1 G2 GT R} {codecs : Codecs} {chain : Observe.Chain} {E : Sol.Env} {fd : Nat}

theorem mem_checkIns {acts : List (Action G1 G2)} : .checkIn ∈ acts ↔ checkInsOf acts ≠ [] := by
  unfold checkInsOf
  rw [ne_eq, List.filterMap_eq_nil_iff]
  constructor
  · intro h hall
    have := hall _ h
    simp at this
  · intro h
    push Not at h
    obtain ⟨a, ha, hn⟩ := h
    cases a <;> simp at hn
    exact ha

theorem checkIn_round {sh : Observe.Shutter} {mc : MainChain} {keys : List Nat} {st st' : State G1 G2} {acts : List (Action G1 G2)}
    (h : decideStep cx sh mc keys st = some (st', acts)) :
    .checkIn ∈ acts ↔ decides cx sh mc = true ∧ st.checkInMessageSent = false ∧ isCheckedIn sh cx.own = false := by
  by_cases g : decides cx sh mc = true
  · have g' := g
    unfold decides at g'
    simp only [Bool.and_eq_true] at g'
    obtain ⟨dkg, sync, pub, sigs, exec, app, acc, ekgs, S⟩ := decide_ready h g'.1.1 g'.1.2 g'.2
    obtain ⟨k1, x, y, z, k2⟩ := decideDKGs_stage S.hfirst
    have hb : ∀ d : Decider G1 G2, checkInsOf (maybeSendBatchConfig sh mc d).actions = checkInsOf d.actions := by
      intro d
      unfold maybeSendBatchConfig
      split
      · rfl
      · simp only
        split
        · rfl
        · split
          · rfl
          · simp [checkInsOf, Decider.add]
    rw [mem_checkIns, checkInsOf_filter, S.filter .checkIn]
    simp only
    rw [k1.filter_ne (by decide), ← checkInsOf_filter, hb]
    unfold maybeSendCheckIn
    simp only [g, true_and]
    split_ifs with a b c
    · simp [checkInsOf, a]
    · simp [checkInsOf, b]
    · simp only [Bool.not_eq_true] at a b
      simp [checkInsOf, Decider.add, a, b]
    · exact absurd g'.2 c
  · rcases decide_stages h with ⟨rfl, rfl⟩ | ⟨_, _, _, _, _, _, _, _, S⟩
    · simp [g]
    · exfalso
      apply g
      obtain ⟨a, b, c⟩ := S.ready
      simp [decides, a, b, c]

theorem career_sent {s : Observe.Shutter} {st : State G1 G2} {mc : MainChain} {hist : Nat → World}
    {rounds : List (MainChain × Round G1 G2)} (l : Career cx codecs chain E fd s st mc hist rounds) (h : st.checkInMessageSent = true) :
    ∃ x ∈ rounds, .checkIn ∈ x.2.sent := by
  have h1 := (life_first l.life).1
  rw [h, if_pos rfl] at h1
  by_contra hn
  push Not at hn
  have : (rounds.map (fun e => (e.1, e.2.sent))).flatMap (fun e => checkInsOf e.2) = [] := by
    rw [List.flatMap_eq_nil_iff]
    intro x hx
    obtain ⟨y, hy, rfl⟩ := List.mem_map.1 hx
    have := hn y hy
    rw [mem_checkIns] at this
    simpa using this
  rw [this] at h1
  simp at h1

theorem checkedIn_seen {s : Observe.Shutter} {xs : List LoopStep} (h : runLoop codecs chain newShutter xs = some s) (a : App.Addr) :
    s.keyperEncryptionKeys a = lastCheckIn a (chainEvents codecs chain 0 s.currentBlock) := by
  obtain ⟨thr, b0, inv⟩ := Observe.Props.runLoop_inv_some h
  exact inv.keys a

theorem isKeyper_seen {s : Observe.Shutter} {xs : List LoopStep} (h : runLoop codecs chain newShutter xs = some s) (a : App.Addr) :
    isKeyper s a = true ↔ Net.Appointed codecs chain a (s.currentBlock + 1) := by
  obtain ⟨thr, b0, inv⟩ := Observe.Props.runLoop_inv_some h
  unfold isKeyper Observe.configs Net.Appointed
  rw [inv.configs, configs_seen]
  unfold Observe.Props.seenEvents
  rw [show s.currentBlock + 1 - 1 = s.currentBlock by omega]
  simp only [List.any_map, List.any_eq_true, Function.comp_apply, beq_iff_eq, exists_eq_right]

end Shutter.Decide

namespace Shutter.Net
open Shutter.App Shutter.Events Shutter.Observe Shutter.Decide Shutter.Decide.Spec

variable {ps : Parsers} {dev : Bool} {log : List Rec} {s : App.State} {codecs : Codecs}
variable {G1 G2 GT R : Type} [AddCommGroup G1] [AddCommGroup G2] [DecidableEq G2] [DecidableEq GT] {w : Wire G1 G2}
variable {cx : Cfg G1 G2 GT R} {chain : Observe.Chain} {E : Sol.Env} {fd : Nat} {sh : Observe.Shutter} {st : Decide.State G1 G2} {mc : Main.MainChain}
  {hist : Nat → Sol.World} {rounds : List (Main.MainChain × Round G1 G2)}

/-- The events below a height. -/
theorem mem_below (h : Exec ps dev log s) (fit : Codecs.Fit ps codecs) (sane : Sane log) (few : s.eonCounter + 1 < 2 ^ 64) {next : Int}
    {x : Stamped} : x ∈ chainEvents codecs (appChain codecs log) 0 (next - 1) ↔
      ∃ pre r post, log = pre ++ r :: post ∧ (heightAfter pre : Int) < next ∧ x.ev ∈ r.events ∧ hidden x.ev = false ∧ x.height = heightAfter pre := by
  by_cases h0 : next - 1 < 0
  · rw [chainEvents_empty _ h0]
    constructor
    · intro h; simp at h
    · rintro ⟨pre, r, post, _, h1, _⟩
      unfold heightAfter at h1
      omega
  · rw [chain_seen h fit sane few _ (by omega)]
    simp only [List.mem_flatMap, List.mem_filter, decide_eq_true_eq, seenOf, List.mem_map, Bool.not_eq_true']
    constructor
    · rintro ⟨⟨ht, r⟩, ⟨hp, hlt⟩, ev, ⟨hev, hh⟩, rfl⟩
      obtain ⟨pre, post, hl, rfl⟩ := mem_stamp_one.1 hp
      exact ⟨pre, r, post, hl, by simp only at hlt; omega, hev, hh, rfl⟩
    · rintro ⟨pre, r, post, hl, hlt, hev, hh, hx⟩
      refine ⟨(heightAfter pre, r), ⟨mem_stamp_one.2 ⟨pre, post, hl, rfl⟩, by simp only; omega⟩, x.ev, ⟨hev, hh⟩, ?_⟩
      cases x
      simp only at hx ⊢
      rw [hx]

theorem lastCheckIn_some {a : Addr} {evs : List Stamped} : (∃ k, lastCheckIn a evs = some k) ↔ ∃ x ∈ evs, ∃ k, x.ev = .checkIn a k := by
  unfold lastCheckIn
  rw [← Option.isSome_iff_exists, Option.isSome_iff_ne_none, ne_eq, List.getLast?_eq_none_iff, List.filterMap_eq_nil_iff]
  push Not
  constructor
  · rintro ⟨x, hx, hn⟩
    refine ⟨x, hx, ?_⟩
    split at hn
    · next sender key he =>
      split at hn
      · next hs => exact ⟨key, by rw [he, hs]⟩
      · simp at hn
    · simp at hn
  · rintro ⟨x, hx, k, hk⟩
    exact ⟨x, hx, by simp [hk]⟩

theorem lastCheckIn_mem {a : Addr} {evs : List Stamped} {k : Bytes} (h : lastCheckIn a evs = some k) : ∃ x ∈ evs, x.ev = .checkIn a k := by
  unfold lastCheckIn at h
  have := List.mem_of_getLast? h
  rw [List.mem_filterMap] at this
  obtain ⟨x, hx, hk⟩ := this
  refine ⟨x, hx, ?_⟩
  split at hk
  · next sender key he =>
    split at hk
    · next hs => cases hk; rw [he, hs]
    · simp at hk
  · simp at hk

/-- A check-in event comes from an accepted check-in. -/
theorem checkIn_event (h : Exec ps dev log s) {pre r post} (hl : log = pre ++ r :: post) {a : Addr} {key : Bytes}
    (hev : .checkIn a key ∈ r.events) : ∃ vk ek, r.Accepts a (.checkIn vk ek) ∧ ps.pubkey ek = some key ∧ r.events = [.checkIn a key] := by
  obtain ⟨a', msg, acc⟩ := h.accepted_of_event hl (List.ne_nil_of_mem hev)
  obtain ⟨hE, o, m, d, ho, hm, hop, hresp, hok, _, _, he⟩ := h.eff hl acc
  have hevs : r.events = d.events := by simp [Rec.events, hresp]
  rw [hevs] at hev ⊢
  generalize r.after = sa at he
  cases he with
  | checkIn vk ek pk h1 h2 h3 h4 =>
    simp at hev
    obtain ⟨rfl, rfl⟩ := hev
    exact ⟨vk, ek, acc, h4, rfl⟩
  | rejected => simp [errorResponse] at hok
  | configAdded => simp [configEvent] at hev
  | configAddedDKG => simp [configEvent] at hev
  | _ => simp at hev

theorem checkIn_message {act : Action G1 G2} {vk ek : Bytes} (h : message w act = some (.checkIn vk ek)) :
    act = .checkIn ∧ vk = w.validatorKey ∧ ek = w.encryptionKey := by
  cases act <;> simp [message] at h
  exact ⟨rfl, h.1.symm, h.2.symm⟩

/-- An accepted check-in of the keyper is its own. -/
theorem genuine_accept (genuine : GenuineCheckIns w log cx.own (rounds.map (·.2))) {pre r post} (hl : log = pre ++ r :: post)
    {vk ek : Bytes} (acc : r.Accepts cx.own (.checkIn vk ek)) :
    vk = w.validatorKey ∧ ek = w.encryptionKey ∧ ∃ y ∈ rounds, .checkIn ∈ y.2.sent ∧ y.2.next ≤ heightAfter pre := by
  obtain ⟨m, hm, hop, _⟩ := acc
  obtain ⟨x, hx, act, hact, hmsg, hn⟩ := genuine pre r post m vk ek hl hop hm
  obtain ⟨y, hy, rfl⟩ := List.mem_map.1 hx
  rw [hm] at hmsg
  obtain ⟨rfl, rfl, rfl⟩ := checkIn_message hmsg
  exact ⟨rfl, rfl, y, hy, hact, hn⟩

/-- A keyper that decides and is not checked in has sent its check-in. -/
theorem checkIn_due (l : Career cx codecs chain E fd sh st mc hist rounds) {before after : List (Main.MainChain × Round G1 G2)}
    {x : Main.MainChain × Round G1 G2} (hr : rounds = before ++ x :: after) (deciding : x.2.deciding = true) :
    (∃ y ∈ before ++ [x], .checkIn ∈ y.2.sent) ∨ ∃ k, keyAt codecs chain cx.own x.2.next = some k := by
  obtain ⟨s0, st0, mc0, hist0, s1, st1, keys, l0, ⟨xs, hx⟩, hd, hn, hdd⟩ := career_round l hr
  by_cases h1 : st0.checkInMessageSent = true
  · obtain ⟨y, hy, hs⟩ := career_sent l0 h1
    exact Or.inl ⟨y, List.mem_append_left _ hy, hs⟩
  · by_cases h2 : isCheckedIn s1 cx.own = true
    · right
      unfold isCheckedIn at h2
      rw [Option.isSome_iff_exists, checkedIn_seen hx] at h2
      unfold keyAt
      rw [hn, show s1.currentBlock + 1 - 1 = s1.currentBlock by omega]
      exact h2
    · left
      refine ⟨x, by simp, (checkIn_round hd).2 ⟨by rw [← hdd]; exact deciding, by simpa using h1, by simpa using h2⟩⟩

theorem checkIn_only (l : Career cx codecs chain E fd sh st mc hist rounds) {x : Main.MainChain × Round G1 G2} (hx : x ∈ rounds)
    (hs : .checkIn ∈ x.2.sent) : Appointed codecs chain cx.own x.2.next ∧ keyAt codecs chain cx.own x.2.next = none := by
  obtain ⟨before, after, hr⟩ := List.append_of_mem hx
  obtain ⟨s0, st0, mc0, hist0, s1, st1, keys, l0, ⟨xs, hx⟩, hd, hn, hdd⟩ := career_round l hr
  obtain ⟨h1, h2, h3⟩ := (checkIn_round hd).1 hs
  unfold decides at h1
  simp only [Bool.and_eq_true] at h1
  refine ⟨by rw [hn]; exact (isKeyper_seen hx _).1 h1.2, ?_⟩
  unfold isCheckedIn at h3
  rw [Option.isSome_eq_false_iff, Option.isNone_iff_eq_none, checkedIn_seen hx] at h3
  unfold keyAt
  rw [hn, show s1.currentBlock + 1 - 1 = s1.currentBlock by omega]
  exact h3

theorem deciding_appointed (l : Career cx codecs chain E fd sh st mc hist rounds) {x : Main.MainChain × Round G1 G2} (hx : x ∈ rounds)
    (deciding : x.2.deciding = true) : Appointed codecs chain cx.own x.2.next := by
  obtain ⟨before, after, hr⟩ := List.append_of_mem hx
  obtain ⟨s0, st0, mc0, hist0, s1, st1, keys, l0, ⟨xs, hx⟩, hd, hn, hdd⟩ := career_round l hr
  rw [hdd] at deciding
  unfold decides at deciding
  simp only [Bool.and_eq_true] at deciding
  rw [hn]
  exact (isKeyper_seen hx _).1 deciding.2

/-- A keyper of an announced config is one for the application, then and later. -/
theorem appointed_keyper (h : Exec ps dev log s) (fit : Codecs.Fit ps codecs) (sane : Sane log) (few : s.eonCounter + 1 < 2 ^ 64) {next : Int}
    {own : Addr} (ap : Appointed codecs (appChain codecs log) own next) {pre : List Rec} {t : App.State} (ht : Exec ps dev pre t)
    (hp : below log next <+: pre) : App.isKeyper t own = true := by
  obtain ⟨x, hx, ho⟩ := ap
  have hx' : x ∈ announcedConfigs (allEvents (below log next)) := by
    by_cases h0 : next - 1 < 0
    · rw [chainEvents_empty _ h0] at hx
      simp [announcedConfigs] at hx
    · rw [chain_seen h fit sane few _ (by omega)] at hx
      have e : (stamp 1 log).filter (fun p => decide (p.1 < (next - 1).toNat + 1)) = (stamp 1 log).filter (fun p => decide ((p.1 : Int) < next)) := by
        congr 1
        funext p
        rw [decide_eq_decide]
        omega
      rw [e, filter_takeWhile (fun p : Nat × Rec => p.1) _ (stamp_sorted log 1), flatMap_seen, announced_visible] at hx
      exact hx
  obtain ⟨s1, h1, h2⟩ := Exec.prefix ht hp
  rw [h1.announced, List.mem_map] at hx'
  obtain ⟨c, hc, rfl⟩ := hx'
  have hm := List.mem_of_mem_tail hc
  obtain ⟨d, hd, rfl⟩ := List.mem_map.1 hm
  have hk : own ∈ d.keypers := ho
  obtain ⟨rest, he⟩ := h2 ⟨d, hd, List.ne_nil_of_mem hk⟩
  have hm' : d.erase ∈ App.ids t := by rw [← he]; exact List.mem_append_left _ hm
  obtain ⟨d', hd', hde⟩ := List.mem_map.1 hm'
  unfold App.isKeyper
  rw [List.any_eq_true]
  refine ⟨d', hd', isKeyper_iff.2 ?_⟩
  have : d'.keypers = d.keypers := by simpa [BatchConfig.erase] using congrArg BatchConfig.keypers hde
  rw [this]
  exact hk

/-- A check-in that arrives registers the keyper, if it is not registered yet. -/
theorem checkIn_lands (h : Exec ps dev log s) (fit : Codecs.Fit ps codecs) (sane : Sane log) (few : s.eonCounter + 1 < 2 ^ 64)
    (l : Career cx codecs (appChain codecs log) E fd sh st mc hist rounds) (genuine : GenuineCheckIns w log cx.own (rounds.map (·.2)))
    {y : Main.MainChain × Round G1 G2} (hy : y ∈ rounds) (hs : .checkIn ∈ y.2.sent) {pre r post} (hl : log = pre ++ r :: post)
    (arr : ActArrives w pre r cx.own .checkIn) (hn : y.2.next ≤ heightAfter pre) (len : w.validatorKey.length = 32) {key : Bytes}
    (hk : ps.pubkey w.encryptionKey = some key) :
    r.after.identities cx.own = some w.validatorKey ∧ ∃ pre' r' post', log = pre' ++ r' :: post' ∧ r' ∈ pre ++ [r] ∧
      r'.events = [.checkIn cx.own key] ∧ heightAfter pre' ≤ heightAfter pre := by
  obtain ⟨m, hm, nonce, hd, hf⟩ := arr
  cases hm
  obtain ⟨o, d, hresp, hdel⟩ := h.delivered hl hd rfl hf
  have hb := (h.at hl).1
  cases hid : r.before.identities cx.own with
  | some vk =>
    obtain ⟨r', hr', ek, acc⟩ := App.Props.C28_identities hb hid
    obtain ⟨a, b, hab⟩ := List.append_of_mem hr'
    have hl' : log = a ++ r' :: (b ++ r :: post) := by rw [hl, hab]; simp
    obtain ⟨rfl, rfl, _⟩ := genuine_accept genuine hl' acc
    obtain ⟨_, _, ⟨key', hk', hev⟩, _⟩ := App.Props.C28_check_in h hl' acc
    rw [hk] at hk'
    cases hk'
    refine ⟨?_, a, r', _, hl', List.mem_append_left _ hr', hev, ?_⟩
    · have := Exec.identities_mono (after_exec h hl) r (by simp) cx.own w.validatorKey (Or.inl hid)
      exact this
    · rw [hab]; exact heightAfter_append _ _
  | none =>
    have hap := (checkIn_only l hy hs).1
    have hkp := appointed_keyper h fit sane few hap hb (below_before hl hn)
    simp only [deliverMessage, deliverCheckIn] at hdel
    have e1 : (withNonce r.before cx.own nonce).identities cx.own = none := hid
    have e2 : App.isKeyper (withNonce r.before cx.own nonce) cx.own = true := hkp
    rw [e1, e2, hk] at hdel
    simp only [Option.isSome_none, Bool.false_eq_true, if_false, Bool.not_true, len, ne_eq, not_true_eq_false] at hdel
    simp only [Option.some.injEq, Prod.mk.injEq] at hdel
    obtain ⟨ha, rfl⟩ := hdel
    refine ⟨by rw [← ha]; simp, pre, r, post, hl, by simp, by simp [Rec.events, hresp], le_refl _⟩

end Shutter.Net
