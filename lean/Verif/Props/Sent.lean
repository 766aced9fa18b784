import Verif.Proofs.SentReach
import Verif.Props.Driver

/-! Property theorems C68 (shuttermint/keyper/decide.go: the messages of a keyper in the key generation). -/

namespace Shutter.Decide.Props
open Shutter.Crypto Shutter.Crypto.Spec Shutter.Dkg Shutter.Observe Shutter.Decide Shutter.Decide.Spec
open Shutter.App (Addr findAddressIndex)
open Shutter.Events (Codecs)

variable {G1 G2 GT R : Type} [AddCommGroup G1] [AddCommGroup G2] [DecidableEq G2] [DecidableEq GT]

/-- Every life has its rounds: `Lived` is `Reach` with the rounds written down. -/
theorem C68_lives (cx : Cfg G1 G2 GT R) (codecs : Codecs) (chain : Chain) (s : Observe.Shutter) (st : State G1 G2) :
    Reach cx codecs chain s st ↔ ∃ rs, Lived cx codecs chain rs s st :=
  ⟨reach_lived, fun ⟨_, h⟩ => lived_reach h⟩

theorem said_of {cx : Cfg G1 G2 GT R} (hL : 0 ≤ cx.phaseLength) (law : ∀ p : G2, order • p = 0) {codecs : Codecs} {chain : Chain}
    {rs : List (Round G1 G2)} {s : Observe.Shutter} {st : State G1 G2} (h : Lived cx codecs chain rs s st) {dkg : DKG G2}
    (hd : dkg ∈ st.dkgs) {b : Nat} {S : Int} (hS : Started (acted codecs chain st) dkg.eon b S) :
    ∃ P, cx.poly dkg.eon = some P ∧ Said cx codecs chain rs dkg S P := by
  obtain ⟨S', hinv⟩ := (kinv_reach hL (lived_reach h)).dkgs dkg hd
  obtain ⟨rfl, rfl⟩ := started_unique hS hinv.started
  obtain ⟨P, hP⟩ := (linv_lived law hL h).said dkg hd S hS
  exact ⟨P, hP.poly, hP⟩

/-- **C68** For each of its key generations a keyper publishes the commitment to its polynomial `P` exactly once, in the first round
in which it decides in the dealing phase; if there is no such round, never. -/
theorem C68_commitment {cx : Cfg G1 G2 GT R} (hL : 0 ≤ cx.phaseLength) (law : ∀ p : G2, order • p = 0) {codecs : Codecs} {chain : Chain}
    {rs : List (Round G1 G2)} {s : Observe.Shutter} {st : State G1 G2} (h : Lived cx codecs chain rs s st) {dkg : DKG G2}
    (hd : dkg ∈ st.dkgs) {b : Nat} {S : Int} (hS : Started (acted codecs chain st) dkg.eon b S) :
    ∃ P, cx.poly dkg.eon = some P ∧ said (commitmentsFor dkg.eon) rs =
      ((firstIn S cx.phaseLength 0 rs).map (fun r => (r.next, P.map (fun c => c • cx.crypto.g2)))).toList := by
  obtain ⟨P, h1, h2⟩ := said_of hL law h hd hS
  exact ⟨P, h1, h2.com⟩

/-- **C68** Every other keyper of the eon gets its evaluation exactly once, encrypted with the key it has checked in: in the first round
of the dealing phase in which the keyper knows this key (and never if there is no such round). The message has one evaluation per
receiver. (If an address is listed several times it gets the evaluations of all its places.) -/
theorem C68_evaluations {cx : Cfg G1 G2 GT R} (hL : 0 ≤ cx.phaseLength) (law : ∀ p : G2, order • p = 0) {codecs : Codecs} {chain : Chain}
    {rs : List (Round G1 G2)} {s : Observe.Shutter} {st : State G1 G2} (h : Lived cx codecs chain rs s st) {dkg : DKG G2}
    (hd : dkg ∈ st.dkgs) {b : Nat} {S : Int} (hS : Started (acted codecs chain st) dkg.eon b S) :
    ∃ P i, cx.poly dkg.eon = some P ∧ dkg.keypers.idxOf? cx.own = some i ∧
      (∀ a, firstTo codecs chain S cx.phaseLength a rs = none → said (evaluationsTo dkg.eon a) rs = []) ∧
      (∀ a r key, firstTo codecs chain S cx.phaseLength a rs = some r → keyAt codecs chain a r.next = some key →
        said (evaluationsTo dkg.eon a) rs =
          (others dkg.keypers i a).map (fun j => (r.next, cx.encryptEval key (natBytes (evaluation P j))))) ∧
      ∀ m ∈ said (evaluationsFor dkg.eon) rs, m.2.1.length = m.2.2.length ∧ m.2.1 ≠ [] := by
  obtain ⟨P, h1, h2⟩ := said_of hL law h hd hS
  obtain ⟨S', hinv⟩ := (kinv_reach hL (lived_reach h)).dkgs dkg hd
  obtain ⟨ops, thr, i, hrun, hi, _⟩ := hinv.ran
  have hk : dkg.pure.state.keyper = i := (logInv_run _ _ _ _ _ _ _ hrun).keyper
  refine ⟨P, i, h1, by rw [← findAddressIndex_eq]; exact hi, ?_, ?_, ?_⟩
  · intro a ha
    rw [h2.ev a, ha]
  · intro a r key hr hkey
    rw [h2.ev a, hr]
    simp only [hkey, Option.getD_some, dueTo, hk, List.map_map, Function.comp_def]
  · intro m hm
    unfold said at hm
    obtain ⟨r, hr, hm⟩ := List.mem_flatMap.1 hm
    obtain ⟨x, hx, rfl⟩ := List.mem_map.1 hm
    obtain ⟨act, hact, hx⟩ := List.mem_flatMap.1 hx
    cases act <;> simp only [evaluationsFor, List.not_mem_nil] at hx
    split at hx
    · simp only [List.mem_singleton] at hx
      subst hx
      exact (linv_lived law hL h).shape r hr _ _ _ hact
    · simp at hx

/-- **C68** A keyper accuses, in the first round in which it decides in the accusing phase, exactly those other keypers whose commitment
or evaluation it has not got or for which they do not match; it accuses at most once per eon, and nobody if there is no such keyper. -/
theorem C68_accusation {cx : Cfg G1 G2 GT R} (hL : 0 ≤ cx.phaseLength) (law : ∀ p : G2, order • p = 0) {codecs : Codecs} {chain : Chain}
    {rs : List (Round G1 G2)} {s : Observe.Shutter} {st : State G1 G2} (h : Lived cx codecs chain rs s st) {dkg : DKG G2}
    (hd : dkg ∈ st.dkgs) {b : Nat} {S : Int} (hS : Started (acted codecs chain st) dkg.eon b S) :
    said (accusationsFor dkg.eon) rs = if toBlame cx.crypto.g2 dkg.pure.state = [] then [] else
      ((firstIn S cx.phaseLength 1 rs).map (fun r => (r.next, pick dkg.keypers (toBlame cx.crypto.g2 dkg.pure.state)))).toList := by
  obtain ⟨P, h1, h2⟩ := said_of hL law h hd hS
  exact h2.acc

/-- **C68** A keyper apologizes, in the first round in which it decides in the apologizing phase, to exactly those keypers that accused
it, with the right evaluation of its polynomial for each of them; at most once per eon, and not at all if nobody accused it. -/
theorem C68_apology {cx : Cfg G1 G2 GT R} (hL : 0 ≤ cx.phaseLength) (law : ∀ p : G2, order • p = 0) {codecs : Codecs} {chain : Chain}
    {rs : List (Round G1 G2)} {s : Observe.Shutter} {st : State G1 G2} (h : Lived cx codecs chain rs s st) {dkg : DKG G2}
    (hd : dkg ∈ st.dkgs) {b : Nat} {S : Int} (hS : Started (acted codecs chain st) dkg.eon b S) :
    ∃ P, cx.poly dkg.eon = some P ∧ said (apologiesFor dkg.eon) rs = if accusers dkg.pure.state = [] then [] else
      ((firstIn S cx.phaseLength 2 rs).map (fun r => (r.next, pick dkg.keypers (accusers dkg.pure.state),
        (accusers dkg.pure.state).map (fun j => ((evaluation P j : Nat) : Int))))).toList := by
  obtain ⟨P, h1, h2⟩ := said_of hL law h hd hS
  exact ⟨P, h1, h2.apo⟩

/-- **C68** For each finished key generation, and for nothing else, a keyper sends one message: the broadcast of the eon public key if
there is a result, a vote to start over if not. -/
theorem C68_verdict {cx : Cfg G1 G2 GT R} (hL : 0 ≤ cx.phaseLength) (law : ∀ p : G2, order • p = 0) {codecs : Codecs} {chain : Chain}
    {rs : List (Round G1 G2)} {s : Observe.Shutter} {st : State G1 G2} (h : Lived cx codecs chain rs s st) :
    ((said verdicts rs).map (·.2)).Perm
      ((st.dkgs.filter (fun dkg => decide (dkg.pure.state.phase = finalized))).map (verdict cx.crypto)) := by
  have := (linv_lived law hL h).verd
  unfold due at this
  refine List.Perm.trans (List.Perm.of_eq ?_) this
  unfold said
  rw [List.map_flatMap]
  simp

/-- **C68** For an eon in which it does not take part a keyper says nothing, and in rounds in which it does not decide it does nothing. -/
theorem C68_silent {cx : Cfg G1 G2 GT R} (hL : 0 ≤ cx.phaseLength) (law : ∀ p : G2, order • p = 0) {codecs : Codecs} {chain : Chain}
    {rs : List (Round G1 G2)} {s : Observe.Shutter} {st : State G1 G2} (h : Lived cx codecs chain rs s st) :
    (∀ e, (∀ dkg ∈ st.dkgs, dkg.eon ≠ e) → said (commitmentsFor e) rs = [] ∧ said (evaluationsFor e) rs = [] ∧
      said (accusationsFor e) rs = [] ∧ said (apologiesFor e) rs = []) ∧
    ∀ r ∈ rs, r.deciding = false → r.sent = [] := by
  have inv := linv_lived law hL h
  refine ⟨fun e he => ?_, inv.idle⟩
  have hs : ∀ r ∈ rs, ∀ a ∈ r.sent, aboutEon a ≠ some e := by
    intro r hr a ha hh
    obtain ⟨dkg, hd, hde⟩ := inv.silent r hr a ha e hh
    exact he dkg hd hde
  exact ⟨said_silent hs (about_commitmentsFor e), said_silent hs (about_evaluationsFor e), said_silent hs (about_accusationsFor e),
    said_silent hs (about_apologiesFor e)⟩

/-! ## A concrete life -/

section demo
open Shutter.Events Shutter.Events.Props

/-- A life with its rounds. -/
def lifeLog (cx : Cfg G1 G2 GT R) (codecs : Codecs) (chain : Chain) (mc : Main.MainChain) (rounds : List (List LoopStep)) :
    Option (List (Round G1 G2) × Observe.Shutter × State G1 G2) :=
  rounds.foldlM (fun r ys =>
    if (filtersOf ys).all (fun f => decide (f.syncHeight ≤ r.2.2.syncHeight)) then
      (runLoop codecs chain r.2.1 ys).bind (fun s => (decideStep cx s mc [] r.2.2).map (fun d =>
        (r.1 ++ [⟨decides cx s mc, s.currentBlock + 1, d.2⟩], s, d.1)))
    else none) ([], newShutter, State.new G1 G2)

theorem lifeLog_lived {cx : Cfg G1 G2 GT R} {codecs : Codecs} {chain : Chain} {mc : Main.MainChain} {rounds : List (List LoopStep)}
    {r : List (Round G1 G2) × Observe.Shutter × State G1 G2} (h : lifeLog cx codecs chain mc rounds = some r) :
    Lived cx codecs chain r.1 r.2.1 r.2.2 := by
  unfold lifeLog at h
  refine foldlM_option_inv (fun r : List (Round G1 G2) × Observe.Shutter × State G1 G2 => Lived cx codecs chain r.1 r.2.1 r.2.2) _ ?_ _ _ _ h Lived.init
  intro r ys r' hr hl
  split at hr
  · next hf =>
    rw [Option.bind_eq_some_iff] at hr
    obtain ⟨s', h1, h2⟩ := hr
    rw [Option.map_eq_some_iff] at h2
    obtain ⟨d, h2, rfl⟩ := h2
    exact Lived.round hl h1 (by simpa using hf) h2
  · cases hr

/-- As `dkgChain`, but keyper B checks in only in block 3, after the first round of the dealing phase, the phases have three
blocks, and the evaluation keyper B sends to A is wrong. -/
def talkChain : Chain := fun h =>
  let enc := makeABCIEvent demoCodecs
  if h = 1 then [[enc (.batchConfig 0 2 [kA, kB] 1)]]
  else if h = 2 then [[enc (.eonStarted 1 0)]]
  else if h = 3 then [[enc (.polyCommitment kA 1 [[3], [4]])], [enc (.polyEval kB 1 [kA] [[12]])], [enc (.polyCommitment kB 1 [[5], [6]])],
    [enc (.checkIn kB [7])]]
  else if h = 5 then [[enc (.accusation kA 1 [kB])], [enc (.accusation kB 1 [kA])]]
  else if h = 8 then [[enc (.apology kA 1 [kB] [11])]]
  else []

def talkCfg : Cfg Zq Zq (Multiplicative Zq) Unit := { cfgA with
  phaseLength := 3
  encryptEval := fun key b => key ++ b }

def talkRounds : List (List LoopStep) :=
  [[.sync 2 2 false], [.sync 3 3 false], [.sync 4 4 false], [.sync 5 5 false], [.sync 7 7 false], [.sync 8 8 false], [.sync 12 12 false]]

/-- Everything said in this life. -/
structure Talk where
  commitments : List (Int × List Nat)
  evaluations : List (Int × List Addr × List Bytes)
  accusations : List (Int × List Addr)
  apologies : List (Int × List Addr × List Int)
  votes : Nat
  eons : List Nat
deriving DecidableEq

def talk (r : List (Round Zq Zq) × Observe.Shutter × State Zq Zq) : Talk :=
  { commitments := (said (commitmentsFor 1) r.1).map (fun x => (x.1, x.2.map Zq.val))
    evaluations := said (evaluationsFor 1) r.1
    accusations := said (accusationsFor 1) r.1
    apologies := said (apologiesFor 1) r.1
    votes := (said (fun a => match a with | .eonStartVote b => [b] | _ => []) r.1).length
    eons := r.2.2.dkgs.map (·.eon) }

/-- **C68** A life of keyper A in which it says something of each kind. -/
theorem C68_example : (lifeLog talkCfg demoCodecs talkChain demoMain talkRounds).map talk =
    some ⟨[(3, [3, 4])], [(4, [kB], [[7, 11]])], [(5, [kB])], [(8, [kB], [11])], 1, [1]⟩ := by decide +kernel

/-- It meets the hypotheses. -/
example : ∃ rs s st, Lived talkCfg demoCodecs talkChain rs s st ∧ st.dkgs.map (·.eon) = [1] ∧ 0 ≤ talkCfg.phaseLength ∧
    said (accusationsFor 1) rs = [(5, [kB])] := by
  have h := C68_example
  rw [Option.map_eq_some_iff] at h
  obtain ⟨r, h1, h2⟩ := h
  refine ⟨r.1, r.2.1, r.2.2, lifeLog_lived h1, ?_, by decide, ?_⟩
  · exact congrArg Talk.eons h2
  · exact congrArg Talk.accusations h2

end demo

end Shutter.Decide.Props
