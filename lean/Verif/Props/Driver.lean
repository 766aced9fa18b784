import Verif.Proofs.DriverEons
import Verif.Proofs.ToyDkg

/-! Property theorems C54 (shuttermint/keyper/decide.go: driving the distributed key generation). -/

namespace Shutter.Decide.Props
open Shutter.Crypto Shutter.Dkg Shutter.Observe Shutter.Decide Shutter.Decide.Spec
open Shutter.App (Addr findAddressIndex)
open Shutter.Events (Codecs)

variable {G1 G2 GT R : Type} [AddCommGroup G1] [AddCommGroup G2] [DecidableEq G2] [DecidableEq GT]

/-- The events of the chain that a keyper has acted on: those of the blocks below its sync height. -/
def acted (codecs : Codecs) (chain : Chain) (st : State G1 G2) : List Stamped := chainEvents codecs chain 0 (st.syncHeight - 1)

/-- What the chain prescribes to a keyper for an eon announced at height `S`, as keyper number `i` of `keypers`. -/
def params (cx : Cfg G1 G2 GT R) (eon : Nat) (S : Int) (keypers : List Addr) (i : Nat) : Params G2 :=
  ⟨eon, S, cx.phaseLength, keypers, i, cx.gammas, cx.decryptEval⟩

/-- **C54** At every moment of the life of a keyper, whatever the rounds in which it looked at the chain, each of its key
generations has received exactly the calls that the announced eon and the published messages prescribe up to the keyper's height,
each once, in the phase it belongs to. It has one key generation per eon. -/
theorem C54_prescribed_calls {cx : Cfg G1 G2 GT R} (hL : 0 ≤ cx.phaseLength) {codecs : Codecs} {chain : Chain} {s : Observe.Shutter}
    {st : State G1 G2} (h : Reach cx codecs chain s st) :
    (∀ dkg ∈ st.dkgs, ∃ S i ops, Started (acted codecs chain st) dkg.eon dkg.startBatchIndex S ∧ dkg.keypers.idxOf? cx.own = some i ∧
      Dkg.run cx.crypto (newWorld G2 dkg.eon dkg.keypers.length dkg.pure.state.threshold i) ops = some dkg.pure ∧
      Prescribed (params cx dkg.eon S dkg.keypers i) (cx.poly dkg.eon) (acted codecs chain st) st.syncHeight ops) ∧
    (st.dkgs.map (·.eon)).Nodup := by
  have inv := kinv_reach hL h
  refine ⟨fun dkg hd => ?_, ?_⟩
  · obtain ⟨S, hS⟩ := inv.dkgs dkg hd
    obtain ⟨ops, thr, i, hrun, hi, hpre⟩ := hS.ran
    have hthr : dkg.pure.state.threshold = thr := (logInv_run _ _ _ _ _ _ _ hrun).thr
    refine ⟨S, i, ops, hS.started, ?_, ?_, hpre⟩
    · rw [← findAddressIndex_eq]; exact hi
    · rw [hthr]; exact hrun
  · have := inv.inc
    rw [← List.pairwise_map (f := fun x : DKG G2 => x.eon)] at this
    exact this.imp (fun h => Nat.ne_of_lt h)

/-- **C54** The phase of a key generation is the one the height prescribes: dealing, accusing and apologizing last one phase length
each, starting at the announcement of the eon. -/
theorem C54_phase {cx : Cfg G1 G2 GT R} (hL : 0 ≤ cx.phaseLength) {codecs : Codecs} {chain : Chain} {s : Observe.Shutter}
    {st : State G1 G2} (h : Reach cx codecs chain s st) {dkg : DKG G2} (hd : dkg ∈ st.dkgs) {S : Int} {b : Nat}
    (hS : Started (acted codecs chain st) dkg.eon b S) :
    dkg.pure.state.phase = if S + 3 * cx.phaseLength ≤ st.syncHeight then finalized
      else if S + 2 * cx.phaseLength ≤ st.syncHeight then apologizing
      else if S + cx.phaseLength ≤ st.syncHeight then accusing else dealing := by
  obtain ⟨S', inv⟩ := (kinv_reach hL h).dkgs dkg hd
  obtain ⟨_, rfl⟩ := started_unique hS inv.started
  rw [inv.phase, phase_of _ _ _ hL (by have := inv.before; omega)]

/-- **C54** No eon is missed: for every eon (numbered from one) announced below its height a keyper has a key generation, unless it
is not among the keypers of the config it found when it saw the eon. -/
theorem C54_no_eon_missed {cx : Cfg G1 G2 GT R} (hL : 0 ≤ cx.phaseLength) {codecs : Codecs} {chain : Chain} {s : Observe.Shutter}
    {st : State G1 G2} (h : Reach cx codecs chain s st) {e b : Nat} {S : Int} (he : 0 < e) (hS : Started (acted codecs chain st) e b S) :
    (∃ dkg ∈ st.dkgs, dkg.eon = e) ∨ ∃ seen, S ≤ seen ∧ seen < st.syncHeight ∧
      cx.own ∉ ((configFor (chainEvents codecs chain 0 seen) b).getD ([], 0)).1 := by
  rcases (eons_reach hL h).2 e b S he hS with h | ⟨seen, h1, h2, h3⟩
  · exact Or.inl h
  · exact Or.inr ⟨seen, h2, h1, h3⟩

/-- **C54** The keypers and the threshold of a key generation are those of the newest config for the eon's first batch announced
up to the block the keyper had seen when it first saw the eon. -/
theorem C54_parameters {cx : Cfg G1 G2 GT R} (hL : 0 ≤ cx.phaseLength) {codecs : Codecs} {chain : Chain} {s : Observe.Shutter}
    {st : State G1 G2} (h : Reach cx codecs chain s st) {dkg : DKG G2} (hd : dkg ∈ st.dkgs) {S : Int} {b : Nat}
    (hS : Started (acted codecs chain st) dkg.eon b S) :
    ∃ seen, S ≤ seen ∧ seen < st.syncHeight ∧
      (configFor (chainEvents codecs chain 0 seen) b).getD ([], 0) = (dkg.keypers, dkg.pure.state.threshold) := by
  obtain ⟨seen, h1, ⟨S', h2⟩, h3⟩ := (par_reach hL h dkg hd).config
  obtain ⟨rfl, rfl⟩ := started_unique_chain hS h2
  exact ⟨seen, (started_height h2).2, h1, h3⟩

/-- Once the eon is announced, no config for its first batch is announced any more. -/
def ConfigSettled (codecs : Codecs) (chain : Chain) (b : Nat) (S : Int) : Prop :=
  ∀ h x, x ∈ chainEvents codecs chain 0 h → S < x.height → ∀ start t ks c, x.ev = .batchConfig start t ks c → b < start

theorem settled_config {codecs : Codecs} {chain : Chain} {b : Nat} {S seen : Int} (hs : ConfigSettled codecs chain b S) (h0 : 0 ≤ S)
    (h : S ≤ seen) : configFor (chainEvents codecs chain 0 seen) b = configFor (chainEvents codecs chain 0 S) b := by
  rw [← chainEvents_append codecs chain (lo := 0) (m := S) (hi := seen) (by omega) h]
  refine configFor_append _ _ _ ?_
  intro x hx start t ks c hev
  refine hs seen x ?_ ?_ start t ks c hev
  · rw [← chainEvents_append codecs chain (lo := 0) (m := S) (hi := seen) (by omega) h]
    exact List.mem_append_right _ hx
  · have := (chainEvents_heights _ _ hx).1
    omega

/-- **C54** If no further config for its first batch is announced after the eon, all keypers run the key generation with the same
keypers and threshold, whenever they look. (Otherwise they may not: `C54_late_config_counterexample`.) -/
theorem C54_same_parameters {cx₁ cx₂ : Cfg G1 G2 GT R} (hL₁ : 0 ≤ cx₁.phaseLength) (hL₂ : 0 ≤ cx₂.phaseLength) {codecs : Codecs}
    {chain : Chain} {s₁ s₂ : Observe.Shutter} {st₁ st₂ : State G1 G2} (h₁ : Reach cx₁ codecs chain s₁ st₁)
    (h₂ : Reach cx₂ codecs chain s₂ st₂) {d₁ d₂ : DKG G2} (m₁ : d₁ ∈ st₁.dkgs) (m₂ : d₂ ∈ st₂.dkgs) (he : d₁.eon = d₂.eon)
    (settled : ∀ b S, Started (acted codecs chain st₁) d₁.eon b S → ConfigSettled codecs chain b S) :
    d₁.keypers = d₂.keypers ∧ d₁.pure.state.threshold = d₂.pure.state.threshold := by
  obtain ⟨S₁, i₁⟩ := (kinv_reach hL₁ h₁).dkgs d₁ m₁
  obtain ⟨S₂, i₂⟩ := (kinv_reach hL₂ h₂).dkgs d₂ m₂
  have k₂ := i₂.started
  rw [← he] at k₂
  obtain ⟨hb, rfl⟩ := started_unique_chain i₁.started k₂
  obtain ⟨n₁, a1, _, a3⟩ := C54_parameters hL₁ h₁ m₁ i₁.started
  obtain ⟨n₂, b1, _, b3⟩ := C54_parameters hL₂ h₂ m₂ i₂.started
  have hset := settled _ _ i₁.started
  have h0 := (started_height i₁.started).1
  rw [settled_config hset h0 a1] at a3
  rw [← hb, settled_config hset h0 b1, a3] at b3
  simpa using b3

/-- **C54** The key generation does not depend on when a keyper looks: two lives of a keyper that reach the same height have the same
state of the key generation (run with the same keypers and threshold). -/
theorem C54_schedule_independent {cx : Cfg G1 G2 GT R} (hL : 0 ≤ cx.phaseLength) {codecs : Codecs} {chain : Chain}
    {s₁ s₂ : Observe.Shutter} {st₁ st₂ : State G1 G2} (h₁ : Reach cx codecs chain s₁ st₁) (h₂ : Reach cx codecs chain s₂ st₂)
    (hsync : st₁.syncHeight = st₂.syncHeight) {d₁ d₂ : DKG G2} (m₁ : d₁ ∈ st₁.dkgs) (m₂ : d₂ ∈ st₂.dkgs) (he : d₁.eon = d₂.eon)
    (hk : d₁.keypers = d₂.keypers) (ht : d₁.pure.state.threshold = d₂.pure.state.threshold) : d₁.pure.state = d₂.pure.state := by
  obtain ⟨S₁, i₁, ops₁, a1, a2, a3, a4⟩ := (C54_prescribed_calls hL h₁).1 d₁ m₁
  obtain ⟨S₂, i₂, ops₂, b1, b2, b3, b4⟩ := (C54_prescribed_calls hL h₂).1 d₂ m₂
  have hact : acted codecs chain st₁ = acted codecs chain st₂ := by unfold acted; rw [hsync]
  rw [← he, ← hact] at b1
  obtain ⟨_, rfl⟩ := started_unique a1 b1
  rw [hk, b2] at a2
  cases a2
  rw [he, hk, ht] at a3
  rw [he, hk, hsync, hact] at a4
  have r1 := runS_run cx.crypto ops₁ (newWorld G2 d₂.eon d₂.keypers.length d₂.pure.state.threshold i₁)
  have r2 := runS_run cx.crypto ops₂ (newWorld G2 d₂.eon d₂.keypers.length d₂.pure.state.threshold i₁)
  rw [prescribed_state a4] at r1
  rw [prescribed_state b4] at r2
  rw [a3] at r1
  rw [b3] at r2
  have := r1.symm.trans r2
  simpa using this

/-- **C54** Any two keypers that finished the key generation of an eon (with the same keypers and threshold) agree on every dealer's
status and, if both have a result, on the eon public key and all public key shares - whatever the rounds in which each of them looked
at the chain and whatever evaluations each of them could decrypt. -/
theorem C54_agreement {cx₁ cx₂ : Cfg G1 G2 GT R} (hL : 0 ≤ cx₁.phaseLength) (hlen : cx₂.phaseLength = cx₁.phaseLength)
    (hcr : cx₂.crypto = cx₁.crypto) (hga : cx₂.gammas = cx₁.gammas) {codecs : Codecs}
    {chain : Chain} {s₁ s₂ : Observe.Shutter} {st₁ st₂ : State G1 G2} (h₁ : Reach cx₁ codecs chain s₁ st₁)
    (h₂ : Reach cx₂ codecs chain s₂ st₂) {d₁ d₂ : DKG G2} (m₁ : d₁ ∈ st₁.dkgs) (m₂ : d₂ ∈ st₂.dkgs) (he : d₁.eon = d₂.eon)
    (hk : d₁.keypers = d₂.keypers) (ht : d₁.pure.state.threshold = d₂.pure.state.threshold)
    (f₁ : d₁.pure.state.phase = finalized) (f₂ : d₂.pure.state.phase = finalized) :
    (∀ dealer, isCorrupt cx₁.crypto d₁.pure.state dealer = isCorrupt cx₂.crypto d₂.pure.state dealer) ∧
    ∀ r₁ r₂, computeResult cx₁.crypto d₁.pure.state = some r₁ → computeResult cx₂.crypto d₂.pure.state = some r₂ →
      r₁.publicKey = r₂.publicKey ∧ r₁.publicKeyShares = r₂.publicKeyShares ∧ r₁.threshold = r₂.threshold ∧
      r₁.eon = r₂.eon ∧ r₁.numKeypers = r₂.numKeypers := by
  obtain ⟨S₁, i₁⟩ := (kinv_reach hL h₁).dkgs d₁ m₁
  obtain ⟨S₂, i₂⟩ := (kinv_reach (by omega) h₂).dkgs d₂ m₂
  have k₂ := i₂.started
  rw [← he] at k₂
  obtain ⟨_, rfl⟩ := started_unique_chain i₁.started k₂
  have h0 := (started_height i₁.started).1
  have g₁ : S₁ + 3 * cx₁.phaseLength ≤ st₁.syncHeight :=
    (phase_ge cx₁.phaseLength S₁ st₁.syncHeight hL (by have := i₁.before; omega)).2.2.2.1 (by rw [← i₁.phase, f₁])
  have g₂ : S₁ + 3 * cx₁.phaseLength ≤ st₂.syncHeight := by
    have := (phase_ge cx₂.phaseLength S₁ st₂.syncHeight (by omega) (by have := i₂.before; omega)).2.2.2.1 (by rw [← i₂.phase, f₂])
    rw [hlen] at this
    exact this
  obtain ⟨n₁, a1, a2, a3, a4, a5, a6, a7, a8, _⟩ := dkg_views hL i₁ g₁
  obtain ⟨n₂, b1, b2, b3, b4, b5, b6, b7, b8, _⟩ := dkg_views (by omega) i₂ (by rw [hlen]; exact g₂)
  obtain ⟨l1, l2, l3, l4⟩ := lists_stable_chain (p := params cx₁ d₁.eon S₁ d₁.keypers n₁) (codecs := codecs) (chain := chain) hL h0 g₁ g₂
  rw [← he, ← hk, hlen, hga] at b6 b7 b8
  rw [hcr]
  refine views_agree _ ht (by rw [a2, b2, hk]) (by rw [a3, b3, he]) ?_ ?_ ?_ a5 b5
  · intro d
    rw [a6, b6, ← ht]
    exact congrArg (List.findSome? _) l1
  · intro k
    rw [a7, b7]
    exact Iff.of_eq (congrArg (fun l => List.any l _ = true) l3)
  · intro k
    rw [a8, b8]
    exact congrArg (List.findSome? _) l4

/-! ## Concrete lives of keypers -/

section demo
open Shutter.Events Shutter.Events.Props

/-- A life: in each round the view goes through some iterations of its loop, then the keyper decides. Filters that ask for more
than the height of the state are not sent. -/
def life (cx : Cfg G1 G2 GT R) (codecs : Codecs) (chain : Chain) (mc : Main.MainChain) (rounds : List (List LoopStep)) :
    Option (Observe.Shutter × State G1 G2) :=
  rounds.foldlM (fun r ys =>
    if (filtersOf ys).all (fun f => decide (f.syncHeight ≤ r.2.syncHeight)) then
      (runLoop codecs chain r.1 ys).bind (fun s => (decideStep cx s mc [] r.2).map (fun d => (s, d.1)))
    else none) (newShutter, State.new G1 G2)

theorem life_reach {cx : Cfg G1 G2 GT R} {codecs : Codecs} {chain : Chain} {mc : Main.MainChain} {rounds : List (List LoopStep)}
    {s : Observe.Shutter} {st : State G1 G2} (h : life cx codecs chain mc rounds = some (s, st)) : Reach cx codecs chain s st := by
  unfold life at h
  refine foldlM_option_inv (fun r : Observe.Shutter × State G1 G2 => Reach cx codecs chain r.1 r.2) _ ?_ _ _ _ h Reach.init
  intro r ys r' hr hreach
  split at hr
  · next hf =>
    rw [Option.bind_eq_some_iff] at hr
    obtain ⟨s', h1, h2⟩ := hr
    rw [Option.map_eq_some_iff] at h2
    obtain ⟨d, h2, rfl⟩ := h2
    exact Reach.round hreach h1 (by simpa using hf) h2
  · cases hr

/-- Two keypers. -/
def kA : Addr := App.Demo.k 1
def kB : Addr := App.Demo.k 2

/-- The config of block 1 has both keypers and threshold 2. Eon 1 is announced in block 2, phases have 2 blocks. Both deal in block 3;
keyper B accuses keyper A in block 5, who apologizes in block 6. A second commitment of B in block 4 is late. -/
def dkgChain : Chain := fun h =>
  let enc := makeABCIEvent demoCodecs
  if h = 1 then [[enc (.batchConfig 0 2 [kA, kB] 1)]]
  else if h = 2 then [[enc (.eonStarted 1 0)]]
  else if h = 3 then [[enc (.polyCommitment kA 1 [[3], [4]])], [enc (.polyEval kB 1 [kA] [[11]])], [enc (.polyCommitment kB 1 [[5], [6]])],
    [enc (.polyEval kA 1 [kB] [[9]])]]
  else if h = 4 then [[enc (.polyCommitment kB 1 [[7], [8]])]]
  else if h = 5 then [[enc (.accusation kB 1 [kA])]]
  else if h = 6 then [[enc (.apology kA 1 [kB] [11])]]
  else []

/-- A keyper with toy primitives. -/
def demoCfg (own : Addr) (poly : List Nat) : Cfg Zq Zq (Multiplicative Zq) Unit where
  crypto := zEnv
  codec := ⟨fun _ => [], fun _ => none, fun p _ => p, fun _ => true, 0⟩
  marshalKey := fun _ => []
  newSource := fun _ => ()
  next := fun _ _ => (0, ())
  gammas := List.map (fun b => Zq.of (beNat b))
  share := fun b => Zq.of (beNat b)
  decryptEval := some
  encryptEval := fun _ b => b
  goRecover := fun _ _ => none
  sign := id
  own := own
  batcher := 0
  staggering := 0
  phaseLength := 2
  poly := fun _ => some poly

def demoMain : Main.MainChain := { Main.MainChain.new 0 with
  configs := [Sol.zeroConfig] }

def cfgA := demoCfg kA [3, 4]
def cfgB := demoCfg kB [5, 6]

/-- Keyper A looks often, keyper A in another life and keyper B only at the end. -/
def roundsOften : List (List LoopStep) :=
  [[.sync 2 2 false], [.sync 3 3 false, .filter ⟨3, 0⟩], [.sync 4 4 false], [.sync 6 6 false, .filter ⟨4, 0⟩], [.sync 8 8 false]]
def roundsOnce : List (List LoopStep) := [[.sync 1 1 false], [.sync 8 8 false]]
def roundsLate : List (List LoopStep) := [[.sync 5 5 false], [.sync 8 8 false]]

/-- What is to be seen of the first DKG of a life. -/
structure Outcome where
  height : Int
  eon : Nat
  phase : Nat
  sizes : List Nat
  evals : List (Option Nat)
  share : Option Nat
  publicKey : Option Nat
  shareKeys : Option (List Nat)
deriving DecidableEq

def outcome (r : Observe.Shutter × State Zq Zq) : Option Outcome :=
  r.2.dkgs.head?.map (fun d =>
    let res := computeResult zEnv d.pure.state
    { height := r.2.syncHeight
      eon := d.eon
      phase := d.pure.state.phase
      sizes := d.pure.state.commitments.map (fun c => (c.getD []).length)
      evals := d.pure.state.evals
      share := res.map (fun r => r.secretKeyShare)
      publicKey := res.map (fun r => r.publicKey.val)
      shareKeys := res.map (fun r => r.publicKeyShares.map Zq.val) })

/-- Keyper A, looking in every phase, finishes the key generation with the apology's evaluation and not with the late commitment. -/
theorem demo_often : (life cfgA demoCodecs dkgChain demoMain roundsOften).bind outcome =
    some ⟨9, 1, finalized, [2, 2], [some 7, some 11], some 18, some 8, some [18, 28]⟩ := by decide +kernel
theorem demo_once : (life cfgA demoCodecs dkgChain demoMain roundsOnce).bind outcome =
    some ⟨9, 1, finalized, [2, 2], [some 7, some 11], some 18, some 8, some [18, 28]⟩ := by decide +kernel
theorem demo_late : (life cfgB demoCodecs dkgChain demoMain roundsLate).bind outcome =
    some ⟨9, 1, finalized, [2, 2], [some 9, some 17], some 28, some 8, some [18, 28]⟩ := by decide +kernel

/-- The states of these lives are reachable and have a finished key generation with a result: the hypotheses of C54 are met. -/
theorem demo_reach {cx : Cfg Zq Zq (Multiplicative Zq) Unit} {chain : Chain} {rounds : List (List LoopStep)} {o : Outcome}
    (h : (life cx demoCodecs chain demoMain rounds).bind outcome = some o) :
    ∃ s st d, Reach cx demoCodecs chain s st ∧ d ∈ st.dkgs ∧ st.syncHeight = o.height ∧ d.eon = o.eon ∧ d.pure.state.phase = o.phase ∧
      (computeResult zEnv d.pure.state).map (fun r => r.publicKey.val) = o.publicKey := by
  rw [Option.bind_eq_some_iff] at h
  obtain ⟨⟨s, st⟩, h1, h2⟩ := h
  unfold outcome at h2
  rw [Option.map_eq_some_iff] at h2
  obtain ⟨d, h2, rfl⟩ := h2
  exact ⟨s, st, d, life_reach h1, List.mem_of_mem_head? h2, rfl, rfl, rfl, rfl⟩

example : ∃ s₁ st₁ d₁ s₂ st₂ d₂, Reach cfgA demoCodecs dkgChain s₁ st₁ ∧ d₁ ∈ st₁.dkgs ∧ Reach cfgB demoCodecs dkgChain s₂ st₂ ∧ d₂ ∈ st₂.dkgs ∧
    d₁.eon = d₂.eon ∧ d₁.pure.state.phase = finalized ∧ d₂.pure.state.phase = finalized ∧
    (computeResult zEnv d₁.pure.state).map (fun r => r.publicKey.val) = some 8 ∧
    (computeResult zEnv d₂.pure.state).map (fun r => r.publicKey.val) = some 8 := by
  obtain ⟨s₁, st₁, d₁, a1, a2, _, a4, a5, a6⟩ := demo_reach demo_often
  obtain ⟨s₂, st₂, d₂, b1, b2, _, b4, b5, b6⟩ := demo_reach demo_late
  exact ⟨s₁, st₁, d₁, s₂, st₂, d₂, a1, a2, b1, b2, a4.trans b4.symm, a5, b5, a6, b6⟩

/-- The same chain, but in block 5 a second config for batch 0 with threshold 1 is announced, long after eon 1. -/
def lateChain : Chain := fun h => if h = 5 then [[makeABCIEvent demoCodecs (.batchConfig 0 1 [kB, kA] 2)]] else dkgChain h

/-- **C54** Why `C54_same_parameters` needs its hypothesis: with a further config for the eon's first batch announced after the eon, a
keyper that looks late runs the eon's key generation with other keypers and another threshold than one that looks in time. -/
theorem C54_late_config_counterexample : ∃ s₁ st₁ d₁ s₂ st₂ d₂, Reach cfgA demoCodecs lateChain s₁ st₁ ∧ d₁ ∈ st₁.dkgs ∧
    Reach cfgA demoCodecs lateChain s₂ st₂ ∧ d₂ ∈ st₂.dkgs ∧ d₁.eon = 1 ∧ d₂.eon = 1 ∧
    d₁.keypers ≠ d₂.keypers ∧ d₁.pure.state.threshold ≠ d₂.pure.state.threshold := by
  have e₁ : (life cfgA demoCodecs lateChain demoMain roundsOften).map (fun r => (r.2.dkgs.map (fun d => (d.eon, d.keypers, d.pure.state.threshold)))) =
    some [(1, [kA, kB], 2)] := by decide +kernel
  have e₂ : (life cfgA demoCodecs lateChain demoMain roundsOnce).map (fun r => (r.2.dkgs.map (fun d => (d.eon, d.keypers, d.pure.state.threshold)))) =
    some [(1, [kB, kA], 1)] := by decide +kernel
  rw [Option.map_eq_some_iff] at e₁ e₂
  obtain ⟨⟨s₁, st₁⟩, l₁, m₁⟩ := e₁
  obtain ⟨⟨s₂, st₂⟩, l₂, m₂⟩ := e₂
  simp only [List.map_eq_singleton_iff] at m₁ m₂
  obtain ⟨d₁, q₁, f₁⟩ := m₁
  obtain ⟨d₂, q₂, f₂⟩ := m₂
  simp only [Prod.mk.injEq] at f₁ f₂
  refine ⟨s₁, st₁, d₁, s₂, st₂, d₂, life_reach l₁, by simp [q₁], life_reach l₂, by simp [q₂], f₁.1, f₂.1, ?_, ?_⟩
  · rw [f₁.2.1, f₂.2.1]; decide +kernel
  · rw [f₁.2.2, f₂.2.2]; decide

/-- A life as above with the node of the main chain still syncing in the first round, and then, if `restart` is set, a restart. -/
def lifeSyncing (restart : Bool) (cx : Cfg Zq Zq (Multiplicative Zq) Unit) (chain : Chain) (first rest : List LoopStep) :
    Option (Observe.Shutter × State Zq Zq) :=
  (runLoop demoCodecs chain newShutter first).bind (fun s =>
    (decideStep cx s { demoMain with
      nodeSynced := false } [] (State.new Zq Zq)).bind (fun d =>
      (runLoop demoCodecs chain s rest).bind (fun s' =>
        (decideStep cx s' demoMain [] (if restart then loadState s d.1 else d.1)).map (fun d' => (s', d'.1)))))

/-- **C54** A restart loses messages if the keyper has not decided anything yet: the sync height of its saved state is still zero, and
`LoadState` "fixes" it to the current block. Here the node of the main chain was still syncing while the dealing phase of eon 1 was
going on. Without the restart the keyper gets all the commitments and has a result; with it, it gets none and has no result. -/
theorem C54_restart_counterexample :
    (lifeSyncing false cfgB dkgChain [.sync 4 4 false] [.sync 8 8 false]).bind outcome =
      some ⟨9, 1, finalized, [2, 2], [some 9, some 17], some 28, some 8, some [18, 28]⟩ ∧
    (lifeSyncing true cfgB dkgChain [.sync 4 4 false] [.sync 8 8 false]).bind outcome =
      some ⟨9, 1, finalized, [0, 0], [none, some 17], none, none, none⟩ := by
  constructor <;> decide +kernel

end demo

end Shutter.Decide.Props
