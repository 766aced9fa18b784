import Verif.Spec.Sent

/-!
# Vocabulary for honest and online keypers

What is asked of a keyper and of the chain for the keyper to count: it runs the program, it decides at least once in each phase, its
messages get on the chain in the phase they are for, and nobody else sends messages in its name.
-/

namespace Shutter.Decide.Spec
open Shutter.Crypto Shutter.Dkg Shutter.Observe Shutter.Decide
open Shutter.App (Addr)
open Shutter.Events (Codecs makeEvent)

variable {G1 G2 GT R : Type}

/-- The event `ev` is in the block of height `h`. -/
def Published (codecs : Codecs) (chain : Chain) (h : Int) (ev : App.Event) : Prop :=
  0 ≤ h ∧ ∃ x ∈ (chain h).flatten, makeEvent codecs x = some ev

/-- The messages in `rs` for eon `e`, announced at height `S`, are published in their phase. -/
structure Carried (cx : Cfg G1 G2 GT R) (codecs : Codecs) (chain : Chain) (e : Nat) (S : Int) (rs : List (Round G1 G2)) : Prop where
  commitment : ∀ m ∈ said (commitmentsFor e) rs, ∃ h gammas, S < h ∧ inPhase cx.phaseLength S 0 h = true ∧
    Published codecs chain h (.polyCommitment cx.own e gammas) ∧ cx.gammas gammas = m.2
  accusation : ∀ m ∈ said (accusationsFor e) rs, ∃ h, inPhase cx.phaseLength S 1 h = true ∧
    Published codecs chain h (.accusation cx.own e m.2)
  apology : ∀ m ∈ said (apologiesFor e) rs, ∃ h, ∃ evals : List Nat, inPhase cx.phaseLength S 2 h = true ∧
    Published codecs chain h (.apology cx.own e m.2.1 evals) ∧ evals.map Int.ofNat = m.2.2

/-- The commitments and apologies for eon `e` that are published in the name of the keyper are among the messages in `rs`. -/
structure Authentic (cx : Cfg G1 G2 GT R) (codecs : Codecs) (chain : Chain) (e : Nat) (rs : List (Round G1 G2)) : Prop where
  commitment : ∀ h gammas, Published codecs chain h (.polyCommitment cx.own e gammas) →
    ∃ m ∈ said (commitmentsFor e) rs, cx.gammas gammas = m.2
  apology : ∀ h as, ∀ evals : List Nat, Published codecs chain h (.apology cx.own e as evals) →
    ∃ m ∈ said (apologiesFor e) rs, m.2 = (as, evals.map Int.ofNat)

/-- An honest keyper that was online in the key generation `dkg`, announced at height `S`, and finished it. -/
structure Honest [AddCommGroup G1] [AddCommGroup G2] [DecidableEq G2] [DecidableEq GT] (cx : Cfg G1 G2 GT R) (codecs : Codecs)
    (chain : Chain) (S : Int) (rs : List (Round G1 G2)) (s : Observe.Shutter) (st : State G1 G2) (dkg : DKG G2) : Prop where
  lived : Lived cx codecs chain rs s st
  runs : dkg ∈ st.dkgs
  started : Started (chainEvents codecs chain 0 (st.syncHeight - 1)) dkg.eon dkg.startBatchIndex S
  finished : S + 3 * cx.phaseLength ≤ st.syncHeight
  /-- The polynomial has the degree of the eon (keyper/decide.go gets it from `shcrypto.RandomPolynomial`). -/
  degree : ∀ P, cx.poly dkg.eon = some P → P.length = dkg.pure.state.threshold
  online : ∀ k : Int, k ∈ [0, 1, 2] → firstIn S cx.phaseLength k rs ≠ none
  carried : Carried cx codecs chain dkg.eon S rs
  authentic : Authentic cx codecs chain dkg.eon rs

/-- The evaluations for eon `e` in `rs` are published in the dealing phase, and no others are published in the name of the keyper. -/
structure Dealt (cx : Cfg G1 G2 GT R) (codecs : Codecs) (chain : Chain) (e : Nat) (S : Int) (rs : List (Round G1 G2)) : Prop where
  carried : ∀ m ∈ said (evaluationsFor e) rs, ∃ h, S < h ∧ inPhase cx.phaseLength S 0 h = true ∧
    Published codecs chain h (.polyEval cx.own e m.2.1 m.2.2)
  authentic : ∀ h receivers encrypted, Published codecs chain h (.polyEval cx.own e receivers encrypted) →
    ∃ m ∈ said (evaluationsFor e) rs, m.2 = (receivers, encrypted)

end Shutter.Decide.Spec
