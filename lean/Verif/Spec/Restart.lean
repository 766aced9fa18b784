import Verif.Spec.Net

/-! Vocabulary for C83: key generations that are repeated. -/

namespace Shutter.App

/-- Every accepted eon start vote of `a` is for the first batch of an eon that was announced before. -/
def Faithful (log : List Rec) (a : Addr) : Prop :=
  ∀ pre r post b, log = pre ++ r :: post → r.Accepts a (.eonStartVote b) → ∃ r' ∈ pre, ∃ e, .eonStarted e b ∈ r'.events

/-- In every config that has keypers at all, so many of them are faithful that the others are fewer than the threshold. -/
def HonestMajority (log : List Rec) : Prop :=
  ∀ r ∈ log, ∀ c ∈ r.before.configs, c.keypers ≠ [] → c.threshold < 2 ^ 63 ∧
    ∃ F : Finset Addr, (∀ a ∈ F, a ∈ c.keypers ∧ Faithful log a) ∧ c.keypers.length < c.threshold + F.card

end Shutter.App

namespace Shutter.Net
open Shutter.App Shutter.Events Shutter.Observe Shutter.Decide Shutter.Decide.Spec

variable {G1 G2 GT R : Type}

/-- Nobody else signs for the keyper: every eon start vote delivered with its signature is one it has decided to send, in a round before
the block. -/
def GenuineEonVotes (w : Wire G1 G2) (log : List Rec) (own : Addr) (rs : List (Round G1 G2)) : Prop :=
  ∀ pre r post m b, log = pre ++ r :: post → r.Delivers own m → m.msg = .eonStartVote b →
    ∃ x ∈ rs, ∃ act ∈ x.sent, message w act = some m.msg ∧ x.next ≤ heightAfter pre

/-- A keyper of the eon (announced at height `S` for config `c`) that runs the program at least until the end of the key generation. It
need not have been online all the time, and its messages may have been late. -/
structure Finishes [AddCommGroup G1] [AddCommGroup G2] [DecidableEq G2] [DecidableEq GT] (cx : Cfg G1 G2 GT R) (codecs : Codecs)
    (log : List Rec) (c : BatchConfig) (S : Nat) (rs : List (Round G1 G2)) (sh : Observe.Shutter) (st : Decide.State G1 G2) : Prop where
  lived : Lived cx codecs (appChain codecs log) rs sh st
  member : cx.own ∈ c.keypers
  phases : 0 < cx.phaseLength
  finished : S + 3 * cx.phaseLength ≤ st.syncHeight

end Shutter.Net
