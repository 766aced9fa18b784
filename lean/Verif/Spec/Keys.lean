import Verif.Spec.Batches
import Verif.Spec.Observe
import Verif.Spec.Driver

/-! # Vocabulary for the keys a keyper decrypts with -/

namespace Shutter.Decide
open Shutter.Crypto Shutter.Dkg Shutter.Observe Shutter.Main

variable {G1 G2 GT R : Type}

/-- `key` is the epoch secret key that belongs to the eon public key `pk`: for some secret, the public key is this multiple of the
generator, and the key this multiple of the epoch id. -/
def IsEpochKey [AddCommGroup G1] [AddCommGroup G2] (env : Crypto.Env G1 G2 GT) (pk : G2) (epoch : Nat) (key : G1) : Prop :=
  ∃ x : Nat, pk = x • env.g2 ∧ key = x • epochIDOf env epoch

/-- The keyper has `key` as the secret key of epoch `k` of eon `eon`. -/
def HasEonKey (st : State G1 G2) (eon k : Nat) (key : G1) : Prop :=
  ∃ ekg ∈ st.ekgs, ekg.eon = eon ∧ ekg.kg.secretKeys k = some (some key)

/-- In some round the keyper decided to broadcast the eon public key `pk` for the batches from `start` on. -/
def Broadcast (log : List (MainChain × List (Action G1 G2))) (start : Nat) (pk : G2) : Prop :=
  ∃ mc acts i, (mc, acts) ∈ log ∧ .eonKeyBroadcast i start pk ∈ acts

/-- The chain announced eon `eon` for the batches from `start` on. -/
def Announced (codecs : Events.Codecs) (chain : Observe.Chain) (eon start : Nat) : Prop :=
  ∃ upTo at_, Started (chainEvents codecs chain 0 upTo) eon start at_

/-- According to some events, eon `eon`, for the batches from `start` on, is responsible for batch `b`: the newest eon for this batch. -/
def EonFor (evs : List Stamped) (b eon start : Nat) : Prop :=
  (∃ at_, Started evs eon start at_) ∧ start ≤ b ∧ ∀ e first at_, Started evs e first at_ → first ≤ b → e ≤ eon

/-- According to some events, `a` is a keyper of batch `b`. -/
def KeyperFor (evs : List Stamped) (b : Nat) (a : App.Addr) : Prop := ∃ keypers threshold, Spec.configFor evs b = some (keypers, threshold) ∧ a ∈ keypers

/-- The lists in the events of the chain are not longer than Go slices can be. -/
def SlicesFit (cx : Cfg G1 G2 GT R) (codecs : Events.Codecs) (chain : Observe.Chain) : Prop :=
  ∀ upTo x, x ∈ chainEvents codecs chain 0 upTo → match x.ev with
    | .batchConfig _ _ keypers _ => keypers.length < 2 ^ 63
    | .polyCommitment _ _ gammas => (cx.gammas gammas).length < 2 ^ 63
    | _ => True

end Shutter.Decide
