import Verif.Spec.Vote
import Verif.Spec.Once
import Verif.Spec.Sent

/-! # Vocabulary for the check-ins of keypers -/

namespace Shutter.Net
open Shutter.App Shutter.Events Shutter.Observe Shutter.Decide Shutter.Decide.Spec

variable {G1 G2 GT R : Type}

/-- Nobody else signs check-ins for the keyper: those delivered with its signature are ones it has decided on, in a round before the block. -/
def GenuineCheckIns (w : Wire G1 G2) (log : List Rec) (own : Addr) (rounds : List (Round G1 G2)) : Prop :=
  ∀ pre r post m vk ek, log = pre ++ r :: post → r.Delivers own m → m.msg = .checkIn vk ek →
    ∃ x ∈ rounds, ∃ act ∈ x.sent, message w act = some m.msg ∧ x.next ≤ heightAfter pre

/-- A check-in the keyper decides on is delivered some time. -/
def CheckInArrives (w : Wire G1 G2) (log : List Rec) (own : Addr) (rounds : List (Round G1 G2)) : Prop :=
  ∀ x ∈ rounds, .checkIn ∈ x.sent → ∃ pre r post, log = pre ++ r :: post ∧ ActArrives w pre r own .checkIn ∧ x.next ≤ heightAfter pre

/-- Before the block of height `next` a config with the keyper `own` is announced on shuttermint. -/
def Appointed (codecs : Codecs) (chain : Observe.Chain) (own : Addr) (next : Int) : Prop :=
  ∃ x ∈ announcedConfigs ((chainEvents codecs chain 0 (next - 1)).map (·.ev)), own ∈ x.2.2.1

/-- The keyper has checked in on shuttermint, before the block of height `next` was processed, with the encryption key `key` (as the
application has decoded it). -/
def CheckedInBefore (log : List Rec) (own : Addr) (key : Bytes) (next : Int) : Prop :=
  ∃ pre r post, log = pre ++ r :: post ∧ r.events = [.checkIn own key] ∧ (heightAfter pre : Int) < next

end Shutter.Net
