import Verif.Model.Dkg

/-! # Vocabulary for what is seen of a dealer's secret -/

namespace Shutter.Dkg
open Shutter.Crypto

/-- A polynomial as `RandomPolynomial` draws it (shlib/shcrypto/feldman.go:76-90): `t` coefficients below the order, all equally likely. -/
def IsPoly (t : Nat) (p : List Nat) : Prop := p.length = t ∧ ∀ c ∈ p, c < order

variable {G2 : Type}

/-- What the keypers in `J` see of a message, besides the commitments: evaluations are encrypted for the receiver (decide.go:140-158); the rest is public. -/
def seenBy (J : Finset Nat) : Op G2 → Op G2
  | .eval m => if m.receiver ∈ J then .eval m else .eval { m with eval := 0 }
  | .commitment m => .commitment { m with gammas := [] }
  | op => op

/-- The same call in the life of keyper `k`, had it drawn the polynomial `p`: in its own call that draws it, and where its own commitment comes back to it. -/
def withPoly {G1 GT : Type} [AddCommGroup G2] (env : Env G1 G2 GT) (k : Nat) (p : List Nat) : Op G2 → Op G2
  | .start1 (some _) => .start1 (some p)
  | .commitment m => if m.sender = k then .commitment { m with gammas := polyGammas env p } else .commitment m
  | op => op

/-- The accusations against keyper `k` among the calls. -/
def accusersOf (k : Nat) (ops : List (Op G2)) : List Nat :=
  ops.filterMap (fun op => match op with
    | .accusation m => if m.accused = k then some m.accuser else none
    | _ => none)

/-- The evaluations of the polynomial of keyper `k` that everybody can read, since they are in its apologies. -/
def revealed (k : Nat) (ops : List (Op G2)) : List (Nat × Int) :=
  ops.filterMap (fun op => match op with
    | .apology m => if m.accused = k then some (m.accuser, m.eval) else none
    | _ => none)

end Shutter.Dkg
