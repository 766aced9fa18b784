import Mathlib.Algebra.BigOperators.Group.Finset.Basic
import Verif.Spec.App

/-!
# What Tendermint asks of validator updates

Tendermint v0.34, state/execution.go `validateValidatorUpdates` and types/validator_set.go `updateWithChangeSet`: if the updates returned by
`EndBlock` have these properties, Tendermint applies them; if not, it stops. A validator set is given by the power of each key, zero for keys
that are not in it.
-/

namespace Shutter.App

/-- types/validator_set.go `MaxTotalVotingPower`: `MaxInt64 / 8` -/
def maxTotalVotingPower : Int := (2 ^ 63 - 1) / 8

/-- The powers after the updates but before the removals. -/
def beforeRemovals (p : ValidatorPubkey → Int) (ups : Powermap) (k : ValidatorPubkey) : Int :=
  if (k, 0) ∈ ups then p k else applyUpdates p ups k

/-- Tendermint applies the updates `ups` to the validator set `p`. -/
structure Applicable (p : ValidatorPubkey → Int) (ups : Powermap) : Prop where
  /-- no key twice -/
  distinct : (ups.map (·.1)).Nodup
  /-- ed25519 keys -/
  keys : ∀ u ∈ ups, u.1.length = 32
  /-- no negative power -/
  powers : ∀ u ∈ ups, 0 ≤ u.2
  /-- only validators are removed -/
  removals : ∀ u ∈ ups, u.2 = 0 → 0 < p u.1
  /-- not all are removed -/
  nonempty : ∃ k, 0 < applyUpdates p ups k
  /-- the total power is within bounds -/
  total : ∀ ks : Finset ValidatorPubkey, ∑ k ∈ ks, beforeRemovals p ups k ≤ maxTotalVotingPower

/-- The execution begins with the genesis request `req`, and there is no other. -/
def Begins (log : List Rec) (req : InitRequest) : Prop :=
  ∃ r rest, log = r :: rest ∧ r.op = .initChain req ∧ ∀ r' ∈ rest, ∀ req', r'.op ≠ .initChain req'

/-- A genesis document of Tendermint (types/genesis.go `ValidateAndComplete`) with moderate powers: there are validators, and each has
positive power. -/
structure GoodGenesis (req : InitRequest) : Prop where
  present : req.validators ≠ []
  positive : ∀ v ∈ req.validators, 0 < v.2
  total : (req.validators.map (·.2)).sum < 2 ^ 59

/-- The key of keyper `a` in a state: the one it has checked in with, or one that nobody holds. -/
def keyOf (s : State) (a : Addr) : ValidatorPubkey := (s.identities a).getD nonExistentValidator

/-- No config is accepted that claims that its validators are already in force. (The message has a field for this, and the
application takes it over.) -/
def NotUpdated (log : List Rec) : Prop :=
  ∀ r ∈ log, ∀ c, r.after.configs = r.before.configs ++ [c] → c.validatorsUpdated = false

/-- The powers `p` are either those of the genesis document, or each keyper of one of the configs has power 10 under its key and
less than a third of these keypers have not checked in: blocks can be made by those who have. -/
def LiveSet (req : InitRequest) (s : State) (p : ValidatorPubkey → Int) : Prop :=
  p = genesisPower req ∨
  ∃ c ∈ s.configs, (∀ k, p k = 10 * (c.keypers.countP (fun a => decide (keyOf s a = k)) : Int)) ∧
    3 * c.keypers.countP (fun a => (s.identities a).isNone) < c.keypers.length

end Shutter.App
