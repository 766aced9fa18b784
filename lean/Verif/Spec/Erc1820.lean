import Verif.Model.Erc1820

/-!
# What the user may expect of the preparation of the registry
-/

namespace Shutter.Erc1820.Spec

open Shutter.Erc1820

/-- Before the command: nothing of the owner's in the mempool, no receipts for transactions to come; the registry is there exactly if
the deployment was included and did not fail; a deployment in the mempool is paid for and has not been included. -/
structure Start (s : State) : Prop where
  pc : s.pc = .check
  funding : s.pooledFunding = none
  receipts : ∀ n, s.ownerNonce ≤ n → s.fundingReceipt n = none
  code : s.code = true ↔ s.deploymentReceipt = some true
  used : s.deployerUsed = true ↔ s.deploymentReceipt.isSome
  pooled : s.pooledDeployment = true → s.deployerUsed = false ∧ 80000000000000000 ≤ s.deployer

/-- 0.08 ether and the fee of a plain transfer -/
def cost (gasPrice : Nat) : Nat := 80000000000000000 + 21000 * gasPrice

end Shutter.Erc1820.Spec
