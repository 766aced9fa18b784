import Verif.Proofs.VoteAccept
import Verif.Proofs.DemoVote

set_option linter.unusedSectionVars false

/-!
# C72: Shuttermint follows the configs of the main chain

The vocabulary (`Career`, `latestConfig`, `voteFor`, `numbersVoted`, `Mirrors`, `Voter`, `HasSeen`, `VotesArrive`, `Acceptable`) is in
`Verif.Spec.Vote`.
-/

namespace Shutter.Net.Props
open Shutter.App Shutter.Events Shutter.Observe Shutter.Decide Shutter.Decide.Spec Shutter.Crypto

variable {ps : Parsers} {dev : Bool} {log : List Rec} {s : App.State} {codecs : Codecs}
variable {G1 G2 GT R : Type} [AddCommGroup G1] [AddCommGroup G2] [DecidableEq G2] [DecidableEq GT] {w : Wire G1 G2}
variable {cx : Cfg G1 G2 GT R} {chain : Observe.Chain} {E : Sol.Env} {fd : Nat} {sh : Observe.Shutter} {st : Decide.State G1 G2} {mc : Main.MainChain}
  {hist : Nat → Sol.World} {rounds : List (Main.MainChain × Round G1 G2)}

/-- **C72** A keyper votes only for the config after the latest one it has seen on shuttermint, and exactly for what is scheduled under this
number on the main chain it has seen (unless a scheduled config was taken back). -/
theorem C72_vote (l : Career cx codecs chain E fd sh st mc hist rounds) {x : Main.MainChain × Round G1 G2} (hx : x ∈ rounds)
    (kept : Sol.NoneTakenBack hist x.1.currentBlock) {start : Nat} {ks : List Addr} {t i : Nat} (hv : .batchConfig start ks t i ∈ x.2.sent) :
    ∃ bc j, (hist x.1.currentBlock).config.scheduled[i]? = some bc ∧ Action.batchConfig start ks t i = (voteFor i bc : Action G1 G2) ∧
      latestConfig codecs chain x.2.next = some j ∧ i = j + 1 :=
  vote_of l hx hv kept

/-- **C72** In its whole career, restarts included, a keyper votes at most once for each config number, in increasing order. -/
theorem C72_vote_once (l : Career cx codecs chain E fd sh st mc hist rounds) :
    (rounds.flatMap (fun x => numbersVoted x.2.sent)).Pairwise (· < ·) :=
  (career_votes l).1

/-- **C72** A keyper that decides, and has seen the next config on the main chain, votes for it, in this round or before. -/
theorem C72_voted (h : Exec ps dev log s) (fit : Codecs.Fit ps codecs) (sane : Sane log) (few : s.eonCounter + 1 < 2 ^ 64)
    (l : Career cx codecs (appChain codecs log) E fd sh st mc hist rounds) {before after : List (Main.MainChain × Round G1 G2)}
    {x : Main.MainChain × Round G1 G2} (hr : rounds = before ++ x :: after) (kept : Sol.NoneTakenBack hist x.1.currentBlock)
    (deciding : x.2.deciding = true) (known : x.1.configs ≠ []) {j : Nat} (latest : latestConfig codecs (appChain codecs log) x.2.next = some j)
    (hj : j + 1 < 2 ^ 64) {bc : Sol.BatchConfig} (scheduled : (hist x.1.currentBlock).config.scheduled[j + 1]? = some bc) :
    ∃ y ∈ before ++ [x], voteFor (j + 1) bc ∈ y.2.sent :=
  vote_due_exact h fit sane few l hr kept deciding known latest hj scheduled

/-- **C72** If, of the keypers of a config (but the genesis one), so many run the program that the rest cannot reach the threshold, then the
next config shuttermint accepts is the next one that one of them has seen on the main chain. -/
theorem C72_follows (h : Exec ps dev log s) (fit : Codecs.Fit ps codecs) (sane : Sane log) (few : s.eonCounter + 1 < 2 ^ 64)
    {k : Nat} (hk : 1 ≤ k) {L c : BatchConfig} (hL : s.configs[k]? = some L) (hc : s.configs[k + 1]? = some c) (small : L.threshold < 2 ^ 63)
    (H : Finset Addr) (sub : ∀ a ∈ H, a ∈ L.keypers) (majority : L.keypers.length < L.threshold + H.card)
    (ws : Addr → Wire G1 G2) (cx : Addr → Cfg G1 G2 GT R) (own : ∀ a ∈ H, (cx a).own = a) (E : Addr → Sol.Env) (fd : Addr → Nat)
    (sh : Addr → Observe.Shutter) (st : Addr → Decide.State G1 G2) (mc : Addr → Main.MainChain) (hist : Addr → Nat → Sol.World)
    (rounds : Addr → List (Main.MainChain × Round G1 G2))
    (voters : ∀ a ∈ H, Voter (ws a) (cx a) codecs log (E a) (fd a) (sh a) (st a) (mc a) (hist a) (rounds a)) :
    ∃ a ∈ H, ∃ bc, (hist a (mc a).currentBlock).config.scheduled[L.configIndex + 1]? = some bc ∧
      Mirrors c (L.configIndex + 1) bc (ws a).configContract :=
  followed h fit sane few hk hL hc small H sub majority ws cx own E fd sh st mc hist rounds voters

/-- **C72** As above; if they are also enough to reach the threshold, and all of them have seen the same next config on the main chain, and their
votes were delivered, and it is one shuttermint takes, then it is the next config on shuttermint. -/
theorem C72_accepted_partial (h : Exec ps dev log s) (fit : Codecs.Fit ps codecs) (sane : Sane log) (few : s.eonCounter + 1 < 2 ^ 64)
    {k : Nat} (hk : 1 ≤ k) {L : BatchConfig} (hL : s.configs[k]? = some L) (hlt : L.configIndex + 1 < 2 ^ 64)
    (small : L.threshold < 2 ^ 63)
    (H : Finset Addr) (sub : ∀ a ∈ H, a ∈ L.keypers) (quorum : L.threshold ≤ H.card) (majority : L.keypers.length < L.threshold + H.card)
    (contract : App.Bytes) (addr : contract.length = 20) (ws : Addr → Wire G1 G2) (same : ∀ a ∈ H, (ws a).configContract = contract)
    (cx : Addr → Cfg G1 G2 GT R) (own : ∀ a ∈ H, (cx a).own = a) (E : Addr → Sol.Env) (fd : Addr → Nat)
    (sh : Addr → Observe.Shutter) (st : Addr → Decide.State G1 G2) (mc : Addr → Main.MainChain) (hist : Addr → Nat → Sol.World)
    (rounds : Addr → List (Main.MainChain × Round G1 G2))
    (voters : ∀ a ∈ H, Voter (ws a) (cx a) codecs log (E a) (fd a) (sh a) (st a) (mc a) (hist a) (rounds a))
    {bc : Sol.BatchConfig} (seen : ∀ a ∈ H, HasSeen codecs log (hist a) (rounds a) L.configIndex bc)
    (arrive : ∀ a ∈ H, VotesArrive (ws a) log a ((rounds a).map (·.2))) (acc : Acceptable L bc) :
    ∃ c, s.configs[k + 1]? = some c ∧ Mirrors c (L.configIndex + 1) bc contract :=
  accepted h fit sane few hk hL hlt small H sub quorum majority contract addr ws same cx own E fd sh st mc hist rounds voters seen arrive acc

/-- **C72** (what the code does not give) The config contract also takes configs that switch batching off, without keypers or with threshold 0;
shuttermint does not. After such a config, as long as enough keypers run the program, shuttermint has no further config at all, whatever else
is scheduled on the main chain. -/
theorem C72_stuck_counterexample (h : Exec ps dev log s) (fit : Codecs.Fit ps codecs) (sane : Sane log) (few : s.eonCounter + 1 < 2 ^ 64)
    {k : Nat} (hk : 1 ≤ k) {L : BatchConfig} (hL : s.configs[k]? = some L) (small : L.threshold < 2 ^ 63)
    (H : Finset Addr) (sub : ∀ a ∈ H, a ∈ L.keypers) (majority : L.keypers.length < L.threshold + H.card)
    (ws : Addr → Wire G1 G2) (cx : Addr → Cfg G1 G2 GT R) (own : ∀ a ∈ H, (cx a).own = a) (E : Addr → Sol.Env) (fd : Addr → Nat)
    (sh : Addr → Observe.Shutter) (st : Addr → Decide.State G1 G2) (mc : Addr → Main.MainChain) (hist : Addr → Nat → Sol.World)
    (rounds : Addr → List (Main.MainChain × Round G1 G2))
    (voters : ∀ a ∈ H, Voter (ws a) (cx a) codecs log (E a) (fd a) (sh a) (st a) (mc a) (hist a) (rounds a))
    (off : ∀ a ∈ H, ∀ bc, (hist a (mc a).currentBlock).config.scheduled[L.configIndex + 1]? = some bc → bc.keypers = [] ∨ bc.threshold = 0) :
    s.configs.length = k + 1 := by
  have hklt : k < s.configs.length := (List.getElem?_eq_some_iff.1 hL).1
  by_contra hlen
  obtain ⟨c, hc⟩ : ∃ c, s.configs[k + 1]? = some c := ⟨_, List.getElem?_eq_getElem (by omega)⟩
  obtain ⟨a, ha, bc, h1, h2⟩ := followed h fit sane few hk hL hc small H sub majority ws cx own E fd sh st mc hist rounds voters
  have hv : c.ensureValid = true := by
    rcases h.inv.cfg.valid _ (List.mem_of_getElem? (ids_get hc)) with hv | ⟨hv, _⟩
    · simpa [BatchConfig.ensureValid, BatchConfig.erase] using hv
    · have := congrArg List.length hv
      rw [ids_length] at this
      simp at this
      omega
  rcases off a ha bc h1 with h0 | h0
  · have : c.keypers = [] := by rw [h2.keypers, keypersOf, h0]; rfl
    simp [BatchConfig.ensureValid, this] at hv
  · have : c.threshold = 0 := by rw [h2.threshold, h0]
    simp [BatchConfig.ensureValid, this] at hv

open VoteDemo in
/-- In the demo config number 1 of shuttermint has the keypers 5, 6 and 7 and threshold 2. The owner of the config contract schedules config
number 2 with the keypers 6 and 8. The keypers 5 and 6 run the program; the hypotheses of the theorems above are met, and their votes make
config number 2 the next on shuttermint. -/
theorem C72_example : Exec App.Demo.ps false (VoteDemo.log second) (App.Demo.stateOf false (ops second)) ∧
    Codecs.Fit App.Demo.ps Events.Props.demoCodecs ∧ Sane (VoteDemo.log second) ∧
    (App.Demo.stateOf false (ops second)).eonCounter + 1 < 2 ^ 64 ∧
    (App.Demo.stateOf false (ops second)).configs[1]? = some VoteDemo.firstConfig ∧
    Acceptable VoteDemo.firstConfig activeConfig ∧
    (∀ a ∈ ({App.Demo.k 5, App.Demo.k 6} : Finset Addr),
      Voter wire (cxOf a) Events.Props.demoCodecs (VoteDemo.log second) Sol.Demo.env 0 (runOf second active a).s (runOf second active a).st
        (runOf second active a).mc (VoteDemo.hist active) (runOf second active a).rounds ∧
      VotesArrive wire (VoteDemo.log second) a ((runOf second active a).rounds.map (·.2)) ∧
      HasSeen Events.Props.demoCodecs (VoteDemo.log second) (VoteDemo.hist active) (runOf second active a).rounds 1 activeConfig) ∧
    ∃ c, (App.Demo.stateOf false (ops second)).configs[2]? = some c ∧ Mirrors c 2 activeConfig zeroAddr := by
  have hv : ∀ a ∈ ({App.Demo.k 5, App.Demo.k 6} : Finset Addr), (life second active a).map (check second active activeConfig a) = some [true, true, true] := by
    intro a ha
    simp only [Finset.mem_insert, Finset.mem_singleton] at ha
    rcases ha with rfl | rfl
    · exact check5
    · exact check6
  have hacc : Acceptable VoteDemo.firstConfig activeConfig := ⟨by decide, by decide, by decide +kernel, by decide⟩
  have hc : (App.Demo.stateOf false (ops second)).configs[1]? = some VoteDemo.firstConfig := by decide +kernel
  refine ⟨exec_active, Demo.fit, sane_active, by decide +kernel, hc, hacc,
    fun a ha => ⟨(checked (hv a ha) kept_active).1, (checked (hv a ha) kept_active).2.1, (checked (hv a ha) kept_active).2.2.1⟩, ?_⟩
  exact C72_accepted_partial exec_active Demo.fit sane_active (by decide +kernel) (le_refl 1) hc (by decide) (by decide)
    {App.Demo.k 5, App.Demo.k 6} (by decide) (by decide) (by decide) zeroAddr (by decide) (fun _ => wire) (fun _ _ => rfl) cxOf (fun _ _ => rfl)
    (fun _ => Sol.Demo.env) (fun _ => 0) (fun a => (runOf second active a).s) (fun a => (runOf second active a).st) (fun a => (runOf second active a).mc)
    (fun _ => VoteDemo.hist active) (fun a => (runOf second active a).rounds) (fun a ha => (checked (hv a ha) kept_active).1)
    (fun a ha => (checked (hv a ha) kept_active).2.2.1) (fun a ha => (checked (hv a ha) kept_active).2.1) hacc

open VoteDemo in
/-- In the demo the owner schedules config number 2 to switch batching off, and config number 3 with the keypers 6 and 8. The votes of the
keypers 5 and 6 for number 2 are delivered, and refused; shuttermint is stuck with config number 1, and never gets to number 3. -/
theorem C72_stuck_counterexample_run : Exec App.Demo.ps false (VoteDemo.log bad) (App.Demo.stateOf false (ops bad)) ∧
    (∀ a ∈ ({App.Demo.k 5, App.Demo.k 6} : Finset Addr),
      Voter wire (cxOf a) Events.Props.demoCodecs (VoteDemo.log bad) Sol.Demo.env 0 (runOf bad inactive a).s (runOf bad inactive a).st
        (runOf bad inactive a).mc (VoteDemo.hist inactive) (runOf bad inactive a).rounds ∧
      VotesArrive wire (VoteDemo.log bad) a ((runOf bad inactive a).rounds.map (·.2)) ∧
      HasSeen Events.Props.demoCodecs (VoteDemo.log bad) (VoteDemo.hist inactive) (runOf bad inactive a).rounds 1 inactiveConfig) ∧
    ((VoteDemo.hist inactive 10).config.scheduled.map (fun c => (c.keypers, c.threshold))) = [([], 0), ([5, 6, 7], 2), ([], 0), ([6, 8], 1)] ∧
    (App.Demo.stateOf false (ops bad)).configs.length = 2 := by
  have hv : ∀ a ∈ ({App.Demo.k 5, App.Demo.k 6} : Finset Addr), (life bad inactive a).map (check bad inactive inactiveConfig a) = some [true, true, true] := by
    intro a ha
    simp only [Finset.mem_insert, Finset.mem_singleton] at ha
    rcases ha with rfl | rfl
    · exact bad5
    · exact bad6
  refine ⟨exec_inactive, fun a ha => ⟨(checked (hv a ha) kept_inactive).1, (checked (hv a ha) kept_inactive).2.1, (checked (hv a ha) kept_inactive).2.2.1⟩,
    by decide +kernel, ?_⟩
  exact C72_stuck_counterexample exec_inactive Demo.fit sane_inactive (by decide +kernel) (le_refl 1) (L := VoteDemo.firstConfig) (by decide +kernel) (by decide)
    {App.Demo.k 5, App.Demo.k 6} (by decide) (by decide) (fun _ => wire) cxOf (fun _ _ => rfl)
    (fun _ => Sol.Demo.env) (fun _ => 0) (fun a => (runOf bad inactive a).s) (fun a => (runOf bad inactive a).st) (fun a => (runOf bad inactive a).mc)
    (fun _ => VoteDemo.hist inactive) (fun a => (runOf bad inactive a).rounds) (fun a ha => (checked (hv a ha) kept_inactive).1)
    (fun a ha bc hbc => by
      have h1 : (VoteDemo.hist inactive (runOf bad inactive a).mc.currentBlock).config.scheduled[2]? = some bc := hbc
      rw [(checked (hv a ha) kept_inactive).2.2.2] at h1
      cases h1
      exact .inl rfl)

end Shutter.Net.Props
