import Verif.Proofs.Query
import Verif.Proofs.DemoOperator

/-!
# C96: looking at configs

The vocabulary (`shown`, `Held`, `IsTextOf`, `IsFileOf`) is in `Verif.Spec.Query`.
-/

namespace Shutter.Query.Props
open Shutter.Query Shutter.Files Shutter.Operator
open Shutter.Events (Codecs Text formatUint parseUint)
open Shutter.Sol (Config)

/-- `query` prints the next config, the last scheduled one, or the one with the given number, with each keyper once; what it prints can be
used as a file for `set-next` if the threshold is sensible. It fails if there is no such config. -/
theorem C96_one (cx : Codecs) (c : Config) (held : ∀ bc ∈ c.next :: c.scheduled, Held bc) :
    (∃ t, query cx c "next".toList = some (.one t) ∧ IsTextOf cx t (shown c.next)) ∧
    (∀ bc, c.scheduled.getLast? = some bc → ∃ t, query cx c "last".toList = some (.one t) ∧ IsTextOf cx t (shown bc)) ∧
    (c.scheduled = [] → query cx c "last".toList = none) ∧
    (∀ (i : Nat) (bc : Sol.BatchConfig), i < 2 ^ 64 → c.scheduled[i]? = some bc →
      ∃ t, query cx c (formatUint i) = some (.one t) ∧ IsTextOf cx t (shown bc)) ∧
    (∀ i : Nat, i < 2 ^ 64 → c.scheduled.length ≤ i → query cx c (formatUint i) = none) := by
  have text : ∀ bc ∈ c.next :: c.scheduled, IsTextOf cx ((goConfig (shown bc)).save cx) (shown bc) :=
    fun bc hbc => goConfig_text cx (shown_held (held bc hbc))
  refine ⟨⟨_, by unfold query; rw [show readIndex "next".toList = some .next from by decide]; simp only [Option.bind_some]; rw [next_shown],
    text _ List.mem_cons_self⟩, ?_, ?_, ?_, ?_⟩
  · intro bc hbc
    have hne : c.scheduled ≠ [] := by rintro h; rw [h] at hbc; cases hbc
    have hlen := List.length_pos_iff.2 hne
    refine ⟨_, ?_, text bc (List.mem_cons_of_mem _ (List.mem_of_getLast? hbc))⟩
    unfold query
    rw [show readIndex "last".toList = some .last from by decide]
    simp only [Option.bind_some]
    rw [numConfigs_eq, if_neg (by omega), get_shown, ← List.getLast?_eq_getElem?, hbc]
    rfl
  · intro h
    unfold query
    rw [show readIndex "last".toList = some .last from by decide]
    simp only [Option.bind_some]
    rw [numConfigs_eq, h, if_pos List.length_nil]
  · intro i bc hi hbc
    refine ⟨_, ?_, text bc (List.mem_cons_of_mem _ (List.mem_of_getElem? hbc))⟩
    unfold query
    rw [parseUint_text hi]
    simp only [Option.bind_some]
    rw [get_shown, hbc]
    rfl
  · intro i hi hlen
    unfold query
    rw [parseUint_text hi]
    simp only [Option.bind_some]
    rw [get_shown, List.getElem?_eq_none hlen]
    rfl

/-- `query -i all` prints all scheduled configs, in their order. -/
theorem C96_all (cx : Codecs) (c : Config) (held : ∀ bc ∈ c.scheduled, Held bc) :
    ∃ l, query cx c "all".toList = some (.many l) ∧ l.length = c.scheduled.length ∧
      ∀ (i : Nat) (o : List (Text × Json)) (bc : Sol.BatchConfig), l[i]? = some o → c.scheduled[i]? = some bc → IsTextOf cx (printObject o) (shown bc) := by
  refine ⟨_, by unfold query; rw [show readIndex "all".toList = some .all from by decide]; simp only [Option.bind_some]; rw [fetchAll]; rfl, by simp, ?_⟩
  intro i o bc ho hbc
  simp only [List.getElem?_map, hbc, Option.map_some, Option.some.injEq] at ho
  subst ho
  exact goConfig_text cx (shown_held (held bc (List.mem_of_getElem? hbc)))

/-- Other values of the flag are refused. -/
theorem C96_flag (cx : Codecs) (c : Config) (flag : Text) (h1 : flag ≠ "next".toList) (h2 : flag ≠ "last".toList) (h3 : flag ≠ "all".toList)
    (h4 : parseUint flag = none) : query cx c flag = none := by
  unfold query readIndex
  rw [if_neg h1, if_neg h2, if_neg h3, h4]
  rfl

/-- `list` prints a line for each scheduled config, in their order, and one for the next config. -/
theorem C96_list (c : Config) :
    ∃ l, list c = some l ∧ l.length = c.scheduled.length + 1 ∧
      (∀ (i : Nat) (bc : Sol.BatchConfig), c.scheduled[i]? = some bc → l[i]? = some (some i, bc.startBatchIndex, bc.startBlockNumber)) ∧
      l.getLast? = some (none, c.next.startBatchIndex, c.next.startBlockNumber) := by
  refine ⟨_, by unfold list; rw [fetchAll]; rfl, by simp, ?_, ?_⟩
  · intro i bc h
    have hi : i < c.scheduled.length := (List.getElem?_eq_some_iff.1 h).1
    rw [List.getElem?_append_left (by simpa using hi)]
    simp [List.getElem?_mapIdx, h, shown]
  · rw [List.getLast?_append, next_shown]
    simp [shown]

/-- `CurrentAndFutureConfigs` gives the last config that starts at the block or before and all that come after it; each of these starts after the
block. (The first config of the contract starts with block 0.) -/
theorem C96_active (c : Config) (block : Nat) {first : Sol.BatchConfig} (hf : c.scheduled.head? = some first)
    (zero : first.startBlockNumber ≤ block) :
    ∃ (k : Nat) (bc : Sol.BatchConfig), c.scheduled[k]? = some bc ∧ bc.startBlockNumber ≤ block ∧
      currentAndFuture c block = some ((c.scheduled.drop k).map shown) ∧
      ∀ (j : Nat) (later : Sol.BatchConfig), k < j → c.scheduled[j]? = some later → block < later.startBlockNumber := by
  obtain ⟨l, h1, k, -, h3, h4, h5⟩ := fetch_eq c block c.scheduled.length [] (Nat.le_refl _)
  rw [List.take_length] at h3
  have h1' : currentAndFuture c block = some ((c.scheduled.drop k).map shown) := by
    unfold currentAndFuture
    rw [numConfigs_eq, h1, List.append_nil, h3]
  have h0 : c.scheduled[0]? = some first := by rw [← hf]; exact List.head?_eq_getElem?.symm
  have hlt : ∀ {j : Nat} {bc : Sol.BatchConfig}, c.scheduled[j]? = some bc → j < c.scheduled.length := fun h => (List.getElem?_eq_some_iff.1 h).1
  rcases h5 with ⟨bc, a, d, e⟩ | ⟨a, d⟩
  · exact ⟨k, bc, d, e, h1', fun j later hj hl => h4 j later hj (hlt hl) hl⟩
  · have := d 0 first (hlt h0) h0
    omega

/-- After `set-next` with a file that has a start, reporting success, `query -i next` prints that file. -/
theorem C96_set_shown {n n' : Operator.Node} {txs todo : List Operator.Tx} {file : Sol.BatchConfig} (settled : Settled n)
    (own : n.config.owner = n.account) (nodup : n.config.next.keypers.Nodup) (held : Held file) (fits' : Fits n.config.next)
    (hr : ∀ bc ∈ n.config.scheduled, Fits bc) (nodup' : file.keypers.Nodup) (explicit : file.startBlockNumber ≠ 0)
    (run : setNextTxs n.config n.block n.pendingNonce file = some txs) (cmd : Command n txs n' todo) (success : Success txs n' todo)
    (cx : Codecs) : ∃ t, query cx n'.config "next".toList = some (.one t) ∧ IsFileOf cx t file := by
  have e := (C87_set_partial (last := Sol.zeroConfig) settled own nodup held.fits fits' hr run cmd success).1 explicit
  have hs : Sensible file := by
    unfold setNextTxs at run
    simp only [bind, Option.bind_eq_some_iff, Option.some.injEq] at run
    obtain ⟨bc, hbc, rfl⟩ := run
    unfold chosenConfig at hbc
    simp only [bind, Option.bind_eq_some_iff] at hbc
    obtain ⟨f, hf, -⟩ := hbc
    unfold readFile at hf
    split at hf
    · next h => exact (Files.validateThreshold_iff _ _).1 h
    · cases hf
  have hsame : shown file = file := by
    unfold shown
    rw [List.Nodup.dedup (List.nodup_reverse.2 nodup'), List.reverse_reverse]
  have hn : n'.config.next = file := by rw [e]
  have k : IsTextOf cx ((goConfig (shown file)).save cx) (shown file) := goConfig_text cx (shown_held held)
  refine ⟨_, by unfold query; rw [show readIndex "next".toList = some .next from by decide]; simp only [Option.bind_some]; rw [next_shown, hn],
    ?_⟩
  rw [hsame] at k ⊢
  exact k.1 hs

/-- What `query -i last` prints, given to `set-next` as file, makes the next config equal to the last one, if that has a start. -/
theorem C96_copy {n n' : Operator.Node} {txs todo : List Operator.Tx} {last : Sol.BatchConfig} {cx : Codecs} {t : Text} {f : FileConfig}
    (settled : Settled n) (own : n.config.owner = n.account) (nodup : n.config.next.keypers.Nodup)
    (held : ∀ bc ∈ n.config.next :: n.config.scheduled, Held bc) (hl : n.config.scheduled.getLast? = some last)
    (started : last.startBlockNumber ≠ 0) (printed : query cx n.config "last".toList = some (.one t)) (loaded : FileConfig.load cx t = some f)
    (run : setNextTxs n.config n.block n.pendingNonce f.toSol = some txs) (cmd : Command n txs n' todo) (success : Success txs n' todo) :
    n'.config = { n.config with next := shown last } := by
  obtain ⟨-, h, -⟩ := C96_one cx n.config held
  obtain ⟨t', p, q⟩ := h last hl
  rw [printed] at p
  cases p
  have hf : f.toSol = shown last := by
    by_cases hs : Sensible (shown last)
    · obtain ⟨f', a, b⟩ := q.1 hs
      rw [loaded] at a
      cases a
      exact b
    · rw [q.2 hs] at loaded; cases loaded
  have hmem : last ∈ n.config.next :: n.config.scheduled := List.mem_cons_of_mem _ (List.mem_of_getLast? hl)
  rw [hf] at run
  exact (C87_set_partial (last := Sol.zeroConfig) settled own nodup (shown_held (held last hmem)).fits (held _ List.mem_cons_self).fits
    (fun bc hbc => (held bc (List.mem_cons_of_mem _ hbc)).fits) run cmd success).1 started

/-! ## Example -/

namespace Demo

/-- An operator has scheduled a config with keypers 1, 2 and 3 that starts at block 130; the keypers of the next config are 1 twice and 2. -/
def contract : Config :=
  ⟨[Sol.zeroConfig, { Operator.Demo.cfgFile [1, 2, 3] 2 10 with startBlockNumber := 130 }], Operator.Demo.cfgFile [1, 1, 2] 3 10, 10, 7⟩

end Demo

open Demo in
/-- In this contract the last config is printed as a file that can be used; the text of the next one is refused as a file, for only two keypers
are shown and the threshold is three. At block 140 only the last config is current, at block 100 both are current or to come. -/
theorem C96_example (cx : Codecs) :
    (∀ bc ∈ contract.next :: contract.scheduled, Held bc) ∧
      (∃ t, query cx contract "last".toList = some (.one t) ∧
        IsFileOf cx t { Operator.Demo.cfgFile [1, 2, 3] 2 10 with startBlockNumber := 130 }) ∧
      (∃ t, query cx contract "next".toList = some (.one t) ∧ FileConfig.load cx t = none) ∧
      list contract = some [(some 0, 0, 0), (some 1, 0, 130), (none, 0, 0)] ∧
      (currentAndFuture contract 140).map List.length = some 1 ∧ (currentAndFuture contract 100).map List.length = some 2 := by
  have held : ∀ bc ∈ contract.next :: contract.scheduled, Held bc := by
    intro bc hbc
    simp only [contract, List.mem_cons, List.not_mem_nil, or_false] at hbc
    rcases hbc with rfl | rfl | rfl <;> exact ⟨by unfold Fits; decide, by decide, by decide, by decide, by decide⟩
  obtain ⟨⟨t, h1, h2⟩, h3, -⟩ := C96_one cx contract held
  obtain ⟨t', h4, h5⟩ := h3 _ rfl
  refine ⟨held, ⟨t', h4, ?_⟩, ⟨t, h1, h2.2 ?_⟩, by decide +kernel, by decide +kernel, by decide +kernel⟩
  · exact h5.1 (by unfold Sensible; decide +kernel)
  · unfold Sensible; decide +kernel

/-- The hypotheses of `C96_set_shown` and `C96_copy` are met: in the example of C87, at block 140, the last config (which starts at block 130) is
printed and set again. -/
theorem C96_copy_example (cx : Codecs) : ∃ (n n' : Operator.Node) (txs : List Operator.Tx) (last : Sol.BatchConfig) (t : Text) (f : FileConfig),
    Settled n ∧ n.config.owner = n.account ∧ n.config.next.keypers.Nodup ∧ (∀ bc ∈ n.config.next :: n.config.scheduled, Held bc) ∧
    n.config.scheduled.getLast? = some last ∧ last.startBlockNumber = 130 ∧ last.keypers.Nodup ∧ query cx n.config "last".toList = some (.one t) ∧
    FileConfig.load cx t = some f ∧ f.toSol = last ∧ setNextTxs n.config n.block n.pendingNonce f.toSol = some txs ∧ Command n txs n' [] ∧
    Success txs n' [] := by
  let n := (Operator.Demo.first 10).getD Operator.Demo.start
  let last : Sol.BatchConfig := { Operator.Demo.cfgFile [1, 2, 3] 2 10 with startBlockNumber := 130 }
  have held : ∀ bc ∈ n.config.next :: n.config.scheduled, Held bc := by
    have e : n.config.next :: n.config.scheduled = [Sol.zeroConfig, Sol.zeroConfig, last] := by decide +kernel
    rw [e]
    intro bc hbc
    simp only [List.mem_cons, List.not_mem_nil, or_false] at hbc
    rcases hbc with rfl | rfl | rfl <;> exact ⟨by unfold Fits; decide, by decide, by decide, by decide, by decide⟩
  have hl : n.config.scheduled.getLast? = some last := by decide +kernel
  obtain ⟨t, h4, h5⟩ := (C96_one cx n.config held).2.1 _ hl
  obtain ⟨f, h6, h7⟩ := h5.1 (by unfold Sensible; decide +kernel)
  have h8 : shown last = last := by decide +kernel
  rw [h8] at h7
  refine ⟨n, (Operator.Demo.setNext n last).getD n, (setNextTxs n.config n.block n.pendingNonce last).getD [], last, t, f,
    by unfold Settled; decide +kernel, by decide +kernel, by decide +kernel, held, hl, rfl, by decide, h4, h6, h7, ?_,
    Operator.Demo.execute_run (by decide +kernel), by unfold Success; decide +kernel⟩
  rw [h7]
  decide +kernel

end Shutter.Query.Props
