import Verif.Proofs.DemoOperator

/-!
# C87: the operator's commands set and schedule what is in the file

`shuttermint config set-next` and `shuttermint config schedule`.
-/

namespace Shutter.Operator
open Shutter.Sol

variable {n n' : Node} {txs todo : List Tx} {file last : BatchConfig}

/-- **C87.** If `set-next` reports success, the next config in the contract is the one in the file, and nothing else in the
contract has changed, whatever else happened meanwhile. If the file leaves the start open (start block zero), everything else
is as in the file; if the last config starts soon enough, the start chosen follows it without a gap, and is at least 20
blocks later than the required notice, by at most one batch. (The operator's account owns the contract and had nothing pending;
the keypers of the next config so far were different from each other.) -/
theorem C87_set_partial (settled : Settled n) (own : n.config.owner = n.account) (nodup : n.config.next.keypers.Nodup)
    (fits : Fits file) (fits' : Fits n.config.next) (hr : ∀ bc ∈ n.config.scheduled, Fits bc)
    (run : setNextTxs n.config n.block n.pendingNonce file = some txs) (cmd : Command n txs n' todo)
    (success : Success txs n' todo) :
    (file.startBlockNumber ≠ 0 → n'.config = { n.config with next := file }) ∧
    (file.startBlockNumber = 0 → ∃ s i,
      n'.config = { n.config with next := { file with startBlockNumber := s, startBatchIndex := i } } ∧
      (n.config.scheduled.getLast? = some last →
        last.startBatchIndex + n.block + n.config.headsUp + last.batchSpan + 22 < two64 →
        last.startBlockNumber ≤ n.block + n.config.headsUp + 21 →
        Seamless last n'.config.next ∧ n.block + n.config.headsUp + 20 ≤ s ∧
        s ≤ n.block + n.config.headsUp + 21 + last.batchSpan)) := by
  rw [pending_settled settled] at run
  unfold setNextTxs at run
  simp only [bind, Option.bind_eq_some_iff, Option.some.injEq] at run
  obtain ⟨bc, hbc, rfl⟩ := run
  obtain ⟨x, hx, e⟩ := effect_sets (success_effect settled own (plain_sets _) cmd success) _ (by rw [List.map_map]; rfl)
  rw [getNextConfig_eq nodup, setAll_setCalls (chosen_fits hr fits hbc).1 fits'.2.2.2.2.2.2.2.2] at hx
  cases hx
  rcases (chosen_cases hbc).2 with ⟨h0, rfl⟩ | ⟨h0, s, i, hs, rfl⟩
  · exact ⟨fun _ => e, fun h => absurd h h0⟩
  · refine ⟨fun h => absurd h0 h, fun _ => ⟨s, i, e, ?_⟩⟩
    intro hl small soon
    obtain ⟨a, b, c, d⟩ := chosen_start hl hs small soon
    rw [e]
    exact ⟨⟨a.1, a.2⟩, b, c⟩

/-- The schedule is not touched by `set-next`, successful or not, finished or interrupted. -/
theorem C87_set_only (settled : Settled n) (own : n.config.owner = n.account)
    (run : setNextTxs n.config n.block n.pendingNonce file = some txs) (cmd : Command n txs n' todo) :
    n'.config.scheduled = n.config.scheduled ∧ n'.config.headsUp = n.config.headsUp ∧ n'.config.owner = n.config.owner := by
  rw [pending_settled settled] at run
  unfold setNextTxs at run
  simp only [bind, Option.bind_eq_some_iff, Option.some.injEq] at run
  obtain ⟨bc, hbc, rfl⟩ := run
  obtain ⟨_, _, _, j, k, outs, _, _, _, _, _, hl, _, he⟩ := inv settled own (plain_sets _) cmd
  have : ∀ l c, Effect n.account n.block n.config l c → (∀ r ∈ l, ∃ o, r.1 = Config.Call.set o) →
      c.scheduled = n.config.scheduled ∧ c.headsUp = n.config.headsUp ∧ c.owner = n.config.owner := by
    intro l c h
    induction h with
    | nil => intro _; exact ⟨rfl, rfl, rfl⟩
    | ok h hb hc ih =>
      intro hp
      obtain ⟨o, rfl⟩ := hp (_, .ok) (List.mem_append_right _ (List.mem_singleton.2 rfl))
      obtain ⟨_, x, _, rfl⟩ := call_set.1 hc
      exact ih (fun r hr => hp r (List.mem_append_left _ hr))
    | reverted h hb hc ih => intro hp; exact ih (fun r hr => hp r (List.mem_append_left _ hr))
    | outOfGas h ih => intro hp; exact ih (fun r hr => hp r (List.mem_append_left _ hr))
  refine this _ _ he ?_
  rintro ⟨a, b⟩ hr
  have := List.mem_of_mem_take (List.of_mem_zip hr).1
  obtain ⟨o, _, rfl⟩ := List.mem_map.1 this
  exact ⟨o, rfl⟩

/-- **C87.** Unless transactions run out of gas, `set-next` succeeds: when all its transactions have been sent and the chain
has executed what it can, the command reports success. -/
theorem C87_set_succeeds (settled : Settled n) (own : n.config.owner = n.account) (nodup : n.config.next.keypers.Nodup)
    (fits : Fits file) (fits' : Fits n.config.next) (hr : ∀ bc ∈ n.config.scheduled, Fits bc)
    (run : setNextTxs n.config n.block n.pendingNonce file = some txs) (cmd : Command n txs n' [])
    (idle : Idle n') (gas : ∀ r ∈ n'.receipts, r.2 ≠ .outOfGas) : Success txs n' [] := by
  rw [pending_settled settled] at run
  unfold setNextTxs at run
  simp only [bind, Option.bind_eq_some_iff, Option.some.injEq] at run
  obtain ⟨bc, hbc, rfl⟩ := run
  generalize hops : setCalls (getNextConfig n.config) bc = ops at cmd ⊢
  have hall : setAll n.config.next (ops ++ []) = some bc := by
    rw [List.append_nil, ← hops, getNextConfig_eq nodup]
    exact setAll_setCalls (chosen_fits hr fits hbc).1 fits'.2.2.2.2.2.2.2.2
  obtain ⟨_, _, _, j, k, outs, hkj, hj, ht, hs, hn, hl, hre, he⟩ := inv settled own (plain_sets _) cmd
  have hjl : j = (ops.map Config.Call.set).length := by
    have := congrArg List.length ht
    rw [List.length_drop, number_length, List.length_nil] at this
    omega
  have hk : k = (ops.map Config.Call.set).length := by
    by_contra hne
    have hlt : k < (ops.map Config.Call.set).length := by omega
    have hg : (number n.nonce (ops.map Config.Call.set))[k]? = some ⟨n.nonce + k, (ops.map Config.Call.set)[k]⟩ := by
      rw [number_get, List.getElem?_eq_getElem hlt]; rfl
    refine idle ⟨n.nonce + k, (ops.map Config.Call.set)[k]⟩ ?_ hn.symm
    rw [hs]
    apply List.mem_append_right
    rw [List.take_of_length_le (by rw [number_length]; omega)]
    exact List.mem_of_getElem? hg
  have htk : (ops.map Config.Call.set).take k = ops.map Config.Call.set := List.take_of_length_le (by omega)
  have htn : (number n.nonce (ops.map Config.Call.set)).take k = number n.nonce (ops.map Config.Call.set) :=
    List.take_of_length_le (by rw [number_length]; omega)
  rw [htk] at he
  rw [htn] at hre
  have hok := effect_noGas own he ops [] bc hall (by rw [List.map_fst_zip (by omega)]) (by
    rintro ⟨a, o⟩ hr
    obtain ⟨q, hq⟩ := List.mem_iff_getElem?.1 hr
    obtain ⟨q1, q2⟩ := List.getElem?_zip_eq_some.1 hq
    have : (⟨n.nonce + q, a⟩, o) ∈ n'.receipts := by
      rw [hre]
      refine List.mem_append_right _ (List.mem_iff_getElem?.2 ⟨q, List.getElem?_zip_eq_some.2 ⟨?_, q2⟩⟩)
      rw [number_get, q1]; rfl
    exact gas _ this)
  refine ⟨rfl, ?_⟩
  intro t ht'
  obtain ⟨q, hq⟩ := List.mem_iff_getElem?.1 ht'
  rw [hre]
  refine List.mem_append_right _ (List.mem_iff_getElem?.2 ⟨q, List.getElem?_zip_eq_some.2 ⟨hq, ?_⟩⟩)
  rw [number_get] at hq
  obtain ⟨c, hc, _⟩ := Option.map_eq_some_iff.1 hq
  have hql : q < (ops.map Config.Call.set).length := by
    rcases Nat.lt_or_ge q (ops.map Config.Call.set).length with h | h
    · exact h
    · rw [List.getElem?_eq_none h] at hc; cases hc
  have : ((ops.map Config.Call.set).zip outs)[q]? = (ops.map (fun o => (Config.Call.set o, Outcome.ok)))[q]? := by rw [hok]
  rw [List.getElem?_map (l := ops), List.getElem?_eq_getElem (l := ops) (by simpa using hql)] at this
  exact (List.getElem?_zip_eq_some.1 this).2

/-- **C87.** If `schedule` reports success, the next config has been appended to the schedule. -/
theorem C87_schedule (settled : Settled n) (own : n.config.owner = n.account) (hl : n.config.scheduled.getLast? = some last)
    (cmd : Command n (scheduleTxs n.pendingNonce) n' todo) (success : Success (scheduleTxs n.pendingNonce) n' todo) :
    n'.config = { n.config with scheduled := n.config.scheduled ++ [n.config.next], next := zeroConfig } ∧
    Seamless last n.config.next := by
  rw [pending_settled settled] at cmd success
  have he := success_effect (calls := [.schedule]) settled own (by simp [Plain]) cmd success
  have : ∀ l c, Effect n.account n.block n.config l c → l = [(Config.Call.schedule, Outcome.ok)] →
      ∃ b, n.config.call b n.account .schedule = some c := by
    intro l c h e
    cases h with
    | nil => cases e
    | ok h hb hc =>
      obtain ⟨e1, e2⟩ := List.append_inj' (s₂ := []) e rfl
      injection e2 with e2
      injection e2 with e2
      subst e2
      cases h with
      | nil => exact ⟨_, hc⟩
      | ok => simp at e1
      | reverted => simp at e1
      | outOfGas => simp at e1
    | reverted h hb hc =>
      obtain ⟨e1, e2⟩ := List.append_inj' (s₂ := []) e rfl
      simp at e2
    | outOfGas h =>
      obtain ⟨e1, e2⟩ := List.append_inj' (s₂ := []) e rfl
      simp at e2
  obtain ⟨b, hb⟩ := this _ _ he rfl
  rw [← own] at hb
  obtain ⟨⟨_, _, _, _, h1, h2⟩, e⟩ := (schedule_iff hl b _).1 hb
  exact ⟨e, fun h => ⟨(h1 h).1, (h1 h).2.2.2⟩, h2⟩

/-- **C87.** Whether a config with a start chosen by `set-next` can be scheduled: exactly in the blocks that leave the notice
and one batch of the last config before the start. In particular, if a batch is not longer than the notice, in each of the
next 19 blocks after the one in which `set-next` looked. -/
theorem C87_schedulable (settled : Settled n) (own : n.config.owner = n.account) (nodup : n.config.next.keypers.Nodup)
    (fits : Fits file) (fits' : Fits n.config.next) (hr : ∀ bc ∈ n.config.scheduled, Fits bc)
    (run : setNextTxs n.config n.block n.pendingNonce file = some txs) (cmd : Command n txs n' todo)
    (success : Success txs n' todo) (auto : file.startBlockNumber = 0) (hl : n.config.scheduled.getLast? = some last)
    (small : last.startBatchIndex + n.block + n.config.headsUp + last.batchSpan + 22 < two64)
    (soon : last.startBlockNumber ≤ n.block + n.config.headsUp + 21) (room : n.config.scheduled.length + 3 < two64) (b : Nat) :
    ((∃ c, n'.config.call b n.account .schedule = some c) ↔
      b + max last.batchSpan n.config.headsUp + 1 ≤ n'.config.next.startBlockNumber) ∧
    (last.batchSpan ≤ n.config.headsUp → b ≤ n.block + 19 → ∃ c, n'.config.call b n.account .schedule = some c) := by
  have hset := C87_set_partial (last := last) settled own nodup fits fits' hr run cmd success
  obtain ⟨s, i, e, h⟩ := hset.2 auto
  obtain ⟨hseam, h20, h21⟩ := h hl small soon
  have hth : file.threshold ≤ file.keypers.length := by
    unfold setNextTxs at run
    simp only [bind, Option.bind_eq_some_iff, Option.some.injEq] at run
    obtain ⟨bc, hbc, rfl⟩ := run
    exact (chosen_cases hbc).1.2
  have hl' : n'.config.scheduled.getLast? = some last := by rw [e]; exact hl
  have hown : n'.config.owner = n.account := by rw [e]; exact own
  have key : (∃ c, n'.config.call b n.account .schedule = some c) ↔
      b + max last.batchSpan n.config.headsUp + 1 ≤ n'.config.next.startBlockNumber := by
    rw [← hown]
    constructor
    · rintro ⟨c, hc⟩
      have := ((schedule_iff hl' b c).1 hc).1.2.2.2.1
      rw [e] at this ⊢
      exact this
    · intro hb
      refine ⟨_, (schedule_iff hl' b _).2 ⟨⟨?_, ?_, ?_, ?_, ?_, hseam.2⟩, rfl⟩⟩
      · rw [e]; exact room
      · rw [e]; exact hth
      · rw [e] at hb ⊢
        simp only at hb ⊢
        omega
      · rw [e] at hb ⊢; exact hb
      · intro hp
        obtain ⟨k1, k2⟩ := hseam.1 hp
        refine ⟨k1, ?_, ?_, k2⟩
        · rw [e] at k2 ⊢
          simp only at k2 ⊢
          omega
        · rw [k2, e]
          simp only
          omega
  refine ⟨key, fun hsp hb => key.2 ?_⟩
  rw [e]
  simp only
  omega

/-- **C87.** Interrupting `set-next` does no harm: whatever file it was run with, and however many of its transactions were
sent and executed, running it again, with this or another file, sets what is in that file. -/
theorem C87_again {n₁ n₂ : Node} {txs' todo' : List Tx} {file₁ file₂ : BatchConfig} (settled : Settled n)
    (own : n.config.owner = n.account) (nodup : n.config.next.keypers.Nodup)
    (fits' : Fits n.config.next) (hr : ∀ bc ∈ n.config.scheduled, Fits bc)
    (fits₁ : Fits file₁) (nodup₁ : file₁.keypers.Nodup)
    (run : setNextTxs n.config n.block n.pendingNonce file₁ = some txs) (cmd : Command n txs n₁ todo)
    (fine : ∀ t o, (t, o) ∈ n₁.receipts → (t, o) ∉ n.receipts → o = .ok) (settled₁ : Settled n₁)
    (fits₂ : Fits file₂) (explicit : file₂.startBlockNumber ≠ 0)
    (run' : setNextTxs n₁.config n₁.block n₁.pendingNonce file₂ = some txs') (cmd' : Command n₁ txs' n₂ todo')
    (success : Success txs' n₂ todo') : n₂.config = { n.config with next := file₂ } := by
  have honly := C87_set_only settled own run cmd
  rw [pending_settled settled] at run
  unfold setNextTxs at run
  simp only [bind, Option.bind_eq_some_iff, Option.some.injEq] at run
  obtain ⟨bc, hbc, rfl⟩ := run
  obtain ⟨ha, _, ho, j, k, outs, hkj, hj, ht, hs, hn, hl, hre, he⟩ := inv settled own (plain_sets _) cmd
  obtain ⟨fbc, kbc⟩ := chosen_fits hr fits₁ hbc
  have hout : ∀ o ∈ outs, o = Outcome.ok := by
    intro o ho
    obtain ⟨q, hq⟩ := List.mem_iff_getElem?.1 ho
    have hqk : q < k := by
      rcases Nat.lt_or_ge q outs.length with h | h
      · omega
      · rw [List.getElem?_eq_none h] at hq; cases hq
    have hg : ((number n.nonce ((setCalls (getNextConfig n.config) bc).map Config.Call.set)).take k)[q]? =
        some ⟨n.nonce + q, ((setCalls (getNextConfig n.config) bc).map Config.Call.set)[q]'(by omega)⟩ := by
      rw [List.getElem?_take, if_pos hqk, number_get, List.getElem?_eq_getElem (by omega)]; rfl
    refine fine ⟨n.nonce + q, ((setCalls (getNextConfig n.config) bc).map Config.Call.set)[q]'(by omega)⟩ o ?_ ?_
    · rw [hre]
      exact List.mem_append_right _ (List.mem_iff_getElem?.2 ⟨q, List.getElem?_zip_eq_some.2 ⟨hg, hq⟩⟩)
    · intro hin
      have := settled.2 _ hin
      simp only at this
      omega
  have hsets : (((setCalls (getNextConfig n.config) bc).map Config.Call.set).take k).zip outs =
      ((setCalls (getNextConfig n.config) bc).take k).map (fun o => (Config.Call.set o, Outcome.ok)) := by
    apply List.ext_getElem?
    intro q
    rw [← List.map_take]
    have hlen : ((setCalls (getNextConfig n.config) bc).take k).length = k := by
      rw [List.length_take]; simp only [List.length_map] at hj; omega
    rcases Nat.lt_or_ge q k with hq | hq
    · have h1 : (((setCalls (getNextConfig n.config) bc).take k).map Config.Call.set)[q]? =
          some (Config.Call.set (((setCalls (getNextConfig n.config) bc).take k)[q]'(by omega))) := by
        rw [List.getElem?_map, List.getElem?_eq_getElem (by omega)]; rfl
      have h2 : outs[q]? = some .ok := by
        rw [List.getElem?_eq_getElem (by omega), hout _ (List.getElem_mem _)]
      rw [List.getElem?_zip_eq_some (z := (_, .ok)) |>.2 ⟨h1, h2⟩, List.getElem?_map, List.getElem?_eq_getElem (by omega)]
      rfl
    · rw [List.getElem?_eq_none, List.getElem?_eq_none]
      · rw [List.length_map]; omega
      · rw [List.length_zip]; omega
  rw [hsets] at he
  obtain ⟨x, hx, e⟩ := effect_sets he _ rfl
  rw [getNextConfig_eq nodup] at hx
  have hkey : x.keypers.Nodup ∧ x.keypers.length < two64 := by
    rcases setAll_take_keypers k hx with h | h | h
    · rw [h]; exact ⟨nodup, fits'.2.2.2.2.2.2.2.2⟩
    · rw [h]; exact ⟨List.nodup_nil, by simp [two64]⟩
    · rw [h, kbc]; exact ⟨nodup₁, fits₁.2.2.2.2.2.2.2.2⟩
  have own₁ : n₁.config.owner = n₁.account := by rw [ho, ha]
  have nodup' : n₁.config.next.keypers.Nodup := by rw [e]; exact hkey.1
  rw [pending_settled settled₁] at run'
  unfold setNextTxs at run'
  simp only [bind, Option.bind_eq_some_iff, Option.some.injEq] at run'
  obtain ⟨bc', hbc', rfl⟩ := run'
  obtain ⟨y, hy, e'⟩ := effect_sets (success_effect settled₁ own₁ (plain_sets _) cmd' success) _ (by rw [List.map_map]; rfl)
  have hr₁ : ∀ bc ∈ n₁.config.scheduled, Fits bc := by rw [honly.1]; exact hr
  rw [getNextConfig_eq nodup', setAll_setCalls (chosen_fits hr₁ fits₂ hbc').1 (by rw [e]; exact hkey.2)] at hy
  cases hy
  rcases (chosen_cases hbc').2 with ⟨_, rfl⟩ | ⟨h0, _⟩
  · rw [e', e]
  · exact absurd h0 explicit

/-- **C87, what is missing.** If the last config starts later than the notice and 21 blocks from now, the start that
`set-next` chooses cannot be scheduled in any block: the subtraction of the block numbers wraps around. (The contract would
accept a suitable start.) -/
theorem C87_late_counterexample {c : Config} {s i header b : Nat} (hl : c.scheduled.getLast? = some last)
    (chosen : chooseStart c header = some (s, i)) (fit : Fits last) (active : last.batchSpan > 0)
    (small : header + c.headsUp + 20 < two64) (late : header + c.headsUp + 21 < last.startBlockNumber) :
    ({ c with next := { file with startBlockNumber := s, startBatchIndex := i } } : Config).call b c.owner .schedule = none := by
  rw [Option.eq_none_iff_forall_ne_some]
  intro c' hc
  obtain ⟨⟨_, _, _, _, h, _⟩, _⟩ :=
    (schedule_iff (c := { c with next := { file with startBlockNumber := s, startBatchIndex := i } }) hl b c').1 hc
  obtain ⟨h1, h2, h3, _⟩ := h active
  exact chosen_late hl chosen fit active small late ⟨h1, h2, h3⟩


open Demo in
/-- The hypotheses are met: an operator sets and schedules a first config with batches of ten blocks, from block 130. At block
140 it sets another one: it starts with batch 5 at block 180, and can be scheduled. -/
theorem C87_example : ∃ (txs txs' : List Tx) (n₁ n₂ n₃ : Node) (last : BatchConfig),
    (Settled start ∧ start.config.owner = start.account ∧ start.config.next.keypers.Nodup ∧ Fits start.config.next ∧
      (∀ bc ∈ start.config.scheduled, Fits bc) ∧ Fits (cfgFile [1, 2, 3] 2 10)) ∧
    setNextTxs start.config start.block start.pendingNonce (cfgFile [1, 2, 3] 2 10) = some txs ∧
    Command start txs n₁ [] ∧ Success txs n₁ [] ∧ Idle n₁ ∧ (∀ r ∈ n₁.receipts, r.2 ≠ .outOfGas) ∧
    Settled n₁ ∧ Command n₁ (scheduleTxs n₁.pendingNonce) n₂ [] ∧ Success (scheduleTxs n₁.pendingNonce) n₂ [] ∧
    Settled n₂ ∧ n₂.config.scheduled.getLast? = some last ∧
    last = { cfgFile [1, 2, 3] 2 10 with startBlockNumber := 130, startBatchIndex := 0 } ∧
    last.startBatchIndex + 140 + n₂.config.headsUp + last.batchSpan + 22 < two64 ∧
    last.startBlockNumber ≤ 140 + n₂.config.headsUp + 21 ∧ last.batchSpan ≤ n₂.config.headsUp ∧
    setNextTxs n₂.config 140 n₂.pendingNonce (cfgFile [1, 4, 2] 2 20) = some txs' ∧
    Command { n₂ with block := 140 } txs' n₃ [] ∧ Success txs' n₃ [] ∧
    n₃.config.next = { cfgFile [1, 4, 2] 2 20 with startBlockNumber := 180, startBatchIndex := 5 } ∧
    n₃.config.call 159 7 .schedule ≠ none := by
  refine ⟨((setNextTxs start.config start.block start.pendingNonce (cfgFile [1, 2, 3] 2 10)).getD []),
    ((setNextTxs ((first 10).getD start).config 140 ((first 10).getD start).pendingNonce (cfgFile [1, 4, 2] 2 20)).getD []),
    (setNext start (cfgFile [1, 2, 3] 2 10)).getD start,
    ((setNext start (cfgFile [1, 2, 3] 2 10)).bind schedule).getD start,
    ((first 10).bind (fun n => setNext n (cfgFile [1, 4, 2] 2 20))).getD start,
    { cfgFile [1, 2, 3] 2 10 with startBlockNumber := 130, startBatchIndex := 0 }, ?_⟩
  refine ⟨by unfold Settled Fits; decide +kernel, by decide +kernel, execute_run (by decide +kernel), by unfold Success; decide +kernel,
    by unfold Idle; decide +kernel, by decide +kernel, by unfold Settled; decide +kernel, execute_run (by decide +kernel),
    by unfold Success; decide +kernel, by unfold Settled; decide +kernel, by decide +kernel, rfl, by decide +kernel,
    by decide +kernel, by decide +kernel, by decide +kernel, execute_run (by decide +kernel),
    by unfold Success; decide +kernel, by decide +kernel, by decide +kernel⟩

open Demo in
/-- **C87, what is missing.** Repeated keypers stay: the operator sets a config in whose file a keyper occurs twice. Later it sets
another one, with keypers 3 and 4; the command reports success, but the keypers in the contract are 1, 3 and 4. -/
theorem C87_repeated_counterexample : ∃ (txs txs' : List Tx) (n₁ n₂ : Node),
    setNextTxs start.config start.block start.pendingNonce (cfgFile [1, 1, 2] 2 10) = some txs ∧
    Settled start ∧ Command start txs n₁ [] ∧ Success txs n₁ [] ∧ Settled n₁ ∧
    setNextTxs n₁.config n₁.block n₁.pendingNonce (cfgFile [3, 4] 2 10) = some txs' ∧
    Command n₁ txs' n₂ [] ∧ Success txs' n₂ [] ∧ n₂.config.next.keypers = [1, 3, 4] := by
  refine ⟨((setNextTxs start.config start.block start.pendingNonce (cfgFile [1, 1, 2] 2 10)).getD []),
    ((setNext start (cfgFile [1, 1, 2] 2 10)).bind
      (fun n => setNextTxs n.config n.block n.pendingNonce (cfgFile [3, 4] 2 10))).getD [],
    (setNext start (cfgFile [1, 1, 2] 2 10)).getD start,
    ((setNext start (cfgFile [1, 1, 2] 2 10)).bind (fun n => setNext n (cfgFile [3, 4] 2 10))).getD start, ?_⟩
  refine ⟨by decide +kernel, by unfold Settled; decide +kernel, execute_run (by decide +kernel), by unfold Success; decide +kernel,
    by unfold Settled; decide +kernel, by decide +kernel, execute_run (by decide +kernel), by unfold Success; decide +kernel,
    by decide +kernel⟩

open Demo in
/-- **C87, what is missing.** Impatient operators: `set-next` is stopped while its transactions are pending, and run again
with the same file. Both runs' transactions are executed, the second run reports success, and each keyper occurs twice in the
contract. (With the next file, keypers stay, as above.) -/
theorem C87_pending_counterexample : ∃ (txs txs' : List Tx) (n₁ n₂ : Node),
    setNextTxs start.config start.block start.pendingNonce (cfgFile [1, 2] 2 10) = some txs ∧ Settled start ∧
    Command start txs n₁ [] ∧ ¬ Settled n₁ ∧
    setNextTxs n₁.config n₁.block n₁.pendingNonce (cfgFile [1, 2] 2 10) = some txs' ∧
    Command n₁ txs' n₂ [] ∧ Success txs' n₂ [] ∧ n₂.config.next.keypers = [1, 2, 1, 2] := by
  refine ⟨((setNextTxs start.config start.block start.pendingNonce (cfgFile [1, 2] 2 10)).getD []),
    ((setNextTxs start.config start.block 17 (cfgFile [1, 2] 2 10)).getD []),
    { start with sent := ((setNextTxs start.config start.block start.pendingNonce (cfgFile [1, 2] 2 10)).getD []) },
    (finish { start with sent := ((setNextTxs start.config start.block start.pendingNonce (cfgFile [1, 2] 2 10)).getD []) ++
        ((setNextTxs start.config start.block 17 (cfgFile [1, 2] 2 10)).getD []) }
      (((setNextTxs start.config start.block start.pendingNonce (cfgFile [1, 2] 2 10)).getD []) ++
        ((setNextTxs start.config start.block 17 (cfgFile [1, 2] 2 10)).getD []))).getD start, ?_⟩
  refine ⟨by decide +kernel, by unfold Settled; decide +kernel, send_run, by unfold Settled; decide +kernel, by decide +kernel,
    send_run.trans (finish_run (ts := ((setNextTxs start.config start.block start.pendingNonce (cfgFile [1, 2] 2 10)).getD []) ++
        ((setNextTxs start.config start.block 17 (cfgFile [1, 2] 2 10)).getD [])) (by decide +kernel)),
    by unfold Success; decide +kernel, by decide +kernel⟩

open Demo in
/-- **C87, what is missing.** If the batches of the last config are longer than the notice, the start that `set-next` chooses
can be too early: here the batches have 100 blocks and the notice is 10; the command chooses block 230, at block 140, and no
block from then on is early enough to schedule it. -/
theorem C87_span_counterexample : ∃ n n₁ : Node, first 100 = some n ∧ setNext n (cfgFile [1, 4, 2] 2 20) = some n₁ ∧
    n₁.block = 140 ∧ n₁.config.next.startBlockNumber = 230 ∧ ∀ b, 140 ≤ b → n₁.config.call b 7 .schedule = none := by
  refine ⟨(first 100).getD start, ((first 100).bind (fun n => setNext n (cfgFile [1, 4, 2] 2 20))).getD start, by decide +kernel,
    by decide +kernel, by decide +kernel, by decide +kernel, ?_⟩
  intro b hb
  rw [Option.eq_none_iff_forall_ne_some]
  intro c hc
  have own : (((first 100).bind (fun n => setNext n (cfgFile [1, 4, 2] 2 20))).getD start).config.owner = 7 := by decide +kernel
  have hl : (((first 100).bind (fun n => setNext n (cfgFile [1, 4, 2] 2 20))).getD start).config.scheduled.getLast? =
      some { cfgFile [1, 2, 3] 2 100 with startBlockNumber := 130, startBatchIndex := 0 } := by decide +kernel
  have hs : (((first 100).bind (fun n => setNext n (cfgFile [1, 4, 2] 2 20))).getD start).config.next.startBlockNumber = 230 := by
    decide +kernel
  rw [← own] at hc
  have := ((schedule_iff hl b c).1 hc).1.2.2.2.1
  rw [hs] at this
  have h100 : ({ cfgFile [1, 2, 3] 2 100 with startBlockNumber := 130, startBatchIndex := 0 } : BatchConfig).batchSpan = 100 := rfl
  rw [h100] at this
  omega

end Shutter.Operator
