import Verif.Spec.ExecGas
import Verif.Props.SolBatcher
import Verif.Proofs.SolDemo
import Mathlib.Tactic.Linarith
import Mathlib.Tactic.Ring

/-! # C94: gas for the execution of batches -/

namespace Shutter.ExecGas
open Shutter.Crypto
variable {S : Type}

theorem given_full {limit left : Nat} (h : limit + limit / 63 ≤ left) : given limit left = limit := by
  unfold given
  apply Nat.min_eq_left
  omega

theorem loop_full {C : Costs} {T : Target S} {limit c : Nat} (hT : Lawful T) (hc : PerTx C T limit c) :
    ∀ (txs : List Bytes) (i : Nat) (s : S) (g : Nat), txs.length * (c + limit) + limit / 63 ≤ g →
      ∃ left, loop C T limit i txs s g =
          some ((promised T limit txs s).1, left, (promised T limit txs s).2.map (fun ok => (limit, ok))) ∧
        g ≤ left + txs.length * (c + limit)
  | [], _, s, g, _ => ⟨g, rfl, by simp⟩
  | tx :: txs, i, s, g, h => by
    have hci := hc i s tx
    have hu := hT s tx limit
    have e : (tx :: txs).length * (c + limit) = txs.length * (c + limit) + c + limit := by simp; ring
    rw [e] at h
    have hg : given limit (g - C.before i) = limit := given_full (by omega)
    rw [loop, if_neg (by omega)]
    simp only [hg]
    rw [if_neg (by omega)]
    obtain ⟨left, h1, h2⟩ := loop_full hT hc txs (i + 1) (T s tx limit).state
      (g - C.before i - (T s tx limit).used - C.after i (T s tx limit).ok (T s tx limit).ret) (by omega)
    refine ⟨left, ?_, by rw [e]; omega⟩
    rw [h1]
    simp [promised]

theorem loop_append {C : Costs} {T : Target S} {limit : Nat} (l' : List Bytes) :
    ∀ (l : List Bytes) (i : Nat) (s : S) (g : Nat), loop C T limit i (l ++ l') s g =
      (loop C T limit i l s g).bind (fun x => (loop C T limit (i + l.length) l' x.1 x.2.1).map (fun y => (y.1, y.2.1, x.2.2 ++ y.2.2)))
  | [], i, s, g => by simp [loop]
  | tx :: l, i, s, g => by
    simp only [List.cons_append, loop]
    split
    · rfl
    · split
      · rfl
      · rw [loop_append l' l]
        cases loop C T limit (i + 1) l _ _ with
        | none => rfl
        | some x =>
          simp only [Option.map_some, Option.bind_some, Option.map_map, List.length_cons]
          rw [show i + 1 + l.length = i + (l.length + 1) by omega]
          rfl

theorem sum_append (a b : Bytes) : ((a ++ b).map byteGas).sum = (a.map byteGas).sum + (b.map byteGas).sum := by
  simp

theorem sum_nonZero : ∀ b : Bytes, 16 * nonZero b ≤ (b.map byteGas).sum
  | [] => by simp [nonZero]
  | x :: b => by
    have ih := sum_nonZero b
    by_cases hx : x = 0
    · have e : nonZero (x :: b) = nonZero b := by simp [nonZero, hx]
      rw [e, List.map_cons, List.sum_cons]; omega
    · have e : nonZero (x :: b) = nonZero b + 1 := by simp [nonZero, hx]
      have e2 : byteGas x = 16 := by simp [byteGas, hx]
      rw [e, List.map_cons, List.sum_cons, e2]; omega

theorem nonZero_append (a b : Bytes) : nonZero (a ++ b) = nonZero a + nonZero b := by simp [nonZero]

theorem nonZero_tails : ∀ txs : List Bytes, nonZero txs.flatten ≤ nonZero (txs.flatMap Target.bytesTail)
  | [] => by simp
  | t :: txs => by
    have ih := nonZero_tails txs
    simp only [List.flatten_cons, List.flatMap_cons, nonZero_append, Target.bytesTail]
    omega

theorem bytesArray_gas (txs : List Bytes) : 16 * nonZero txs.flatten ≤ ((bytesArray txs).map byteGas).sum := by
  refine (Nat.mul_le_mul_left 16 (nonZero_tails txs)).trans ((sum_nonZero _).trans ?_)
  unfold bytesArray
  rw [sum_append]
  omega

theorem plain_gas (sel : Bytes) (b : Nat) (txs : List Bytes) : 21000 + 16 * nonZero txs.flatten ≤ intrinsic (plainData sel b txs) := by
  have := bytesArray_gas txs
  unfold intrinsic plainData
  rw [sum_append]
  omega

theorem cipher_gas (sel : Bytes) (b : Nat) (hash : Bytes) (txs : List Bytes) (k : Nat) :
    21000 + 16 * nonZero txs.flatten ≤ intrinsic (cipherData sel b hash txs k) := by
  have := bytesArray_gas txs
  unfold intrinsic cipherData
  rw [sum_append]
  omega

theorem add_frame {E : Sol.Env} {w w' : Sol.World} {sender b : Nat} {ty : Sol.TxType} {tx : Bytes} {value : Nat}
    (hw : w.step E (.addTransaction sender b ty tx value) = some w') :
    w'.config = w.config ∧ w'.block = w.block ∧ w'.batcher.minFee = w.batcher.minFee := by
  rw [Sol.World.step, Sol.World.atomic] at hw
  simp only [Sol.World.addTransaction, Option.bind_eq_bind, Option.bind_eq_some_iff, Sol.require_eq_some, Option.some.injEq, Sol.u64_eq_some,
    Sol.addU64_eq_some] at hw
  obtain ⟨_, ⟨rfl, hb⟩, i, hi, bc, hbc, _, _, _, _, ⟨st, e, t⟩, hbd, _, hst, _, he, _, hl, _, hl', _, hs, _, hf, _, ⟨rfl, _⟩,
    w2, hpay, rfl⟩ := hw
  unfold Sol.World.payFee at hpay
  split at hpay
  · simp only [Sol.World.feeDeposit, Option.bind_eq_bind, Option.bind_eq_some_iff, Sol.require_eq_some, Option.some.injEq] at hpay
    obtain ⟨_, _, _, _, _, h3, rfl⟩ := hpay
    exact ⟨rfl, rfl, rfl⟩
  · simp at hpay; subst hpay
    exact ⟨rfl, rfl, rfl⟩

/-- A batch that is open can be filled. -/
theorem fill {E : Sol.Env} {w : Sol.World} (h : Sol.WorldReach E w) {b : Nat} {bc : Sol.BatchConfig} {start stop timeout : Nat} (h64 : b < Sol.two64)
    (hb : w.HasBatch b bc start stop timeout) (h1 : start ≤ w.block) (h2 : w.block < stop) (hfee : w.batcher.minFee = 0) (sender : Nat)
    {tx : Bytes} (ht : 1 ≤ tx.length) (ht' : tx.length ≤ bc.transactionSizeLimit) :
    ∀ n : Nat, w.acceptedSize b + n * tx.length ≤ bc.batchSizeLimit →
      ∃ w', Sol.WorldLater E w w' ∧ w'.accepted b .plain = w.accepted b .plain ++ List.replicate n tx ∧
        w'.accepted b .cipher = w.accepted b .cipher ∧
        w'.config = w.config ∧ w'.block = w.block ∧ w'.batcher.minFee = w.batcher.minFee
  | 0, _ => ⟨w, .refl, by simp, rfl, rfl, rfl, rfl⟩
  | n + 1, hn => by
    rw [Nat.succ_mul] at hn
    obtain ⟨w', hl, ha, hc, hcf, hbl, hm⟩ := fill h h64 hb h1 h2 hfee sender ht ht' n (by omega)
    have hr : Sol.WorldReach E w' := by
      obtain ⟨w0, h0, h'⟩ := h
      exact ⟨w0, h0, h'.trans hl⟩
    have hb' : w'.HasBatch b bc start stop timeout := by
      unfold Sol.World.HasBatch at *
      rw [hcf]; exact hb
    have hsz : w'.acceptedSize b = w.acceptedSize b + n * tx.length := by
      unfold Sol.World.acceptedSize
      rw [ha, hc]
      simp
      omega
    obtain ⟨w'', hs⟩ := (Sol.Props.C45_accepts_iff hr sender b .plain tx 0).2
      ⟨h64, bc, start, stop, timeout, hb', by omega, by omega, ht, ht', by omega, by omega, fun h => by omega⟩
    obtain ⟨e1, e2, _⟩ := Sol.Props.C45_effect hs
    obtain ⟨f1, f2, f3⟩ := add_frame hs
    refine ⟨w'', hl.tail (.tx hs), ?_, ?_, f1.trans hcf, f2.trans hbl, f3.trans hm⟩
    · rw [e1, ha, List.append_assoc, ← List.replicate_succ']
    · rw [e2 b .cipher (by simp), hc]

theorem nonZero_replicate (n k : Nat) : nonZero (List.replicate n (List.replicate k (1 : UInt8))).flatten = n * k := by
  simp [nonZero]

namespace Props

/-- **C94** Whoever executes a batch with enough gas: each transaction gets exactly the gas limit of the config, and what comes of it does not depend
on who executes it. -/
theorem C94_enough {C : Costs} {T : Target S} {limit c blockGas : Nat} (hT : Lawful T) (hc : PerTx C T limit c) (data : Bytes)
    (txs : List Bytes) (s : S) {gas : Nat}
    (hg : intrinsic data + C.first + txs.length * (c + limit) + limit / 63 + C.last ≤ gas) (hb : gas ≤ blockGas) :
    execute C T limit blockGas data txs s gas =
      .executed (promised T limit txs s).1 ((promised T limit txs s).2.map (fun ok => (limit, ok))) := by
  unfold execute
  rw [if_neg (by omega), if_neg (by omega)]
  obtain ⟨left, h1, h2⟩ := loop_full hT hc txs 0 s (gas - intrinsic data - C.first) (by omega)
  rw [h1]
  simp only
  rw [if_neg (by omega)]

theorem loop_spent {C : Costs} {T : Target S} {limit : Nat} (hT : Lawful T) :
    ∀ (txs : List Bytes) (i : Nat) (s : S) (g : Nat) (s' : S) (left : Nat) (calls : List (Nat × Bool)),
      loop C T limit i txs s g = some (s', left, calls) →
        left + spent C T i txs calls s = g ∧ calls.length = txs.length ∧ ∀ x ∈ calls, x.1 ≤ limit ∧ 64 * x.1 ≤ 63 * g + 63
  | [], i, s, g, s', left, calls, h => by
    simp only [loop, Option.some.injEq, Prod.mk.injEq] at h
    obtain ⟨rfl, rfl, rfl⟩ := h
    simp [spent]
  | tx :: txs, i, s, g, s', left, calls, h => by
    simp only [loop] at h
    split at h
    · simp at h
    · next h1 =>
      split at h
      · simp at h
      · next h2 =>
        rw [Option.map_eq_some_iff] at h
        obtain ⟨⟨s1, l1, c1⟩, h3, h4⟩ := h
        simp only [Prod.mk.injEq] at h4
        obtain ⟨rfl, rfl, rfl⟩ := h4
        obtain ⟨i1, i2, i3⟩ := loop_spent hT txs _ _ _ _ _ _ h3
        have hu := hT s tx (given limit (g - C.before i))
        have hg1 : given limit (g - C.before i) ≤ limit := Nat.min_le_left _ _
        have hg2 : given limit (g - C.before i) ≤ (g - C.before i) - (g - C.before i) / 64 := Nat.min_le_right _ _
        refine ⟨?_, by simp [i2], ?_⟩
        · simp only [spent]
          omega
        · intro x hx
          rcases List.mem_cons.1 hx with rfl | hx
          · exact ⟨hg1, by simp only; omega⟩
          · obtain ⟨a1, a2⟩ := i3 x hx
            exact ⟨a1, by omega⟩

/-- **C94** Every batch that counts as executed is paid for: the gas fits into a block and covers the call data, the contract itself, and what the
target uses; each transaction got a call, with at most the gas limit. -/
theorem C94_paid {C : Costs} {T : Target S} {limit blockGas : Nat} (hT : Lawful T) {data : Bytes} {txs : List Bytes} {s s' : S} {gas : Nat}
    {calls : List (Nat × Bool)} (h : execute C T limit blockGas data txs s gas = .executed s' calls) :
    gas ≤ blockGas ∧ intrinsic data + C.first + spent C T 0 txs calls s + C.last ≤ gas ∧ calls.length = txs.length ∧
      ∀ x ∈ calls, x.1 ≤ limit := by
  unfold execute at h
  split at h
  · simp at h
  · next h1 =>
    split at h
    · simp at h
    · next h2 =>
      split at h
      · simp at h
      · next s1 left c1 h3 =>
        split at h
        · simp at h
        · next h4 =>
          simp only [Result.executed.injEq] at h
          obtain ⟨rfl, rfl⟩ := h
          obtain ⟨i1, i2, i3⟩ := loop_spent hT _ _ _ _ _ _ _ h3
          refine ⟨by omega, by omega, i2, fun x hx => (i3 x hx).1⟩

/-- **C94** The same for the keypers' transactions, if the gas for the data and the contract itself fits into the fixed part of their gas limit. -/
theorem C94_keyper {C : Costs} {T : Target S} {limit c blockGas : Nat} (hT : Lawful T) (hc : PerTx C T limit c) (data : Bytes)
    (txs : List Bytes) (s : S) (hg : intrinsic data + C.first + txs.length * c + limit / 63 + C.last ≤ 250000)
    (hb : 250000 + txs.length * limit ≤ blockGas) (h64 : blockGas < 2 ^ 64) :
    execute C T limit blockGas data txs s (gasLimit txs.length limit) =
      .executed (promised T limit txs s).1 ((promised T limit txs s).2.map (fun ok => (limit, ok))) := by
  have e : gasLimit txs.length limit = 250000 + txs.length * limit := by
    unfold gasLimit baseLimit
    exact Nat.mod_eq_of_lt (by omega)
  rw [e]
  apply C94_enough hT hc data txs s _ hb
  rw [Nat.mul_add]
  omega

/-- **C94** False of the code in general: whoever executes a batch can choose the gas such that the last transaction gets any given amount of gas
below the limit, and the batch counts as executed, although nothing else has gone wrong. It is enough that a 63rd part of this amount pays for
the rest of the execution. -/
theorem C94_starved {C : Costs} {T : Target S} {limit blockGas : Nat} (hT : Lawful T) {data : Bytes} {front : List Bytes} {tx : Bytes}
    {s s' : S} {start x : Nat} {calls : List (Nat × Bool)} (hx : x < limit)
    (hfront : loop C T limit 0 front s start = some (s', C.before front.length + x + x / 63, calls))
    (hrest : C.after front.length (T s' tx x).ok (T s' tx x).ret + C.last ≤ x / 63)
    (hb : intrinsic data + C.first + start ≤ blockGas) :
    ∃ gas, execute C T limit blockGas data (front ++ [tx]) s gas = .executed (T s' tx x).state (calls ++ [(x, (T s' tx x).ok)]) := by
  refine ⟨intrinsic data + C.first + start, ?_⟩
  have hu := hT s' tx x
  unfold execute
  rw [if_neg (by omega), if_neg (by omega), show intrinsic data + C.first + start - intrinsic data - C.first = start by omega, loop_append, hfront]
  have hg : given limit (x + x / 63) = x := by unfold given; omega
  simp only [Option.bind_some, Nat.zero_add, loop]
  rw [if_neg (by omega)]
  rw [show C.before front.length + x + x / 63 - C.before front.length = x + x / 63 by omega]
  simp only [hg]
  rw [if_neg (by omega)]
  simp only [Option.map_some]
  rw [if_neg (by omega)]

/-- **C94** So for a batch of one transaction that needs `need` gas and fails with less: whoever executes it decides whether it fails. -/
theorem C94_censored {C : Costs} {T : Target S} {limit need blockGas : Nat} (hT : Lawful T) {data tx : Bytes} {s : S}
    (hn : 0 < need) (hl : need ≤ limit) (hfail : ∀ g, g < need → (T s tx g).ok = false ∧ (T s tx g).state = s ∧ (T s tx g).ret = 0)
    (hrest : C.after 0 false 0 + C.last ≤ (need - 1) / 63)
    (hb : intrinsic data + C.first + C.before 0 + need + need / 63 ≤ blockGas) :
    ∃ gas, execute C T limit blockGas data [tx] s gas = .executed s [(need - 1, false)] := by
  obtain ⟨h1, h2, h3⟩ := hfail (need - 1) (by omega)
  have := C94_starved (C := C) (T := T) (limit := limit) (blockGas := blockGas) hT (data := data) (front := []) (tx := tx) (s := s) (s' := s)
    (start := C.before 0 + (need - 1) + (need - 1) / 63) (x := need - 1) (calls := []) (by omega) rfl
    (by rw [h1, h3]; exact hrest) (by omega)
  rw [h1, h2] at this
  exact this

/-- **C94** False of the code for the keypers, too: however much gas the contract needs, the node refuses the keypers' transaction if the batch has too
many bytes for their gas limit, and they will try to send it forever. -/
theorem C94_too_big {C : Costs} {T : Target S} {limit blockGas : Nat} (txs : List Bytes) (s : S)
    (h : 229000 + txs.length * limit < 16 * nonZero txs.flatten) :
    (∀ sel b, execute C T limit blockGas (plainData sel b txs) txs s (gasLimit txs.length limit) = .refused) ∧
    ∀ sel b hash k, execute C T limit blockGas (cipherData sel b hash txs k) txs s (gasLimit txs.length limit) = .refused := by
  have hl : gasLimit txs.length limit ≤ 250000 + txs.length * limit := Nat.mod_le _ _
  constructor
  · intro sel b
    have := plain_gas sel b txs
    unfold execute
    rw [if_pos (by omega)]
  · intro sel b hash k
    have := cipher_gas sel b hash txs k
    unfold execute
    rw [if_pos (by omega)]

/-- **C94** The limits of a config do not prevent this: if 16 gas for each byte of a full batch are more than its gas limits, anyone can fill a batch that is
open and empty such that the keypers' transactions for its plain part are refused. -/
theorem C94_full {E : Sol.Env} {w : Sol.World} (h : Sol.WorldReach E w) {b : Nat} {bc : Sol.BatchConfig} {start stop timeout : Nat}
    (h64 : b < Sol.two64) (hb : w.HasBatch b bc start stop timeout) (h1 : start ≤ w.block) (h2 : w.block < stop) (hfee : w.batcher.minFee = 0)
    (hempty : w.acceptedSize b = 0) {n size : Nat} (hs : 1 ≤ size) (hs' : size ≤ bc.transactionSizeLimit)
    (hn : n * size ≤ bc.batchSizeLimit) (hbig : 229000 + n * bc.transactionGasLimit < 16 * (n * size)) :
    ∃ w' txs, Sol.WorldLater E w w' ∧ w'.accepted b .plain = txs ∧
      ∀ (S : Type) (C : Costs) (T : Target S) (blockGas : Nat) (s : S) (sel : Bytes),
        execute C T bc.transactionGasLimit blockGas (plainData sel b txs) txs s (gasLimit txs.length bc.transactionGasLimit) = .refused := by
  have hp : w.accepted b .plain = [] := by
    by_contra hne
    have hr := h
    cases hl : w.accepted b .plain with
    | nil => exact hne hl
    | cons tx rest =>
      have hmem : tx ∈ w.accepted b .plain := by rw [hl]; simp
      unfold Sol.World.accepted at hmem
      rw [List.mem_filterMap] at hmem
      obtain ⟨⟨m, ev⟩, hm, he⟩ := hmem
      cases ev <;> simp at he
      obtain ⟨⟨rfl, rfl⟩, rfl⟩ := he
      obtain ⟨_, _, _, _, _, _, _, _, hlen, _⟩ := Sol.Props.C45_window hr hm
      unfold Sol.World.acceptedSize at hempty
      rw [hl, List.map_cons, List.sum_cons] at hempty
      omega
  obtain ⟨w', hl, ha, -⟩ := fill h h64 hb h1 h2 hfee 0 (tx := List.replicate size 1) (by simpa using hs) (by simpa using hs') n
    (by simp; omega)
  rw [hp, List.nil_append] at ha
  refine ⟨w', _, hl, ha, fun S C T blockGas s sel => (C94_too_big _ s ?_).1 sel b⟩
  rw [nonZero_replicate, List.length_replicate]
  exact hbig

end Props

namespace Demo
open Sol.Demo

/-- The config of `prepare configs` (shuttermint/cmd/prepare/configs.go:97-110), but for the start block and the addresses. -/
def setup : List (Nat × Sol.Op) :=
  [.startBlockNumber 100, .batchSpan 10, .addKeypers [5, 6, 7], .threshold 2, .executionTimeout 15, .batchSizeLimit 100000,
    .transactionSizeLimit 1000, .transactionGasLimit 10000, .feeReceiver 50, .targetAddress 60].map (fun o => (4, Sol.Op.config 1 (.set o))) ++
  [(4, .config 1 .schedule), (100, .setMinFee 1 0)]

def shipped : Sol.World := (run start setup).getD start

theorem shipped_reach : Sol.WorldReach env shipped := by
  have : run start setup = some shipped := by
    have : (run start setup).isSome = true := by decide +kernel
    unfold shipped
    cases h : run start setup <;> simp_all
  exact ⟨start, start_deployed, run_later this⟩

/-- A counter that needs 5000 gas. -/
def counter : Target Nat := fun s _ g => if g < 5000 then ⟨g, false, 0, s⟩ else ⟨5000, true, 32, s + 1⟩

def costs : Costs := ⟨20, fun _ => 30, fun _ ok _ => if ok then 10 else 40, 25⟩

theorem counter_lawful : Lawful counter := by
  intro s tx g
  unfold counter
  split <;> simp; omega

end Demo

namespace Props
open Demo

/-- With the config that is shipped: anyone can fill the first batch such that the keypers cannot execute it. -/
theorem C94_shipped_counterexample : ∃ w' txs, Sol.WorldLater Sol.Demo.env shipped w' ∧ w'.accepted 0 .plain = txs ∧
    ∀ (S : Type) (C : Costs) (T : Target S) (blockGas : Nat) (s : S) (sel : Bytes),
      execute C T 10000 blockGas (plainData sel 0 txs) txs s (gasLimit txs.length 10000) = .refused :=
  C94_full (bc := ⟨0, 100, [5, 6, 7], 2, 10, 100000, 1000, 10000, 50, 60, [0, 0, 0, 0], 15⟩) (start := 100) (stop := 110) (timeout := 125)
    shipped_reach (by decide +kernel) ⟨1, by decide +kernel, by decide +kernel, by decide +kernel⟩ (by decide +kernel) (by decide +kernel)
    (by decide +kernel) (by decide +kernel) (n := 100) (size := 1000) (by decide) (by decide) (by decide) (by decide)

/-- Three transactions, with the keypers' gas limit: all get 6000 gas. -/
theorem C94_example :
    execute costs counter 6000 1000000 (plainData [1, 2, 3, 4] 0 [[1], [2, 2], [3]]) [[1], [2, 2], [3]] 0 (gasLimit 3 6000) =
      .executed 3 [(6000, true), (6000, true), (6000, true)] :=
  C94_keyper (c := 70) counter_lawful (fun i s tx => by simp [costs, counter]) _ _ 0 (by decide +kernel) (by decide) (by decide)

/-- The same transactions, executed by someone else with less gas: the last one fails, and the batch counts as executed. -/
theorem C94_starved_example : ∃ gas,
    execute costs counter 6000 1000000 (plainData [1, 2, 3, 4] 0 [[1], [2, 2], [3]]) [[1], [2, 2], [3]] 0 gas =
      .executed 2 [(6000, true), (6000, true), (4930, false)] := by
  refine ⟨intrinsic (plainData [1, 2, 3, 4] 0 [[1], [2, 2], [3]]) + 20 + 15118, ?_⟩
  decide +kernel

/-- The only transaction of a batch fails or not, as the one who executes it likes. -/
theorem C94_censored_example :
    (∃ gas, execute costs counter 6000 1000000 (plainData [1, 2, 3, 4] 0 [[1]]) [[1]] 0 gas = .executed 1 [(6000, true)]) ∧
    ∃ gas, execute costs counter 6000 1000000 (plainData [1, 2, 3, 4] 0 [[1]]) [[1]] 0 gas = .executed 0 [(4999, false)] :=
  ⟨⟨_, C94_keyper (c := 70) counter_lawful (fun i s tx => by simp [costs, counter]) _ _ 0 (by decide +kernel) (by decide) (by decide)⟩,
    C94_censored (need := 5000) counter_lawful (by decide) (by decide)
      (fun g hg => by simp [counter, hg]) (by decide) (by decide +kernel)⟩

end Props
end Shutter.ExecGas
