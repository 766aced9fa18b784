import Verif.Spec.Operator
import Verif.Spec.SolConfig
import Mathlib.Tactic.Linarith
import Mathlib.Data.List.Nodup

namespace Shutter.Operator
open Shutter.Sol GoConfig

theorem dedupGo_nodup (l : List Address) : ∀ seen, l.Nodup → (∀ a ∈ l, a ∉ seen) → dedupGo seen l = l := by
  induction l with
  | nil => intro _ _ _; rfl
  | cons a as ih =>
    intro seen h hs
    have h' := List.nodup_cons.1 h
    have : seen.contains a = false := by simpa using hs a (by simp)
    rw [dedupGo]
    simp only [this]
    rw [if_neg (by simp), ih (a :: seen) h'.2]
    intro b hb hin
    rcases List.mem_cons.1 hin with rfl | hin
    · exact h'.1 hb
    · exact hs b (by simp [hb]) hin

theorem getNextConfig_eq {c : Config} (h : c.next.keypers.Nodup) : getNextConfig c = c.next := by
  unfold getNextConfig
  rw [dedupGo_nodup _ _ h (by simp)]

theorem number_length (a : Nat) (cs : List Config.Call) : (number a cs).length = cs.length := by
  induction cs generalizing a with
  | nil => rfl
  | cons c cs ih => simp [number, ih]

theorem number_get (a : Nat) (cs : List Config.Call) (i : Nat) : (number a cs)[i]? = (cs[i]?).map (fun c => ⟨a + i, c⟩) := by
  induction cs generalizing a i with
  | nil => simp [number]
  | cons c cs ih =>
    cases i with
    | zero => simp [number]
    | succ i => simp [number, ih, Nat.add_assoc, Nat.add_comm 1]

/-- What a list of calls with their outcomes does. -/
inductive Effect (acct b0 : Nat) (c0 : Config) : List (Config.Call × Outcome) → Config → Prop
  | nil : Effect acct b0 c0 [] c0
  | ok {l c c' b o} : Effect acct b0 c0 l c → b0 ≤ b → c.call b acct o = some c' → Effect acct b0 c0 (l ++ [(o, .ok)]) c'
  | reverted {l c b o} : Effect acct b0 c0 l c → b0 ≤ b → c.call b acct o = none → Effect acct b0 c0 (l ++ [(o, .reverted)]) c
  | outOfGas {l c o} : Effect acct b0 c0 l c → Effect acct b0 c0 (l ++ [(o, .outOfGas)]) c

/-- A call of the operator's commands: it does not change the owner. -/
def Plain : Config.Call → Prop
  | .set _ => True
  | .schedule => True
  | _ => False

theorem call_owner {c c' : Config} {b a : Nat} {o : Config.Call} (p : Plain o) (h : c.call b a o = some c') :
    c'.owner = c.owner := by
  cases o with
  | set o =>
    simp only [Config.call, bind, Option.bind_eq_some_iff] at h
    obtain ⟨_, _, n, _, h⟩ := h
    cases h; rfl
  | schedule =>
    simp only [Config.call, Config.scheduleNextConfig, bind, Option.bind_eq_some_iff] at h
    obtain ⟨_, _, _, _, c1, _, _, _, e, _, e', _, _, _, h⟩ := h
    split at h
    · simp only [Option.bind_eq_some_iff] at h
      obtain ⟨_, _, _, _, _, _, _, _, _, _, h⟩ := h
      cases h; rfl
    · simp only [Option.bind_eq_some_iff] at h
      obtain ⟨_, _, h⟩ := h
      cases h; rfl
  | unschedule => exact p.elim
  | transferOwnership => exact p.elim

theorem call_other {c c' : Config} {b a : Nat} {o : Config.Call} (h : c.call b a o = some c') : a = c.owner := by
  cases o <;> simp only [Config.call, bind, Option.bind_eq_some_iff, require_eq_some] at h <;> exact h.choose_spec.1

structure Inv (n : Node) (calls : List Config.Call) (m : Node) (todo : List Tx) : Prop where
  account : m.account = n.account
  later : n.block ≤ m.block
  owner : m.config.owner = n.account
  ex : ∃ (j k : Nat) (outs : List Outcome), k ≤ j ∧ j ≤ calls.length ∧ todo = (number n.nonce calls).drop j ∧
    m.sent = n.sent ++ (number n.nonce calls).take j ∧ m.nonce = n.nonce + k ∧ outs.length = k ∧
    m.receipts = n.receipts ++ ((number n.nonce calls).take k).zip outs ∧
    Effect n.account n.block n.config ((calls.take k).zip outs) m.config

theorem zip_take_succ {α β : Type} {l : List α} {k : Nat} {outs : List β} (h : outs.length = k) {a : α} (ha : l[k]? = some a)
    (o : β) : (l.take (k + 1)).zip (outs ++ [o]) = (l.take k).zip outs ++ [(a, o)] := by
  have hk : k < l.length := by
    rcases Nat.lt_or_ge k l.length with h | h
    · exact h
    · rw [List.getElem?_eq_none h] at ha; cases ha
  have e : l.take (k + 1) = l.take k ++ [a] := by
    rw [List.take_succ, ha]; rfl
  rw [e, List.zip_append (by rw [List.length_take]; omega)]
  rfl

theorem exec_index {n : Node} (st : Settled n) {calls : List Config.Call} {j k : Nat} {t : Tx} {m : Node}
    (hs : m.sent = n.sent ++ (number n.nonce calls).take j) (hn : m.nonce = n.nonce + k) (ht : t ∈ m.sent)
    (hq : t.nonce = m.nonce) : k < j ∧ k < calls.length ∧ calls[k]? = some t.call ∧ (number n.nonce calls)[k]? = some t := by
  rw [hs] at ht
  rcases List.mem_append.1 ht with ht | ht
  · have := st.1 t ht; omega
  · obtain ⟨i, hi⟩ := List.mem_iff_getElem?.1 ht
    rw [List.getElem?_take] at hi
    split at hi
    · rename_i hij
      have hi' := hi
      rw [number_get] at hi
      obtain ⟨c, hc, rfl⟩ := Option.map_eq_some_iff.1 hi
      have e : i = k := by simp only at hq; omega
      subst e
      refine ⟨hij, ?_, hc, hi'⟩
      rcases Nat.lt_or_ge i calls.length with h | h
      · exact h
      · rw [List.getElem?_eq_none h] at hc; cases hc
    · cases hi

theorem inv {n : Node} (st : Settled n) (own : n.config.owner = n.account) {calls : List Config.Call}
    (plain : ∀ o ∈ calls, Plain o) {m : Node} {todo : List Tx} (h : Command n (number n.nonce calls) m todo) :
    Inv n calls m todo := by
  suffices H : ∀ x : Node × List Tx, Relation.ReflTransGen CommandStep (n, number n.nonce calls) x → Inv n calls x.1 x.2 from
    H _ h
  intro x h
  induction h with
  | refl =>
    exact ⟨rfl, Nat.le_refl _, own, 0, 0, [], by simp, by simp, by simp, by simp, by simp, by simp, by simp, Effect.nil⟩
  | tail h s ih =>
    obtain ⟨ha, hb, ho, j, k, outs, hkj, hj, ht, hs, hn, hl, hr, he⟩ := ih
    cases s with
    | chain s =>
      cases s with
      | mine h1 h2 =>
        exact ⟨ha, Nat.le_trans hb h1, ho, j, k, outs, hkj, hj, ht, hs, hn, hl, hr, he⟩
      | other h1 h2 =>
        have := call_other h2
        simp only at ha ho this
        rw [ho, ← ha] at this
        exact absurd this h1
      | ok h1 h2 h3 =>
        simp only at ha hb ho hs hn hr he
        obtain ⟨a1, a2, a3, a4⟩ := exec_index st hs hn h1 h2
        refine ⟨ha, hb, ?_, j, k + 1, outs ++ [.ok], a1, hj, ht, hs, ?_, by simp [hl], ?_, ?_⟩
        · exact (call_owner (plain _ (List.mem_of_getElem? a3)) h3).trans ho
        · simp only [hn]; omega
        · simp only [hr]
          rw [zip_take_succ hl a4, List.append_assoc]
        · rw [zip_take_succ hl a3]
          rw [ha] at h3
          exact he.ok hb h3
      | reverted h1 h2 h3 =>
        simp only at ha hb ho hs hn hr he
        obtain ⟨a1, a2, a3, a4⟩ := exec_index st hs hn h1 h2
        refine ⟨ha, hb, ho, j, k + 1, outs ++ [.reverted], a1, hj, ht, hs, ?_, by simp [hl], ?_, ?_⟩
        · simp only [hn]; omega
        · simp only [hr]
          rw [zip_take_succ hl a4, List.append_assoc]
        · rw [zip_take_succ hl a3]
          rw [ha] at h3
          exact he.reverted hb h3
      | outOfGas h1 h2 =>
        simp only at ha hb ho hs hn hr he
        obtain ⟨a1, a2, a3, a4⟩ := exec_index st hs hn h1 h2
        refine ⟨ha, hb, ho, j, k + 1, outs ++ [.outOfGas], a1, hj, ht, hs, ?_, by simp [hl], ?_, ?_⟩
        · simp only [hn]; omega
        · simp only [hr]
          rw [zip_take_succ hl a4, List.append_assoc]
        · rw [zip_take_succ hl a3]
          exact he.outOfGas
    | @send m' t td =>
      simp only at ha hb ho hs hn hr he ht
      have hjl : j < calls.length := by
        rcases Nat.lt_or_ge j calls.length with h | h
        · exact h
        · rw [List.drop_eq_nil_of_le (by rw [number_length]; exact h)] at ht; cases ht
      have hd := List.drop_eq_getElem_cons (l := number n.nonce calls) (i := j) (by rw [number_length]; exact hjl)
      rw [hd] at ht
      injection ht with e1 e2
      refine ⟨ha, hb, ho, j + 1, k, outs, by omega, hjl, e2, ?_, hn, hl, hr, he⟩
      simp only [hs]
      rw [List.append_assoc, List.take_succ, List.getElem?_eq_getElem (by rw [number_length]; exact hjl), e1]
      rfl

theorem pending_settled {n : Node} (st : Settled n) : n.pendingNonce = n.nonce := by
  unfold Node.pendingNonce
  have : n.sent.any (fun t => t.nonce == n.nonce) = false := by
    rw [List.any_eq_false]
    intro t ht
    have := st.1 t ht
    simp; omega
  cases h : n.sent.length with
  | zero => rfl
  | succ m => rw [pendingFrom, this]; simp

/-- If the command succeeds, all calls were executed. -/
theorem success_effect {n : Node} (st : Settled n) (own : n.config.owner = n.account) {calls : List Config.Call}
    (plain : ∀ o ∈ calls, Plain o) {m : Node} {todo : List Tx} (h : Command n (number n.nonce calls) m todo)
    (ok : Success (number n.nonce calls) m todo) :
    Effect n.account n.block n.config (calls.map (fun o => (o, .ok))) m.config := by
  obtain ⟨ha, hb, ho, j, k, outs, hkj, hj, ht, hs, hn, hl, hr, he⟩ := inv st own plain h
  have key : ∀ i, i < calls.length → i < k ∧ outs[i]? = some .ok := by
    intro i hi
    have hi' : (number n.nonce calls)[i]? = some ⟨n.nonce + i, calls[i]⟩ := by
      rw [number_get, List.getElem?_eq_getElem hi]; rfl
    have := ok.2 _ (List.mem_of_getElem? hi')
    rw [hr] at this
    rcases List.mem_append.1 this with this | this
    · have := st.2 _ this
      simp only at this; omega
    · obtain ⟨q, hq⟩ := List.mem_iff_getElem?.1 this
      rw [List.getElem?_zip_eq_some] at hq
      obtain ⟨q1, q2⟩ := hq
      rw [List.getElem?_take] at q1
      split at q1
      · rename_i hqk
        rw [number_get] at q1
        obtain ⟨c, _, hc⟩ := Option.map_eq_some_iff.1 q1
        have : q = i := by
          have := congrArg Tx.nonce hc
          simp only at this; omega
        subst this
        exact ⟨hqk, q2⟩
      · cases q1
  have e : calls.map (fun o => (o, Outcome.ok)) = (calls.take k).zip outs := by
    apply List.ext_getElem?
    intro i
    rcases Nat.lt_or_ge i calls.length with hi | hi
    · obtain ⟨a, b⟩ := key i hi
      symm
      rw [List.getElem?_map, List.getElem?_eq_getElem hi]
      rw [List.getElem?_zip_eq_some.2]
      · rfl
      · constructor
        · rw [List.getElem?_take, if_pos a, List.getElem?_eq_getElem hi]
        · exact b
    · rw [List.getElem?_eq_none (by simpa using hi), List.getElem?_eq_none]
      rw [List.length_zip, List.length_take]; omega
  rw [e]; exact he

theorem call_set {c c' : Config} {b a : Nat} {o : Config.SetOp} : c.call b a (.set o) = some c' ↔
    a = c.owner ∧ ∃ x, Config.setNext c.next o = some x ∧ c' = { c with next := x } := by
  simp only [Config.call, bind, Option.bind_eq_some_iff, require_eq_some]
  constructor
  · rintro ⟨_, h, x, hx, e⟩
    cases e
    exact ⟨h, x, hx, rfl⟩
  · rintro ⟨h, x, hx, rfl⟩
    exact ⟨(), h, x, hx, rfl⟩

/-- What the setters do one after the other. -/
def setAll (b : BatchConfig) (ops : List Config.SetOp) : Option BatchConfig := ops.foldlM Config.setNext b

theorem setAll_append (b : BatchConfig) (l l' : List Config.SetOp) :
    setAll b (l ++ l') = (setAll b l).bind (fun x => setAll x l') := by
  simp [setAll, List.foldlM_append]

theorem effect_sets {acct b0 : Nat} {c0 : Config} {l : List (Config.Call × Outcome)} {c : Config}
    (h : Effect acct b0 c0 l c) : ∀ ops : List Config.SetOp, l = ops.map (fun o => (Config.Call.set o, Outcome.ok)) →
    ∃ x, setAll c0.next ops = some x ∧ c = { c0 with next := x } := by
  induction h with
  | nil =>
    intro ops e
    cases ops with
    | nil => exact ⟨c0.next, rfl, rfl⟩
    | cons o ops => cases e
  | ok h hb hc ih =>
    intro ops e
    rcases List.eq_nil_or_concat ops with rfl | ⟨ops, o, rfl⟩
    · simp at e
    · rw [List.concat_eq_append, List.map_append] at e
      obtain ⟨e1, e2⟩ := List.append_inj' e rfl
      obtain ⟨x, hx, rfl⟩ := ih ops e1
      injection e2 with e2
      injection e2 with e2
      subst e2
      obtain ⟨_, y, hy, rfl⟩ := call_set.1 hc
      refine ⟨y, ?_, rfl⟩
      rw [List.concat_eq_append, setAll_append, hx]
      simp only [Option.bind_some]
      simp [setAll, hy]
  | reverted h hb hc ih =>
    intro ops e
    rcases List.eq_nil_or_concat ops with rfl | ⟨ops, o, rfl⟩
    · simp at e
    · rw [List.concat_eq_append, List.map_append] at e
      obtain ⟨e1, e2⟩ := List.append_inj' e rfl
      simp at e2
  | outOfGas h ih =>
    intro ops e
    rcases List.eq_nil_or_concat ops with rfl | ⟨ops, o, rfl⟩
    · simp at e
    · rw [List.concat_eq_append, List.map_append] at e
      obtain ⟨e1, e2⟩ := List.append_inj' e rfl
      simp at e2

section segs
variable (b : BatchConfig)

theorem seg1 {x : Nat} (h : x < two64) : setAll b (whenDiff x b.startBatchIndex [.startBatchIndex x]) =
    some { b with startBatchIndex := x } := by
  unfold whenDiff; split
  · simp [setAll, Config.setNext, u64, h]
  · rename_i e; simp only [ne_eq, Decidable.not_not] at e; subst e; simp [setAll]
theorem seg2 {x : Nat} (h : x < two64) : setAll b (whenDiff x b.startBlockNumber [.startBlockNumber x]) =
    some { b with startBlockNumber := x } := by
  unfold whenDiff; split
  · simp [setAll, Config.setNext, u64, h]
  · rename_i e; simp only [ne_eq, Decidable.not_not] at e; subst e; simp [setAll]
theorem seg3 {x : Nat} (h : x < two64) : setAll b (whenDiff x b.threshold [.threshold x]) =
    some { b with threshold := x } := by
  unfold whenDiff; split
  · simp [setAll, Config.setNext, u64, h]
  · rename_i e; simp only [ne_eq, Decidable.not_not] at e; subst e; simp [setAll]
theorem seg4 {x : Nat} (h : x < two64) : setAll b (whenDiff x b.batchSpan [.batchSpan x]) =
    some { b with batchSpan := x } := by
  unfold whenDiff; split
  · simp [setAll, Config.setNext, u64, h]
  · rename_i e; simp only [ne_eq, Decidable.not_not] at e; subst e; simp [setAll]
theorem seg5 {x : Nat} (h : x < two64) : setAll b (whenDiff x b.batchSizeLimit [.batchSizeLimit x]) =
    some { b with batchSizeLimit := x } := by
  unfold whenDiff; split
  · simp [setAll, Config.setNext, u64, h]
  · rename_i e; simp only [ne_eq, Decidable.not_not] at e; subst e; simp [setAll]
theorem seg6 {x : Nat} (h : x < two64) : setAll b (whenDiff x b.transactionSizeLimit [.transactionSizeLimit x]) =
    some { b with transactionSizeLimit := x } := by
  unfold whenDiff; split
  · simp [setAll, Config.setNext, u64, h]
  · rename_i e; simp only [ne_eq, Decidable.not_not] at e; subst e; simp [setAll]
theorem seg7 {x : Nat} (h : x < two64) : setAll b (whenDiff x b.transactionGasLimit [.transactionGasLimit x]) =
    some { b with transactionGasLimit := x } := by
  unfold whenDiff; split
  · simp [setAll, Config.setNext, u64, h]
  · rename_i e; simp only [ne_eq, Decidable.not_not] at e; subst e; simp [setAll]
theorem seg8 {x : Address} : setAll b (whenDiff x b.feeReceiver [.feeReceiver x]) =
    some { b with feeReceiver := x } := by
  unfold whenDiff; split
  · simp [setAll, Config.setNext]
  · rename_i e; simp only [ne_eq, Decidable.not_not] at e; subst e; simp [setAll]
theorem seg9 {x : Address} : setAll b (whenDiff x b.targetAddress [.targetAddress x]) =
    some { b with targetAddress := x } := by
  unfold whenDiff; split
  · simp [setAll, Config.setNext]
  · rename_i e; simp only [ne_eq, Decidable.not_not] at e; subst e; simp [setAll]
theorem seg10 {x : Sol.Bytes} : setAll b (whenDiff x b.targetFunctionSelector [.targetFunctionSelector x]) =
    some { b with targetFunctionSelector := x } := by
  unfold whenDiff; split
  · simp [setAll, Config.setNext]
  · rename_i e; simp only [ne_eq, Decidable.not_not] at e; subst e; simp [setAll]
theorem seg11 {x : Nat} (h : x < two64) : setAll b (whenDiff x b.executionTimeout [.executionTimeout x]) =
    some { b with executionTimeout := x } := by
  unfold whenDiff; split
  · simp [setAll, Config.setNext, u64, h]
  · rename_i e; simp only [ne_eq, Decidable.not_not] at e; subst e; simp [setAll]
theorem seg12 {x : List Address} (h : x.length < two64) (h' : b.keypers.length < two64) :
    setAll b (whenDiff x b.keypers [.removeKeypers b.keypers.length, .addKeypers x]) = some { b with keypers := x } := by
  unfold whenDiff; split
  · have : x.length ≤ two64 - 1 := by omega
    simp [setAll, Config.setNext, u64, h', this]
  · rename_i e; simp only [ne_eq, Decidable.not_not] at e; subst e; simp [setAll]
end segs

theorem bind_seg {b b' : BatchConfig} {ops rest : List Config.SetOp} {r : Option BatchConfig} (h : setAll b ops = some b')
    (h' : setAll b' rest = r) : setAll b (ops ++ rest) = r := by
  rw [setAll_append, h]; exact h'

/-- The part of the calls that does not concern the keypers. -/
def setCalls1 (cur new : BatchConfig) : List Config.SetOp :=
  whenDiff new.startBatchIndex cur.startBatchIndex [.startBatchIndex new.startBatchIndex] ++
  whenDiff new.startBlockNumber cur.startBlockNumber [.startBlockNumber new.startBlockNumber] ++
  whenDiff new.threshold cur.threshold [.threshold new.threshold] ++
  whenDiff new.batchSpan cur.batchSpan [.batchSpan new.batchSpan] ++
  whenDiff new.batchSizeLimit cur.batchSizeLimit [.batchSizeLimit new.batchSizeLimit] ++
  whenDiff new.transactionSizeLimit cur.transactionSizeLimit [.transactionSizeLimit new.transactionSizeLimit] ++
  whenDiff new.transactionGasLimit cur.transactionGasLimit [.transactionGasLimit new.transactionGasLimit] ++
  whenDiff new.feeReceiver cur.feeReceiver [.feeReceiver new.feeReceiver] ++
  whenDiff new.targetAddress cur.targetAddress [.targetAddress new.targetAddress] ++
  whenDiff new.targetFunctionSelector cur.targetFunctionSelector [.targetFunctionSelector new.targetFunctionSelector] ++
  whenDiff new.executionTimeout cur.executionTimeout [.executionTimeout new.executionTimeout]

theorem setCalls_split (cur new : BatchConfig) : setCalls cur new = setCalls1 cur new ++
    whenDiff new.keypers cur.keypers [.removeKeypers cur.keypers.length, .addKeypers new.keypers] := rfl

theorem setAll_setCalls {cur new : BatchConfig} (f : Fits new) (hk : cur.keypers.length < two64) :
    setAll cur (setCalls cur new) = some new := by
  obtain ⟨f1, f2, f3, f4, f5, f6, f7, f8, f9⟩ := f
  unfold setCalls
  simp only [List.append_assoc]
  exact bind_seg (seg1 _ f1) <| bind_seg (seg2 _ f2) <| bind_seg (seg3 _ f3) <| bind_seg (seg4 _ f4) <|
    bind_seg (seg5 _ f5) <| bind_seg (seg6 _ f6) <| bind_seg (seg7 _ f7) <| bind_seg (seg8 _) <| bind_seg (seg9 _) <|
    bind_seg (seg10 _) <| bind_seg (seg11 _ f8) <| seg12 _ f9 hk

/-- Setters that leave the keypers alone. -/
def NoKeypers : Config.SetOp → Prop
  | .addKeypers _ => False
  | .removeKeypers _ => False
  | _ => True

theorem whenDiff_noKeypers {α : Type} [DecidableEq α] {x y : α} {o : Config.SetOp} (h : NoKeypers o) :
    ∀ o' ∈ whenDiff x y [o], NoKeypers o' := by
  unfold whenDiff; split
  · intro o' ho'; rw [List.mem_singleton.1 ho']; exact h
  · simp

theorem setCalls1_noKeypers (cur new : BatchConfig) : ∀ o ∈ setCalls1 cur new, NoKeypers o := by
  intro o ho
  unfold setCalls1 at ho
  simp only [List.mem_append] at ho
  rcases ho with ((((((((((h | h) | h) | h) | h) | h) | h) | h) | h) | h) | h) <;>
    exact whenDiff_noKeypers (by trivial) o h

theorem setNext_keypers {b b' : BatchConfig} {o : Config.SetOp} (h : NoKeypers o) (e : Config.setNext b o = some b') :
    b'.keypers = b.keypers := by
  cases o with
  | addKeypers => exact h.elim
  | removeKeypers => exact h.elim
  | _ =>
    simp only [Config.setNext, Option.map_eq_some_iff, Option.some.injEq] at e
    first
    | (obtain ⟨_, _, rfl⟩ := e; rfl)
    | (subst e; rfl)

theorem setAll_keypers {ops : List Config.SetOp} : ∀ {b b' : BatchConfig}, (∀ o ∈ ops, NoKeypers o) → setAll b ops = some b' →
    b'.keypers = b.keypers := by
  induction ops with
  | nil => intro b b' _ e; simp [setAll] at e; rw [e]
  | cons o ops ih =>
    intro b b' h e
    simp only [setAll, List.foldlM_cons, bind, Option.bind_eq_some_iff] at e
    obtain ⟨x, hx, hy⟩ := e
    rw [ih (fun o ho => h o (by simp [ho])) hy, setNext_keypers (h o (by simp)) hx]

/-- However many of the calls are executed: the keypers are the old ones, none, or the new ones. -/
theorem setAll_take_keypers {cur new x : BatchConfig} (k : Nat)
    (h : setAll cur ((setCalls cur new).take k) = some x) : x.keypers = cur.keypers ∨ x.keypers = [] ∨ x.keypers = new.keypers := by
  rw [setCalls_split, List.take_append, setAll_append, Option.bind_eq_some_iff] at h
  obtain ⟨y, hy, hx⟩ := h
  have ky : y.keypers = cur.keypers :=
    setAll_keypers (fun o ho => setCalls1_noKeypers cur new o (List.mem_of_mem_take ho)) hy
  unfold whenDiff at hx
  split at hx
  · generalize k - (setCalls1 cur new).length = m at hx
    match m with
    | 0 => simp [setAll] at hx; left; rw [← hx, ky]
    | 1 =>
      simp only [setAll, List.take_succ_cons, List.take_zero, List.foldlM_cons, List.foldlM_nil, bind, Option.bind_eq_some_iff,
        Config.setNext, Option.map_eq_some_iff] at hx
      obtain ⟨z, ⟨w, hw, rfl⟩, e⟩ := hx
      cases e
      right; left
      obtain ⟨rfl, _⟩ := u64_eq_some.1 hw
      simp [ky]
    | m + 2 =>
      simp only [setAll, List.take_succ_cons, List.take_nil, List.foldlM_cons, List.foldlM_nil, bind, Option.bind_eq_some_iff,
        Config.setNext, Option.map_eq_some_iff] at hx
      obtain ⟨z, ⟨w, hw, rfl⟩, v, hv, e⟩ := hx
      cases e
      right; right
      obtain ⟨rfl, _⟩ := u64_eq_some.1 hw
      rw [if_pos (Nat.le_of_eq (congrArg List.length ky.symm))] at hv
      simp only [ky, Nat.sub_self, List.take_zero, List.length_nil, List.nil_append] at hv
      split at hv
      · cases hv; rfl
      · cases hv
  · simp [setAll] at hx; left; rw [← hx, ky]

theorem setAll_take_length {b x : BatchConfig} {ops : List Config.SetOp} (k : Nat) (h : setAll b ops = some x) :
    ∃ y, setAll b (ops.take k) = some y := by
  rw [← List.take_append_drop k ops, setAll_append, Option.bind_eq_some_iff] at h
  obtain ⟨y, hy, _⟩ := h
  exact ⟨y, hy⟩


theorem getLast_config {c : Config} {last : BatchConfig} (h : c.scheduled.getLast? = some last) :
    c.numConfigs ≠ 0 ∧ getConfigByIndex c (c.numConfigs - 1) = some { last with keypers := dedupGo [] last.keypers } ∧
    c.lastScheduledConfig = some last := by
  have hl : c.numConfigs = c.scheduled.length := by simp [Config.numConfigs, Config.configs]
  have hne : c.scheduled ≠ [] := by rintro e; rw [e] at h; cases h
  have hpos : 0 < c.scheduled.length := List.length_pos_iff.2 hne
  have hg : c.configs[c.scheduled.length - 1]? = some last := by
    unfold Config.configs
    rw [List.getElem?_append_left (by omega), ← List.getLast?_eq_getElem?, h]
  refine ⟨by omega, ?_, ?_⟩
  · unfold getConfigByIndex Config.scheduledConfig
    rw [hl, hg]
    have : c.scheduled.length - 1 < c.numConfigs := by omega
    simp [bind, require, hpos]
  · unfold Config.lastScheduledConfig Config.lastScheduledConfigIndex
    have : c.configs.length - 2 = c.scheduled.length - 1 := by simp [Config.configs]
    rw [this, hg]

theorem chooseStart_eq {c : Config} {last : BatchConfig} (h : c.scheduled.getLast? = some last) (header : Nat) :
    chooseStart c header = (
      if last.batchSpan = 0 then some (wadd (wadd header c.headsUp) 20, last.startBatchIndex)
      else some (wadd last.startBlockNumber (wmul (wadd (wadd (wsub (wadd (wadd header c.headsUp) 20) last.startBlockNumber)
            last.batchSpan) 1 / last.batchSpan) last.batchSpan),
          wadd last.startBatchIndex (wadd (wadd (wsub (wadd (wadd header c.headsUp) 20) last.startBlockNumber)
            last.batchSpan) 1 / last.batchSpan))) := by
  obtain ⟨h1, h2, _⟩ := getLast_config h
  unfold chooseStart
  rw [if_pos h1, h2]
  rfl

/-- The start chosen by the command. -/
theorem chosen_start {c : Config} {last : BatchConfig} (h : c.scheduled.getLast? = some last) {header s i : Nat}
    (hs : chooseStart c header = some (s, i))
    (small : last.startBatchIndex + header + c.headsUp + last.batchSpan + 22 < two64)
    (soon : last.startBlockNumber ≤ header + c.headsUp + 21) :
    ((last.batchSpan > 0 → last.startBatchIndex < i ∧
        last.startBlockNumber + (i - last.startBatchIndex) * last.batchSpan = s) ∧
      (last.batchSpan = 0 → i = last.startBatchIndex)) ∧
    header + c.headsUp + 20 ≤ s ∧ s ≤ header + c.headsUp + 21 + last.batchSpan ∧ i < two64 := by
  rw [chooseStart_eq h] at hs
  have m : wadd (wadd header c.headsUp) 20 = header + c.headsUp + 20 := by
    unfold wadd
    rw [Nat.mod_eq_of_lt (a := header + c.headsUp) (by omega), Nat.mod_eq_of_lt (by omega)]
  rw [m] at hs
  split at hs
  · rename_i h0
    injection hs with hs; injection hs with e1 e2
    subst e1 e2
    exact ⟨⟨fun h => absurd h0 (by omega), fun _ => rfl⟩, by omega, by omega, by omega⟩
  · rename_i h0
    injection hs with hs; injection hs with e1 e2
    have hpos : 0 < last.batchSpan := Nat.pos_of_ne_zero h0
    have hbig : 22 < two64 := by omega
    -- the distance, as a number of blocks plus one
    obtain ⟨d, hd, hd1⟩ : ∃ d, wadd (wadd (wsub (header + c.headsUp + 20) last.startBlockNumber) last.batchSpan) 1 = d ∧
        d + last.startBlockNumber = header + c.headsUp + 21 + last.batchSpan := by
      refine ⟨_, rfl, ?_⟩
      unfold wadd wsub
      rw [Nat.mod_add_mod, Nat.add_assoc (_ % _), Nat.mod_add_mod, ← Nat.add_assoc]
      by_cases hle : last.startBlockNumber ≤ header + c.headsUp + 20
      · have : header + c.headsUp + 20 + two64 - last.startBlockNumber + last.batchSpan + 1 =
            (header + c.headsUp + 21 + last.batchSpan - last.startBlockNumber) + two64 := by omega
        rw [this, Nat.add_mod_right, Nat.mod_eq_of_lt (by omega)]
        omega
      · have e : last.startBlockNumber = header + c.headsUp + 21 := by omega
        have : header + c.headsUp + 20 + two64 - last.startBlockNumber + last.batchSpan + 1 =
            last.batchSpan + two64 := by omega
        rw [this, Nat.add_mod_right, Nat.mod_eq_of_lt (by omega)]
        omega
    rw [hd] at e1 e2
    have hdm := Nat.div_add_mod d last.batchSpan
    have hml := Nat.mod_lt d hpos
    have hn1 : 1 ≤ d / last.batchSpan := (Nat.one_le_div_iff hpos).2 (by omega)
    have hnd : d / last.batchSpan * last.batchSpan ≤ d := Nat.div_mul_le_self d last.batchSpan
    have hnb : d / last.batchSpan < header + c.headsUp + 23 := by
      have : d < (header + c.headsUp + 23) * last.batchSpan := by nlinarith
      exact (Nat.div_lt_iff_lt_mul hpos).2 this
    have w1 : wmul (d / last.batchSpan) last.batchSpan = d / last.batchSpan * last.batchSpan := by
      unfold wmul; exact Nat.mod_eq_of_lt (by omega)
    have w2 : wadd last.startBlockNumber (d / last.batchSpan * last.batchSpan) =
        last.startBlockNumber + d / last.batchSpan * last.batchSpan := by
      unfold wadd; exact Nat.mod_eq_of_lt (by omega)
    have w3 : wadd last.startBatchIndex (d / last.batchSpan) = last.startBatchIndex + d / last.batchSpan := by
      unfold wadd; exact Nat.mod_eq_of_lt (by omega)
    rw [w1, w2] at e1
    rw [w3] at e2
    subst e1 e2
    have hc : last.batchSpan * (d / last.batchSpan) = d / last.batchSpan * last.batchSpan := Nat.mul_comm _ _
    refine ⟨⟨fun _ => ⟨by omega, ?_⟩, fun h => absurd h h0⟩, ?_, ?_, ?_⟩
    · rw [Nat.add_sub_cancel_left]
    · omega
    · omega
    · omega

/-- If the last config starts later, the start that the command chooses is never right. -/
theorem chosen_late {c : Config} {last : BatchConfig} (h : c.scheduled.getLast? = some last) {header s i : Nat}
    (hs : chooseStart c header = some (s, i)) (fit : Fits last) (active : last.batchSpan > 0)
    (small : header + c.headsUp + 20 < two64) (late : header + c.headsUp + 21 < last.startBlockNumber) :
    ¬ (last.startBatchIndex < i ∧ (i - last.startBatchIndex) * last.batchSpan < two64 ∧
      last.startBlockNumber + (i - last.startBatchIndex) * last.batchSpan < two64) := by
  rintro ⟨h1, h2, h3⟩
  obtain ⟨f1, f2, f3, f4, -⟩ := fit
  rw [chooseStart_eq h] at hs
  have m : wadd (wadd header c.headsUp) 20 = header + c.headsUp + 20 := by
    unfold wadd
    rw [Nat.mod_eq_of_lt (a := header + c.headsUp) (by omega), Nat.mod_eq_of_lt (by omega)]
  rw [m, if_neg (by omega)] at hs
  injection hs with hs; injection hs with e1 e2
  have hd : wadd (wadd (wsub (header + c.headsUp + 20) last.startBlockNumber) last.batchSpan) 1 =
      (header + c.headsUp + 20 + two64 - last.startBlockNumber + last.batchSpan + 1) % two64 := by
    unfold wadd wsub
    rw [Nat.mod_add_mod, Nat.add_assoc (_ % _), Nat.mod_add_mod, ← Nat.add_assoc]
  rw [hd] at e2
  by_cases hle : last.startBlockNumber ≤ header + c.headsUp + 21 + last.batchSpan
  · have e : header + c.headsUp + 20 + two64 - last.startBlockNumber + last.batchSpan + 1 =
        (header + c.headsUp + 21 + last.batchSpan - last.startBlockNumber) + two64 := by omega
    rw [e, Nat.add_mod_right, Nat.mod_eq_of_lt (by omega), Nat.div_eq_of_lt (by omega)] at e2
    unfold wadd at e2
    rw [Nat.add_zero, Nat.mod_eq_of_lt f1] at e2
    omega
  · rw [Nat.mod_eq_of_lt (by omega)] at e2
    generalize hD : header + c.headsUp + 20 + two64 - last.startBlockNumber + last.batchSpan + 1 = D at e2
    have hdm := Nat.div_add_mod D last.batchSpan
    have hml := Nat.mod_lt D active
    have hle2 : D / last.batchSpan ≤ D := Nat.div_le_self _ _
    have hc : last.batchSpan * (D / last.batchSpan) = D / last.batchSpan * last.batchSpan := Nat.mul_comm _ _
    unfold wadd at e2
    by_cases hw : last.startBatchIndex + D / last.batchSpan < two64
    · rw [Nat.mod_eq_of_lt hw] at e2
      have : i - last.startBatchIndex = D / last.batchSpan := by omega
      rw [this] at h3
      omega
    · have e : last.startBatchIndex + D / last.batchSpan = (last.startBatchIndex + D / last.batchSpan - two64) + two64 := by omega
      rw [e, Nat.add_mod_right, Nat.mod_eq_of_lt (by omega)] at e2
      omega

theorem schedule_iff {c : Config} {last : BatchConfig} (h : c.scheduled.getLast? = some last) (b : Nat) (c' : Config) :
    c.call b c.owner .schedule = some c' ↔
      (c.scheduled.length + 3 < two64 ∧ c.next.threshold ≤ c.next.keypers.length ∧
        b + max last.batchSpan c.headsUp + 1 < two64 ∧ b + max last.batchSpan c.headsUp + 1 ≤ c.next.startBlockNumber ∧
        (last.batchSpan > 0 → last.startBatchIndex < c.next.startBatchIndex ∧
          (c.next.startBatchIndex - last.startBatchIndex) * last.batchSpan < two64 ∧
          last.startBlockNumber + (c.next.startBatchIndex - last.startBatchIndex) * last.batchSpan < two64 ∧
          last.startBlockNumber + (c.next.startBatchIndex - last.startBatchIndex) * last.batchSpan = c.next.startBlockNumber) ∧
        (last.batchSpan = 0 → c.next.startBatchIndex = last.startBatchIndex)) ∧
      c' = { c with scheduled := c.scheduled ++ [c.next], next := zeroConfig } := by
  obtain ⟨_, _, hl⟩ := getLast_config h
  have hmax : (if last.batchSpan > c.headsUp then last.batchSpan else c.headsUp) = max last.batchSpan c.headsUp := by
    split <;> omega
  have hlen : c.configs.length = c.scheduled.length + 1 := by simp [Config.configs]
  have hcomm := Nat.mul_comm last.batchSpan (c.next.startBatchIndex - last.startBatchIndex)
  simp only [Config.call, Config.scheduleNextConfig, bind, Option.bind_eq_some_iff, require_eq_some, hl, hlen]
  constructor
  · rintro ⟨_, _, _, g1, _, e, _, g2, x, gx, y, gy, _, g3, g⟩
    cases e
    rw [hmax] at gx
    obtain ⟨rfl, gx'⟩ := addU64_eq_some.1 gx
    obtain ⟨rfl, gy'⟩ := addU64_eq_some.1 gy
    split at g
    · rename_i hp
      simp only [Option.bind_eq_some_iff, require_eq_some] at g
      obtain ⟨_, k1, d, kd, m, km, q, kq, _, ke, g⟩ := g
      obtain ⟨_, rfl⟩ := subU64_eq_some.1 kd
      obtain ⟨rfl, km'⟩ := mulU64_eq_some.1 km
      obtain ⟨rfl, kq'⟩ := addU64_eq_some.1 kq
      rw [hcomm] at km' kq' ke
      cases g
      exact ⟨⟨by omega, g2, gy', g3, fun _ => ⟨k1, km', kq', ke⟩, fun h => by omega⟩, rfl⟩
    · rename_i hp
      simp only [Option.bind_eq_some_iff, require_eq_some] at g
      obtain ⟨_, k1, g⟩ := g
      cases g
      exact ⟨⟨by omega, g2, gy', g3, fun h => absurd h hp, fun _ => k1⟩, rfl⟩
  · rintro ⟨⟨g1, g2, gy, g3, k, k'⟩, rfl⟩
    refine ⟨(), trivial, (), by omega, last, rfl, (), g2, b + max last.batchSpan c.headsUp,
      addU64_eq_some.2 ⟨by rw [hmax], by rw [hmax]; omega⟩, _, addU64_eq_some.2 ⟨rfl, gy⟩, (), g3, ?_⟩
    split
    · rename_i hp
      obtain ⟨k1, km, kq, ke⟩ := k hp
      rw [← hcomm] at km kq ke
      simp only [Option.bind_eq_some_iff, require_eq_some]
      exact ⟨(), k1, _, subU64_eq_some.2 ⟨by omega, rfl⟩, _, mulU64_eq_some.2 ⟨rfl, km⟩, _, addU64_eq_some.2 ⟨rfl, kq⟩, (), ke, trivial⟩
    · rename_i hp
      simp only [Option.bind_eq_some_iff, require_eq_some]
      exact ⟨(), k' (by omega), trivial⟩

theorem plain_sets (ops : List Config.SetOp) : ∀ o ∈ ops.map Config.Call.set, Plain o := by
  intro o ho
  obtain ⟨x, _, rfl⟩ := List.mem_map.1 ho
  trivial

/-- If no transaction runs out of gas, calls that succeed one after the other all do. -/
theorem effect_noGas {acct b0 : Nat} {c0 : Config} (own : c0.owner = acct) {l : List (Config.Call × Outcome)} {c : Config}
    (h : Effect acct b0 c0 l c) : ∀ (ops rest : List Config.SetOp) (x : BatchConfig), setAll c0.next (ops ++ rest) = some x →
    l.map Prod.fst = ops.map Config.Call.set → (∀ r ∈ l, r.2 ≠ .outOfGas) →
    l = ops.map (fun o => (Config.Call.set o, Outcome.ok)) := by
  induction h with
  | nil =>
    intro ops rest x hx e _
    cases ops with
    | nil => rfl
    | cons => simp at e
  | @ok l c c' b o h hb hc ih =>
    intro ops rest x hx e ng
    rcases List.eq_nil_or_concat ops with rfl | ⟨ops, q, rfl⟩
    · simp at e
    · rw [List.concat_eq_append] at hx e ⊢
      rw [List.map_append, List.map_append] at e
      obtain ⟨e1, e2⟩ := List.append_inj' e rfl
      rw [List.append_assoc] at hx
      rw [ih ops _ x hx e1 (fun r hr => ng r (by simp [hr]))]
      simp only [List.map_cons, List.map_nil, List.cons.injEq, and_true] at e2
      subst e2
      simp
  | @reverted l c b o h hb hc ih =>
    intro ops rest x hx e ng
    rcases List.eq_nil_or_concat ops with rfl | ⟨ops, q, rfl⟩
    · simp at e
    · rw [List.concat_eq_append] at hx e ⊢
      rw [List.map_append, List.map_append] at e
      obtain ⟨e1, e2⟩ := List.append_inj' e rfl
      rw [List.append_assoc] at hx
      have hl := ih ops _ x hx e1 (fun r hr => ng r (by simp [hr]))
      obtain ⟨y, hy, rfl⟩ := effect_sets h ops hl
      simp only [List.map_cons, List.map_nil, List.cons.injEq, and_true] at e2
      subst e2
      rw [setAll_append, hy] at hx
      simp only [Option.bind_some, setAll, List.cons_append, List.nil_append, List.foldlM_cons, bind,
        Option.bind_eq_some_iff] at hx
      obtain ⟨z, hz, _⟩ := hx
      have hc' : ({ c0 with next := y } : Config).call b acct (.set q) = some { c0 with next := z } :=
        call_set.2 ⟨own.symm, z, hz, rfl⟩
      rw [hc'] at hc
      cases hc
  | outOfGas h ih =>
    intro ops rest x hx e ng
    exact absurd rfl (ng (_, .outOfGas) (List.mem_append_right _ (List.mem_singleton.2 rfl)))

theorem chosen_cases {c : Config} {header : Nat} {file bc : BatchConfig} (h : chosenConfig c header file = some bc) :
    (file.threshold ≠ 0 ∧ file.threshold ≤ file.keypers.length) ∧
    ((file.startBlockNumber ≠ 0 ∧ bc = file) ∨ (file.startBlockNumber = 0 ∧ ∃ s i, chooseStart c header = some (s, i) ∧
      bc = { file with startBlockNumber := s, startBatchIndex := i })) := by
  unfold chosenConfig at h
  simp only [bind, Option.bind_eq_some_iff] at h
  obtain ⟨x, hx, h⟩ := h
  unfold readFile at hx
  by_cases hv : validateThreshold file.threshold file.keypers.length = true
  · rw [if_pos hv] at hx
    cases hx
    constructor
    · unfold validateThreshold at hv
      by_cases h1 : file.keypers.length = 0
      · rw [if_pos h1] at hv; cases hv
      · rw [if_neg h1] at hv
        by_cases h2 : file.threshold > file.keypers.length
        · rw [if_pos h2] at hv; cases hv
        · rw [if_neg h2] at hv
          by_cases h3 : file.threshold = 0
          · rw [if_pos h3] at hv; cases hv
          · exact ⟨h3, by omega⟩
    · split at h
      · rename_i h0
        simp only [Option.bind_eq_some_iff] at h
        obtain ⟨⟨s, i⟩, hs, h⟩ := h
        cases h
        exact Or.inr ⟨h0, s, i, hs, rfl⟩
      · rename_i h0
        cases h
        exact Or.inl ⟨h0, rfl⟩
  · rw [if_neg hv] at hx; cases hx

theorem chooseStart_fits {c : Config} {header s i : Nat} (hr : ∀ bc ∈ c.scheduled, Fits bc)
    (h : chooseStart c header = some (s, i)) : s < two64 ∧ i < two64 := by
  have pos : 0 < two64 := by unfold two64; omega
  have w : ∀ a b, wadd a b < two64 := fun a b => Nat.mod_lt _ pos
  rcases hl : c.scheduled.getLast? with _ | last
  · have e : c.scheduled = [] := List.getLast?_eq_none_iff.1 hl
    have e0 : c.numConfigs = 0 := by simp [Config.numConfigs, Config.configs, e]
    unfold chooseStart at h
    rw [e0] at h
    simp only [ne_eq, not_true_eq_false, if_false, bind, Option.bind_some, zeroConfig, if_true, Option.some.injEq,
      Prod.mk.injEq] at h
    obtain ⟨rfl, rfl⟩ := h
    exact ⟨w _ _, pos⟩
  · have := (hr last (List.mem_of_getLast? hl)).1
    rw [chooseStart_eq hl] at h
    split at h <;> (injection h with h; injection h with e1 e2; subst e1 e2)
    · exact ⟨w _ _, this⟩
    · exact ⟨w _ _, w _ _⟩

theorem chosen_fits {c : Config} {header : Nat} {file bc : BatchConfig} (hr : ∀ bc ∈ c.scheduled, Fits bc) (f : Fits file)
    (h : chosenConfig c header file = some bc) : Fits bc ∧ bc.keypers = file.keypers := by
  rcases (chosen_cases h).2 with ⟨_, rfl⟩ | ⟨_, s, i, hs, rfl⟩
  · exact ⟨f, rfl⟩
  · obtain ⟨a, b⟩ := chooseStart_fits hr hs
    exact ⟨⟨b, a, f.2.2⟩, rfl⟩

end Shutter.Operator
