import Verif.Proofs.SenderLost
import Verif.Proofs.AppDemo

/-! Property theorems C75 (shuttermint/keyper/fx/messagesender.go, runenv.go: delivery of messages). -/

namespace Shutter.Sender.Props
open Shutter.App Shutter.Sender

variable {ps : Parsers} {dev : Bool} {own : Addr} {chain : Bytes} {b : Box}

theorem answered_sent {log : List Rec} {a : Attempt} {n : Nat} (h : Answered own chain log a n .sent) :
    (∃ (i k : Nat) (r c : Rec), a.start ≤ i ∧ i < k ∧ k < n ∧ log[i]? = some r ∧ r.Accepts own a.msg ∧ log[k]? = some c ∧ c.op = .commit) ∨
    ∃ (i : Nat) (r : Rec), a.start ≤ i ∧ i < n ∧ log[i]? = some r ∧ r.op = .checkTx (some (own, a.tx chain)) ∧ r.resp = .checkTx false ∧
      ∀ (j : Nat) (x : Rec), a.start ≤ j → j < i → log[j]? = some x → ∀ ok, ¬ (x.op = .checkTx (some (own, a.tx chain)) ∧ x.resp = .checkTx ok) := by
  generalize hv : Verdict.sent = v at h
  cases h with
  | away i r h1 h2 h3 h4 h5 h6 => exact .inr ⟨i, r, h1, h2, h3, h4, h5, h6⟩
  | delivered i k r c d h1 h2 h3 h4 h5 h6 h7 h8 =>
    obtain ⟨ok, evs⟩ := d
    cases ok with
    | false => cases hv
    | true => exact .inl ⟨i, k, r, c, h1, h2, h3, h4, ⟨_, rfl, h5, evs, h6⟩, h7, h8⟩

/-- **C75.** The worker takes the messages in the order in which they were queued: at any time, the messages it is done with, followed by those still queued,
are all the messages queued so far. It starts with one only when it is done with those before it, and it is done with one only after an answer of the node. Crashes and
failing calls change nothing about this. -/
theorem C75_order (h : Works ps dev own chain b) :
    b.added = b.done.map Done.msg ++ b.queue ∧ b.done.Pairwise (fun d d' => d.finish ≤ d'.last.start) ∧
    ∀ d ∈ b.done, d.last.msg = d.msg ∧ d.finish ≤ b.log.length ∧ (d.verdict = .sent ∨ d.verdict = .gaveUp) := by
  refine ⟨h.inv.all, h.inv.order, fun d hd => ?_⟩
  obtain ⟨_, h2, h3⟩ := h.inv.answered d hd
  refine ⟨h2, h.inv.finish d hd, ?_⟩
  generalize d.verdict = v at h3
  cases h3 with
  | away => exact .inl rfl
  | delivered i k r c d => cases d.ok <;> simp

/-- **C75.** Of the messages signed by the keyper, the application executes only those the worker was given. -/
theorem C75_origin (h : Works ps dev own chain b) {r : Rec} (hr : r ∈ b.log) {m : Msg} (ha : r.Accepts own m) : m ∈ b.added := by
  obtain ⟨mw, rfl, ho, _⟩ := ha
  obtain ⟨i, hi⟩ := List.mem_iff_getElem?.1 hr
  obtain ⟨a, h1, rfl, _⟩ := h.inv.signed i r mw hi (by rw [ho]; rfl)
  exact h.inv.origin a h1

/-- **C75** (partial: *or* `CheckTx` has refused it, which the worker does not notice; see `C75_lost`). A message that counts as sent was executed by the application
during the last attempt, in a block that was committed before the attempt was over. -/
theorem C75_sent_partial (h : Works ps dev own chain b) {d : Done} (hd : d ∈ b.done) (hs : d.verdict = .sent) :
    Executed own b.log d ∨ TurnedAway own chain b.log d := by
  obtain ⟨_, h2, h3⟩ := h.inv.answered d hd
  rw [hs] at h3
  rcases answered_sent h3 with ⟨i, k, r, c, a1, a2, a3, a4, a5, a6, a7⟩ | ⟨i, r, a1, a2, a3, a4, a5, _⟩
  · exact .inl ⟨i, k, r, c, a4, a6, a1, a2, a3, h2 ▸ a5, a7⟩
  · exact .inr ⟨i, ⟨a1, a2⟩, r, a3, a4, a5⟩

/-- **C75.** The worker gives up on a message only if the application has refused to execute it. -/
theorem C75_gaveUp (h : Works ps dev own chain b) {d : Done} (hd : d ∈ b.done) (hs : d.verdict = .gaveUp) :
    RefusedByApp own chain b.log d := by
  obtain ⟨_, h2, h3⟩ := h.inv.answered d hd
  generalize hv : d.verdict = v at h3
  rw [hs] at hv
  cases h3 with
  | away => cases hv
  | delivered i k r c x h1 h2 h3 h4 h5 h6 h7 h8 =>
    refine ⟨i, r, h4, ⟨h1, by omega⟩, h5, x, h6, ?_⟩
    cases hx : x.ok with
    | false => rfl
    | true => rw [hx] at hv; cases hv

/-- **C75.** A message that counts as sent and was not executed is lost; this takes ten other transactions of the keyper let in since the last commit, for each
of which the call of `SendMessage` has failed. -/
theorem C75_lost (h : Works ps dev own chain b) (ht : Treats own chain b.log) {d : Done} (hd : d ∈ b.done) (hs : d.verdict = .sent)
    (hn : ¬ Executed own b.log d) :
    ∃ i, TurnedAwayAt own chain b.log d i ∧
      ∃ as : List Attempt, as.Nodup ∧ as.length = 10 ∧ ∀ a ∈ as, a ∈ b.failed ∧ LetIn own chain (sinceCommit (b.log.take i)) a := by
  obtain ⟨_, h2, h3⟩ := h.inv.answered d hd
  rw [hs] at h3
  rcases answered_sent h3 with ⟨i, k, r, c, a1, a2, a3, a4, a5, a6, a7⟩ | ⟨i, r, a1, a2, a3, a4, a5, a6⟩
  · exact absurd ⟨i, k, r, c, a4, a6, a1, a2, a3, h2 ▸ a5, a7⟩ hn
  · exact ⟨i, ⟨⟨a1, a2⟩, r, a3, a4, a5⟩, lost h.inv ht hd a1 a2 a3 a4 a5 a6⟩

/-- **C75.** As long as fewer than ten calls of `SendMessage` fail between two commits although the transaction was let in, every message that counts as sent was executed. -/
theorem C75_sent (h : Works ps dev own chain b) (ht : Treats own chain b.log)
    (few : ∀ (i : Nat) (as : List Attempt), as.Nodup → (∀ a ∈ as, a ∈ b.failed ∧ LetIn own chain (sinceCommit (b.log.take i)) a) → as.length < 10)
    {d : Done} (hd : d ∈ b.done) (hs : d.verdict = .sent) : Executed own b.log d := by
  by_contra hn
  obtain ⟨i, _, as, h1, h2, h3⟩ := C75_lost h ht hd hs hn
  have := few i as h1 h3
  omega

/-! ## Concrete runs -/

namespace Demo
open Shutter.App.Demo (k pk req)

def dchain : Bytes := Shutter.App.Demo.chain

def run (b : Box) : List Ev → Option Box
  | [] => some b
  | ev :: evs => (b.step Shutter.App.Demo.ps (k 1) dchain ev).bind (fun b' => run b' evs)

def Ok : Ev → Prop
  | .call o _ => o = idOrders
  | _ => True

theorem works_run {b b' : Box} {evs : List Ev} (hb : Works Shutter.App.Demo.ps false (k 1) dchain b) (ho : ∀ ev ∈ evs, Ok ev) (h : run b evs = some b') :
    Works Shutter.App.Demo.ps false (k 1) dchain b' := by
  induction evs generalizing b with
  | nil => simp [run] at h; exact h ▸ hb
  | cons ev evs ih =>
    simp only [run, Option.bind_eq_some_iff] at h
    obtain ⟨b1, h1, h2⟩ := h
    refine ih (.step ev hb (fun o op e => ?_) h1) (fun x hx => ho x (List.mem_cons_of_mem _ hx)) h2
    have := ho ev (by simp)
    subst e
    rw [show o = idOrders from this]
    exact idOrders_lawful

def call (op : Op) : Ev := .call idOrders op
def checkIn : Msg := .checkIn (pk 1) [5]
def vote : Msg := .batchConfig Shutter.App.Demo.cfg1
def check (n : Nat) (m : Msg) : Ev := call (.checkTx (some (k 1, ⟨m, dchain, n⟩)))
def deliver (n : Nat) (m : Msg) : Ev := call (.deliverTx (some (k 1, ⟨m, dchain, n⟩)))

/-- The first attempt for the check-in fails before the transaction gets to the node, the second one is interrupted by a crash; then it is executed by the third one. The next message,
the same again, is refused by the application. The vote is executed. -/
def good : List Ev :=
  [call (.initChain req), .add checkIn, .add checkIn, .try 1, .fail, .try 2, .restart, .try 3, check 3 checkIn, .add vote, deliver 3 checkIn, call (.endBlock 1), call .commit, .answer,
   .try 4, check 4 checkIn, deliver 4 checkIn, call (.endBlock 2), call .commit, .answer, .try 5, check 5 vote, deliver 5 vote, call (.endBlock 3), call .commit, .answer]

/-- Ten attempts for the check-in get into the mempool, and time out. The eleventh is refused by `CheckTx`; so is the vote. -/
def bad : List Ev :=
  [call (.initChain req), .add checkIn, .add vote] ++ (List.range 10).flatMap (fun n => [.try n, check n checkIn, .fail]) ++
  [.try 10, check 10 checkIn, .answer, .try 11, check 11 vote, .answer, deliver 0 checkIn, call (.endBlock 1), call .commit]

def goodBox : Box := (run (Box.new false) good).getD (Box.new false)
def badBox : Box := (run (Box.new false) bad).getD (Box.new false)

theorem some_getD {x : Option Box} {y : Box} (h : x.isSome = true) : x = some (x.getD y) := by
  cases x with
  | none => cases h
  | some a => rfl

theorem good_works : Works Shutter.App.Demo.ps false (k 1) dchain goodBox :=
  works_run .start (by simp [good, call, check, deliver, Ok]) (some_getD (by decide +kernel))

theorem bad_works : Works Shutter.App.Demo.ps false (k 1) dchain badBox :=
  works_run .start (by simp [bad, call, check, deliver, Ok, List.range, List.range.loop]) (some_getD (by decide +kernel))

/-- `Treats`, as a program -/
def treats (own : Addr) (ch : Bytes) (log : List Rec) : Bool :=
  log.all (fun r => match opTx r.op with
    | some (a, _) => decide (a ≠ own) || (decide (r.before.chainID = ch) && r.before.configs.any (fun c => c.keypers.contains own))
    | none => true) &&
  (List.range log.length).all (fun i => match log[i]? with
    | some r => match r.op, r.resp with
      | .deliverTx (some (a, tx)), _ => decide (a ≠ own) || (List.range i).any (fun j => match log[j]? with
        | some r' => match r'.op, r'.resp with
          | .checkTx (some (a', tx')), .checkTx true => decide (a' = own ∧ tx' = tx)
          | _, _ => false
        | none => false)
      | .checkTx (some (a, tx)), .checkTx false => decide (a ≠ own) || (List.range log.length).all (fun j => decide (j ≤ i) || match log[j]? with
        | some r' => match opTx r'.op with
          | some x => decide (x ≠ (own, tx))
          | none => true
        | none => true)
      | _, _ => true
    | none => true)

theorem treats_sound {own : Addr} {ch : Bytes} {log : List Rec} (h : treats own ch log = true) : Treats own ch log := by
  unfold treats at h
  rw [Bool.and_eq_true, List.all_eq_true, List.all_eq_true] at h
  obtain ⟨h1, h2⟩ := h
  have hlt : ∀ {i : Nat} {x : Rec}, log[i]? = some x → i < log.length := fun h => (List.getElem?_eq_some_iff.1 h).1
  have both : ∀ r ∈ log, ∀ tx, opTx r.op = some (own, tx) → r.before.chainID = ch ∧ ∃ c ∈ r.before.configs, own ∈ c.keypers := by
    intro r hr tx ho
    have := h1 r hr
    rw [ho] at this
    simpa using this
  refine ⟨fun r hr tx ho => (both r hr tx ho).1, fun r hr tx ho => (both r hr tx ho).2, ?_, ?_⟩
  · intro i r tx hi ho
    have := h2 i (List.mem_range.2 (hlt hi))
    rw [hi] at this
    simp only [ho] at this
    simp only [ne_eq, not_true_eq_false, decide_false, Bool.false_or, List.any_eq_true, List.mem_range] at this
    obtain ⟨j, j1, j2⟩ := this
    split at j2
    · next r' hr' =>
      split at j2
      · next a' tx' e1 e2 =>
        simp only [decide_eq_true_eq] at j2
        obtain ⟨rfl, rfl⟩ := j2
        exact ⟨j, r', j1, hr', e1, e2⟩
      · cases j2
    · cases j2
  · intro i j r r' tx hi ho hresp _ hij hj e
    have := h2 i (List.mem_range.2 (hlt hi))
    rw [hi] at this
    simp only [ho, hresp] at this
    simp only [ne_eq, not_true_eq_false, decide_false, Bool.false_or, List.all_eq_true, List.mem_range] at this
    have := this j (hlt hj)
    rw [hj] at this
    simp only [e] at this
    simp at this
    omega

/-- The hypotheses of the theorems are met: the messages are sent, given up, sent, in this order, after two failed attempts; the first and the third are executed. -/
theorem C75_example : Works Shutter.App.Demo.ps false (k 1) dchain goodBox ∧ Treats (k 1) dchain goodBox.log ∧ goodBox.failed.length = 2 ∧
    goodBox.done.map (fun d => (d.msg, d.verdict)) = [(checkIn, .sent), (checkIn, .gaveUp), (vote, .sent)] ∧ goodBox.queue = [] ∧
    (∀ (i : Nat) (as : List Attempt), as.Nodup → (∀ a ∈ as, a ∈ goodBox.failed ∧ LetIn (k 1) dchain (sinceCommit (goodBox.log.take i)) a) → as.length < 10) ∧
    ∀ d ∈ goodBox.done, d.verdict = .sent → Executed (k 1) goodBox.log d := by
  have h2 : Treats (k 1) dchain goodBox.log := treats_sound (by decide +kernel)
  have h3 : goodBox.failed.length = 2 := by decide +kernel
  have few : ∀ (i : Nat) (as : List Attempt), as.Nodup → (∀ a ∈ as, a ∈ goodBox.failed ∧ LetIn (k 1) dchain (sinceCommit (goodBox.log.take i)) a) → as.length < 10 := by
    intro i as nd hall
    have : as.length ≤ goodBox.failed.length := (List.Nodup.subperm nd (fun a ha => (hall a ha).1)).length_le
    omega
  exact ⟨good_works, h2, h3, by decide +kernel, by decide +kernel, few, fun d hd hs => C75_sent good_works h2 few hd hs⟩

/-- A message that is lost: after ten time outs, both messages count as sent, and the vote is never executed. -/
theorem C75_lost_counterexample : Works Shutter.App.Demo.ps false (k 1) dchain badBox ∧ Treats (k 1) dchain badBox.log ∧ badBox.failed.length = 10 ∧
    badBox.done.map (fun d => (d.msg, d.verdict)) = [(checkIn, .sent), (vote, .sent)] ∧ badBox.queue = [] ∧ badBox.running = none ∧
    ∀ r ∈ badBox.log, ¬ r.Accepts (k 1) vote := by
  refine ⟨bad_works, treats_sound (by decide +kernel), by decide +kernel, by decide +kernel, by decide +kernel, by decide +kernel, ?_⟩
  rintro r hr ⟨mw, e, ho, _⟩
  have h : badBox.log.all (fun r => match r.op with
    | .deliverTx (some (_, m)) => decide (m.msg ≠ vote)
    | _ => true) = true := by decide +kernel
  have := List.all_eq_true.1 h r hr
  rw [ho] at this
  simp [e] at this

end Demo

end Shutter.Sender.Props
