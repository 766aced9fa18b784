import Verif.Proofs.DemoNet
import Verif.Spec.Restart

/-! # A key generation that fails -/

namespace Shutter.Net.RestartDemo
open Shutter.App Shutter.Events Shutter.Events.Props Shutter.Observe Shutter.Decide Shutter.Decide.Spec Shutter.Decide.Props Shutter.Crypto
open Shutter.Decide.Props.HonestDemo (kC cxOf rounds)
open Shutter.App.Demo (ps tx)
open Shutter.Net.Demo (splits mem_splits delivered delivers_iff wire config batchConfig)

/-- As in `DemoNet`, but no message of the key generation is delivered; C votes for an eon at batch 7 instead. In block 11 the votes of A and B
for starting again arrive. -/
def ops : List Op :=
  [ .initChain ⟨some ([kA, kB, kC], 2), [(some (App.Demo.pk 9), 10)], App.Demo.chain⟩,
    tx kA 1 (.checkIn (App.Demo.pk 1) [1]), tx kB 1 (.checkIn (App.Demo.pk 2) [2]), .endBlock 1, .commit,
    tx kA 2 (.batchConfig config), tx kB 2 (.batchConfig config), .endBlock 2, .commit,
    .endBlock 3, .commit, .endBlock 4, .commit, .endBlock 5, .commit,
    tx kC 1 (.eonStartVote 7), .endBlock 6, .commit,
    .endBlock 7, .commit, .endBlock 8, .commit, .endBlock 9, .commit, .endBlock 10, .commit,
    tx kA 3 (.eonStartVote 0), tx kB 3 (.eonStartVote 0), .endBlock 11, .commit ]

def log : List Rec := App.Demo.logOf false ops

theorem exec : Exec ps false log (App.Demo.stateOf false ops) := App.Demo.exec_of _ _ (by decide +kernel)

def lives (i : Nat) : Option (List (Round Zq Zq) × Observe.Shutter × Decide.State Zq Zq) :=
  lifeLog (cxOf i) demoCodecs (appChain demoCodecs log) demoMain rounds

/-- Whether an accepted eon start vote of `a` was cast by a call, and for which batch. -/
def voted (r : Rec) : Option (Addr × Nat) :=
  match delivered r, r.resp with
  | some (a, ⟨.eonStartVote b, _, _⟩), .deliverTx ⟨true, _⟩ => some (a, b)
  | _, _ => none

theorem accepts_voted {r : Rec} {a : Addr} {b : Nat} (h : r.Accepts a (.eonStartVote b)) : voted r = some (a, b) := by
  obtain ⟨⟨msg, ci, n⟩, rfl, hd, evs, hr⟩ := h
  unfold voted
  rw [delivers_iff.1 hd, hr]

def announces (b : Nat) : Event → Bool
  | .eonStarted _ b' => b' == b
  | _ => false

def faithfulOk (log : List Rec) (a : Addr) : Bool :=
  (splits log).all (fun p => match voted p.2.1 with
    | some (a', b) => decide (a' ≠ a) || p.1.any (fun r' => r'.events.any (announces b))
    | none => true)

theorem faithful_of {log : List Rec} {a : Addr} (h : faithfulOk log a = true) : Faithful log a := by
  intro pre r post b hl hacc
  have h1 := List.all_eq_true.1 h _ (mem_splits.2 hl)
  rw [show voted ((pre, r, post) : List Rec × Rec × List Rec).2.1 = some (a, b) from accepts_voted hacc] at h1
  simp only [ne_eq, not_true_eq_false, decide_false, Bool.false_or, List.any_eq_true] at h1
  obtain ⟨r', hr', ev, hev, ha⟩ := h1
  unfold announces at ha
  split at ha
  · next e b' => 
    simp only [beq_iff_eq] at ha
    subst ha
    exact ⟨r', hr', e, hev⟩
  · cases ha

/-- Every config the application has had is without keypers, or has the keypers A, B and C and the threshold 2. -/
def configsOk (log : List Rec) : Bool :=
  log.all (fun r => r.before.configs.all (fun c => decide (c.keypers = []) || (decide (c.keypers = [kA, kB, kC]) && decide (c.threshold = 2))))

theorem majority : HonestMajority log := by
  have h : configsOk log = true := by decide +kernel
  intro r hr c hc hne
  have := List.all_eq_true.1 (List.all_eq_true.1 h r hr) c hc
  simp only [hne, decide_false, Bool.false_or, Bool.and_eq_true, decide_eq_true_eq] at this
  obtain ⟨h1, h2⟩ := this
  refine ⟨by rw [h2]; decide, {kA, kB}, ?_, by rw [h1, h2]; decide⟩
  intro a ha
  simp only [Finset.mem_insert, Finset.mem_singleton] at ha
  rcases ha with rfl | rfl
  · exact ⟨by rw [h1]; decide, faithful_of (by decide +kernel)⟩
  · exact ⟨by rw [h1]; decide, faithful_of (by decide +kernel)⟩

theorem sane : Sane log := Net.Demo.sane_of (by decide +kernel)
theorem settled : Settled log 1 := Net.Demo.settled_of (by decide +kernel)

theorem long : 6 < log.length := by decide +kernel

theorem announced : Announced log 1 0 batchConfig 2 := by
  refine ⟨log.take 6, log[6]'long, log.drop 7, App.Demo.split_log (by simp [long]), by decide +kernel, ⟨⟨0, by decide +kernel⟩, Or.inl ⟨kB, config, ?_, ?_⟩⟩,
    by decide +kernel⟩
  · exact ⟨⟨.batchConfig config, App.Demo.chain, 2⟩, rfl, delivers_iff.2 (by decide +kernel), [.batchConfig 0 2 [kA, kB, kC] 1, .eonStarted 1 0], by decide +kernel⟩
  · exact ⟨rfl, rfl, by decide, by decide, rfl, ⟨rfl, rfl⟩, rfl, rfl, rfl⟩

def genuineOk (w : Wire Zq Zq) (log : List Rec) (own : Addr) (rs : List (Round Zq Zq)) : Bool :=
  (splits log).all (fun p => match delivered p.2.1 with
    | some (a, ⟨.eonStartVote b, _, _⟩) => decide (a ≠ own) ||
        rs.any (fun x => decide (x.next ≤ heightAfter p.1) && x.sent.any (fun act => decide (message w act = some (.eonStartVote b))))
    | _ => true)

theorem genuine_of {w : Wire Zq Zq} {log : List Rec} {own : Addr} {rs : List (Round Zq Zq)} (h : genuineOk w log own rs = true) :
    GenuineEonVotes w log own rs := by
  rintro pre r post ⟨msg, ci, n⟩ b hl hd rfl
  have := List.all_eq_true.1 h _ (mem_splits.2 hl)
  simp only [delivers_iff.1 hd, ne_eq, not_true_eq_false, decide_false, Bool.false_or, List.any_eq_true, Bool.and_eq_true,
    decide_eq_true_eq] at this
  obtain ⟨x, hx, h1, act, ha, hm⟩ := this
  exact ⟨x, hx, act, ha, hm, h1⟩

def onlyVote (l : List (Int × Action Zq Zq)) : Bool :=
  match l with
  | [(n, .eonStartVote b)] => decide (n = 11) && decide (b = 0)
  | _ => false

theorem onlyVote_eq {l : List (Int × Action Zq Zq)} (h : onlyVote l = true) : l = [(11, .eonStartVote 0)] := by
  unfold onlyVote at h
  split at h
  · simp only [Bool.and_eq_true, decide_eq_true_eq] at h
    rw [h.1, h.2]
  · cases h

/-- What is to be checked of a life: the votes are genuine, the key generation is over, and the only verdict is a vote for batch 0 in the
round before block 11. -/
def check (i : Nat) (r : List (Round Zq Zq) × Observe.Shutter × Decide.State Zq Zq) : List Bool :=
  [genuineOk wire log (cxOf i).own r.1, decide (11 ≤ r.2.2.syncHeight), onlyVote (said verdicts r.1)]

theorem check_A : (lives 0).map (check 0) = some [true, true, true] := by decide +kernel
theorem check_B : (lives 1).map (check 1) = some [true, true, true] := by decide +kernel

theorem check_of {i : Nat} (hi : i ∈ ({0, 1} : Finset Nat)) : (lives i).map (check i) = some [true, true, true] := by
  simp only [Finset.mem_insert, Finset.mem_singleton] at hi
  rcases hi with rfl | rfl
  · exact check_A
  · exact check_B

theorem finishes {i : Nat} (hi : i ∈ ({0, 1} : Finset Nat)) {r : List (Round Zq Zq) × Observe.Shutter × Decide.State Zq Zq}
    (hr : lives i = some r) : Finishes (cxOf i) demoCodecs log batchConfig 2 r.1 r.2.1 r.2.2 ∧ GenuineEonVotes wire log (cxOf i).own r.1 ∧
      said verdicts r.1 = [(11, .eonStartVote 0)] := by
  have hx := check_of hi
  rw [hr] at hx
  simp only [Option.map_some, Option.some.injEq, check, List.cons.injEq, and_true, decide_eq_true_eq] at hx
  obtain ⟨h1, h2, h3⟩ := hx
  have hL : (cxOf i).phaseLength = 3 := by unfold cxOf; split <;> rfl
  exact ⟨⟨lifeLog_lived hr, Net.Demo.own_mem i, by rw [hL]; decide, by rw [hL]; exact h2⟩, genuine_of h1, onlyVote_eq h3⟩

/-- The vote of a keyper arrives in block 11. -/
theorem arrives {i : Nat} (hi : i ∈ ({0, 1} : Finset Nat)) : ∃ pre r post, log = pre ++ r :: post ∧
    ActArrives wire pre r (cxOf i).own (.eonStartVote 0) ∧ (11 : Int) ≤ heightAfter pre := by
  simp only [Finset.mem_insert, Finset.mem_singleton] at hi
  have key : ∀ (own : Addr) (n : Nat) (hn : n < log.length), delivered (log[n]'hn) = some (own, ⟨.eonStartVote 0, App.Demo.chain, 3⟩) →
      (log[n]'hn).before.chainID = App.Demo.chain → heightAfter (log.take n) = 11 →
      (log.take n).all (fun r' => match delivered r' with
            | none => true
            | some (a', m') => decide (a' ≠ own) || decide (m'.randomNonce ≠ 3)) = true →
      ∃ pre r post, log = pre ++ r :: post ∧ ActArrives wire pre r own (.eonStartVote 0) ∧ (11 : Int) ≤ heightAfter pre := by
    intro own n hn h1 h2 h3 h4
    refine ⟨log.take n, log[n]'hn, log.drop (n + 1), App.Demo.split_log (by simp [hn]), ⟨_, rfl, 3, ?_, ?_⟩, by rw [h3]; decide⟩
    · rw [h2]; exact delivers_iff.2 h1
    · intro r' hr' m' hd'
      have := List.all_eq_true.1 h4 r' hr'
      rw [delivers_iff.1 hd'] at this
      simpa using this
  rcases hi with rfl | rfl
  · exact key kA 26 (by decide +kernel) (by decide +kernel) (by decide +kernel) (by decide +kernel) (by decide +kernel)
  · exact key kB 27 (by decide +kernel) (by decide +kernel) (by decide +kernel) (by decide +kernel) (by decide +kernel)

end Shutter.Net.RestartDemo
