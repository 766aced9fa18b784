import Verif.Proofs.DemoHonest
import Verif.Proofs.AppDemo
import Verif.Spec.Net

/-! # The keypers of `DemoHonest`, with the application -/

namespace Shutter.Net.Demo
open Shutter.App Shutter.Events Shutter.Events.Props Shutter.Observe Shutter.Decide Shutter.Decide.Spec Shutter.Decide.Props Shutter.Crypto
open Shutter.Decide.Props.HonestDemo (kC cxOf rounds)
open Shutter.App.Demo (ps tx)

/-! ## Checks for the hypotheses -/

/-- All ways to split a list at an element. -/
def splits {α : Type} : List α → List (List α × α × List α)
  | [] => []
  | x :: l => ([], x, l) :: (splits l).map (fun p => (x :: p.1, p.2.1, p.2.2))

theorem mem_splits {α : Type} {l pre post : List α} {r : α} : (pre, r, post) ∈ splits l ↔ l = pre ++ r :: post := by
  induction l generalizing pre with
  | nil => simp [splits]
  | cons x l ih =>
    simp only [splits, List.mem_cons, List.mem_map, Prod.mk.injEq]
    constructor
    · rintro (⟨rfl, rfl, rfl⟩ | ⟨⟨a, b, c⟩, h, rfl, rfl, rfl⟩)
      · rfl
      · rw [ih.1 h]; rfl
    · intro h
      cases pre with
      | nil => left; simp only [List.nil_append, List.cons.injEq] at h; exact ⟨rfl, h.1.symm, h.2.symm⟩
      | cons y pre =>
        right
        simp only [List.cons_append, List.cons.injEq] at h
        exact ⟨(pre, r, post), ih.2 h.2, by rw [h.1], rfl, rfl⟩

/-- Signer, message and nonce of a delivered transaction. -/
def delivered (r : Rec) : Option (Addr × MessageWithNonce) :=
  match r.op with
  | .deliverTx (some x) => some x
  | _ => none

theorem delivers_iff {r : Rec} {a : Addr} {m : MessageWithNonce} : r.Delivers a m ↔ delivered r = some (a, m) := by
  unfold Rec.Delivers delivered
  constructor
  · intro h; rw [h]
  · intro h
    split at h
    · next x hx => rw [hx]; simp only [Option.some.injEq] at h; rw [h]
    · cases h

def saneOk (m : Msg) : Bool :=
  match m with
  | .polyCommitment e _ => decide (e < 2 ^ 64)
  | .batchConfig m => decide (m.startBatchIndex < 2 ^ 64) && decide (m.threshold < 2 ^ 64) && decide (m.configIndex < 2 ^ 64)
  | .checkIn _ _ => true
  | .polyEval e _ _ => decide (e < 2 ^ 64)
  | .accusation e _ => decide (e < 2 ^ 64)
  | .apology e _ _ => decide (e < 2 ^ 64)
  | .epochSecretKeyShare e ep _ => decide (e < 2 ^ 64) && decide (ep < 2 ^ 64)
  | .decryptionSignature b _ => decide (b < 2 ^ 64)
  | .eonStartVote b => decide (b < 2 ^ 64)
  | .batchConfigStarted i => decide (i < 2 ^ 64)
  | _ => false

theorem sane_of {log : List Rec} (h : log.all (fun r => match delivered r with
    | some (a, m) => decide (a.length = 20) && saneOk m.msg
    | none => true) = true) : Sane log := by
  intro r hr a m hd
  have := List.all_eq_true.1 h r hr
  rw [delivers_iff.1 hd] at this
  simp only [Bool.and_eq_true, decide_eq_true_eq] at this
  refine ⟨this.1, ?_⟩
  have h2 := this.2
  unfold saneOk at h2
  split at h2 <;> rename_i heq <;> simp only [Bool.and_eq_true, decide_eq_true_eq, reduceCtorEq] at h2 <;> rw [heq]
  · exact h2
  · exact ⟨h2.1.1, h2.1.2, h2.2⟩
  · exact trivial
  · exact h2
  · exact h2
  · exact h2
  · exact h2
  · exact h2
  · exact h2
  · exact h2

def genuineOk (w : Wire Zq Zq) (log : List Rec) (own : Addr) (e : Nat) (rs : List (Round Zq Zq)) : Bool :=
  (splits log).all (fun p => match delivered p.2.1 with
    | some (a, m) => decide (a ≠ own) || decide (dkgEon m.msg ≠ some e) ||
        rs.any (fun x => decide (x.next ≤ heightAfter p.1) && x.sent.any (fun act => decide (message w act = some m.msg)))
    | none => true)

theorem genuine_of {w : Wire Zq Zq} {log : List Rec} {own : Addr} {e : Nat} {rs : List (Round Zq Zq)} (h : genuineOk w log own e rs = true) :
    Genuine w log own e rs := by
  intro pre r post m hl hd he
  have := List.all_eq_true.1 h _ (mem_splits.2 hl)
  simp only [delivers_iff.1 hd, ne_eq, he, not_true_eq_false, decide_false, Bool.false_or, List.any_eq_true, Bool.and_eq_true,
    decide_eq_true_eq] at this
  obtain ⟨x, hx, h1, act, ha, hm⟩ := this
  exact ⟨x, hx, act, ha, hm, h1⟩

def inTimeOk (w : Wire Zq Zq) (log : List Rec) (own : Addr) (e : Nat) (L S : Int) (rs : List (Round Zq Zq)) : Bool :=
  rs.all (fun x => x.sent.all (fun act => match message w act with
    | none => true
    | some m => decide (dkgEon m ≠ some e) || (splits log).any (fun p => match delivered p.2.1 with
      | none => false
      | some (a, mw) => decide (a = own) && decide (mw.msg = m) && decide (mw.chainId = p.2.1.before.chainID) &&
          p.1.all (fun r' => match delivered r' with
            | none => true
            | some (a', m') => decide (a' ≠ own) || decide (m'.randomNonce ≠ mw.randomNonce)) &&
          decide ((x.next - S) / L = ((heightAfter p.1 : Int) - S) / L))))

theorem inPhase_iff {L S k h : Int} (hL : 0 < L) : inPhase L S k h = true ↔ (h - S) / L = k := by
  unfold inPhase
  rw [decide_eq_true_eq, Int.ediv_eq_iff_of_pos hL]
  constructor <;> rintro ⟨h1, h2⟩ <;> constructor <;> nlinarith

theorem inTime_of {w : Wire Zq Zq} {log : List Rec} {own : Addr} {e : Nat} {L S : Int} {rs : List (Round Zq Zq)} (hL : 0 < L)
    (h : inTimeOk w log own e L S rs = true) : InTime w log own e L S rs := by
  intro x hx act ha m hm he
  have h1 := List.all_eq_true.1 (List.all_eq_true.1 h x hx) act ha
  simp only [hm, ne_eq, he, not_true_eq_false, decide_false, Bool.false_or, List.any_eq_true] at h1
  obtain ⟨⟨pre, r, post⟩, hp, h2⟩ := h1
  split at h2
  · cases h2
  · next a mw hd =>
    simp only [Bool.and_eq_true, decide_eq_true_eq] at h2
    obtain ⟨⟨⟨⟨rfl, rfl⟩, hc⟩, hn⟩, hk⟩ := h2
    refine ⟨pre, r, post, mem_splits.1 hp, ⟨mw.randomNonce, delivers_iff.2 (by rw [← hc]; exact hd), ?_⟩, ?_⟩
    · intro r' hr' m' hd'
      have := List.all_eq_true.1 hn r' hr'
      rw [delivers_iff.1 hd'] at this
      simpa using this
    · intro k h
      rw [inPhase_iff hL] at h ⊢
      omega

def settledOk (log : List Rec) (e : Nat) : Bool :=
  (splits log).all (fun p => p.2.1.events.all (fun ev => match ev with
    | .eonStarted e' b => decide (e' ≠ e) || p.2.2.all (fun r' => r'.events.all (fun ev' => match ev' with
        | .batchConfig start _ _ _ => decide (b < start)
        | _ => true))
    | _ => true))

theorem settled_of {log : List Rec} {e : Nat} (h : settledOk log e = true) : Settled log e := by
  intro pre r post b hl hev r' hr' start t ks c hev'
  have := List.all_eq_true.1 (List.all_eq_true.1 h _ (mem_splits.2 hl)) _ hev
  simp only [ne_eq, not_true_eq_false, decide_false, Bool.false_or] at this
  simpa using List.all_eq_true.1 (List.all_eq_true.1 this r' hr') _ hev'

/-! ## The run -/

/-- Points as nonempty byte strings. -/
def pointBytes (p : Zq) : Crypto.Bytes := if p.val = 0 then [0] else natBytes p.val

def wire : Wire Zq Zq := ⟨pointBytes, pointBytes, App.Demo.pk 1, [1], zeroAddr⟩

theorem beNat_pointBytes (p : Zq) : beNat (pointBytes p) = p.val := by
  unfold pointBytes
  split
  · next h => rw [h]; decide
  · exact beNat_natBytes _

theorem of_val (p : Zq) : Zq.of p.val = p := by
  cases p with
  | _ v h => simp [Zq.of, Nat.mod_eq_of_lt h]

theorem pointBytes_ne (p : Zq) : pointBytes p ≠ [] := by
  intro h
  have := beNat_pointBytes p
  unfold pointBytes at h
  split at h
  · simp at h
  · next hn =>
    rw [pointBytes, if_neg hn, h] at this
    exact hn (by rw [← this]; rfl)

theorem wire_fit (i : Nat) : Wire.Fit wire ps (cxOf i) := by
  have hg : (cxOf i).gammas = List.map (fun b => Zq.of (beNat b)) := by unfold cxOf; split <;> rfl
  have hs : (cxOf i).share = (fun b => Zq.of (beNat b)) := by unfold cxOf; split <;> rfl
  refine ⟨fun p => ?_, fun l => ?_, fun p => ?_, fun p => ?_⟩
  · simp [ps, wire, pointBytes_ne]
  · rw [hg, List.map_map]
    refine List.map_id'' (fun p => ?_) l
    simp only [Function.comp_apply, wire, beNat_pointBytes, of_val]
  · simp [ps, wire, pointBytes_ne]
  · rw [hs]
    simp only [wire, beNat_pointBytes, of_val]

def config : BatchConfigMsg := ⟨0, [kA, kB, kC], 2, zeroAddr, 1, false, false⟩

/-- The keypers A, B and C of the genesis vote for config number 1 with the same keypers in block 2, which starts eon 1. C never deals, and it
accuses A; somebody else sends a message as well. -/
def ops : List Op :=
  [ .initChain ⟨some ([kA, kB, kC], 2), [(some (App.Demo.pk 9), 10)], App.Demo.chain⟩,
    tx kA 1 (.checkIn (App.Demo.pk 1) [1]), tx kB 1 (.checkIn (App.Demo.pk 2) [2]), .endBlock 1, .commit,
    tx kA 2 (.batchConfig config), tx kB 2 (.batchConfig config), .endBlock 2, .commit,
    tx kA 3 (.polyCommitment 1 [[3], [4]]), tx kA 4 (.polyEval 1 [kB] [[11]]), tx kB 3 (.polyCommitment 1 [[5], [6]]), .endBlock 3, .commit,
    tx kB 4 (.polyEval 1 [kA] [[11]]), tx (App.Demo.k 9) 4 (.polyEval 1 [kA] [[11]]), .endBlock 4, .commit,
    tx kC 1 (.accusation 1 [kA]), .endBlock 5, .commit,
    tx kA 5 (.accusation 1 [kC]), tx kB 5 (.accusation 1 [kC]), .endBlock 6, .commit,
    .endBlock 7, .commit, .endBlock 8, .commit,
    tx kA 6 (.apology 1 [kC] [[15]]), .endBlock 9, .commit, .endBlock 10, .commit ]

def log : List Rec := App.Demo.logOf false ops

theorem exec : Exec ps false log (App.Demo.stateOf false ops) := App.Demo.exec_of _ _ (by decide +kernel)

def lives (i : Nat) : Option (List (Round Zq Zq) × Observe.Shutter × Decide.State Zq Zq) :=
  lifeLog (cxOf i) demoCodecs (appChain demoCodecs log) demoMain rounds

def check (i : Nat) (r : List (Round Zq Zq) × Observe.Shutter × Decide.State Zq Zq) : List Bool :=
  [genuineOk wire log (cxOf i).own 1 r.1, inTimeOk wire log (cxOf i).own 1 3 2 r.1, decide (11 ≤ r.2.2.syncHeight),
    (firstIn 2 3 0 r.1).isSome, (firstIn 2 3 1 r.1).isSome, (firstIn 2 3 2 r.1).isSome]

theorem check_A : (lives 0).map (check 0) = some [true, true, true, true, true, true] := by decide +kernel
theorem check_B : (lives 1).map (check 1) = some [true, true, true, true, true, true] := by decide +kernel

theorem check_of {i : Nat} (hi : i ∈ ({0, 1} : Finset Nat)) : (lives i).map (check i) = some [true, true, true, true, true, true] := by
  simp only [Finset.mem_insert, Finset.mem_singleton] at hi
  rcases hi with rfl | rfl
  · exact check_A
  · exact check_B

def batchConfig : BatchConfig := ⟨0, [kA, kB, kC], 2, zeroAddr, 1, false, false⟩

theorem own_mem (i : Nat) : (cxOf i).own ∈ batchConfig.keypers := by
  unfold cxOf
  split
  · exact List.mem_cons_self
  · exact List.mem_cons_of_mem _ List.mem_cons_self

theorem participates {i : Nat} (hi : i ∈ ({0, 1} : Finset Nat)) {r : List (Round Zq Zq) × Observe.Shutter × Decide.State Zq Zq}
    (hr : lives i = some r) : Participates ps wire (cxOf i) demoCodecs log 1 batchConfig 2 r.1 r.2.1 r.2.2 := by
  have hx := check_of hi
  rw [hr] at hx
  simp only [Option.map_some, Option.some.injEq, check, List.cons.injEq, and_true, decide_eq_true_eq] at hx
  obtain ⟨h1, h2, h3, h4, h5, h6⟩ := hx
  have hL : (cxOf i).phaseLength = 3 := by unfold cxOf; split <;> rfl
  refine ⟨wire_fit i, lifeLog_lived hr, own_mem i, ?_, ?_, ?_, genuine_of h1, ?_⟩
  · rw [hL]; exact h3
  · intro P hP
    unfold cxOf at hP
    split at hP <;> · cases hP; rfl
  · intro k hk
    rw [hL, ← Option.isSome_iff_ne_none]
    simp only [List.mem_cons, List.not_mem_nil, or_false] at hk
    rcases hk with rfl | rfl | rfl
    · exact h4
    · exact h5
    · exact h6
  · rw [hL]; exact inTime_of (by decide) h2

theorem sane : Sane log := sane_of (by decide +kernel)
theorem settled : Settled log 1 := settled_of (by decide +kernel)

theorem long : 6 < log.length := by decide +kernel

theorem announced : Announced log 1 0 batchConfig 2 := by
  refine ⟨log.take 6, log[6]'long, log.drop 7, App.Demo.split_log (by simp [long]), by decide +kernel, ⟨⟨0, by decide +kernel⟩, Or.inl ⟨kB, config, ?_, ?_⟩⟩,
    by decide +kernel⟩
  · exact ⟨⟨.batchConfig config, App.Demo.chain, 2⟩, rfl, delivers_iff.2 (by decide +kernel), [.batchConfig 0 2 [kA, kB, kC] 1, .eonStarted 1 0], by decide +kernel⟩
  · exact ⟨rfl, rfl, by decide, by decide, rfl, ⟨rfl, rfl⟩, rfl, rfl, rfl⟩

theorem fit : Codecs.Fit ps demoCodecs := ⟨demoCodecs_lawful, demoAgree, rfl⟩

end Shutter.Net.Demo
