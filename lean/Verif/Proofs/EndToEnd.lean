import Verif.Spec.EndToEnd
import Verif.Props.Sign
import Verif.Props.Keys
import Verif.Props.Broadcast

/-! # The way of a transaction through the whole system -/

namespace Shutter.Net
open Shutter.App Shutter.Crypto Shutter.Dkg Shutter.Observe Shutter.Main Shutter.Decide Shutter.Decide.Spec Shutter.Decide.Props
open Shutter.Events (Codecs)
open Shutter.Sol (World NoneTakenBack zeroHash)

variable {G1 G2 GT R : Type} [AddCommGroup G1] [AddCommGroup G2] [DecidableEq G2] [DecidableEq GT]
variable {cx : Cfg G1 G2 GT R} {codecs : Codecs} {chain : Observe.Chain} {E : Sol.Env} {fd : Nat}
variable {s : Observe.Shutter} {st : Decide.State G1 G2} {mc : MainChain} {hist : Nat → World} {log : List (Moment G1 G2)}

theorem joint_watch (c : JointLife cx codecs chain E fd s st mc hist log) : Watch cx codecs chain E fd s st mc hist log := by
  induction c with
  | init h => exact .init h
  | round _ h1 h2 h3 h4 h5 h6 ih =>
    refine .round ih h1 (fun f hf => ?_) h3 h4 h5 h6
    obtain ⟨_, h⟩ := filtersAt_runs h1 h2 f hf
    exact ⟨h.1, h.2.2⟩
  | @restart s st mc hist log _ hn ih =>
    have : loadState s st = { loadState s st with pendingHalfStep := if false then none else st.pendingHalfStep } := by
      unfold loadState
      rw [hn]
      rfl
    rw [this]
    exact .restart false ih

omit [AddCommGroup G1] [AddCommGroup G2] [DecidableEq G2] [DecidableEq GT] in
theorem filtersAt_mono {P Q : Filter → Int → Prop} {codecs : Codecs} {chain : Observe.Chain} (h : ∀ f c, P f c → Q f c) : ∀ {ys : List LoopStep} {s : Observe.Shutter},
    FiltersAt codecs chain P s ys → FiltersAt codecs chain Q s ys := by
  intro ys
  induction ys with
  | nil => intro s hf; trivial
  | cons y ys ih =>
    intro s hf
    exact ⟨fun f hy => h _ _ (hf.1 f hy), fun s1 h1 => ih (hf.2 s1 h1)⟩

theorem joint_attentive (c : JointLife cx codecs chain E fd s st mc hist log) : Attentive cx codecs chain (roundsOf cx log) s st := by
  induction c with
  | init h => exact .init
  | round _ h1 h2 h3 h4 h5 h6 ih =>
    unfold roundsOf
    rw [List.map_append]
    exact .round ih h1 (filtersAt_mono (fun f c h => ⟨h.1, h.2.1⟩) h2) h6
  | restart _ hn ih => exact .restart ih hn

/-- The life up to a round. -/
theorem joint_at (c : JointLife cx codecs chain E fd s st mc hist log) {m : Moment G1 G2} (hm : m ∈ log) :
    ∃ hist' log', JointLife cx codecs chain E fd m.view m.after m.main hist' log' := by
  induction c with
  | init _ => cases hm
  | round c h1 h2 h3 h4 h5 h6 ih =>
    rcases List.mem_append.1 hm with hm | hm
    · exact ih hm
    · rw [List.mem_singleton] at hm
      subst hm
      exact ⟨_, _, .round c h1 h2 h3 h4 h5 h6⟩
  | restart _ _ ih => exact ih hm

theorem joint_reach (c : JointLife cx codecs chain E fd s st mc hist log) : Reach cx codecs chain s st := lived_reach (attentive_lived (joint_attentive c))

/-- A key the keyper has, it got in some round. -/
theorem joint_gets (c : JointLife cx codecs chain E fd s st mc hist log) {e n : Nat} {key : G1} (hk : HasEonKey st e n key) : ∃ m ∈ log, ∃ key', m.Gets e n key' := by
  classical
  induction c generalizing key with
  | init _ => obtain ⟨_, h, _⟩ := hk; cases h
  | @round s s' st st' mc mc' hist hist' log ys keys acts c h1 h2 h3 h4 h5 h6 ih =>
    by_cases old : ∃ key', HasEonKey st e n key'
    · obtain ⟨key', h⟩ := old
      obtain ⟨m, hm, k, g⟩ := ih h
      exact ⟨m, List.mem_append_left _ hm, k, g⟩
    · exact ⟨⟨s', st, mc', st', acts⟩, by simp, key, hk, fun key' h => old ⟨key', h⟩⟩
  | restart _ hn ih =>
    refine ih (key := key) ?_
    unfold loadState at hk
    rw [hn] at hk
    exact hk

/-- Two keypers that look at a batch that is over see the same. -/
theorem same_batch {cx' : Cfg G1 G2 GT R} {fd' : Nat} {s' : Observe.Shutter} {st' : Decide.State G1 G2} {mc' : MainChain} {log' : List (Moment G1 G2)}
    (w : Watch cx codecs chain E fd s st mc hist log) (w' : Watch cx' codecs chain E fd' s' st' mc' hist log') {m m' : Moment G1 G2} (hm : m ∈ log) (hm' : m' ∈ log')
    {n : Nat} (v : (hist m.main.currentBlock).BatchOver n) (v' : (hist m'.main.currentBlock).BatchOver n) :
    (hist m.main.currentBlock).accepted n .cipher = (hist m'.main.currentBlock).accepted n .cipher ∧
    (hist m.main.currentBlock).batcher.hashes n .cipher = (hist m'.main.currentBlock).batcher.hashes n .cipher ∧
    ∀ bc start stop timeout, (hist m.main.currentBlock).HasBatch n bc start stop timeout → (hist m'.main.currentBlock).HasBatch n bc start stop timeout := by
  have o1 := ((watch_observed w).2 _ hm).1
  have o2 := ((watch_observed w').2 _ hm').1
  rcases le_total m.main.currentBlock m'.main.currentBlock with hl | hl
  · have pl := o2.chain.plater hl o2.current
    have inv := (o2.chain.reach o1.current).preach.inv
    have := Sol.accepted_later inv pl v .cipher
    refine ⟨this.1.symm, this.2.1.symm, fun bc start stop timeout hb => ?_⟩
    obtain ⟨b1, s1, e1, t1, hB, hle⟩ := v
    obtain ⟨rfl, rfl, rfl, rfl⟩ := Sol.HasBatch.unique hb hB
    exact Sol.hasBatch_mono inv (Sol.plater_config pl) hB (le_trans (Sol.HasBatch.order hB).1 hle)
  · have pl := o2.chain.plater hl o1.current
    have inv := (o2.chain.reach o2.current).preach.inv
    have := Sol.accepted_later inv pl v' .cipher
    refine ⟨this.1, this.2.1, fun bc start stop timeout hb => ?_⟩
    obtain ⟨b1, s1, e1, t1, hB, hle⟩ := v'
    have := Sol.hasBatch_mono inv (Sol.plater_config pl) hB (le_trans (Sol.HasBatch.order hB).1 hle)
    obtain ⟨rfl, rfl, rfl, rfl⟩ := Sol.HasBatch.unique hb this
    exact hB

omit [AddCommGroup G1] [DecidableEq GT] in
/-- If a keyper saw enough signatures, so does any other keyper that has seen as much of shuttermint. -/
theorem enough_for {cx' : Cfg G1 G2 GT R} {upTo upTo' : Int} {bc : Sol.BatchConfig} {w w' : World} {n : Nat} {key : G1} (same : SameRules cx cx') (hle : upTo' ≤ upTo)
    (hacc : w'.accepted n .cipher = w.accepted n .cipher) (hhash : w'.batcher.hashes n .cipher = w.batcher.hashes n .cipher)
    (h : SignedByEnough cx' codecs chain upTo' w' bc n key) {txs : List Crypto.Bytes} (hd : DecryptedWith cx key (w.accepted n .cipher) txs) :
    EnoughSignatures cx codecs chain upTo bc n (w.batcher.hashes n .cipher) txs := by
  obtain ⟨txs', d, signers, h1, h2⟩ := h
  have htx : txs' = txs := by
    unfold DecryptedWith at d hd
    rw [d, hd, hacc, same.crypto, same.codec, same.marshalKey, same.newSource, same.next]
  subst htx
  refine ⟨signers, h1, fun a ha => ?_⟩
  obtain ⟨g1, ht, sender, sig, g2, g3, g4, g5⟩ := h2 a ha
  refine ⟨g1, ht, sender, sig, le_trans g2 hle, g3, g4, ?_⟩
  rw [← g5, same.goRecover]
  unfold decryptionSignatureHash transactionsHash
  rw [hhash, same.crypto, same.batcher]

omit [AddCommGroup G1] [AddCommGroup G2] [DecidableEq G2] [DecidableEq GT] in
theorem emit_log (w : World) (e : Sol.Event) : (w.emit e).log = w.log ++ [(w.block, e)] := rfl

omit [AddCommGroup G1] [AddCommGroup G2] [DecidableEq G2] [DecidableEq GT] in
theorem calls_log (t : Sol.Address × Crypto.Bytes) : ∀ (txs : List Crypto.Bytes) (w : World),
    (∀ x ∈ w.log, x ∈ (txs.foldl (fun w tx => w.callTarget t tx) w).log) ∧ ∀ tx ∈ txs, Executed (txs.foldl (fun w tx => w.callTarget t tx) w) t.1 t.2 tx := by
  intro txs
  induction txs with
  | nil => intro w; exact ⟨fun _ h => h, by simp⟩
  | cons tx txs ih =>
    intro w
    obtain ⟨h1, h2⟩ := ih (w.callTarget t tx)
    refine ⟨fun x hx => h1 x (by unfold World.callTarget; rw [emit_log]; simp [hx]), fun y hy => ?_⟩
    rcases List.mem_cons.1 hy with rfl | hy
    · exact ⟨w.block, h1 _ (by unfold World.callTarget; rw [emit_log]; simp)⟩
    · exact h2 y hy

omit [AddCommGroup G1] [AddCommGroup G2] [DecidableEq G2] [DecidableEq GT] in
/-- Before the timeout, an accepted execution calls the target with all its transactions. -/
theorem cipher_executes {w w' : World} {own : Sol.Address} {n k : Nat} {hash : Crypto.Bytes} {txs : List Crypto.Bytes}
    (h : w.step E (.executeCipherBatch own n hash txs k []) = some w') {bc : Sol.BatchConfig} {start stop timeout : Nat} (hb : w.HasBatch n bc start stop timeout)
    (early : w.block < timeout) : ∀ tx ∈ txs, Executed w' bc.targetAddress bc.targetFunctionSelector tx := by
  rw [World.step] at h
  obtain ⟨i, h1, h2, h3⟩ := hb
  cases hp : w.cipherPre own n hash txs k with
  | none => rw [hp] at h; cases h
  | some t =>
    have ht : t = .execute bc.targetAddress bc.targetFunctionSelector := by
      simp only [World.cipherPre, Option.bind_eq_bind, Option.bind_eq_some_iff, Sol.require_eq_some, Sol.u64_eq_some] at hp
      obtain ⟨b', ⟨rfl, _⟩, k', _, _, _, _, _, i', g1, bc', g2, a, _, _, _, bounds, g3, hp⟩ := hp
      rw [h1] at g1; cases g1
      rw [h2] at g2; cases g2
      rw [h3] at g3; cases g3
      rw [if_neg (by simp only [ge_iff_le, not_le]; exact early)] at hp
      simp only [Option.bind_eq_some_iff] at hp
      obtain ⟨_, _, _, _, _, _, _, _, _, _, _, _, hp⟩ := hp
      cases hp
      rfl
    rw [hp, ht] at h
    simp only [World.runTargets, World.cipherPost, World.incHalfSteps, Option.bind_eq_bind, Option.bind_eq_some_iff] at h
    obtain ⟨w2, ⟨m, hm, h5⟩, h6⟩ := h
    simp only [Option.some.injEq] at h5 h6
    intro tx htx
    obtain ⟨b, hbb⟩ := (calls_log (bc.targetAddress, bc.targetFunctionSelector) txs w).2 tx htx
    refine ⟨b, ?_⟩
    rw [← h6, emit_log, emit_log, ← h5]
    simp [hbb]

omit [AddCommGroup G1] [AddCommGroup G2] [DecidableEq G2] [DecidableEq GT] in
theorem firstSignature_unique {log : List Rec} {b : Nat} {r r' : Rec} (h : FirstSignature log b r) (h' : FirstSignature log b r') : r = r' := by
  obtain ⟨pre, post, h1, h2, h3⟩ := h
  obtain ⟨pre', post', g1, g2, g3⟩ := h'
  rw [h1] at g1
  rcases List.append_eq_append_iff.1 g1 with ⟨l, rfl, hl⟩ | ⟨l, rfl, hl⟩
  · cases l with
    | nil => simp only [List.nil_append, List.cons.injEq] at hl; exact hl.1
    | cons x l =>
      simp only [List.cons_append, List.cons.injEq] at hl
      exact absurd h2 (g3 r (by rw [hl.1]; simp))
  · cases l with
    | nil => simp only [List.nil_append, List.cons.injEq] at hl; exact hl.1.symm
    | cons x l =>
      simp only [List.cons_append, List.cons.injEq] at hl
      exact absurd g2 (h3 r' (by rw [hl.1]; simp))

omit [AddCommGroup G1] [AddCommGroup G2] [DecidableEq G2] [DecidableEq GT] in
/-- A delivered signature is published, unless an earlier one was. -/
theorem signature_published {ps dev} {log : List Rec} {s : App.State} (h : Exec ps dev log s) (fit : Codecs.Fit ps codecs) (sane : Sane log) (few : s.eonCounter + 1 < 2 ^ 64)
    {pre : List Rec} {r : Rec} {post : List Rec} (hl : log = pre ++ r :: post) {own : Addr} {b : Nat} {sig : Crypto.Bytes} (arr : Arrives pre r own (.decryptionSignature b sig))
    (member : ∀ r ∈ log, isDelivery r.op = true → ∀ c, InForce r.before.configs b c → own ∈ c.keypers) :
    (∃ r' ∈ pre, ∃ sig', .decryptionSignature b own sig' ∈ r'.events) ∨ Published codecs (appChain codecs log) (heightAfter pre) (.decryptionSignature b own sig) := by
  classical
  by_cases first : ∃ r' ∈ pre, ∃ sig', .decryptionSignature b own sig' ∈ r'.events
  · exact .inl first
  right
  push Not at first
  by_cases hs : ∃ r' ∈ pre, r'.Signs b
  · have hE := (h.at hl).1
    obtain ⟨q1, q2⟩ := hE.batchConfigs b
    cases hb : r.before.batchStates b with
    | none => obtain ⟨r', hr', hs⟩ := hs; exact absurd hs (q1 hb r' hr')
    | some bs =>
      obtain ⟨r', f1, f2⟩ := q2 bs hb
      have hr' : r' ∈ log := by
        obtain ⟨p1, p2, hp, _⟩ := f1
        rw [hl, hp]; simp
      exact Props.C74_published h fit sane few hl arr first (c := bs.config) (fun hn => by obtain ⟨x, hx, hs⟩ := hs; exact absurd hs (hn x hx))
        (fun r'' f3 => by rw [← firstSignature_unique f1 f3]; exact f2) (member r' hr' (by
          obtain ⟨p1, p2, hp, ⟨a, sig', hev⟩, _⟩ := f1
          obtain ⟨_, _, mw, _, hop, _⟩ := h.accepted_of_event (pre := p1) (r := r') (post := p2 ++ r :: post) (by rw [hl, hp]; simp) (List.ne_nil_of_mem hev)
          rw [hop]; rfl) _ f2)
  · push Not at hs
    obtain ⟨nonce, del, fresh⟩ := id arr
    obtain ⟨hE, _⟩ := h.at hl
    obtain ⟨o, d, hresp, hd⟩ := h.delivered hl del rfl fresh
    have hnone : r.before.batchStates b = none := by
      cases hb : r.before.batchStates b with
      | none => rfl
      | some bs =>
        obtain ⟨r', ⟨p1, p2, hp, g, _⟩, _⟩ := (hE.batchConfigs b).2 bs hb
        exact absurd g (hs r' (by rw [hp]; simp))
    cases hc : getConfig r.before.configs b with
    | none =>
      have hsame : (withNonce r.before own nonce).batchStates = r.before.batchStates ∧ (withNonce r.before own nonce).configs = r.before.configs := ⟨rfl, rfl⟩
      simp only [deliverMessage, deliverDecryptionSignature, getBatchState, hsame.1, hsame.2, hnone, hc, reduceCtorEq] at hd
    | some c =>
      have hf := getConfig_iff.1 hc
      exact Props.C74_published h fit sane few hl arr first (c := c) (fun _ => hf) (fun r' f => by
        obtain ⟨p1, p2, hp, g, _⟩ := f
        exact absurd g (hs r' (by rw [hp]; simp))) (member r (by rw [hl]; simp) (by rw [del]; rfl) c hf)

end Shutter.Net
