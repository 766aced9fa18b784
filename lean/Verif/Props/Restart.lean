import Verif.Proofs.Restart
import Verif.Props.Net
import Verif.Proofs.DemoRestart

/-! Property theorems C83 (shuttermint/app and shuttermint/keyper together: key generations that fail are repeated). -/

namespace Shutter.Net.Props
open Shutter.App Shutter.Events Shutter.Observe Shutter.Decide Shutter.Decide.Spec Shutter.Decide.Props Shutter.Crypto Shutter.Dkg Shutter.Net

variable {ps : Parsers} {dev : Bool} {log : List Rec} {s : App.State} {codecs : Codecs}
variable {G1 G2 GT R : Type} [AddCommGroup G1] [AddCommGroup G2] [DecidableEq G2] [DecidableEq GT]

/-- **C83** A keyper of an announced eon that lives to see the end of the key generation gives its verdict after the last phase:
 it broadcasts a key for the announced batch, or it votes for starting an eon for the same batch again. -/
theorem C83_verdict (h : Exec ps dev log s) (fit : Codecs.Fit ps codecs) (sane : Sane log) (few : s.eonCounter + 1 < 2 ^ 64)
    (law : ∀ p : G2, order • p = 0) {e b : Nat} {c : BatchConfig} {S : Nat} (an : Announced log e b c S) (settled : Settled log e)
    (later : c.configIndex ≠ 0) {cx : Cfg G1 G2 GT R} {rs : List (Round G1 G2)} {sh : Observe.Shutter} {st : Decide.State G1 G2}
    (F : Finishes cx codecs log c S rs sh st) :
    ∃ n, S + 3 * cx.phaseLength ≤ n ∧ ((n, .eonStartVote b) ∈ said verdicts rs ∨
      ∃ i key, c.keypers.idxOf? cx.own = some i ∧ (n, .eonKeyBroadcast i b key) ∈ said verdicts rs) := by
  have hL := F.phases
  have hS := F.finished
  have he : 0 < e := by
    obtain ⟨pre, r, post, hl, hev, hst, _⟩ := an
    have := (h.starts hl hev hst).1
    omega
  have hstart := announced_started h fit sane few an (hi := st.syncHeight - 1) (by omega)
  have hd : ∃ dkg ∈ st.dkgs, dkg.eon = e := by
    rcases Decide.Props.C54_no_eon_missed (by omega) (lived_reach F.lived) he hstart with h1 | ⟨seen, h1, h2, h3⟩
    · exact h1
    · rw [announced_config h fit sane few an settled h1, if_neg later] at h3
      exact absurd F.member h3
  obtain ⟨dkg, hd, hde⟩ := hd
  obtain ⟨k1, k2, _, _, k5, _, inv⟩ := params h fit sane few an settled (by omega) (lived_reach F.lived) hd hde
  have hfin : dkg.pure.state.phase = finalized := by
    rw [C54_phase (by omega) (lived_reach F.lived) hd inv.started, if_pos F.finished]
  obtain ⟨r, hr, h1, h2⟩ := (linv_lived law (by omega) F.lived).when dkg hd hfin S inv.started
  obtain ⟨act, ha, hv⟩ := List.mem_flatMap.1 h2
  refine ⟨r.next, h1, ?_⟩
  have hin : (r.next, verdict cx.crypto dkg) ∈ said verdicts rs := mem_said.2 ⟨r, hr, act, ha, hv, rfl⟩
  unfold verdict at hin
  split at hin
  · left
    rw [k5] at hin
    exact hin
  · right
    rw [k5] at hin
    refine ⟨_, _, ?_, hin⟩
    obtain ⟨ops, thr, i, hrun, hi, _⟩ := inv.ran
    rw [findAddressIndex_eq, k1] at hi
    rw [hi]
    congr 1
    exact ((logInv_run _ _ _ _ _ _ _ hrun).keyper).symm

/-- **C83** A keyper that runs the program is faithful: the eon start votes in its name, if nobody else signs them, are for the first batch
of an eon announced before. -/
theorem C83_faithful (h : Exec ps dev log s) (fit : Codecs.Fit ps codecs) (sane : Sane log) (few : s.eonCounter + 1 < 2 ^ 64)
    (law : ∀ p : G2, order • p = 0) {w : Wire G1 G2} {cx : Cfg G1 G2 GT R} (hL : 0 < cx.phaseLength) {rs : List (Round G1 G2)}
    {sh : Observe.Shutter} {st : Decide.State G1 G2} (lived : Lived cx codecs (appChain codecs log) rs sh st)
    (genuine : GenuineEonVotes w log cx.own rs) : Faithful log cx.own := by
  rintro pre r post b hl ⟨m, hm, del, _⟩
  obtain ⟨x, hx, act, hact, hmsg, hle⟩ := genuine pre r post m b hl del hm
  rw [hm] at hmsg
  have hact' : act = .eonStartVote b := by
    cases act <;> simp [message] at hmsg
    rw [hmsg]
  subst hact'
  have hL' : 0 ≤ cx.phaseLength := by omega
  obtain ⟨dkg, hd, _, hv, ht⟩ := (linv_lived law hL' lived).origin x hx (.eonStartVote b) (List.mem_flatMap.2 ⟨_, hact, by simp [verdicts]⟩)
  have hb : dkg.startBatchIndex = b := by
    unfold verdict at hv
    split at hv
    · simpa using hv
    · cases hv
  obtain ⟨S, inv⟩ := (kinv_reach hL' (lived_reach lived)).dkgs dkg hd
  have hS := ht S inv.started
  obtain ⟨p1, p2, hp, _⟩ := inv.started
  have hmem : (⟨S, .eonStarted dkg.eon dkg.startBatchIndex⟩ : Stamped) ∈ chainEvents codecs (appChain codecs log) 0 (st.syncHeight - 1) := by
    rw [hp]; simp
  obtain ⟨_, hpub⟩ := published_iff.1 hmem
  obtain ⟨_, pre', r', post', hl', hr', hSS⟩ := (published_app h fit sane few _ _).1 hpub
  simp only at hSS
  obtain ⟨mid, hmid⟩ := earlier_pre (hl'.symm.trans hl) (by omega)
  exact ⟨r', by rw [hmid]; simp, dkg.eon, hb ▸ hr'⟩

omit [AddCommGroup G1] [AddCommGroup G2] [DecidableEq G2] [DecidableEq GT] in
/-- **C83** If the keypers that are not faithful are fewer than the threshold, in each config, then every eon is for the start batch of
its config. -/
theorem C83_start_batch (h : Exec ps dev log s) (maj : HonestMajority log) {e b : Nat} {c : BatchConfig} {S : Nat}
    (an : Announced log e b c S) : b = c.startBatchIndex := by
  obtain ⟨pre, r, post, hl, hev, hst, _⟩ := an
  obtain ⟨_, hf, _⟩ := h.starts hl hev hst
  have hx := after_exec h hl
  refine (hf.starts hx.inv ?_).symm
  rw [← hx.starts_ids]
  exact h.eon_starts maj _ pre r post hl rfl e b hev

omit [AddCommGroup G1] [AddCommGroup G2] [DecidableEq G2] [DecidableEq GT] in
/-- **C83** If after the announcement of an eon `threshold` many faithful keypers vote for starting one for the same batch again, the
application does start one, with the same keypers and threshold. -/
theorem C83_votes_count (h : Exec ps dev log s) (maj : HonestMajority log) {e b : Nat} {c : BatchConfig} {S : Nat}
    (an : Announced log e b c S) (settled : Settled log e) (later : c.configIndex ≠ 0) (V : Finset Addr)
    (faithful : ∀ x ∈ V, x ∈ c.keypers ∧ Faithful log x) (enough : c.threshold ≤ V.card)
    (votes : ∀ x ∈ V, ∃ pre r post, log = pre ++ r :: post ∧ Arrives pre r x (.eonStartVote b) ∧ S < heightAfter pre) :
    ∃ e' c' S', e < e' ∧ S ≤ S' ∧ Announced log e' b c' S' ∧ c'.configIndex = c.configIndex ∧ c'.keypers = c.keypers ∧
      c'.threshold = c.threshold := by
  have h0 := (config_ok h an later).2.2
  have hne : V.Nonempty := Finset.card_pos.1 (by omega)
  obtain ⟨e', c', S', h1, h2, h3, h4⟩ := restarted h maj an settled later V faithful enough votes hne
  simp only [announcement, Prod.mk.injEq] at h4
  exact ⟨e', c', S', h1, h2, h3, h4.2.2.2, h4.2.2.1, h4.2.1⟩

/-- **C83** A key generation that failed for `threshold` many keypers is repeated: each of them, having no key to broadcast, votes for
starting it again, and once these votes are delivered the application has announced another eon for the same batch with the same keypers.
(The keypers need not have been online during the key generation; the others may send whatever they like, if they are fewer than the
threshold.) -/
theorem C83_repeated (h : Exec ps dev log s) (fit : Codecs.Fit ps codecs) (sane : Sane log) (few : s.eonCounter + 1 < 2 ^ 64)
    (law : ∀ p : G2, order • p = 0) (maj : HonestMajority log) {e b : Nat} {c : BatchConfig} {S : Nat} (an : Announced log e b c S)
    (settled : Settled log e) (later : c.configIndex ≠ 0) (ws : Nat → Wire G1 G2) (cx : Nat → Cfg G1 G2 GT R)
    (rs : Nat → List (Round G1 G2)) (sh : Nat → Observe.Shutter) (st : Nat → Decide.State G1 G2) (H : Finset Nat)
    (index : ∀ i ∈ H, c.keypers.idxOf? (cx i).own = some i)
    (finish : ∀ i ∈ H, Finishes (cx i) codecs log c S (rs i) (sh i) (st i))
    (genuine : ∀ i ∈ H, GenuineEonVotes (ws i) log (cx i).own (rs i))
    (failed : ∀ i ∈ H, ∀ (n : Int) key, S < n → (n, .eonKeyBroadcast i b key) ∉ said verdicts (rs i))
    (delivered : ∀ i ∈ H, ∀ n : Int, S < n → (n, .eonStartVote b) ∈ said verdicts (rs i) → ∃ pre r post, log = pre ++ r :: post ∧
      ActArrives (ws i) pre r (cx i).own (.eonStartVote b) ∧ n ≤ heightAfter pre)
    (enough : c.threshold ≤ H.card) :
    ∃ e' c' S', e < e' ∧ S ≤ S' ∧ Announced log e' b c' S' ∧ c'.configIndex = c.configIndex ∧ c'.keypers = c.keypers ∧
      c'.threshold = c.threshold := by
  have hinj : Set.InjOn (fun i => (cx i).own) H := by
    intro i hi j hj hij
    have h1 := index i hi
    have h2 := index j hj
    simp only at hij
    rw [hij, h2] at h1
    exact (Option.some.inj h1).symm
  refine C83_votes_count h maj an settled later (H.image (fun i => (cx i).own)) ?_ (by rw [Finset.card_image_of_injOn hinj]; exact enough) ?_
  · intro x hx
    obtain ⟨i, hi, rfl⟩ := Finset.mem_image.1 hx
    exact ⟨(finish i hi).member, C83_faithful h fit sane few law (finish i hi).phases (finish i hi).lived (genuine i hi)⟩
  · intro x hx
    obtain ⟨i, hi, rfl⟩ := Finset.mem_image.1 hx
    have hL := (finish i hi).phases
    obtain ⟨n, hn, hv | ⟨j, key, hj, hv⟩⟩ := C83_verdict h fit sane few law an settled later (finish i hi)
    · obtain ⟨pre, r, post, hl, ⟨m, hm, arr⟩, hle⟩ := delivered i hi n (by omega) hv
      simp only [message, Option.some.injEq] at hm
      subst hm
      exact ⟨pre, r, post, hl, arr, by omega⟩
    · rw [index i hi] at hj
      cases hj
      exact absurd hv (failed i hi n key (by omega))

/-- In the demo nobody's messages for the key generation of eon 1 are delivered, so it fails for the keypers A and B; their votes arrive in
block 11. The hypotheses are met, and eon 2 is announced for the same batch. -/
theorem C83_example : Exec App.Demo.ps false RestartDemo.log (App.Demo.stateOf false RestartDemo.ops) ∧ HonestMajority RestartDemo.log ∧
    Announced RestartDemo.log 1 0 Demo.batchConfig 2 ∧ Settled RestartDemo.log 1 ∧
    ∃ e' c' S', 1 < e' ∧ 2 ≤ S' ∧ Announced RestartDemo.log e' 0 c' S' ∧ c'.configIndex = 1 ∧
      c'.keypers = Demo.batchConfig.keypers ∧ c'.threshold = 2 := by
  refine ⟨RestartDemo.exec, RestartDemo.majority, RestartDemo.announced, RestartDemo.settled, ?_⟩
  have get : ∀ i ∈ ({0, 1} : Finset Nat), RestartDemo.lives i = some ((RestartDemo.lives i).getD ([], newShutter, State.new Zq Zq)) := by
    intro i hi
    obtain ⟨r, hr, _⟩ := Option.map_eq_some_iff.1 (RestartDemo.check_of hi)
    rw [hr]
    rfl
  refine C83_repeated RestartDemo.exec Demo.fit RestartDemo.sane (by decide +kernel) zLawful.order_smul_G2 RestartDemo.majority
    RestartDemo.announced RestartDemo.settled (by decide) (fun _ => Demo.wire) HonestDemo.cxOf
    (fun i => ((RestartDemo.lives i).getD ([], newShutter, State.new Zq Zq)).1)
    (fun i => ((RestartDemo.lives i).getD ([], newShutter, State.new Zq Zq)).2.1)
    (fun i => ((RestartDemo.lives i).getD ([], newShutter, State.new Zq Zq)).2.2) {0, 1} ?_ ?_ ?_ ?_ ?_ (by decide)
  · intro i hi
    simp only [Finset.mem_insert, Finset.mem_singleton] at hi
    rcases hi with rfl | rfl <;> decide
  · exact fun i hi => (RestartDemo.finishes hi (get i hi)).1
  · exact fun i hi => (RestartDemo.finishes hi (get i hi)).2.1
  · intro i hi n key _ hin
    rw [(RestartDemo.finishes hi (get i hi)).2.2] at hin
    simp at hin
  · intro i hi n _ hin
    rw [(RestartDemo.finishes hi (get i hi)).2.2] at hin
    simp only [List.mem_singleton, Prod.mk.injEq] at hin
    rw [hin.1]
    exact RestartDemo.arrives hi

end Shutter.Net.Props
