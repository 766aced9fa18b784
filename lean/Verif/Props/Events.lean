import Verif.Proofs.Bytes
import Verif.Spec.Events
import Verif.Proofs.Events
import Verif.Props.App

/-! Property theorems C33 (shuttermint/keyper/shutterevents). -/

namespace Shutter.Events.Props
open Shutter.App Shutter.Events

/-! ### C33 -/

/-- **C33** Every event the chain can publish is read back by the keyper exactly as it was published. -/
theorem C33_roundtrip_partial (cx : Codecs) (law : cx.Lawful) (ev : Event) (wf : WellFormed cx ev) :
    makeEvent cx (makeABCIEvent cx ev) = some ev := by
  have hu := parseUint_formatUint
  have ha := decodeAddress_hex cx
  have has := decodeAddresses_encode cx
  cases ev with
  | batchConfig b t ks i =>
    obtain ⟨h1, h2, h3, h4⟩ := wf
    simp [makeEvent, makeABCIEvent, expectAttributes, hu _ h1, hu _ h2, has _ h3, hu _ h4]
  | eonStarted e b =>
    obtain ⟨h1, h2⟩ := wf
    simp [makeEvent, makeABCIEvent, expectAttributes, hu _ h1, hu _ h2]
  | checkIn a k =>
    obtain ⟨h1, h2⟩ := wf
    simp [makeEvent, makeABCIEvent, expectAttributes, ha _ h1, decodePubkey, encodePubkey, law k, h2]
  | decryptionSignature b a sig =>
    obtain ⟨h1, h2⟩ := wf
    simp [makeEvent, makeABCIEvent, expectAttributes, hu _ h1, ha _ h2, law sig]
  | polyEval a e rs es =>
    obtain ⟨h1, h2, h3⟩ := wf
    simp [makeEvent, makeABCIEvent, expectAttributes, ha _ h1, hu _ h2, has _ h3, decodeByteSequence_encode]
  | polyCommitment a e gs =>
    obtain ⟨h1, h2, h3, h4⟩ := wf
    simp [makeEvent, makeABCIEvent, expectAttributes, ha _ h1, hu _ h2, decodeGammas_encode cx gs h3 h4]
  | accusation a e as =>
    obtain ⟨h1, h2, h3⟩ := wf
    simp [makeEvent, makeABCIEvent, expectAttributes, ha _ h1, hu _ h2, has _ h3]
  | apology a e as es =>
    obtain ⟨h1, h2, h3⟩ := wf
    have : (es.map Shutter.Crypto.natBytes).map bigOfBytes = es := by
      rw [List.map_map]; exact List.map_id'' (fun n => bigOfBytes_natBytes n) es
    simp [makeEvent, makeABCIEvent, expectAttributes, ha _ h1, hu _ h2, has _ h3, decodeByteSequence_encode, this]
  | epochSecretKeyShare a e ep sh =>
    obtain ⟨h1, h2, h3, h4⟩ := wf
    simp [makeEvent, makeABCIEvent, expectAttributes, ha _ h1, hu _ h2, hu _ h3, decodeShare, encodeShare,
      hexutil_roundtrip, h4]

/-- **C33** So different events never look the same on the chain. -/
theorem C33_injective (cx : Codecs) (law : cx.Lawful) (ev ev' : Event) (wf : WellFormed cx ev) (wf' : WellFormed cx ev')
    (h : makeABCIEvent cx ev = makeABCIEvent cx ev') : ev = ev' := by
  have h1 := C33_roundtrip_partial cx law ev wf
  rw [h, C33_roundtrip_partial cx law ev' wf'] at h1
  exact (Option.some.inj h1).symm

/-- **C33** Whatever transactions are sent: every event published by the application decodes to itself - for
messages with at least one gamma, as long as fewer than 2^64 eons were started. -/
theorem C33_published_decode_partial {ps : Parsers} {dev : Bool} {log : List Rec} {s : State} (h : Exec ps dev log s) (cx : Codecs)
    (law : cx.Lawful) (agree : Agree ps cx) {r : Rec} (hr : r ∈ log) {a : Addr} {m : MessageWithNonce}
    (del : r.Delivers a m) (signer : IsAddress a) (wire : WireOk m.msg) (eons : r.before.eonCounter + 1 < 2 ^ 64)
    {ev : Event} (hev : ev ∈ r.events) : makeEvent cx (makeABCIEvent cx ev) = some ev := by
  refine C33_roundtrip_partial cx law ev ?_
  obtain ⟨pre, post, hl⟩ := List.append_of_mem hr
  obtain ⟨a', msg, acc⟩ := h.accepted_of_event hl (List.ne_nil_of_mem hev)
  obtain ⟨hE, o, m', d, ho, hm, hop, hresp, hok, _, _, he⟩ := h.eff hl acc
  have hme : a' = a ∧ m' = m := by
    have := hop.symm.trans del; simpa using this
  obtain ⟨rfl, rfl⟩ := hme
  rw [hm] at wire
  have hstart := fun b (hb : msg = .eonStartVote b) =>
    Shutter.App.Props.C27_eon_quorum h hl (hb ▸ acc) (List.ne_nil_of_mem hev)
  have hev' := hev
  rw [show r.events = d.events by simp [Rec.events, hresp]] at hev
  generalize r.after = sa at he
  cases he with
  | rejected => simp [errorResponse] at hev
  | configKnown => simp at hev
  | configVoted => simp at hev
  | configAdded mm bc last cv i hbc =>
    simp [configEvent] at hev; subst hev
    have hA := asks_iff.1 hbc
    exact ⟨hA.start ▸ wire.1, hA.threshold ▸ wire.2.1, fun k hk => hA.lengths k (hA.keypers ▸ hk), hA.index ▸ wire.2.2⟩
  | configAddedDKG mm bc last cv i hbc =>
    have hA := asks_iff.1 hbc
    simp [configEvent] at hev
    rcases hev with rfl | rfl
    · exact ⟨hA.start ▸ wire.1, hA.threshold ▸ wire.2.1, fun k hk => hA.lengths k (hA.keypers ▸ hk), hA.index ▸ wire.2.2⟩
    · exact ⟨eons, hA.start ▸ wire.1⟩
  | alreadyStarted => simp at hev
  | startedVote => simp at hev
  | checkIn vk ek pk h1 h2 h3 h4 =>
    simp at hev; subst hev
    exact ⟨signer, agree.pubkey _ _ h4⟩
  | eonVoted => simp at hev
  | eonStarted b c i start =>
    obtain ⟨⟨e, h1⟩, _⟩ := hstart b rfl
    rw [h1] at hev'
    simp at hev hev'
    have : start = b := by rw [hev] at hev'; simp at hev'; exact hev'.2
    subst this; subst hev
    exact ⟨eons, wire⟩
  | decSig b sig bs bs' h1 h2 =>
    simp at hev; subst hev
    exact ⟨wire, signer⟩
  | polyEval eon rs es d₀ d₁ h1 _ h2 _ =>
    simp at hev; subst hev
    exact ⟨signer, wire, (parseAddresses_iff.1 h2).2.1⟩
  | polyCommitment eon gs gs' d₀ d₁ h1 hg h2 =>
    simp at hev; subst hev
    refine ⟨signer, wire.1, ?_, ?_⟩
    · rintro rfl
      cases gs with
      | nil => exact wire.2 rfl
      | cons g gs =>
        simp only [List.mapM_cons] at hg
        cases hh : ps.g2 g with
        | none => simp [hh] at hg
        | some g' =>
          cases hh' : gs.mapM ps.g2 with
          | none => simp [hh, hh'] at hg
          | some x => simp [hh, hh'] at hg
    · intro g hg'
      have : ∀ (l l' : List Bytes), l.mapM ps.g2 = some l' → ∀ g ∈ l', ∃ b, ps.g2 b = some g := by
        intro l
        induction l with
        | nil => intro l' h; simp at h; subst h; simp
        | cons x l ih =>
          intro l' h
          simp only [List.mapM_cons] at h
          cases hh : ps.g2 x with
          | none => simp [hh] at h
          | some y =>
            cases hh' : l.mapM ps.g2 with
            | none => simp [hh, hh'] at h
            | some z =>
              simp [hh, hh'] at h
              subst h
              intro g hg
              rcases List.mem_cons.1 hg with rfl | hg
              · exact ⟨x, hh⟩
              · exact ih z hh' g hg
      obtain ⟨b, hb⟩ := this _ _ hg g hg'
      exact agree.g2 b g hb
  | accusation eon as d₀ d₁ h1 h2 _ =>
    simp at hev; subst hev
    exact ⟨signer, wire, (parseAddresses_iff.1 h2).2.1⟩
  | apology eon as es d₀ d₁ h1 _ h2 _ =>
    simp at hev; subst hev
    exact ⟨signer, wire, (parseAddresses_iff.1 h2).2.1⟩
  | share eon epoch sh sh' h1 =>
    simp at hev; subst hev
    exact ⟨signer, wire.1, wire.2, agree.share _ _ h1⟩

/-- **C33** fails for the empty list of gammas: the application accepts and publishes such a commitment, but no
keyper can read the event. (As long as the empty string is not the encoding of a curve point.) -/
theorem C33_empty_gammas_counterexample (cx : Codecs) (h : cx.g2 [] = none) (a : Addr) (e : Nat) :
    makeEvent cx (makeABCIEvent cx (.polyCommitment a e [])) = none := by
  simp [makeEvent, makeABCIEvent, expectAttributes, decodeGammas_empty cx h]

/-- … and such an event really is published. -/
theorem C33_empty_gammas_published : ∃ log s r, Exec Demo.ps false log s ∧ r ∈ log ∧
    r.events = [.polyCommitment (Demo.k 2) 1 []] := by
  let ops := Demo.ops.take 7 ++ [Demo.tx (Demo.k 2) 9 (.polyCommitment 1 [])]
  refine ⟨Demo.logOf false ops, _, (Demo.logOf false ops)[7]'(by decide +kernel),
    Demo.exec_of _ _ (by decide +kernel), List.getElem_mem _, by decide +kernel⟩

/-- Codecs for the demo chain: a checksum that capitalises every other letter, base64 replaced by hex. -/
def demoCodecs : Codecs where
  checksum := fun _ i => i % 2 == 0
  b64enc := hexEncode
  b64dec := hexDecode
  pubkey := Demo.ps.pubkey
  g2 := Demo.ps.g2
  share := Demo.ps.share

theorem demoCodecs_lawful : demoCodecs.Lawful := hexDecode_encode

theorem demoAgree : Agree Demo.ps demoCodecs := by
  have : ∀ b g : Bytes, (if b = [] then none else some b) = some g → (if g = [] then none else some g) = some g := by
    intro b g h
    split at h
    · simp at h
    · simp at h; subst h; simp [*]
  exact ⟨this, this, this⟩

/-- All events of the demo chain survive the round trip. -/
example : (allEvents (Demo.logOf false Demo.ops)).length = 12 ∧ (allEvents (Demo.logOf false Demo.ops)).map
    (fun e => makeEvent demoCodecs (makeABCIEvent demoCodecs e)) =
    (allEvents (Demo.logOf false Demo.ops)).map some := by decide +kernel

/-- Call 13 of the demo chain (a poly eval) meets the hypotheses of `C33_published_decode_partial`. -/
example : ∃ r ∈ Demo.logOf false Demo.ops, ∃ a m ev, r.Delivers a m ∧ IsAddress a ∧ WireOk m.msg ∧
    r.before.eonCounter + 1 < 2 ^ 64 ∧ ev ∈ r.events :=
  ⟨(Demo.logOf false Demo.ops)[13]'(by decide +kernel), List.getElem_mem _, Demo.k 2,
    ⟨.polyEval 1 [Demo.k 3, Demo.k 4] [[1], [2]], Demo.chain, 5⟩, .polyEval (Demo.k 2) 1 [Demo.k 3, Demo.k 4] [[1], [2]],
    rfl, rfl, (by decide : (1 : Nat) < 2 ^ 64), by decide +kernel, by decide +kernel⟩

theorem expectAttributes_names : ∀ (as : List (String × Text)) (ns : List String) (vs : List Text), expectAttributes as ns = some vs →
    ns <+: as.map Prod.fst := by
  intro as ns
  induction ns generalizing as with
  | nil => intro vs _; exact List.nil_prefix
  | cons n ns ih =>
    intro vs h
    cases as with
    | nil => simp [expectAttributes] at h
    | cons a as =>
      obtain ⟨k, v⟩ := a
      simp only [expectAttributes] at h
      split at h
      · next hk =>
        subst hk
        rw [Option.map_eq_some_iff] at h
        obtain ⟨vs', h, _⟩ := h
        simpa using ih as vs' h
      · cases h

/-- **C33** Keypers read an event only from an event of its type whose attributes are named as the chain names them, in the chain's
order (further attributes may follow). -/
theorem C33_names_checked (cx : Codecs) (raw : AbciEvent) (ev : Event) (h : makeEvent cx raw = some ev) :
    raw.type = (makeABCIEvent cx ev).type ∧ (makeABCIEvent cx ev).attributes.map Prod.fst <+: raw.attributes.map Prod.fst := by
  unfold makeEvent at h
  repeat' split at h
  all_goals first
    | exact absurd h.symm (Option.some_ne_none _)
    | skip
  all_goals
    have hn := expectAttributes_names _ _ _ (by assumption)
    simp only [Option.bind_eq_bind, Option.bind_eq_some_iff, Option.pure_def, Option.some.injEq] at h
    repeat (obtain ⟨_, _, h⟩ := h)
    exact ⟨by assumption, hn⟩

/-- **C33** Addresses are read from hex strings of any length as the last 20 bytes of the number written. -/
theorem C33_address_value (b : Bytes) : (bytesToAddress b).length = 20 ∧
    Shutter.Crypto.beNat (bytesToAddress b) = Shutter.Crypto.beNat b % 256 ^ 20 := by
  unfold bytesToAddress
  split
  · next h =>
    refine ⟨by simp; omega, ?_⟩
    have e : b.take (b.length - 20) ++ b.drop (b.length - 20) = b := List.take_append_drop _ _
    have hd : (b.drop (b.length - 20)).length = 20 := by simp; omega
    have hlt := Shutter.Crypto.beNat_lt (b.drop (b.length - 20))
    rw [hd] at hlt
    conv_rhs => rw [← e, Shutter.Crypto.beNat_append, hd, Nat.mul_add_mod_self_right, Nat.mod_eq_of_lt hlt]
  · next h =>
    refine ⟨by simp; omega, ?_⟩
    have hlt := Shutter.Crypto.beNat_lt b
    have hle : 256 ^ b.length ≤ 256 ^ 20 := Nat.pow_le_pow_right (by decide) (by omega)
    rw [Shutter.Crypto.beNat_append, Shutter.Crypto.beNat_replicate_zero, Nat.mod_eq_of_lt (by omega)]
    omega

end Shutter.Events.Props
