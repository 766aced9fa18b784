import Verif.Spec.Targets
import Verif.Proofs.Bytes

namespace Shutter.Target
open Shutter.Crypto Shutter.Sol.World

theorem word_length (n : Nat) : (word n).length = 32 := by simp [word]

theorem beNat_word {n : Nat} (h : n < 2 ^ 256) : beNat (word n) = n := by
  rw [word, beNat_beBytes]
  exact Nat.mod_eq_of_lt (by simpa using h)

/-- A word written behind `i` bytes is read at `i`. -/
theorem wordAt_append {a c : Bytes} {n i : Nat} (ha : a.length = i) (h : n < 2 ^ 256) : wordAt (a ++ (word n ++ c)) i = n := by
  unfold wordAt
  rw [List.drop_left' ha, List.take_left' (word_length n), beNat_word h]

/-- A byte string written behind `o` bytes is read, if the word at `i` says so. -/
theorem bytesAt_append {a b c : Bytes} {i o : Nat} (ho : a.length = o) (hi : wordAt (a ++ (bytesTail b ++ c)) i = o) (hb : o < Sol.two64)
    (hn : b.length < Sol.two64) : bytesAt (a ++ (bytesTail b ++ c)) i = some b := by
  have hw : wordAt (a ++ (bytesTail b ++ c)) o = b.length := by
    rw [bytesTail, List.append_assoc, List.append_assoc]
    exact wordAt_append ho (lt_trans hn (by unfold Sol.two64; norm_num))
  unfold bytesAt
  rw [hi]
  have hl : (a ++ (bytesTail b ++ c)).length = o + (32 + b.length + (32 - b.length % 32) % 32 + c.length) := by
    simp [bytesTail, ho, word_length]
    omega
  simp only [hw]
  rw [if_neg (by omega), if_neg (by omega), if_neg (by omega), if_neg (by omega)]
  congr 1
  have : (a ++ (bytesTail b ++ c)) = (a ++ word b.length) ++ (b ++ (List.replicate ((32 - b.length % 32) % 32) 0 ++ c)) := by
    simp [bytesTail]
  rw [this, List.drop_left' (by simp [ho, word_length]), List.take_left' rfl]

theorem decode_encodeBytes {b : Bytes} (h : b.length < Sol.two64) : decodeBytes (encodeBytes b) = some b := by
  have h1 : encodeBytes b = word 32 ++ (bytesTail b ++ []) := by simp [encodeBytes]
  unfold decodeBytes
  rw [if_neg (by simp [encodeBytes, word_length]), h1]
  refine bytesAt_append (word_length 32) ?_ (by unfold Sol.two64; norm_num) h
  exact wordAt_append (a := []) rfl (by norm_num)

theorem decode_encodeNatBytes {n bound : Nat} {b : Bytes} (hn : n < bound) (hbound : bound ≤ 2 ^ 256) (h : b.length < Sol.two64) :
    decodeNatBytes bound (encodeNatBytes n b) = some (n, b) := by
  have h1 : encodeNatBytes n b = (word n ++ word 64) ++ (bytesTail b ++ []) := by simp [encodeNatBytes]
  have h2 : wordAt ((word n ++ word 64) ++ (bytesTail b ++ [])) 0 = n := by
    rw [List.append_assoc]
    exact wordAt_append (a := []) rfl (by omega)
  unfold decodeNatBytes
  have h3 : wordAt ((word n ++ word 64) ++ (bytesTail b ++ [])) 32 = 64 := by
    rw [List.append_assoc]
    exact wordAt_append (word_length n) (by norm_num)
  rw [if_neg (by simp [encodeNatBytes, word_length]; omega), h1, h2, if_neg (by omega),
    bytesAt_append (by simp [word_length]) h3 (by unfold Sol.two64; norm_num) h]
  rfl

theorem decode_encodeSigned {b : Bytes} {v r s : Nat} (hv : v < 256) (hr : r < 2 ^ 256) (hs : s < 2 ^ 256) (h : b.length < Sol.two64) :
    decodeSigned (encodeSigned b v r s) = some (b, v, r, s) := by
  have h1 : encodeSigned b v r s = (word 128 ++ word v ++ word r ++ word s) ++ (bytesTail b ++ []) := by simp [encodeSigned]
  have w0 : wordAt ((word 128 ++ word v ++ word r ++ word s) ++ (bytesTail b ++ [])) 0 = 128 := by
    simp only [List.append_assoc]
    exact wordAt_append (a := []) rfl (by norm_num)
  have w1 : wordAt ((word 128 ++ word v ++ word r ++ word s) ++ (bytesTail b ++ [])) 32 = v := by
    simp only [List.append_assoc]
    exact wordAt_append (word_length _) (by omega)
  have w2 : wordAt ((word 128 ++ word v ++ word r ++ word s) ++ (bytesTail b ++ [])) 64 = r := by
    rw [show (word 128 ++ word v ++ word r ++ word s) ++ (bytesTail b ++ []) = (word 128 ++ word v) ++ (word r ++ (word s ++ (bytesTail b ++ []))) by simp]
    exact wordAt_append (by simp [word_length]) hr
  have w3 : wordAt ((word 128 ++ word v ++ word r ++ word s) ++ (bytesTail b ++ [])) 96 = s := by
    rw [show (word 128 ++ word v ++ word r ++ word s) ++ (bytesTail b ++ []) = (word 128 ++ word v ++ word r) ++ (word s ++ (bytesTail b ++ [])) by simp]
    exact wordAt_append (by simp [word_length]) hs
  unfold decodeSigned
  rw [if_neg (by simp [encodeSigned, word_length]; omega), h1, bytesAt_append (by simp [word_length]) w0 (by unfold Sol.two64; norm_num) h, w1, w2, w3]
  simp only
  rw [if_neg (by omega)]

theorem argument_callData {tx : Bytes} (h : tx.length < Sol.two64) : argument (callData selector tx) = some tx := by
  unfold argument callData
  rw [List.take_left' (l₁ := selector) (i := 4) rfl, List.drop_left' (l₁ := selector) (i := 4) rfl, if_pos rfl, decode_encodeBytes h]

/-! ### The test target contract -/

/-- What a successful call of the test target does. -/
theorem board_call {lib : Lib} {ex : Sol.Address} {b b' : Board} {sender : Sol.Address} {data : Bytes} (h : b.call lib ex sender data = some b') :
    sender = ex ∧ ∃ payload v r s nonce m, (argument data).bind decodeSigned = some (payload, v, r, s) ∧ Means payload nonce m ∧
      b.nonces (lib.ecrecover (lib.signedHash (lib.keccak payload)) v r s) nonce = false ∧
      b'.executed = b.executed ++ [(lib.ecrecover (lib.signedHash (lib.keccak payload)) v r s, m, nonce)] ∧
      ∀ a n, b'.nonces a n = true ↔ (a = lib.ecrecover (lib.signedHash (lib.keccak payload)) v r s ∧ n = nonce) ∨ b.nonces a n = true := by
  unfold Board.call at h
  split at h
  · simp at h
  next tx harg =>
  unfold Board.executeTransaction at h
  split at h
  · simp at h
  next hs =>
  split at h
  · simp at h
  next payload v r s hd =>
  simp only at h
  split at h
  · simp at h
  next nonce m hm =>
  split at h
  · simp at h
  next hn =>
  simp only [Option.some.injEq] at h
  subst h
  refine ⟨not_not.1 hs, payload, v, r, s, nonce, m, by rw [harg]; exact hd, hm, by simpa using hn, rfl, ?_⟩
  intro a n
  simp only
  split
  · next hc => simp [hc]
  · next hc => simp [hc]

/-- The invariant of the board. -/
structure BInv (b : Board) : Prop where
  used : ∀ a n, b.nonces a n = true ↔ ∃ m, (a, m, n) ∈ b.executed
  once : b.executed.Pairwise (fun x y => ¬ (x.1 = y.1 ∧ x.2.2 = y.2.2))

theorem BInv.call {lib : Lib} {ex : Sol.Address} {b b' : Board} {sender : Sol.Address} {data : Bytes} (inv : BInv b)
    (h : b.call lib ex sender data = some b') : BInv b' := by
  obtain ⟨-, payload, v, r, s, nonce, m, -, -, hf, he, hn⟩ := board_call h
  constructor
  · intro a n
    rw [hn, inv.used, he]
    simp only [List.mem_append, List.mem_singleton, Prod.mk.injEq]
    constructor
    · rintro (⟨rfl, rfl⟩ | ⟨m', h'⟩)
      · exact ⟨m, .inr ⟨rfl, rfl, rfl⟩⟩
      · exact ⟨m', .inl h'⟩
    · rintro ⟨m', h' | ⟨rfl, rfl, rfl⟩⟩
      · exact .inr ⟨m', h'⟩
      · exact .inl ⟨rfl, rfl⟩
  · rw [he, List.pairwise_append]
    refine ⟨inv.once, by simp, ?_⟩
    intro x hx y hy
    rw [List.mem_singleton] at hy
    subst hy
    rintro ⟨h1, h2⟩
    have := (inv.used x.1 x.2.2).2 ⟨x.2.1, hx⟩
    simp only at h1 h2
    rw [h1, h2, hf] at this
    cases this

/-! ### Both contracts -/

/-- A successful call of one of the contracts calls the board, or forwards to another receiver. -/
theorem state_call {lib : Lib} {d : Deployment} {s s' : State} {c : Call} (h : s.call lib d c = some s') :
    c.gas = true ∧
    ((c.callee = d.proxyAddr ∧ c.sender = d.proxyExecutor ∧ ∃ receiver data,
        (argument c.data).bind (decodeNatBytes (2 ^ 160)) = some (receiver, data) ∧ s'.forwarded = s.forwarded ++ [(receiver, data)] ∧
        ((receiver = d.boardAddr ∧ s.board.call lib d.boardExecutor d.proxyAddr data = some s'.board) ∨
          (receiver ≠ d.boardAddr ∧ c.receiverOk = true ∧ s'.board = s.board))) ∨
      (c.callee ≠ d.proxyAddr ∧ c.callee = d.boardAddr ∧ s.board.call lib d.boardExecutor c.sender c.data = some s'.board ∧
        s'.forwarded = s.forwarded)) := by
  unfold State.call at h
  split at h
  · simp at h
  next hg =>
  refine ⟨by simpa using hg, ?_⟩
  split at h
  · next hp =>
    refine .inl ⟨hp, ?_⟩
    split at h
    · simp at h
    next tx harg =>
    unfold proxyExecute at h
    split at h
    · simp at h
    next hs =>
    split at h
    · simp at h
    next receiver data hd =>
    refine ⟨not_not.1 hs, receiver, data, by rw [harg]; exact hd, ?_⟩
    split at h
    · next hr =>
      split at h
      · simp at h
      next b hb =>
      simp only [Option.some.injEq] at h
      subst h
      exact ⟨rfl, .inl ⟨hr, hb⟩⟩
    · next hr =>
      split at h
      · next hok =>
        simp only [Option.some.injEq] at h
        subst h
        exact ⟨rfl, .inr ⟨hr, hok, rfl⟩⟩
      · simp at h
  · next hp =>
    split at h
    · next hb =>
      rw [Option.map_eq_some_iff] at h
      obtain ⟨b, hb', rfl⟩ := h
      exact .inr ⟨hp, hb, hb', rfl⟩
    · simp at h

/-- A property that is kept by calls holds after all of them. -/
theorem run_induction {lib : Lib} {d : Deployment} (P : State → Prop) (hstep : ∀ s c s', P s → s.call lib d c = some s' → P s') :
    ∀ (cs : List Call) (s : State), P s → P (s.run lib d cs) := by
  intro cs
  induction cs with
  | nil => intro s h; exact h
  | cons c cs ih =>
    intro s h
    show P (((s.call lib d c).getD s).run lib d cs)
    apply ih
    cases hc : s.call lib d c with
    | none => exact h
    | some s' => exact hstep s c s' h hc

theorem run_append {lib : Lib} {d : Deployment} (s : State) (cs cs' : List Call) : s.run lib d (cs ++ cs') = (s.run lib d cs).run lib d cs' := by
  unfold State.run
  rw [List.foldl_append]

theorem run_binv {lib : Lib} {d : Deployment} (cs : List Call) : BInv (State.init.run lib d cs).board := by
  refine run_induction (fun s => BInv s.board) ?_ cs _ ?_
  · intro s c s' h hc
    obtain ⟨-, ⟨-, -, r, da, -, -, ⟨-, hb⟩ | ⟨-, -, hb⟩⟩ | ⟨-, -, hb, -⟩⟩ := state_call hc
    · exact h.call hb
    · rw [hb]; exact h
    · exact h.call hb
  · exact ⟨by simp [State.init], by simp [State.init]⟩

/-- Nothing is unpublished. -/
theorem run_keeps {lib : Lib} {d : Deployment} (cs : List Call) (s : State) : s.board.executed <+: (s.run lib d cs).board.executed := by
  refine run_induction (fun s' => s.board.executed <+: s'.board.executed) ?_ cs _ (List.prefix_refl _)
  intro s1 c s2 h hc
  obtain ⟨-, ⟨-, -, r, da, -, -, ⟨-, hb⟩ | ⟨-, -, hb⟩⟩ | ⟨-, -, hb, -⟩⟩ := state_call hc
  · obtain ⟨-, _, _, _, _, _, _, -, -, -, he, -⟩ := board_call hb
    rw [he]
    exact h.trans (List.prefix_append _ _)
  · rw [hb]; exact h
  · obtain ⟨-, _, _, _, _, _, _, -, -, -, he, -⟩ := board_call hb
    rw [he]
    exact h.trans (List.prefix_append _ _)

/-- What is published for an address was recovered from a signature. -/
theorem run_recovered {lib : Lib} {d : Deployment} {all : List Call} : ∀ (cs : List Call) (s : State), cs <:+ all →
    (∀ a m n, (a, m, n) ∈ s.board.executed → ∃ c ∈ all, ∃ payload v r s, Carries c.data payload v r s ∧
      a = lib.ecrecover (lib.signedHash (lib.keccak payload)) v r s ∧ Means payload n m) →
    ∀ a m n, (a, m, n) ∈ (s.run lib d cs).board.executed → ∃ c ∈ all, ∃ payload v r s, Carries c.data payload v r s ∧
      a = lib.ecrecover (lib.signedHash (lib.keccak payload)) v r s ∧ Means payload n m := by
  intro cs
  induction cs with
  | nil => intro s _ h; exact h
  | cons c cs ih =>
    intro s hs h
    show ∀ a m n, (a, m, n) ∈ (((s.call lib d c).getD s).run lib d cs).board.executed → _
    refine ih _ ((List.suffix_cons c cs).trans hs) ?_
    cases hc : s.call lib d c with
    | none => exact h
    | some s' =>
      intro a m n hm
      simp only [Option.getD_some] at hm
      have hmem : c ∈ all := hs.subset List.mem_cons_self
      have key : ∀ ex sender data, s.board.call lib ex sender data = some s'.board →
          (∀ payload v r s, (argument data).bind decodeSigned = some (payload, v, r, s) → Carries c.data payload v r s) →
          ∃ c ∈ all, ∃ payload v r s, Carries c.data payload v r s ∧
            a = lib.ecrecover (lib.signedHash (lib.keccak payload)) v r s ∧ Means payload n m := by
        intro ex sender data hb hcar
        obtain ⟨-, payload, v, r, s, nonce, m', hd, hmeans, -, he, -⟩ := board_call hb
        rw [he, List.mem_append] at hm
        rcases hm with hm | hm
        · exact h a m n hm
        · simp only [List.mem_singleton, Prod.mk.injEq] at hm
          obtain ⟨rfl, rfl, rfl⟩ := hm
          exact ⟨c, hmem, payload, v, r, s, hcar _ _ _ _ hd, rfl, hmeans⟩
      obtain ⟨-, ⟨-, -, rc, da, hdec, -, ⟨-, hb⟩ | ⟨-, -, hb⟩⟩ | ⟨-, -, hb, -⟩⟩ := state_call hc
      · exact key _ _ _ hb (fun p v r s hp => .inr ⟨rc, da, hdec, hp⟩)
      · rw [hb] at hm; exact h a m n hm
      · exact key _ _ _ hb (fun p v r s hp => .inl hp)

theorem ecrecover_core {lib : Lib} {h : Bytes} {v r s : Nat} {a : Sol.Address} (ha : a ≠ 0) (he : a = lib.ecrecover h v r s) :
    lib.core h r s (v - 27) = some a := by
  unfold Lib.ecrecover at he
  split at he
  · cases hc : lib.core h r s (v - 27) with
    | none => rw [hc] at he; exact absurd he ha
    | some x => rw [hc] at he; simp only [Option.getD_some] at he; rw [he]
  · exact absurd he ha

/-! ### Messages written by the web page -/

theorem bytesTail_length (b : Bytes) : (bytesTail b).length ≤ b.length + 64 := by
  simp [bytesTail, word_length]; omega

/-- The payload of a message. -/
theorem board_message {lib : Lib} {ex : Sol.Address} {b : Board} {w : Wallet} {message : Bytes} {nonce : Nat} (hw : w.Genuine lib (lib.signedHash (lib.keccak (encodeNatBytes nonce message))))
    (hn : nonce < Sol.two64) (hm : message.length + 1000 < Sol.two64) :
    b.call lib ex ex (encodeTargetContractCall (encodeTargetContractData lib message nonce w)) =
      if b.nonces w.address nonce = true then none
      else some { nonces := fun a n => if a = w.address ∧ n = nonce then true else b.nonces a n,
                  executed := b.executed ++ [(w.address, message, nonce)] } := by
  have hp := bytesTail_length message
  have hpl : (encodeNatBytes nonce message).length + 800 < Sol.two64 := by
    simp only [encodeNatBytes, List.length_append, word_length]; omega
  have hp2 := bytesTail_length (encodeNatBytes nonce message)
  have harg : argument (encodeTargetContractCall (encodeTargetContractData lib message nonce w)) = some (encodeTargetContractData lib message nonce w) := by
    apply argument_callData
    simp only [encodeTargetContractData, encodeSigned, List.length_append, word_length]; omega
  unfold Board.call
  rw [harg]
  simp only
  unfold Board.executeTransaction
  rw [if_neg (by simp)]
  unfold encodeTargetContractData
  have hv := hw.v
  rw [decode_encodeSigned (by omega) hw.r hw.s (by omega)]
  simp only
  rw [decode_encodeNatBytes hn (by unfold Sol.two64; norm_num) (by omega)]
  simp only
  have hrec : lib.ecrecover (lib.signedHash (lib.keccak (encodeNatBytes nonce message)))
      (w.sign (lib.signedHash (lib.keccak (encodeNatBytes nonce message)))).1
      (w.sign (lib.signedHash (lib.keccak (encodeNatBytes nonce message)))).2.1
      (w.sign (lib.signedHash (lib.keccak (encodeNatBytes nonce message)))).2.2 = w.address := by
    unfold Lib.ecrecover
    rw [if_pos hv, hw.recovers]; rfl
  rw [hrec]

theorem encodeMessage_length {lib : Lib} {message : Bytes} {nonce : Nat} {w : Wallet} (receiver : Sol.Address)
    (hm : message.length + 1000 < Sol.two64) : (encodeMessage lib receiver message nonce w).length < Sol.two64 ∧
      (encodeTargetContractCall (encodeTargetContractData lib message nonce w)).length < Sol.two64 := by
  have h1 := bytesTail_length message
  have h2 := bytesTail_length (encodeNatBytes nonce message)
  have l2 : (encodeNatBytes nonce message).length = 64 + (bytesTail message).length := by simp [encodeNatBytes, word_length]; omega
  have l3 : (encodeTargetContractData lib message nonce w).length = 128 + (bytesTail (encodeNatBytes nonce message)).length := by
    simp [encodeTargetContractData, encodeSigned, word_length]; omega
  have h3 := bytesTail_length (encodeTargetContractData lib message nonce w)
  have l4 : (encodeTargetContractCall (encodeTargetContractData lib message nonce w)).length =
      36 + (bytesTail (encodeTargetContractData lib message nonce w)).length := by
    simp [encodeTargetContractCall, encodeBytes, word_length, selector]; omega
  have h4 := bytesTail_length (encodeTargetContractCall (encodeTargetContractData lib message nonce w))
  refine ⟨?_, by omega⟩
  simp only [encodeMessage, encodeProxyContractData, encodeNatBytes, List.length_append, word_length] at *
  omega

/-- The executor calls the proxy with a message: it is published unless the nonce is used. -/
theorem state_message {lib : Lib} {d : Deployment} {s : State} {w : Wallet} {message : Bytes} {nonce : Nat} {c : Call} (hw : w.Genuine lib (lib.signedHash (lib.keccak (encodeNatBytes nonce message))))
    (hn : nonce < Sol.two64) (hm : message.length + 1000 < Sol.two64) (haddr : d.boardAddr < 2 ^ 160) (hex : d.boardExecutor = d.proxyAddr)
    (hgas : c.gas = true) (hsender : c.sender = d.proxyExecutor) (hcallee : c.callee = d.proxyAddr)
    (hdata : c.data = callData selector (encodeMessage lib d.boardAddr message nonce w)) :
    s.call lib d c =
      if s.board.nonces w.address nonce = true then none
      else some { board := { nonces := fun a n => if a = w.address ∧ n = nonce then true else s.board.nonces a n,
                             executed := s.board.executed ++ [(w.address, message, nonce)] },
                  forwarded := s.forwarded ++ [(d.boardAddr, encodeTargetContractCall (encodeTargetContractData lib message nonce w))] } := by
  obtain ⟨l1, l2⟩ := encodeMessage_length (lib := lib) (nonce := nonce) (w := w) d.boardAddr hm
  unfold State.call
  rw [if_neg (by simp [hgas]), if_pos hcallee, hdata, argument_callData l1]
  simp only
  unfold proxyExecute encodeMessage encodeProxyContractData
  rw [if_neg (by simp [hsender]), decode_encodeNatBytes haddr (by norm_num) l2]
  simp only [if_true]
  rw [hex, board_message hw hn hm]
  split <;> rename_i h1 <;> split at h1 <;> simp_all

/-- The only entry of an address with a nonce. -/
theorem filter_once {a : Sol.Address} {m : Bytes} {n : Nat} : ∀ {l : List (Sol.Address × Bytes × Nat)},
    l.Pairwise (fun x y => ¬ (x.1 = y.1 ∧ x.2.2 = y.2.2)) → (a, m, n) ∈ l → (∀ m', (a, m', n) ∈ l → m' = m) →
    l.filter (fun x => decide (x.1 = a ∧ x.2.2 = n)) = [(a, m, n)]
  | [], _, h, _ => by simp at h
  | x :: l, hp, h, hall => by
    obtain ⟨h1, h2⟩ := List.pairwise_cons.1 hp
    by_cases hx : x.1 = a ∧ x.2.2 = n
    · have hm := hall x.2.1 (by rw [← hx.1, ← hx.2]; exact List.mem_cons_self)
      rw [List.filter_cons, if_pos (by simp [hx])]
      have he : l.filter (fun x => decide (x.1 = a ∧ x.2.2 = n)) = [] := by
        rw [List.filter_eq_nil_iff]
        intro y hy
        have := h1 y hy
        rw [hx.1, hx.2] at this
        simp only [decide_eq_true_eq]
        rintro ⟨rfl, rfl⟩
        exact this ⟨rfl, rfl⟩
      rw [he, ← hx.1, ← hx.2, ← hm]
    · rw [List.filter_cons, if_neg (by simpa using hx)]
      refine filter_once h2 ?_ (fun m' hm' => hall m' (List.mem_cons_of_mem _ hm'))
      rcases List.mem_cons.1 h with h | h
      · rw [← h] at hx; exact absurd ⟨rfl, rfl⟩ hx
      · exact h

end Shutter.Target
