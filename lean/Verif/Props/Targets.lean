import Verif.Proofs.Targets
import Verif.Spec.EndToEnd
import Verif.Proofs.SolDemo

/-! Property theorems C84: the target contracts. -/

namespace Shutter.Target.Props
open Shutter.Crypto Shutter.Target

/-- **C84** What is written for the contracts is what they read: for all addresses, nonces, byte strings and signatures. -/
theorem C84_read_as_written (b : Bytes) (hb : b.length < 2 ^ 64) :
    decodeBytes (encodeBytes b) = some b ∧
    (∀ receiver < 2 ^ 160, decodeNatBytes (2 ^ 160) (encodeNatBytes receiver b) = some (receiver, b)) ∧
    (∀ nonce < 2 ^ 64, decodeNatBytes (2 ^ 64) (encodeNatBytes nonce b) = some (nonce, b)) ∧
    ∀ v < 256, ∀ r < 2 ^ 256, ∀ s < 2 ^ 256, decodeSigned (encodeSigned b v r s) = some (b, v, r, s) :=
  ⟨decode_encodeBytes hb, fun _ h => decode_encodeNatBytes h (by norm_num) hb, fun _ h => decode_encodeNatBytes h (by norm_num) hb,
    fun _ hv _ hr _ hs => decode_encodeSigned hv hr hs hb⟩

/-- **C84** Calls of the contracts that are not made by their executors change nothing. -/
theorem C84_only_executor (lib : Lib) (d : Deployment) (s : State) (c : Call) :
    (c.callee = d.proxyAddr → c.sender ≠ d.proxyExecutor → s.call lib d c = none) ∧
    (c.callee = d.boardAddr → d.boardAddr ≠ d.proxyAddr → c.sender ≠ d.boardExecutor → s.call lib d c = none) := by
  constructor
  · intro hc hs
    rw [Option.eq_none_iff_forall_ne_some]
    intro s' h
    obtain ⟨-, ⟨-, h1, -⟩ | ⟨h1, -⟩⟩ := state_call h
    · exact hs h1
    · exact h1 hc
  · intro hc hne hs
    rw [Option.eq_none_iff_forall_ne_some]
    intro s' h
    obtain ⟨-, ⟨h1, -⟩ | ⟨-, -, h1, -⟩⟩ := state_call h
    · exact hne (hc.symm.trans h1)
    · exact hs (board_call h1).1

/-- **C84** The proxy makes exactly the call that was written: called by the executor with a transaction written for any receiver and any
data, it succeeds if and only if the receiver does, and then reports it. -/
theorem C84_forwarded (lib : Lib) (d : Deployment) (s : State) (receiver : Sol.Address) (hr : receiver < 2 ^ 160) (data : Bytes)
    (hd : data.length + 200 < 2 ^ 64) (hne : receiver ≠ d.boardAddr) (receiverOk : Bool) :
    s.call lib d ⟨d.proxyExecutor, d.proxyAddr, callData selector (encodeProxyContractData receiver data), true, receiverOk⟩ =
      if receiverOk then some { s with forwarded := s.forwarded ++ [(receiver, data)] } else none := by
  have hl := bytesTail_length data
  unfold State.call
  rw [if_neg (by simp), if_pos rfl, argument_callData (by simp [encodeProxyContractData, encodeNatBytes, word_length, Sol.two64]; omega)]
  simp only
  unfold proxyExecute encodeProxyContractData
  rw [if_neg (by simp), decode_encodeNatBytes hr (by norm_num) (by unfold Sol.two64; omega)]
  simp only
  rw [if_neg hne]

/-- **C84** The proxy forwards nothing else: whatever is called by whomever, what it forwards is what the executor's transactions say. -/
theorem C84_forwards_only (lib : Lib) (d : Deployment) (s s' : State) (c : Call) (h : s.call lib d c = some s') :
    s'.forwarded = s.forwarded ∨
    ∃ receiver data, (argument c.data).bind (decodeNatBytes (2 ^ 160)) = some (receiver, data) ∧ c.sender = d.proxyExecutor ∧
      c.callee = d.proxyAddr ∧ s'.forwarded = s.forwarded ++ [(receiver, data)] ∧
      (receiver = d.boardAddr → s.board.call lib d.boardExecutor d.proxyAddr data = some s'.board) := by
  obtain ⟨-, ⟨h1, h2, r, da, h3, h4, h5⟩ | ⟨-, -, -, h1⟩⟩ := state_call h
  · refine .inr ⟨r, da, h3, h2, h1, h4, fun hr => ?_⟩
    rcases h5 with ⟨-, h5⟩ | ⟨h5, -⟩
    · exact h5
    · exact absurd hr h5
  · exact .inl h1

/-- **C84** After any calls by anybody, no address has published twice with the same nonce, and a nonce counts as used exactly if something
was published with it. -/
theorem C84_once (lib : Lib) (d : Deployment) (cs : List Call) :
    (State.init.run lib d cs).board.executed.Pairwise (fun x y => ¬ (x.1 = y.1 ∧ x.2.2 = y.2.2)) ∧
    ∀ a n, (State.init.run lib d cs).board.nonces a n = true ↔ ∃ m, (a, m, n) ∈ (State.init.run lib d cs).board.executed :=
  ⟨(run_binv cs).once, (run_binv cs).used⟩

/-- **C84** Nothing published is withdrawn by later calls. -/
theorem C84_permanent (lib : Lib) (d : Deployment) (s : State) (cs : List Call) : s.board.executed <+: (s.run lib d cs).board.executed :=
  run_keeps cs s

/-- **C84** What is published for an address (other than zero) was signed for it: after any calls by anybody. -/
theorem C84_signed (lib : Lib) (d : Deployment) (cs : List Call) (a : Sol.Address) (ha : a ≠ 0) (signed : Bytes → Prop)
    (hun : Unforged lib signed a cs) {m : Bytes} {n : Nat} (h : (a, m, n) ∈ (State.init.run lib d cs).board.executed) :
    ∃ payload, signed payload ∧ Means payload n m := by
  obtain ⟨c, hc, payload, v, r, s, hcar, hrec, hmeans⟩ := run_recovered cs State.init List.suffix_rfl (by simp [State.init]) a m n h
  exact ⟨payload, hun c hc payload v r s hcar (ecrecover_core ha hrec), hmeans⟩

/-- **C84** A message written by the web page and executed by the executor contract is published exactly once, as a message of its author,
whatever else anybody does: provided that the author signs no other message with this nonce, and that the call has enough gas. -/
theorem C84_published (lib : Lib) (d : Deployment) (w : Sol.World) (cs : List Call) (hex : FromExecutor d w cs)
    (author : Wallet) (message : Bytes) (nonce : Nat) (hnonce : nonce < 2 ^ 64) (hlen : message.length + 1000 < 2 ^ 64)
    (genuine : author.Genuine lib (lib.signedHash (lib.keccak (encodeNatBytes nonce message))))
    (signed : Bytes → Prop) (unforged : Unforged lib signed author.address cs) (only : ∀ p x, signed p → Means p nonce x → x = message)
    (haddr : d.boardAddr < 2 ^ 160) (deployed : d = deploy d.proxyExecutor d.proxyAddr d.boardAddr)
    (executed : Net.Executed w d.proxyAddr selector (encodeMessage lib d.boardAddr message nonce author))
    (gas : ∀ c ∈ cs, c.data = callData selector (encodeMessage lib d.boardAddr message nonce author) → c.gas = true) :
    (State.init.run lib d cs).board.executed.filter (fun x => decide (x.1 = author.address ∧ x.2.2 = nonce)) = [(author.address, message, nonce)] := by
  obtain ⟨b, hb⟩ := executed
  have hin : (d.proxyAddr, selector, encodeMessage lib d.boardAddr message nonce author) ∈ w.targetTxs := by
    unfold Sol.World.targetTxs
    rw [List.mem_filterMap]
    exact ⟨_, hb, rfl⟩
  have hin' := List.mem_map_of_mem (f := fun t : Sol.Address × Bytes × Bytes => (t.1, callData t.2.1 t.2.2)) hin
  rw [← hex, List.mem_map] at hin'
  obtain ⟨c, hc, hcd⟩ := hin'
  simp only [Prod.mk.injEq] at hcd
  rw [List.mem_filter, decide_eq_true_eq] at hc
  obtain ⟨hmem, hsender⟩ := hc
  obtain ⟨hcallee, hdata⟩ := hcd
  have hg := gas c hmem hdata
  have hall : ∀ m, (author.address, m, nonce) ∈ (State.init.run lib d cs).board.executed → m = message := by
    intro m hm
    obtain ⟨p, hp, hmeans⟩ := C84_signed lib d cs author.address genuine.address signed unforged hm
    exact only p m hp hmeans
  have hinv := run_binv (lib := lib) (d := d) cs
  have hex : ∃ m, (author.address, m, nonce) ∈ (State.init.run lib d cs).board.executed := by
    obtain ⟨pre, post, rfl⟩ := List.append_of_mem hmem
    rw [run_append]
    have h1 := state_message (s := State.init.run lib d pre) genuine hnonce hlen haddr (by rw [deployed]; rfl) hg hsender hcallee hdata
    show ∃ m, _ ∈ ((((State.init.run lib d pre).call lib d c).getD (State.init.run lib d pre)).run lib d post).board.executed
    by_cases hu : (State.init.run lib d pre).board.nonces author.address nonce = true
    · obtain ⟨m, hm⟩ := ((run_binv pre).used _ _).1 hu
      rw [h1, if_pos hu]
      exact ⟨m, (run_keeps post _).subset hm⟩
    · rw [h1, if_neg hu]
      exact ⟨message, (run_keeps post _).subset (by simp)⟩
  obtain ⟨m, hm⟩ := hex
  have := hall m hm
  subst this
  exact filter_once hinv.once hm hall

/-- **C84** False of the code for the zero address, see `C84_signed`: with the wrong recovery id, the signature is not checked at all. Whoever
writes such a transaction publishes any message, as one of the zero address. -/
theorem C84_unsigned_counterexample (lib : Lib) (executor proxyAddr boardAddr : Sol.Address) (h : boardAddr < 2 ^ 160) (message : Bytes)
    (hlen : message.length + 1000 < 2 ^ 64) (nonce : Nat) (hn : nonce < 2 ^ 64) (s : State) (unused : s.board.nonces 0 nonce = false) :
    ∃ s', s.call lib (deploy executor proxyAddr boardAddr) ⟨executor, proxyAddr, callData selector (encodeProxyContractData boardAddr
        (encodeTargetContractCall (encodeSigned (encodeNatBytes nonce message) 0 0 0))), true, false⟩ = some s' ∧
      s'.board.executed = s.board.executed ++ [(0, message, nonce)] := by
  have h1 := bytesTail_length message
  have l1 : (encodeNatBytes nonce message).length = 64 + (bytesTail message).length := by simp [encodeNatBytes, word_length]; omega
  have h2 := bytesTail_length (encodeNatBytes nonce message)
  have l2 : (encodeSigned (encodeNatBytes nonce message) 0 0 0).length = 128 + (bytesTail (encodeNatBytes nonce message)).length := by
    simp [encodeSigned, word_length]; omega
  have h3 := bytesTail_length (encodeSigned (encodeNatBytes nonce message) 0 0 0)
  have l3 : (encodeTargetContractCall (encodeSigned (encodeNatBytes nonce message) 0 0 0)).length =
      36 + (bytesTail (encodeSigned (encodeNatBytes nonce message) 0 0 0)).length := by
    simp [encodeTargetContractCall, encodeBytes, word_length, selector]; omega
  have h4 := bytesTail_length (encodeTargetContractCall (encodeSigned (encodeNatBytes nonce message) 0 0 0))
  have l4 : (encodeProxyContractData boardAddr (encodeTargetContractCall (encodeSigned (encodeNatBytes nonce message) 0 0 0))).length =
      64 + (bytesTail (encodeTargetContractCall (encodeSigned (encodeNatBytes nonce message) 0 0 0))).length := by
    simp [encodeProxyContractData, encodeNatBytes, word_length]; omega
  have ht : Sol.two64 = 2 ^ 64 := rfl
  have hb : s.board.call lib proxyAddr proxyAddr (encodeTargetContractCall (encodeSigned (encodeNatBytes nonce message) 0 0 0)) =
      some { nonces := fun a n => if a = 0 ∧ n = nonce then true else s.board.nonces a n, executed := s.board.executed ++ [(0, message, nonce)] } := by
    unfold Board.call
    rw [show argument (encodeTargetContractCall (encodeSigned (encodeNatBytes nonce message) 0 0 0)) = some (encodeSigned (encodeNatBytes nonce message) 0 0 0)
      from argument_callData (by omega)]
    simp only
    unfold Board.executeTransaction
    rw [if_neg (by simp), decode_encodeSigned (by norm_num) (by norm_num) (by norm_num) (by omega)]
    simp only
    rw [decode_encodeNatBytes (bound := Sol.two64) hn (by rw [ht]; norm_num) (by omega)]
    simp only
    rw [show lib.ecrecover (lib.signedHash (lib.keccak (encodeNatBytes nonce message))) 0 0 0 = 0 by simp [Lib.ecrecover], if_neg (by simp [unused])]
  refine ⟨⟨{ nonces := fun a n => if a = 0 ∧ n = nonce then true else s.board.nonces a n, executed := s.board.executed ++ [(0, message, nonce)] },
    s.forwarded ++ [(boardAddr, encodeTargetContractCall (encodeSigned (encodeNatBytes nonce message) 0 0 0))]⟩, ?_, rfl⟩
  · unfold State.call
    rw [if_neg (by simp), if_pos (by rfl), argument_callData (by omega)]
    simp only
    unfold proxyExecute
    rw [if_neg (by simp [deploy]), show decodeNatBytes (2 ^ 160) (encodeProxyContractData boardAddr (encodeTargetContractCall
      (encodeSigned (encodeNatBytes nonce message) 0 0 0))) = some (boardAddr, _) from decode_encodeNatBytes h (by norm_num) (by omega)]
    simp only [deploy, if_true]
    rw [hb]

/-- **C84** False of the code if there is more than one deployment: the signature does not say which contract it is meant for. A message
written for one deployment can be published at any other one, by anybody who has seen it. -/
theorem C84_replay_counterexample (lib : Lib) (executor proxyAddr boardAddr : Sol.Address) (h : boardAddr < 2 ^ 160)
    (author : Wallet) (message : Bytes) (nonce : Nat) (hnonce : nonce < 2 ^ 64) (hlen : message.length + 1000 < 2 ^ 64)
    (genuine : author.Genuine lib (lib.signedHash (lib.keccak (encodeNatBytes nonce message)))) (elsewhere : Sol.Address) (seen : Bytes)
    (hseen : encodeMessage lib elsewhere message nonce author = encodeProxyContractData elsewhere seen) (s : State)
    (unused : s.board.nonces author.address nonce = false) (hl : seen.length < 2 ^ 64) (hel : elsewhere < 2 ^ 160) :
    ∃ s', s.call lib (deploy executor proxyAddr boardAddr) ⟨executor, proxyAddr, callData selector (encodeProxyContractData boardAddr seen), true, false⟩ = some s' ∧
      s'.board.executed = s.board.executed ++ [(author.address, message, nonce)] := by
  have hs : seen = encodeTargetContractCall (encodeTargetContractData lib message nonce author) := by
    have h1 := decode_encodeNatBytes (n := elsewhere) (bound := 2 ^ 160) hel (by norm_num) (b := seen) hl
    have h2 := decode_encodeNatBytes (n := elsewhere) (bound := 2 ^ 160) hel (by norm_num)
      (encodeMessage_length (lib := lib) (nonce := nonce) (w := author) 0 hlen).2
    unfold encodeMessage encodeProxyContractData at hseen
    rw [hseen, h1] at h2
    simpa using h2
  subst hs
  have := state_message (lib := lib) (d := deploy executor proxyAddr boardAddr) (s := s) (w := author)
    (c := ⟨executor, proxyAddr, callData selector (encodeMessage lib boardAddr message nonce author), true, false⟩)
    genuine hnonce hlen h rfl rfl rfl rfl rfl
  rw [if_neg (by simp [unused])] at this
  exact ⟨_, this, rfl⟩

/-- **C84** False of the code as it is set up by the command line tool: the config which it prepares for a deployment names the test target as
the target, but the test target was deployed for calls from the proxy. No transaction has any effect. -/
theorem C84_prepared_counterexample (lib : Lib) (executor proxyAddr boardAddr : Sol.Address) (h1 : executor ≠ proxyAddr) (h2 : boardAddr ≠ proxyAddr)
    (s : State) (c : Call) (hs : c.sender = executor) (hc : c.callee = preparedTarget (deploy executor proxyAddr boardAddr)) :
    s.call lib (deploy executor proxyAddr boardAddr) c = none :=
  (C84_only_executor lib _ s c).2 hc h2 (by rw [hs]; exact h1)

/-! ### An instance -/

namespace BoardDemo
open Shutter.Sol Shutter.Sol.Demo

/-- The executor contract is at 70, the proxy at 60, the test target at 61. -/
def d : Deployment := deploy 70 60 61

def message : Crypto.Bytes := [104, 105]

/-- The wallet has signed one message: "hi", with nonce 5. -/
def author : Wallet := ⟨33, fun _ => (28, 1000, 2000)⟩

def lib : Lib where
  keccak b := b
  core h r s v := if h = "\x19Ethereum Signed Message:\n32".toUTF8.toList ++ encodeNatBytes 5 message ∧ r = 1000 ∧ s = 2000 ∧ v = 1 then some 33 else none

/-- The message of the author. -/
def tx : Crypto.Bytes := encodeMessage lib 61 message 5 author

/-- A message of nobody, with the same nonce. -/
def unsigned : Crypto.Bytes := encodeProxyContractData 61 (encodeTargetContractCall (encodeSigned (encodeNatBytes 5 [111]) 0 0 0))

def ops : List (Nat × Op) :=
  [.startBlockNumber 100, .batchSpan 10, .addKeypers [5, 6, 7], .threshold 2, .executionTimeout 30, .batchSizeLimit 100000,
    .transactionSizeLimit 1000, .feeReceiver 50, .targetAddress 60, .targetFunctionSelector selector].map (fun o => (4, Op.config 1 (.set o))) ++
  [(4, .config 1 .schedule), (100, .addTransaction 20 0 .plain unsigned 0), (101, .addTransaction 21 0 .plain tx 0),
    (102, .addTransaction 22 0 .plain tx 0), (140, .skipCipherExecution 98 0), (141, .executePlainBatch 97 0 [unsigned, tx, tx] [])]

def world : World := (Demo.run start ops).getD start

/-- Somebody calls the proxy and the test target directly; then the executor makes its three calls. -/
def calls : List Call :=
  [⟨22, 60, callData selector tx, true, true⟩, ⟨22, 61, encodeTargetContractCall (encodeTargetContractData lib message 5 author), true, true⟩,
    ⟨70, 60, callData selector unsigned, true, true⟩, ⟨70, 60, callData selector tx, true, true⟩, ⟨70, 60, callData selector tx, true, true⟩]

theorem world_run : Demo.run start ops = some world := by
  have : (Demo.run start ops).isSome = true := by decide +kernel
  unfold world
  cases h : Demo.run start ops <;> simp_all

end BoardDemo

open BoardDemo in
/-- The hypotheses of `C84_published` are met: the message is submitted to the batcher twice, next to a message without a signature, and the
batch is executed. The message is published once. -/
theorem C84_example : Sol.WorldReach Sol.Demo.env world ∧ FromExecutor d world calls ∧
    author.Genuine lib (lib.signedHash (lib.keccak (encodeNatBytes 5 message))) ∧
    Unforged lib (· = encodeNatBytes 5 message) author.address calls ∧
    (∀ p x, p = encodeNatBytes 5 message → Means p 5 x → x = message) ∧ d = deploy d.proxyExecutor d.proxyAddr d.boardAddr ∧
    Net.Executed world d.proxyAddr selector (encodeMessage lib d.boardAddr message 5 author) ∧ (∀ c ∈ calls, c.gas = true) ∧
    (State.init.run lib d calls).board.executed = [(0, [111], 5), (author.address, message, 5)] := by
  refine ⟨⟨Sol.Demo.start, Sol.Demo.start_deployed, Sol.Demo.run_later world_run⟩, ?_, ⟨.inr rfl, by decide, by decide, ?_, by decide⟩, ?_, ?_, rfl, ?_, by decide, ?_⟩
  · unfold FromExecutor; decide +kernel
  · decide +kernel
  · intro c hc payload v r s _ h
    simp only [lib, Lib.signedHash] at h
    split at h
    · next h1 => simpa using h1.1
    · simp at h
  · rintro p x rfl h
    unfold Means at h
    rw [decode_encodeNatBytes (by decide) (by decide) (by decide)] at h
    simpa using h.symm
  · refine ⟨141, ?_⟩
    decide +kernel
  · decide +kernel

end Shutter.Target.Props
