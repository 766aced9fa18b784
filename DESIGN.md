# Formal model of shutter-network/shutter in Lean 4

## Trusted base

* Lean 4.33.0's kernel and the Mathlib build installed in the sandbox.
* Axioms: every property theorem depends on at most `propext`, `Classical.choice`, `Quot.sound`
  (no axiom of ours, no `native_decide`, no `bv_decide`). The exact sets are listed in AXIOMS.txt
  (printed by `tools/axioms.sh`).
* The reading of the Go and Solidity sources. Every model definition cites `file:lines`
  in /repo and lists its simplifications. Nothing is extracted or run.

### What is modelled as a parameter rather than code
* Group arithmetic of BLS12-381 (blst) and the pairing: `G1`, `G2`, `GT` are abstract groups of the prime order (C52
  proves the constant prime), the pairing a bilinear map (non-degenerate where a theorem needs "only if"), `Lawful`.
  A concrete instance (`zEnv`: residues, pairing = product) shows the hypotheses are satisfiable and is used in all demos.
* Hash functions (keccak256, hash-to-curve): arbitrary functions. Injectivity (collision freedom), or that a particular hash
  is not the zero hash, are explicit hypotheses where used.
* secp256k1 recovery: `Ecdsa.Core`, a partial function with the three laws in `Spec/Ecdsa.lean` where needed. What the Solidity
  library and go-ethereum check around it (lengths, malleability, recovery id) is modelled.
* SHA3 for the transactions of shuttermint: an arbitrary function; recovery of their signers as above. The parsers of ed25519 and ECIES keys: partial functions.
* Go maps: association lists / functions; where the code ranges over a map the model takes the iteration
  order as an explicit arbitrary permutation.
* 64-bit integers: `Nat` with explicit wrap (`% 2^64`) where the code's behaviour depends on overflow
  (threshold conversion, batch arithmetic in Go), `none` (revert) for the checked arithmetic of Solidity 0.8; otherwise `Nat`.
* Tendermint: a chain is a function from heights to lists of events; `TxSearch` answers in order, in pages. The Ethereum node: a chain
  is a function from block numbers to states of the contracts with the log of events emitted so far; reorganizations above the
  block followed are allowed. gob, the file system: a crash keeps or loses a whole atomic file write (temporary file and rename).
* The called contracts (targets, token receivers, fee receivers) are arbitrary: a call carries the list of calls made from within.

### Not modelled
CLI commands (but how all of them get their options, C98, `config set-next` and `config schedule`, C87, `config query` and `config list`, C96, `bootstrap` with the genesis of `init`, C88, the files of `prepare configs`, C90, `deploy`, C91, and `prepare fund` and `unfund`, C93, and the files of `init`, C100), sandbox tools, gas other than for the execution of batches, C94 (elsewhere a call that runs out of gas
is one that did not happen), HTTP/RPC transport, actual elliptic curve arithmetic, generated contract bindings; Solidity
storage layout; `transferOwnership`/`renounceOwnership` other than of the config contract; block numbers of 2^64 and more.

Note: `shuttermint/go.mod` pins `shlib v0.1.12` (bn256 API); the in-repo `shlib` uses BLS12-381 (blst).
We model the in-repo `shlib`. `shuttermint` calls it through the same abstract API.

### Which code is modelled where
| module in `lean/Verif/Model` | code |
|---|---|
| Crypto, Encoding, Shuffle, Bls | shlib/shcrypto (encryption, padding, polynomials, epoch keys, encodings), shlib/shcrypto/shbls, shuffling and decryption of batches |
| Dkg | shlib/puredkg, shuttermint/keyper/epochkg |
| App | shuttermint/app: check, deliver, end of block, commit, persistence, DKG instances, votes, powermap and validators |
| Events | shuttermint/keyper/shutterevents: encoding of events |
| Observe | shuttermint/keyper/observe/shutter.go: sync of shuttermint, filters, queries |
| MainChain | shuttermint/keyper/observe/mainchain.go: sync of the contracts, queries |
| GoConfig | shuttermint/contract/config.go |
| Decide, DecideDkg | shuttermint/keyper/decide.go, dkg.go: all of `Decide` |
| Message | shuttermint/shmsg/messages.go: the messages for actions |
| Keyper | shuttermint/keyper/keyper.go: rounds, saving, loading, crashes |
| Actions | shuttermint/keyper/fx: the queue of pending actions with its files |
| Calls | shuttermint/keyper/fx/actions.go: which contract call an action makes, when it is expired, after which errors it is given up |
| Sender | shuttermint/keyper/fx/messagesender.go, the worker of fx/runenv.go for shuttermint messages, broadcast_tx_commit |
| KeyViews | contracts/contracts/KeyBroadcastContract.sol: views |
| Proto, Tx | shuttermint/shmsg/encode.go, shmsg.proto with the protobuf library, `decodeTx` of app.go, base64 |
| Wasm | shuttermint/shcryptowasm |
| Targets | contracts/contracts/TargetProxyContract.sol, TestTargetContract.sol; example/src/utils.js (encoding of messages); the addresses set by cmd/deploy and cmd/prepare |
| Page | example/src/utils.js (configs and batches), App.vue, components/SubmitForm.vue, StatusPanel.vue, TargetSection.vue; not the rendering, BatchSection.vue, and the encryption |
| Channels | shuttermint/keyper/fx/runenv.go (channels, workers, `sendMainChainTX`), keyper.go (when the view of the main chain is stored) |
| Ecdsa | contracts: OpenZeppelin ECDSA.sol; go-ethereum SigToPub |
| Operator | shuttermint/cmd/config: `set-next`, `schedule`; `SetNextBatchConfig` of shuttermint/contract/config.go; medley/txbatch |
| Bootstrap | shuttermint/cmd/bootstrap.go; the genesis document of shuttermint/cmd/init.go |
| SolBase, SolConfig, SolContracts, SolWorld | contracts/contracts: ConfigContract, BatcherContract, FeeBankContract, ExecutorContract, KeyperSlasher, DepositContract, KeyBroadcastContract, and transactions among them with call backs |
| Token | contracts/contracts: OpenZeppelin ERC777.sol with TestDepositToken and the ERC-1820 registry; DepositContract and KeyperSlasher on top of them, reentrancy from token hooks included |
| Files | shuttermint/medley/checksum.go, cmd/deploy/contracts.go, JSON of contract/config.go, keyper/config.go, cmd/keyper.go, cmd/prepare/configs.go; encoding/json, go-toml 1.8.1, viper and mapstructure as far as needed |
| Deploy | shuttermint/cmd/deploy/deploy.go, shuttermint/medley/txbatch/txbatch.go, the constructors of the contracts |
| Gas | shuttermint/keyper/gaspricer/gaspricer.go, math/big as far as needed |
| Fund | shuttermint/cmd/prepare/fund.go, unfund.go, medley: WaitMinedMany |
| ExecGas | contracts: ExecutorContract `executeTransactions` with gas; shuttermint/keyper/fx/actions.go: gas limits |
| Query | shuttermint/cmd/config/query.go, list.go, contract/config.go `CurrentAndFutureConfigs` |
| Tasks | shuttermint/keyper/keyper.go 194-289 (`syncOnce`, `syncLoop`, `startSyncTasks`, `run`, `Run`), keyper/observe/mainchain.go `SyncMain`, keyper/observe/shutter.go `SyncShutter` |
| Options | shuttermint/medley/medley.go 134-173 (`normName`, `argumentFromEnvironmentVariable`, `BindFlags`), cmd/root.go 28-50, cmd/config/config.go 23-64 (`parseOwnerKey`), the `init` functions of cmd, cmd/config, cmd/deploy, cmd/prepare (names of commands and options) |
| Erc1820 | shuttermint/contract/erc1820/erc1820.go 22-134, shuttermint/contract/erc1820/bin.go (the numbers in the transaction), cmd/deploy/deploy.go 50-100 (`DeployCmd`), 144-155 (`maybeDeployERC1820`), 302-304, medley/medley.go 50-64 (`WaitMined`) |
| Init | shuttermint/cmd/init.go 56-195 (`initFiles`, `adjustPort`, `initFilesWithConfig`; `scaleToBlockTime` is a parameter) |

A `Life` (`Spec/Life.lean`) is the composition: a keyper with its view of shuttermint (any chain of events), its view of the main chain
(any history of all the contracts with arbitrary callers), its persistent state, crashes, restarts and reorganizations above the
followed block; the log records for each round what it saw and did. C39, C40, C42 and C62 are about all lives, and show that the
calls which a keyper decides on are accepted by the contracts.

## Layout
* `lean/Verif/Model/*.lean`  – definitions only, each citing the code.
* `lean/Verif/Proofs/*.lean` – helper lemmas.
* `lean/Verif/Props/*.lean`  – one theorem (or a few) per property, stated against small specifications,
  each followed by an `example` showing its hypotheses are met.
Findings (property false of the code) are theorems named `…_counterexample` / `…_finding`, with the provable rest `_partial`.

## Properties: what is modelled, how it is proved

| id | model | proof idea |
|----|-------|-----------|
| C01 | Encrypt/Decrypt over abstract pairing groups, bytes as `List UInt8`, blocks of 32 | bilinearity + XOR involution + padding round trip |
| C02 | PadMessage/UnpadMessage | list arithmetic |
| C03 | Decrypt, EncryptedMessage | soundness of the C1 re-computation; counterexamples for malleability of padding (finding) |
| C04 | lagrangeCoefficient, ComputeEpochSecretKey over `ZMod q` modules | Lagrange interpolation uniqueness (Mathlib `Lagrange`) |
| C05 | VerifyEpochSecretKeyShare | non-degenerate pairing |
| C06 | Polynomial.Eval (Horner with mod), Gammas, Pi, VerifyPolyEval | induction over coefficients; injectivity of `a ↦ a•g2` |
| C07 | Marshal/Unmarshal of EncryptedMessage with abstract point codec | list arithmetic |
| C08 | Unmarshal with the ignored return value of Uncompress | negation with witness + partial |
| C09 | scalar encoders (big.Int.Bytes / FillBytes) | positional numeral lemmas |
| C10 | Shuffle with arbitrary swap indexes; DecryptTransactions | permutation by induction over swaps |
| C11 | shbls Sign/Verify/Aggregate | bilinearity |
| C12 | hashToG2 = h·g2 | explicit forgery theorem (negation) |
| C13–C16 | whole of puredkg.go as a state machine with explicit panics/errors | invariants over reachable states; order independence of the message maps |
| C17 | composition puredkg + epochkg + encryption | composition of C04, C13, C14, C01 |
| C18 | epochkg.go state machine | invariant over message list |
| C19–C32 | app.go and friends: `deliverTx : App → Tx → App × Resp`, `checkTx`, `endBlock`, `commit` | inductive invariants over arbitrary op lists |
| C33 | marshal.go encoders on strings (lists of characters) | split/join lemmas, digit lemmas |
| C34 | medley list functions | induction |
| C35–C36 | observe/shutter.go: fetching in windows and pages, eon state, filters | the view is the fold over the events so far, whatever the schedule; sortedness |
| C37, C55–C59 | observe/mainchain.go on top of the contract model | the view equals a projection of the contracts' state at the synced block; fold over the log of events |
| C38 | contract/config.go batch arithmetic and Solidity batchBoundaryBlocks | integer division lemmas |
| C39, C40, C42, C62 | whole lives of a keyper against the contracts | invariants over lives (shares, batches decrypted, half steps checked), then C55–C58 and the contract theorems |
| C63, C64 | fx/actions.go: expiry, errors | C56, C57 for what the keyper knows; achieved facts are stable along all later states of the contracts |
| C65 | lives: what is decided, in order | the numbers decided are bounded by the counters in the state, along a life |
| C66 | lives: key generations, epoch key generators, keys | invariant over lives: each EKG has a joint polynomial (C14) and the history of its shares comes from the chain (C15's invariant); agreement from C54 |
| C67 | lives, one round each: `publishEpochSecretKeyShares` exactly | the actions of a round as an iff; the invariant of C66 extended by the keyper's own share; C54 for the other keypers |
| C68 | `Lived`: the lives of C54 with the actions of each round (Model/Keyper.lean); vocabulary for the messages in Spec/Sent.lean | exact actions of each function of the driver; an invariant over lives: what was said = what the rounds so far prescribe |
| C69 | the lives of C68; what is asked of an honest keyper and of the chain is `Honest`, `Carried`, `Authentic`, `Dealt` (Spec/Honest.lean) | what an honest keyper says (C68) is what every finished keyper sees (C54), hence it is not corrupt; `collect` then succeeds at each honest keyper |
| C70 | the lives of C68, with filters only on views the keyper has decided on: `Attentive` (Spec/Avail.lean) | every good share on the chain is `Noted` by the keyper's part of the eon (induction over rounds and the loop of the view: what is not yet decided on is still in the view); threshold many noted shares exclude a missing key; published shares are good by C67, the rest by C69 |
| C71 | executions of the application (`Exec`, any transactions) as the chain the keypers of C68 read: `appChain`; `Participates` (Spec/Net.lean); the messages of a keyper: Model/Message.lean | events round trip (C33) and origin of events (C29) give the chain; an invariant over the application's DKG instance (what was accepted from whom) shows that the first message of each kind of a participant is accepted; C69 and C70 give the rest |
| C72 | `Career` (Spec/Vote.lean): a life with what was seen of both chains in each round, next to an execution of the application | the votes of a career are strictly increasing and for the latest number seen plus one; what the latest number seen can be follows from the application's history; the quorum theorem C22 and the invariant that no candidate has reached the threshold give acceptance |
| C73 | `Watch` (Spec/Turn.lean): a life in which all rounds are recorded and filters are for batches not yet executed; `Ready`: whose turn it is, from the state of the contracts and the events on shuttermint | invariant: what the keyper has of a batch was made from the final transactions, and it has counted all signatures published until now; the loop of maybeExecuteBatch stops only where maybeExecuteHalfStep gives nothing |
| C74 | `Moment.Gets`, `SignatureFor` (Spec/Sign.lean): a round in which the key of a batch is new; the signature on the accepted encrypted transactions and what the key decrypts them to | the round is followed through handleEpochKG (with distinct eons as an invariant); signatures counted by syncBatch are exactly those published; several lives over one main chain agree because accepted transactions of a batch that is over are final |
| C75 | Model/Sender.lean: the worker, its attempts and Tendermint's `broadcast_tx_commit` on top of the application model; the node makes arbitrary ABCI calls, any RPC call may fail at any time, the keyper may crash at any time | invariants over all runs of worker and application; the counters of `CheckTx` are shown to count exactly what was let in since the last commit, so a refusal needs ten transactions of failed attempts; concrete runs for the hypotheses and for the lost message |
| C76 | Model/KeyViews.lean: the views of the key broadcast contract, on top of the models of the contracts (Model/SolContracts.lean), of the keypers' transactions (Model/Calls.lean) and of shuttermint with the keypers (C71) | the contract counts voters (C51), the participants have voted for the key of C71 only; a key with more votes than there are others has a vote of a participant; a concrete run of application, two keypers and contracts |
| C77 | Model/Proto.lean (wire format, reading and writing of all messages), Model/Tx.lean (base64, signed messages, `decodeTx`) | reading back written fields by induction; messages as folds over fields; the bounds for the recursion are shown to suffice; a run of C71 with its transactions as bytes |
| C78 | Model/Wasm.lean (the functions of shcryptowasm on top of Model/Crypto.lean and Model/Encoding.lean) | case analysis over the decoding of the arguments, then C01, C05, C07, C08, C10 |
| C79 | Model/App.lean (`EndBlock`); Tendermint's checks of validator updates in Spec/Validators.lean | invariant over all executions (entries of the power map, total power, lengths of keys, valid configs), then C31; counting for the second half |
| C80 | Model/Channels.lean: the action queue of C41 (Model/Actions.lean) with the capacities of the channels, the twenty workers, the answers of the node and the stored view of the main chain | refinement of C41's system, so its invariant holds; an invariant for the capacities; no deadlock by cases on what the main goroutine waits for; a measure that every step decreases; an invariant for the stuck keyper |
| C81 | Spec/EndToEnd.lean: one execution of the application, one history of the contracts, and a joint life of each participant on both (`JointLife`, which is both a `Watch` of C73 and `Attentive` of C71); shares and signatures as delivered transactions; nothing new in the model | composition: C71 (keys), C76 (the key in the contract), C66 (all have the same key), C74 (signatures), C73 (execution), C40 (accepted by the executor contract), C01, C07, C10 (the message is among the decrypted ones), and a run of the executor contract for the calls of the target |
| C82 | Spec/Secrecy.lean: polynomials as drawn, what a set of keypers sees of a message; nothing new in the model (Dkg, Crypto) | counting the fibres of the evaluation map by Lagrange interpolation over the field of the order; linear combinations of evaluations for commitments and shares; a relation between two runs with different polynomials, by induction on the calls (Proofs/SecrecyRun.lean) |
| C83 | Spec/Restart.lean: faithful votes, honest majority, keypers that finish; nothing new in the model (App, Decide, Keyper, Message) | invariant: every current vote is stored with its candidate, and no candidate has threshold many (converse of C27); induction on the history: every eon starts at the start batch of its config; the invariant behind C68, with the rounds in which verdicts are sent; composition |
| C84 | Model/Targets.lean: ABI encoding and decoding, the proxy and the test target as a state machine over arbitrary calls, the encoders of the example page | decoding inverts encoding; invariant: a nonce is used exactly if something was published with it, all published pairs of address and nonce differ; every published entry is traced to a signature in a call; the executor's calls are those in the log of the contracts' history |
| C85 | Model/Page.lean: the functions of the example page over the contracts' histories; JavaScript's comparison of numbers as strings | a config that has begun is never unscheduled; the config in force is responsible for the batch of the predicted block; C45 for acceptance, C47 and C84 for publication; strings of equally many digits are ordered like numbers; counterexamples by running concrete histories |
| C86 | the lives of C72 (`Career`) over the chain of the application; the check-in message (Model/Message.lean), `deliverCheckIn` and the validators of Model/App.lean, the views of Model/Observe.lean | the round in which `checkInMessageSent` is set is found by counting (C65); a config the keyper has seen is one of the application's whenever its check-in is delivered; registered keys come from check-ins only and stay (C28), validators from C31 |
| C87 | the commands as lists of transactions with nonces (Model/Operator.lean), computed from the contract of Model/SolConfig.lean as read; a chain that executes the account's transactions by nonce, or lets them revert or run out of gas, between anything that others do (Spec/Operator.lean) | invariant over all interleavings: what was executed is a prefix of the command's calls; the calls one after the other turn the config read into the one wanted; arithmetic modulo 2^64 for the chosen start |
| C88 | Model/Bootstrap.lean: the two messages of the command, the genesis document; Model/App.lean; the messages of keyper programs (Model/Message.lean) | the first message is traced to the last config, the second to a vote that counts at the end of the block; invariant for the last config until then; validators as in C31; invariant `Frozen` by induction on the history for what keyper programs alone cannot do |
| C89 | Model/Token.lean: ERC777 with hooks, the registry, withdrawals, deposits and slashing in terms of it; foreign code makes arbitrary nested calls (`Run`, inductive) | simulation by induction on `Run`: every execution is one of Model/SolWorld with the real balance as `tokens`; invariant for operators, allowances, hooks of the deposit contract and the sum of balances; possible runs are constructed |
| C90 | Model/Files.lean: the texts written and read by `deploy`, `prepare configs`, `prepare unfund`, the config commands and the keyper, with JSON, TOML, viper's precedence and mapstructure's hooks | round trips by induction on texts (digits, escapes, lines); reading inverted for accepted texts; C90_prepare composes them |
| C91 | Model/Deploy.lean: the ten transactions of `deploy` with their nonces, addresses and constructor arguments, the constructors, and the calls of others in between | invariant over all runs: before the last transaction the state is, but for contracts not there yet, one after a deployment at once (induction over nested calls), or a transaction has failed, or somebody has set the slasher; no call of others changes a setting (by C61) |
| C92 | Model/Gas.lean: `SetMultiplier` and `Adjust` with big.Float: precision, rounding to nearest even, truncation | representable numbers are not passed by rounding, from below and above; monotonicity and the bounds follow |
| C93 | Model/Fund.lean: balances and nonces, transfers, the commands `fund` and `unfund` step by step (queries, signing, sending, inclusion) between steps of others | invariants over all runs: lower bounds for C93_fund, exact accounts (sums over the transactions, each counted once by its nonce) for C93_exact and C93_unfund |
| C94 | Model/ExecGas.lean: intrinsic gas of the ABI-encoded call data, EIP-150, the loop of `executeTransactions` with arbitrary targets and costs, the keypers' gas limit | induction over the transactions with the gas left; a preimage of any amount under the 63/64 rule for C94_starved; C94_full composes with the batcher contract (C45_accepts_iff, C45_effect); C94_stuck with the action queue of C80 (C80_first: an invariant). Partial: false of the code, with counterexamples |
| C95 | the models of C91, C87 and C88, composed: `deploy`, `config set-next`, `config schedule`, `init` for one keyper, `bootstrap` | composition; the state after the deployment is the initial one of the config contract (C91_untouched), the only config with index 0 in the application is that of the genesis |
| C96 | Model/Query.lean: the commands `query` and `list` with the reading of the flag `index`, and `CurrentAndFutureConfigs` | the texts by C90 (what is written is read), the lists by induction, set-next by C87 |
| C97 | Model/Tasks.lean: `Run`, `syncOnce`, `syncLoop`, `SyncMain` and `SyncShutter` as three tasks that talk over channels, with cancelling and panics; what a sync computes is a parameter, given by Model/MainChain.lean and Model/Observe.lean | an invariant of all interleavings; explicit schedules for going on and ending, and a measure for all schedules without failures; false for stopping while the connection to the main chain is broken |
| C98 | Model/Options.lean: cobra's parse, `BindFlags`, checks, required options; the types of options are a parameter; the table of all commands with their options | rewriting as a traversal of the declared options with the texts that count; induction over arguments and options; the names of the variables by evaluation over the (finite) table |
| C99 | Model/Erc1820.lean: the command as a program counter, the node with its mempool, the two transactions, others that send money or the public deployment; how `deploy` begins | an invariant of all interleavings (before, during and after the funding); explicit runs for success and the counterexamples |
| C100 | Model/Init.lean: `adjustPort` on texts, the files of the directory, `initFiles` as a sequence of writes that a crash can cut off | text lemmas for the last colon and decimal numbers; the result of all stages in closed form; cases of where the crash is |
| C41 | fx/pending.go with crash steps | invariants with crash points |
| C43–C51, C61 | the Solidity contracts as transactions on a world, with call backs | every transaction is a sequence of primitive steps; invariants over these |
| C52 | the order constant | Lucas/Pratt certificate by kernel evaluation |
| C53 | app.go with explicit panics | the panicking cases are unreachable: invariants |
| C54 | decide.go/dkg.go driver, keypers on one chain of events | the driver's messages equal those of the pure DKG run on the chain; agreement of two keypers with different schedules |
| C60 | app.go: eons and configs | invariant over executions |

No property is "not applicable". Runtime matters that the models leave out (goroutine scheduling,
file system atomicity below rename, gas) are named per theorem in MANIFEST.json.

## Findings: where the code does not have the property
Each is a theorem about the model (names ending in `counterexample`, `finding`, …).

* C03 accepted ciphertexts are malleable: only the last padding byte counts; an empty `C3` is an empty message.
* C08 malformed points are accepted: the result of `Uncompress` is ignored (if blst leaves the receiver untouched).
* C12 messages are hashed to a known multiple of the generator: signatures can be forged from one signature.
* C24 a threshold of 2^63 or more is taken for negative; then one vote is enough.
* C25 reports that a config has started count for the next config as well.
* C33 a commitment without gammas is accepted and published, but no keyper can decode it.
* C35 a keyper panics if its Tendermint node reports an older head.
* C36 filtering loses epoch secret key shares that have not been processed.
* C37 if the Ethereum node reports an older head, transactions are counted twice.
* C39 shares are published before the end of a batch if start blocks go back after an inactive config, or if a config is taken back.
* C40 a keyper whose view of the main chain lags behind when a key becomes known takes the batch for an empty one, and executes
  it as such.
* C41 actions are sent at least once, not exactly once.
* C42 signatures with the larger `s` are taken by keypers and refused by the contract: one keyper can make the appeals of another fail.
* C43 after an inactive config for a future block, another config can be scheduled for an earlier block.
* C47 targets can call back: the plain part of a batch can be executed in the middle of the encrypted part.
* C48 `slash` can be re-entered and reports twice; with a threshold of zero anybody can appeal.
* C50 the account of a fee receiver can be filled up by anyone, after which no transaction is accepted.
* C54 a keyper restarted before its first decision skips messages; late configs give different parameters.
* C55 a config which was seen and then taken back is never forgotten.
* C56 the receipt of half step 0 is overwritten by any later skipped half step.
* C62 half steps that could not be checked when they were first seen are never checked again.
* C65 after a restart half steps can be decided twice.
* C66 the key of *any* eon decrypts a batch: shares for the same batch number in another eon, from keypers that have nothing to do with the batch, make a keyper decrypt the batch again with that key, sign and execute the result.
* C70 a filter sent in a round in which the keyper does not decide (a node is catching up) drops shares that have not been processed: the keyper never gets the key.
* C72 a config that switches batching off is scheduled by the contract, voted for by the keypers and refused by shuttermint: no later config is ever accepted.
* C73 `maybeExecuteBatch` looks at the config of the *current* block: when batching is switched off, the batches that ended just before are decrypted and signed, but never executed or skipped.
* C64 an appeal with a mirrored signature is refused for ever, is never given up and blocks the keyper's queue of transactions.
* C75 `SendMessage` ignores the code of `CheckTx`: a message refused there (after ten time outs without a block) counts as sent and is lost.
* C78 a malformed eon public key is taken for the point at infinity when encrypting in a web page; everybody can read the result.
* C79 the validators of a config come into force when threshold many keypers have checked in; with a 2-of-3 config a third of the voting power then belongs to a key nobody holds, and Tendermint, which needs more than two thirds, stops.
* C80 one transaction that is refused but tried again blocks all later transactions of the keyper; 21 further ones and the main loop is blocked too, as it waits for room in the channel (runenv.go:149-153). The worker checks whether the transaction has expired in a view of the main chain that only the main loop stores, so nothing changes until a restart. A malicious keyper reaches this with a mirrored signature (C64).
* C80 `sendMainChainTX` (runenv.go:68-72) sets `auth.Context` before it looks at the error of `Auth`: if the node cannot be reached, `auth` is nil and the process ends.
* C82 a dealer that threshold many keypers accuse is not excluded: it answers each accusation with a public apology (puredkg.go:193-207), and from threshold many apologies everybody can compute its secret (`C82_revealed`). If the evaluations of a key generation arrive too late at threshold many honest keypers, the key generation succeeds and the secret key of the eon is public (`C82_accused_counterexample`). The remedy is to exclude dealers with threshold many accusations.
* C84 cmd/prepare/configs.go:107 writes the test target into the batch config as the target, but cmd/deploy/deploy.go:212 deploys the test target with the proxy as its executor: the executor contract's calls all revert, no transaction has any effect. The target should be the proxy.
* C84 `ecrecover` returns zero for invalid signatures and TestTargetContract.sol:29 does not check for it: anybody publishes messages as the zero address without a signature.
* C84 signatures for the test target name neither the contract nor the chain: whoever has seen a message can publish it at another deployment.
* C84 with the proxy as the target, transactions of any user decide what the executor's call does, so the reentrancy of C47 (`C47_reentrancy_counterexample`) does not take a hostile operator: a transaction that calls a contract of the user is enough, within the gas limit for transactions.
* C85 App.vue:86 compares two `BigNumber`s with `>=`, which JavaScript does by comparing their decimal representations as strings: two votes are enough where the threshold is ten (`C85_few_votes_counterexample`), so two keypers can make users encrypt with a key of their own; and ten votes are not enough where it is nine.
* C85 App.vue:81-83 always takes the key for start batch 0, also when the batches are those of a later eon (`C85_first_key_counterexample`): what is encrypted with it is dropped.
* C85 the page reads the config once; when another config begins it goes on with the old one, and its transactions are refused or go to a wrong batch (`C85_stale_counterexample`).
* C85 one message that is not UTF-8 among those of the last 100 blocks ends the list of messages, also of later ones (TargetSection.vue:46-53); anybody can publish one.
* C85 utils.js:102-118 calls `window.shcrypto.encrypt` with a number for the batch and expects an object; the WebAssembly module of this commit (shuttermint/shcryptowasm/both_wasm.go:21) defines `shcrypto_encrypt`, which takes a byte array and returns a string: encrypted sending cannot work. The page sends no ether, so it is of no use where the batcher contract asks for a fee. The prepared config's gas limit of 10000 per transaction (cmd/prepare/configs.go) is less than the test target needs.
* C87: `set-next` removes as many keypers from the next config as there are different ones (it reads them without repetitions), so if a keyper occurred twice, some old keypers stay in front of the new ones, and the command reports success (C87_repeated_counterexample). A keyper occurs twice if the file said so (it is not checked), or if the command was stopped and run again while its transactions were pending (C87_pending_counterexample).
* C87: with an open start, `set-next` chooses a start that the contract never accepts if the last scheduled config starts later than the notice and 21 blocks from now: the difference of block numbers wraps around (C87_late_counterexample, for all states). And if the batches of the last config are longer than the notice, it can choose one that is too early (C87_span_counterexample).
* C88: no keyper program ever sends the message that a config has started; only the command `bootstrap` does. So a config accepted later never starts on shuttermint and its keypers never become validators (C88_frozen): the validators stay the keypers of the bootstrapped config, whatever becomes of them. If a further config is accepted before threshold many keypers of the bootstrapped one have checked in, the validator of the genesis document stays the only one for ever (C88_superseded).
* C88: with more than one genesis keyper (the threshold is then two or more) the second message of `bootstrap` is refused until as many keypers as the threshold have run the command (C88_alone); then those who had failed have to run it again until threshold many reports are accepted. It cannot be repeated after the config has started, since the application compares the flags `Started` and `ValidatorsUpdated` as well.
* C89: the deposit contract never revokes default operators, so a token with a default operator lets this operator take all deposits (C89_default_operator_counterexample); the token of the repository has none. If the owner sets the receiver of slashed tokens to a contract that is not registered as a recipient of ERC777 tokens, every slashing reverts (C89_refused); a registered one can make it revert as well.
* C90: URLs are put into the keyper's file without escaping: with a backslash in it the keyper reads another URL, or refuses the file (C90_backslash_counterexample). `--ethereum-url` is optional for `prepare configs`, but files made without it are refused by the keyper (C90_no_url_counterexample). Contract addresses or a GasPriceMultiplier missing in the file are zero and not reported (C90_missing_counterexample); GasPriceMultiplier and DBDir cannot be set in the environment, unlike all the others.
* C91: anybody can make every deployment fail: `DepositContract.setSlasher` can be called by everybody as long as no slasher is set, and the keyper slasher's
  constructor, which needs it, comes four transactions later (C91_front_run, C91_front_run_example).
* C92: the config can set the multiplier of the gas price to NaN, which makes the keyper panic at its start, or to infinity, which makes it panic if the node suggests a price of zero.
* C93: `prepare fund` gives a keyper that is listed twice twice what it lacks (C93_twice_counterexample); `prepare unfund` reports success although the node has refused transactions.
* C94: `executeTransactions` asks for `gasLimit` gas for each call but does not check that this much is left. By EIP-150 a call gets at most 63/64 of what is left. So whoever executes a batch (for plain batches: anyone) can choose the gas such that the last transaction fails for lack of gas while the batch counts as executed, with the right hash, so that nobody can be slashed (C94_starved, C94_censored).
* C94: the keypers execute batches with 250000 gas plus the gas limits of the transactions, which has to pay for 16 gas per byte of call data, too. With the config that `prepare configs` writes (100 transactions of 1000 bytes, 10000 gas each) a full batch needs 1600000 gas for its data alone, but the limit is 1250000: the node refuses the transaction, and the keypers try it again forever (runenv.go:204-221), in front of all their other transactions (C80_first, C94_stuck). Plain parts of batches are never skipped, so anyone can stop the executor by filling a batch (C94_full, C94_shipped_counterexample), until somebody else executes it.
* C96: `config query` prints each keyper of a config once, whatever the contract has. If keypers repeat, the threshold can be above the number shown, and `config set-next` then refuses the text (C96_example).
* C97: if a keyper is told to stop while its node of the main chain is away, `reconnect` in `SyncMain` (mainchain.go:436-440) returns with `sub` set to the nil that the failed `SubscribeNewHead` gave, and the loop then calls `sub.Err()`: a panic instead of an orderly end (C97_stops_counterexample). Nothing is lost, since states are saved before (C41).
* C97: `reconnect` in `SyncShutter` (shutter.go:540-561) tries again at once if shuttermint's node refuses the subscription, without any pause.
* C98: `SHUTTER_HELP` is read for `--help`: any text that is no truth value there makes every command fail. `SHUTTER_CONFIG` and `SHUTTER_INDEX` are read by commands that understand them differently (`SHUTTER_INDEX=all` is fine for `config query` and makes `init` fail), and the two `query` commands share all their variables. A variable that is there but empty satisfies a required option.
* C99: with `--gas-price 0`, or on a chain whose suggested price is zero, `deploy` panics: it divides the balance by the price for a log line (deploy.go:94). A `deploy` that fails after it has funded the registry's deployer funds it again when it is run again, and that money cannot be got back; if somebody else sends the registry's transaction in between, `deploy` fails though the registry is there.
* C100: `init` writes the validator key and the file that goes with it one after the other; after a crash in between it exits with an error whenever it is run in that directory. Run again where a node has run, it overwrites config.toml (the operator's peers are lost) and resets the application's state. `--index` is not checked (20000 gives port 66657).

Smaller observations, in comments of the model: after a repeated key generation (C83) the keypers that have voted for a key of this first batch before cannot vote for the new one in the key broadcast contract (C76_one_key, C51); `executionDelay` panics for a config without keypers; a half step stays pending if the
keyper's own transaction reverts, until a restart; keypers listed twice shift the indices and the calls revert; gob does not
keep a pointer to zero, so a pending half step 0 is forgotten by a restart.

## Wrong programs
`seeded/LOG.jsonl` lists edits of the model and the theorems that fail because of them; survivors have led to new or tighter theorems
(named there).
