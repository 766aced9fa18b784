{"id": "C01", "title": "Encrypt then decrypt returns the message", "statement": "For every message, eon public key, epoch id and random sigma, decrypting the result of Encrypt with the matching epoch secret key succeeds and returns exactly the original message bytes.", "quantifier": "all byte strings (any length), all eon secret keys, all epoch ids, all sigma blocks, all hash functions of the right output size", "why_tests_cant": "message length, key and randomness are unbounded; tests sample a few", "anchors": ["shlib/shcrypto/encryption.go: Encrypt, Decrypt, computeC1, computeC2, computeC3, PadMessage, UnpadMessage, XORBlocks"]}
{"id": "C02", "title": "Padding is injective and block aligned", "statement": "PadMessage turns any message into whole 32-byte blocks, always adding 1 to 32 bytes, and UnpadMessage is its left inverse; so two different messages never pad to the same blocks.", "quantifier": "all byte strings", "why_tests_cant": "boundary at every multiple of 32 and unbounded length", "anchors": ["shlib/shcrypto/encryption.go: PadMessage, UnpadMessage"]}
{"id": "C03", "title": "Decryption only accepts what encryption produced", "statement": "If Decrypt accepts a ciphertext under the epoch secret key then the ciphertext is the encryption of the returned message for the recovered sigma (so ciphertexts are non-malleable).", "quantifier": "all ciphertexts (any number of blocks) and all epoch keys", "why_tests_cant": "an adversary chooses the ciphertext", "anchors": ["shlib/shcrypto/encryption.go: Decrypt, UnpadMessage"]}
{"id": "C04", "title": "Any threshold set of correct shares gives the epoch secret key", "statement": "If keypers hold shares of a Feldman/Shamir secret with a polynomial of degree threshold-1, then ComputeEpochSecretKey applied to the epoch shares of ANY threshold many distinct keypers, in any order, returns the one epoch secret key secret*H(epoch); a different number of shares or mismatched lists is rejected.", "quantifier": "all polynomials, thresholds, keyper subsets and orderings, epochs", "why_tests_cant": "binomially many subsets and all polynomials over a 255-bit field", "anchors": ["shlib/shcrypto/keys.go: ComputeEpochSecretKey, lagrangeCoefficient, lagrangeCoefficientFactor, invert, ComputeEpochSecretKeyShare"]}
{"id": "C05", "title": "Epoch share verification is exact", "statement": "VerifyEpochSecretKeyShare accepts a share if and only if it is the epoch share computed from the secret key share behind the given public key share.", "quantifier": "all shares, public key shares and epoch ids (prime-order groups, non-degenerate pairing)", "why_tests_cant": "a forged share ranges over the whole group", "anchors": ["shlib/shcrypto/keys.go: VerifyEpochSecretKeyShare, ComputeEpochSecretKeyShare"]}
{"id": "C06", "title": "Feldman evaluation check is exact", "statement": "VerifyPolyEval accepts a value for keyper i against the Gammas of a polynomial if and only if the value is that polynomial evaluated at i+1 modulo the group order and the number of Gammas matches the threshold; Polynomial.Eval (Horner, reduced at each step) is the polynomial's value.", "quantifier": "all polynomials of any degree, all claimed values, all keyper indices", "why_tests_cant": "field of size 2^255, arbitrary degree", "anchors": ["shlib/shcrypto/feldman.go: Polynomial.Eval, EvalForKeyper, Gammas.Pi, VerifyPolyEval, NewPolynomial, Gammas"]}
{"id": "C07", "title": "Encrypted message encoding round trip", "statement": "Unmarshal(Marshal(m)) = m for every encrypted message with a valid C1, and every byte string with a wrong version byte or with a length other than 1+96+32+32k is rejected with an error.", "quantifier": "all encrypted messages (any number of C3 blocks), all byte strings", "why_tests_cant": "unbounded lengths and arbitrary byte strings", "anchors": ["shlib/shcrypto/encoding.go: EncryptedMessage.Marshal, EncryptedMessage.Unmarshal, unmarshalBlock", "shlib/shcrypto/version.go"]}
{"id": "C08", "title": "Unmarshalling never accepts an invalid point", "statement": "If unmarshalling an encrypted message or a public key returns no error then the bytes were a valid compressed encoding of a group element, and that element is the value stored.", "quantifier": "all byte strings", "why_tests_cant": "arbitrary attacker-chosen bytes", "anchors": ["shlib/shcrypto/encoding.go: EncryptedMessage.Unmarshal, EonPublicKey.Unmarshal, Gammas.Unmarshal"]}
{"id": "C09", "title": "Secret key encodings round trip and reject out of range values", "statement": "Marshalling and unmarshalling an eon secret key share or BLS secret key returns the same scalar; values not below the group order and (for the BLS key) inputs that are not 32 bytes long are rejected with an error, and a rejected BLS key leaves zero behind.", "quantifier": "all scalars and all byte strings", "why_tests_cant": "2^255 scalars, arbitrary strings", "anchors": ["shlib/shcrypto/encoding.go: EonSecretKeyShare.Marshal, EonSecretKeyShare.Unmarshal", "shlib/shcrypto/shbls/encoding.go: SecretKey.Marshal, SecretKey.Unmarshal"]}
{"id": "C10", "title": "Decrypted transactions are a fair permutation of the batch", "statement": "Shuffle returns a permutation of its input without modifying it, for every random source, and is a function of the epoch key and list only; hence all keypers executing a batch with the same key produce the same transaction list, consisting of exactly the decryptable transactions.", "quantifier": "all lists, all keys, all rng streams", "why_tests_cant": "n! orders and arbitrary rng output", "anchors": ["shlib/shcrypto/shuffle.go: Shuffle", "shuttermint/keyper/observe/mainchain.go: Batch.DecryptTransactions"]}
{"id": "C11", "title": "BLS signatures: correctness and aggregation", "statement": "A signature made by Sign verifies under the signer's public key, and the sum of signatures of any group of signers on one message verifies under the sum of their public keys.", "quantifier": "all secret keys, messages and groups of signers", "why_tests_cant": "arbitrary keys and group sizes", "anchors": ["shlib/shcrypto/shbls/shbls.go: Sign, Verify, AggregateSignatures, AggregatePublicKeys"]}
{"id": "C12", "title": "BLS signatures cannot be forged from another message's signature", "statement": "Knowing a signature of a keyper on one message gives nobody a signature of that keyper on another message.", "quantifier": "all keys, all pairs of messages", "why_tests_cant": "an adversary chooses messages", "anchors": ["shlib/shcrypto/shbls/shbls.go: hashToG2, Sign, Verify"]}
{"id": "C13", "title": "DKG agreement", "statement": "Honest keypers that processed the same broadcast DKG messages (commitments, accusations, apologies), in whatever order, and finished, compute the same participant set, the same eon public key and the same list of public key shares, and either all or none succeed.", "quantifier": "all numbers of keypers and thresholds, all broadcast message sets including adversarial ones, all delivery orders, all private polynomial evaluations", "why_tests_cant": "every message schedule and adversary", "anchors": ["shlib/puredkg/puredkg.go: ComputeResult, isCorrupt, HandlePolyCommitmentMsg, HandleAccusationMsg, HandleApologyMsg, Finalize"]}
{"id": "C14", "title": "DKG result is internally consistent", "statement": "If ComputeResult succeeds then the secret key share it returns matches the public key share listed for this keyper, i.e. epoch shares made from it verify.", "quantifier": "all reachable DKG states", "why_tests_cant": "every schedule and adversary", "anchors": ["shlib/puredkg/puredkg.go: ComputeResult, isCorrupt, polyEval", "shlib/shcrypto/keys.go: ComputeEonSecretKeyShare, ComputeEonPublicKeyShare"]}
{"id": "C15", "title": "An honest dealer is never disqualified", "statement": "If a keyper follows the protocol and its broadcasts are delivered, no other keyper's behaviour (false accusations included) makes it count as corrupt at an honest keyper.", "quantifier": "all adversarial schedules of the other keypers' messages", "why_tests_cant": "unbounded adversary", "anchors": ["shlib/puredkg/puredkg.go: StartPhase1Dealing, StartPhase3Apologizing, isCorrupt, HandleApologyMsg"]}
{"id": "C16", "title": "DKG phases only move forward and first message wins", "statement": "A DKG instance passes through its phases one by one, never skipping or repeating; messages of a wrong eon, arriving in a later phase than allowed, or repeated by the same sender are rejected with an error and leave the instance unchanged.", "quantifier": "all sequences of API calls", "why_tests_cant": "every call sequence", "anchors": ["shlib/puredkg/puredkg.go: setPhase, checkPhase, HandlePolyCommitmentMsg, HandlePolyEvalMsg, HandleAccusationMsg, HandleApologyMsg"]}
{"id": "C17", "title": "DKG followed by epoch key generation decrypts", "statement": "After a successful DKG, the epoch secret key produced by any threshold many honest keypers decrypts every message encrypted to the eon public key for that epoch.", "quantifier": "all DKG runs, all thresholds, all messages and epochs", "why_tests_cant": "combination of all schedules and all inputs", "anchors": ["shlib/puredkg/puredkg.go: ComputeResult", "shuttermint/keyper/epochkg/epochkg.go: EpochKG", "shlib/shcrypto/encryption.go: Encrypt, Decrypt"]}
{"id": "C18", "title": "Epoch key generation yields only the correct key", "statement": "Whatever share messages arrive, in whatever order and with whatever duplicates or forged contents, the epoch secret key computed by EpochKG for an epoch is the unique correct key, it is produced as soon as threshold many distinct keypers' valid shares have arrived, and never changes afterwards.", "quantifier": "all sequences of share messages", "why_tests_cant": "every arrival order and adversarial content", "anchors": ["shuttermint/keyper/epochkg/epochkg.go: HandleEpochSecretKeyShare, addEpochSecretKeyShare, computeEpochSecretKey"]}
{"id": "C19", "title": "A signed message takes effect at most once", "statement": "For each signer and random nonce, the chain processes at most one DeliverTx; a second delivery, or a message for another chain id, is rejected and changes nothing.", "quantifier": "all transaction sequences", "why_tests_cant": "replay can happen at any point of any history", "anchors": ["shuttermint/app/app.go: DeliverTx", "shuttermint/app/noncetracker.go"]}
{"id": "C20", "title": "Rejected messages have no effect", "statement": "If DeliverTx returns an error code then, except for marking the nonce as used, the application state is unchanged and no events are emitted.", "quantifier": "all states and messages", "why_tests_cant": "every message in every state", "anchors": ["shuttermint/app/app.go: deliverMessage, deliver*"]}
{"id": "C21", "title": "CheckTx only filters", "statement": "CheckTx never influences the result of DeliverTx, EndBlock or the committed state; it admits at most MaxTxsPerBlock messages per sender between commits, only from members once a member set exists, and never one whose nonce was already delivered.", "quantifier": "all interleavings of CheckTx with block execution", "why_tests_cant": "interleavings", "anchors": ["shuttermint/app/checktx.go", "shuttermint/app/app.go: CheckTx, Commit"]}
{"id": "C22", "title": "Batch configs need a threshold of the current keypers", "statement": "A new batch config is appended only when at least threshold many distinct keypers of the latest config (whose threshold is below 2^63, see C24) have voted for exactly that config since the latest config was added; no keyper's vote counts twice; the result does not depend on Go map iteration order.", "quantifier": "all histories of batch config votes", "why_tests_cant": "every vote history", "anchors": ["shuttermint/app/configvoting.go", "shuttermint/app/voting.go", "shuttermint/app/app.go: deliverBatchConfig, addConfig, checkConfig"]}
{"id": "C23", "title": "The chain's config list is well formed and lookup total", "statement": "The list of batch configs always starts with a config for batch 0, has strictly increasing config indexes and non-decreasing start batches; hence the lookup of the config for any batch index always finds exactly the last config whose start batch is not after it.", "quantifier": "all histories, all batch indexes", "why_tests_cant": "unbounded histories", "anchors": ["shuttermint/app/app.go: getConfig, addConfig, checkConfig"]}
{"id": "C24", "title": "Accepted configs have a sensible threshold", "statement": "Every accepted batch config with keypers has a threshold between 1 and its number of keypers, so that one keyper alone cannot decide (and a quorum is reachable).", "quantifier": "all 64-bit thresholds and keyper lists", "why_tests_cant": "needs all 2^64 thresholds", "anchors": ["shuttermint/keyper/shutterevents/batchconfig.go: EnsureValid", "shuttermint/app/app.go: deliverBatchConfig"]}
{"id": "C25", "title": "A config starts only on reports about it", "statement": "A batch config is marked as started only if at least threshold many keypers of the config before it reported that very config as started.", "quantifier": "all histories of started votes and config changes", "why_tests_cant": "every interleaving of votes", "anchors": ["shuttermint/app/app.go: deliverBatchConfigStarted, EndBlock, countCheckedInKeypers"]}
{"id": "C26", "title": "Eon identifiers are unique and increasing", "statement": "Every eon started by the chain has a number strictly greater than all earlier ones, and the DKG instance for an eon is never replaced.", "quantifier": "all histories", "why_tests_cant": "unbounded histories", "anchors": ["shuttermint/app/app.go: StartDKG, deliverEonStartVoteMsg, deliverBatchConfig"]}
{"id": "C27", "title": "Eon restarts need a threshold of votes", "statement": "Apart from the eon started together with a new config, an eon is started only when at least threshold many keypers of the config for that batch (thresholds below 2^63, see C24) voted for the same start batch index, each keyper having one current vote.", "quantifier": "all vote histories", "why_tests_cant": "every vote history", "anchors": ["shuttermint/app/eonvoting.go", "shuttermint/app/app.go: deliverEonStartVoteMsg"]}
{"id": "C28", "title": "Check-in is once and permanent", "statement": "A keyper's validator and encryption keys registered by check-in are accepted at most once, only from members of a config, and never change afterwards.", "quantifier": "all histories", "why_tests_cant": "every message sequence", "anchors": ["shuttermint/app/app.go: deliverCheckIn", "shuttermint/app/messages.go: ParseCheckInMsg"]}
{"id": "C29", "title": "One DKG message of each kind per keyper", "statement": "Per eon, the chain accepts at most one poly commitment, accusation and apology per keyper and one poly evaluation per sender and receiver, only from and to keypers of that eon's config and never from a keyper to itself; exactly the accepted ones are published as events.", "quantifier": "all message histories", "why_tests_cant": "every message sequence", "anchors": ["shuttermint/app/dkg.go", "shuttermint/app/app.go: handlePolyEvalMsg, handlePolyCommitmentMsg, handleAccusationMsg, handleApologyMsg", "shuttermint/app/messages.go"]}
{"id": "C30", "title": "One decryption signature per keyper and batch", "statement": "For each batch the chain publishes at most one decryption signature per keyper, and only from members of the config that applied to the batch when its first signature arrived.", "quantifier": "all message histories", "why_tests_cant": "every message sequence", "anchors": ["shuttermint/app/app.go: deliverDecryptionSignature, getBatchState", "shuttermint/app/batch_state.go"]}
{"id": "C31", "title": "Validator updates describe the exact change", "statement": "Applying the validator updates returned by EndBlock to the previous validator set gives exactly the validator set computed for the newest active config; the updates are sorted, contain each key once, and do not depend on map iteration order.", "quantifier": "all pairs of validator sets, all iteration orders", "why_tests_cant": "unbounded sets and iteration orders", "anchors": ["shuttermint/app/powermap.go", "shuttermint/app/app.go: CurrentValidators, EndBlock, makePowermap"]}
{"id": "C32", "title": "Restart and replay reach the same state", "statement": "Crashing at any time, reloading the last persisted state and replaying the blocks after its height leads to the same application state and the same responses as never crashing.", "quantifier": "all block histories and crash points", "why_tests_cant": "every crash point", "anchors": ["shuttermint/app/app.go: Commit, PersistToDisk, LoadShutterAppFromFile, Info"]}
{"id": "C33", "title": "Shutter events survive their attribute encoding", "statement": "Each event published by the chain is decoded by keypers to the event that was published (numbers, addresses, address lists, byte sequences, commitments).", "quantifier": "all event values", "why_tests_cant": "unbounded lists and byte strings", "anchors": ["shuttermint/keyper/shutterevents/marshal.go", "shuttermint/keyper/shutterevents/events.go"]}
{"id": "C34", "title": "Address list utilities", "statement": "EnsureUniqueAddresses accepts exactly the duplicate-free lists, DedupAddresses keeps the first occurrence of every address in order, and FindAddressIndex returns the first index.", "quantifier": "all address lists", "why_tests_cant": "unbounded lists", "anchors": ["shuttermint/medley/medley.go: EnsureUniqueAddresses, DedupAddresses, FindAddressIndex"]}
{"id": "C35", "title": "Keypers see every chain event exactly once", "statement": "Syncing from any height to any target fetches every block in between exactly once in windows of bounded size; the per-eon event lists stay sorted by height and a query with a sync height returns exactly the events at or after it.", "quantifier": "all heights, all event histories", "why_tests_cant": "unbounded histories", "anchors": ["shuttermint/keyper/observe/shutter.go: fetchAndApplyEvents, GetPolyCommitments etc., FindEon, applyEonStarted"]}
{"id": "C36", "title": "Filtering the observed state loses nothing still needed", "statement": "Dropping old events with ApplyFilter never changes later queries at or after the filter's sync height and batch index.", "quantifier": "all states, filters and later queries", "why_tests_cant": "all filters and states", "anchors": ["shuttermint/keyper/observe/shutter.go: ApplyFilter, Eon.ApplyFilter, filterBatchIndex, filterEon"]}
{"id": "C37", "title": "Main chain observation counts each transaction once", "statement": "The observed batch contains each transaction event of the main chain exactly once, whatever heads the node reports in successive syncs.", "quantifier": "all sequences of reported heads", "why_tests_cant": "every sequence of node answers", "anchors": ["shuttermint/keyper/observe/mainchain.go: SyncToHead, syncBatches"]}
{"id": "C38", "title": "Batches partition the blocks", "statement": "For an active config, each block from its start belongs to exactly one batch: BatchIndex is the inverse of the half-open interval [BatchStartBlock, BatchEndBlock). The Go end block equals the end block of the contract's batchBoundaryBlocks, and the contract opens a batch for submission at the Go start block of the preceding batch of the same config (at its own for the first).", "quantifier": "all block numbers, configs and batch indexes", "why_tests_cant": "64-bit ranges", "anchors": ["shuttermint/contract/config.go: BatchIndex, BatchStartBlock, BatchEndBlock", "contracts/contracts/ConfigContract.sol: batchBoundaryBlocks"]}
{"id": "C39", "title": "Epoch key shares are never released early", "statement": "A keyper publishes its epoch secret key share for a batch only after the main chain block at which the batch closes to new transactions; each batch's share is published at most once per eon in order.", "quantifier": "all histories of observed blocks, all configs", "why_tests_cant": "every history", "anchors": ["shuttermint/keyper/decide.go: publishEpochSecretKeyShares", "shuttermint/contract/config.go: BatchIndex, NextBatchIndex"]}
{"id": "C40", "title": "Executors never act on open batches and respect the order", "statement": "A keyper executes or skips only the half step the executor contract expects next, only after its batch closed; a cipher batch is executed only with threshold many valid decryption signatures or when empty, and skipped only after the execution timeout.", "quantifier": "all observed chain states", "why_tests_cant": "every state", "anchors": ["shuttermint/keyper/decide.go: maybeExecuteBatch, maybeExecuteHalfStep, executeCipherBatch, skipCipherBatch, executePlainBatch, executionDelay"]}
{"id": "C41", "title": "Decided actions are queued exactly once across crashes", "statement": "Every action decided and saved is handed to the action queue exactly once, in order and with a unique id, whatever crashes happen between saving the state, saving the queue and continuing.", "quantifier": "all crash points and histories", "why_tests_cant": "every crash point", "anchors": ["shuttermint/keyper/keyper.go: runOneStep, saveState, loadState", "shuttermint/keyper/fx/pending.go"]}
{"id": "C42", "title": "Appeals built by a keyper are accepted by the contract", "statement": "If a keyper with threshold many verified decryption signatures is accused, the authorization it builds (signer indices and signatures) passes the on-chain verification of KeyperSlasher.", "quantifier": "all signer sets, orders of arrival and thresholds", "why_tests_cant": "every set and order", "anchors": ["shuttermint/keyper/decide.go: maybeAppeal, makeAuthorization", "contracts/contracts/KeyperSlasher.sol: _verifyAuthorization"]}
{"id": "C43", "title": "Config schedule stays well formed", "statement": "For every sequence of schedule/unschedule calls the on-chain list of configs has non-decreasing start block and start batch index, consecutive configs meet seamlessly, the guard config stays first, and every batch index has a config; batch boundaries of active batches are defined.", "quantifier": "all call sequences and block times", "why_tests_cant": "unbounded call sequences", "anchors": ["contracts/contracts/ConfigContract.sol: scheduleNextConfig, unscheduleConfigs, configIndexForBatchIndex, batchBoundaryBlocks"]}
{"id": "C44", "title": "Open batches cannot be reconfigured", "statement": "Once a batch has started, no later schedule or unschedule call changes the config, the start block or the end block of that batch or an earlier one.", "quantifier": "all call sequences after any block", "why_tests_cant": "every later history", "anchors": ["contracts/contracts/ConfigContract.sol: scheduleNextConfig, unscheduleConfigs"]}
{"id": "C45", "title": "Batcher accepts transactions only in the batch window", "statement": "A transaction is accepted for a batch only while the current block is inside the batch's window, the size limits and the fee are respected; the batch hash is the hash chain of the accepted transactions in order and hence identifies them uniquely.", "quantifier": "all call sequences", "why_tests_cant": "unbounded call sequences", "anchors": ["contracts/contracts/BatcherContract.sol: addTransaction"]}
{"id": "C46", "title": "Half steps are executed in order, each once", "statement": "The number of execution half steps never decreases, every cipher half step is executed or skipped once after its batch ended and every plain half step once after it; only keypers execute cipher batches.", "quantifier": "all call sequences with non-reentrant targets", "why_tests_cant": "unbounded call sequences", "anchors": ["contracts/contracts/ExecutorContract.sol"]}
{"id": "C47", "title": "Execution runs exactly the submitted transactions, also against hostile targets", "statement": "When a plain batch half step is executed the list of transactions executed is exactly the list accepted by the batcher for that batch, each executed once, even if the executed transactions call back into the contracts.", "quantifier": "all batches and all behaviours of called contracts", "why_tests_cant": "arbitrary callbacks", "anchors": ["contracts/contracts/ExecutorContract.sol: executePlainBatch, executeTransactions, executeCipherBatch"]}
{"id": "C48", "title": "Slashing is justified", "statement": "A keyper is slashed only if it executed a non-empty cipher batch, was accused of it by a keyper of the batch, and the appeal period passed without an appeal backed by threshold many keypers; a deposit is taken at most once.", "quantifier": "all call sequences", "why_tests_cant": "unbounded call sequences", "anchors": ["contracts/contracts/KeyperSlasher.sol"]}
{"id": "C49", "title": "Deposits are conserved and slashed ones unrecoverable", "statement": "The contract's token balance always equals the sum of deposits; withdrawing needs a request and the full delay; a slashed account never withdraws the slashed deposit and stays slashed.", "quantifier": "all call sequences", "why_tests_cant": "unbounded call sequences", "anchors": ["contracts/contracts/DepositContract.sol"]}
{"id": "C50", "title": "Fee bank conserves money", "statement": "The fee bank's balance always equals the sum of recorded deposits, nobody can withdraw more than was deposited for them and recorded amounts never overflow.", "quantifier": "all call sequences", "why_tests_cant": "unbounded call sequences", "anchors": ["contracts/contracts/FeeBankContract.sol"]}
{"id": "C51", "title": "Key broadcast counts every keyper once", "statement": "For a config start batch the number of votes recorded for an eon key is the number of distinct keypers that voted for it, each keyper votes at most once and the best key is one with the most votes.", "quantifier": "all call sequences", "why_tests_cant": "unbounded call sequences", "anchors": ["contracts/contracts/KeyBroadcastContract.sol"]}
{"id": "C52", "title": "The group order is prime", "statement": "The scalar field modulus used for all share arithmetic is prime, so every non-zero difference of keyper indexes has an inverse and Fermat inversion is correct.", "quantifier": "all residues", "why_tests_cant": "2^255 residues", "anchors": ["shlib/shcrypto/keys.go: invert", "shlib/shcrypto/feldman.go"]}
{"id": "C53", "title": "The application never panics once initialised", "statement": "No DeliverTx, CheckTx, EndBlock or Commit call panics in any reachable state, whatever the transaction, height or map iteration order.", "quantifier": "all histories and all inputs", "why_tests_cant": "unbounded histories of adversarial transactions", "anchors": ["shuttermint/app/app.go: getConfig, LastConfig, deliverMessage, EndBlock"]}
{"id": "C54", "title": "The key generation does not depend on when a keyper looks", "statement": "However the keyper's rounds of observing and deciding are spread over the shuttermint blocks, every poly commitment, evaluation, accusation and apology that shuttermint published within its phase is handed to the key generation exactly once and in that phase, and messages published outside their phase are ignored.", "quantifier": "all schedules of rounds, all histories of the shuttermint chain", "why_tests_cant": "every interleaving of rounds with blocks", "anchors": ["shuttermint/keyper/decide.go: syncDKGs, syncDKGWithEon, syncCommitments, syncPolyEvals, syncAccusations, syncApologies, PhaseLength.getPhaseAtHeight"]}
{"id": "C55", "title": "The keyper's configs are those of the config contract", "statement": "After each sync a keyper knows exactly the scheduled configs of the config contract at the synced block, with duplicate keypers removed.", "quantifier": "all histories of the contract, all sequences of heads", "why_tests_cant": "every history", "anchors": ["shuttermint/keyper/observe/mainchain.go: syncConfigs", "shuttermint/contract/config.go: GetConfigByIndex"]}
{"id": "C56", "title": "The keyper's execution receipts are those of the executor contract", "statement": "After each sync a keyper knows the number of half steps and exactly the execution receipts of the executor contract at the synced block.", "quantifier": "all histories of the contracts, all sequences of heads", "why_tests_cant": "every history", "anchors": ["shuttermint/keyper/observe/mainchain.go: syncExecutionState"]}
{"id": "C57", "title": "The keyper's accusations are those of the slasher contract", "statement": "After each sync a keyper knows exactly the accusations and appeals of the slasher contract at the synced block, and for each account the latest reported deposit.", "quantifier": "all histories of the contracts, all sequences of heads", "why_tests_cant": "every history", "anchors": ["shuttermint/keyper/observe/mainchain.go: syncSlashings, syncDeposits"]}
{"id": "C58", "title": "Keypers agree on closed batches", "statement": "Two keypers that follow the same chain, with whatever follow distances and whenever they sync, know the same transactions and batch hashes for a batch that is over; what a keyper knows of such a batch never changes.", "quantifier": "all pairs of keypers, all histories", "why_tests_cant": "every pair of schedules", "anchors": ["shuttermint/keyper/observe/mainchain.go: SyncToHead, addTransaction", "contracts/contracts/BatcherContract.sol: addTransaction"]}
{"id": "C59", "title": "Syncing with the main chain never gets stuck", "statement": "If the node answers its requests, a sync with the main chain succeeds, whatever heads and chains it reported before (an appeal never comes without the accusation, a config index is never out of range).", "quantifier": "all histories of the contracts, all sequences of heads", "why_tests_cant": "every history", "anchors": ["shuttermint/keyper/observe/mainchain.go: syncSlashings, syncConfigs"]}
{"id": "C60", "title": "Every config has a key generation of its own keypers", "statement": "When a batch config is added to the chain, the newest eon's DKG afterwards has exactly the keypers and the threshold of this config: either an eon is started together with the config, or the newest eon already has these keypers and this threshold.", "quantifier": "all histories of votes and configs", "why_tests_cant": "needs an argument over all histories of configs and eons", "anchors": ["shuttermint/app/app.go: ShouldStartDKG, StartDKG, deliverBatchConfig"]}
{"id": "C61", "title": "Only owners change settings", "statement": "No transaction in which an owner takes no part changes the batch configs, the minimum fee, the receiver of slashed tokens, the owners, or sets the half step counter; the slasher contract is set once. The owners can set the fee and the receiver freely.", "quantifier": "all histories, all callers, all call backs", "why_tests_cant": "every history of adversarial calls", "anchors": ["contracts/contracts/BatcherContract.sol: setMinFee", "contracts/contracts/ConfigContract.sol: onlyOwner functions", "contracts/contracts/ExecutorContract.sol: setHalfSteps", "contracts/contracts/DepositContract.sol: setSlashingReceiver, setSlasher"]}
{"id": "C62", "title": "Keypers accuse exactly if a wrong batch was executed", "statement": "A keyper accuses the executor of an encrypted batch only if the transactions executed are not those it has decrypted itself, and the contract accepts the accusation as long as nobody else has accused; a keyper that has decrypted the batch accuses when it sees that something else was executed.", "quantifier": "all lives of a keyper: any rounds, crashes, restarts, reorganizations above the followed block; all histories of the contracts", "why_tests_cant": "every history and schedule", "anchors": ["shuttermint/keyper/decide.go: maybeAccuse", "contracts/contracts/KeyperSlasher.sol: accuse"]}
{"id": "C63", "title": "Actions dropped as expired are done", "statement": "A keyper drops a queued transaction as expired exactly if, as far as it has synced, what the transaction is to achieve has been achieved (half step done, half step accused, accusation appealed); from then on the contracts refuse the call in every state. It never queues a transaction that is expired already.", "quantifier": "all lives of a keyper, all histories of the contracts, all later states", "why_tests_cant": "every history and every later state", "anchors": ["shuttermint/keyper/fx/actions.go: IsExpired", "shuttermint/keyper/fx/runenv.go: handleAction", "contracts/contracts/KeyperSlasher.sol", "contracts/contracts/ExecutorContract.sol"]}
{"id": "C64", "title": "Actions are given up exactly if they can never succeed", "statement": "If a keyper gives up a transaction because of the contract's error message, the contract refuses the call in every later state; conversely a transaction that can never succeed is given up or expires, so it does not hold up the transactions after it.", "quantifier": "all states of the contracts, all later states, all transactions", "why_tests_cant": "every later state", "anchors": ["shuttermint/keyper/fx/runenv.go: handleActions", "shuttermint/keyper/fx/actions.go: Accuse.SendTX, Appeal.SendTX", "contracts/contracts/KeyperSlasher.sol"]}
{"id": "C65", "title": "Nothing is decided twice", "statement": "In its whole life, with all crashes, restarts and reorganizations, a keyper checks in at most once, votes at most once for each batch config index and in order, accuses the executor of a half step at most once and in order, appeals at most once against each accusation, and decides to execute or skip each half step at most once and in order.", "quantifier": "all lives of a keyper: all chains of events, histories of the contracts, rounds, crash points, restarts", "why_tests_cant": "every schedule, crash point and history", "anchors": ["shuttermint/keyper/decide.go: maybeSendCheckIn, maybeSendBatchConfig, maybeAccuse, maybeAppeal, maybeExecuteHalfStep", "shuttermint/keyper/keyper.go: LoadState, saveState"]}
{"id": "C66", "title": "Batches are decrypted with the right key", "statement": "Whatever the other keypers put on shuttermint, a key a keyper has for a batch and an eon is the secret key of this batch for the eon public key that the keyper itself votes for; the keyper has it only if at least threshold many different keypers of the eon's config have published correct shares; two keypers never have different keys for the same eon and batch; and every transaction encrypted correctly with the eon public key and accepted for the batch is among those the keyper executes.", "quantifier": "all contents of shuttermint, all lives of a keyper (rounds, crash points, restarts), all histories of the contracts", "why_tests_cant": "every history, adversarial messages of the other keypers, every schedule", "anchors": ["shuttermint/keyper/decide.go: dkgFinalize, syncEKGWithEon, decryptTransactions, executeCipherBatch", "shlib/puredkg/puredkg.go: ComputeResult", "shlib/epochkg/epochkg.go: HandleEpochSecretKeyShare"]}
{"id": "C67", "title": "The key shares a keyper publishes are right", "statement": "A keyper publishes a share for a batch only if it is a keyper of the batch; the eon it gives is the newest eon for this batch; the share is the value, at the keyper's position in the eon's config, of the sharing whose secret belongs to the eon public key the keyper voted for, applied to the batch's epoch id. Every batch it passes for which it takes part in the responsible eon, and which neither times out by the next block nor has a key already, gets a share. Every other keyper that takes part in the eon accepts the share and takes it into account.", "quantifier": "all contents of shuttermint, all lives of a keyper (rounds, crash points, restarts), all histories of the contracts, all pairs of keypers", "why_tests_cant": "every history, adversarial messages of the other keypers, every schedule", "anchors": ["shuttermint/keyper/decide.go: publishEpochSecretKeyShares, publishEpochSecretKeyShare, executionTimeoutReachedOrInactive", "shuttermint/keyper/epochkg/epochkg.go: ComputeEpochSecretKeyShare, HandleEpochSecretKeyShare"]}
{"id": "C68", "title": "A keyper's messages in the key generation are the prescribed ones, sent once", "statement": "For each eon in which it takes part a keyper publishes the commitment to its polynomial once, in the first round in which it decides in the dealing phase; sends every other keyper the encrypted evaluation of this polynomial once, in the first round of the dealing phase in which it knows the keyper's encryption key; accuses, once and in the first round of the accusing phase, exactly the keypers whose commitment or evaluation is missing or does not match; apologizes, once and in the first round of the apologizing phase, to exactly those that accused it, with the right evaluations; and at the end either broadcasts the eon public key or votes to start over, once. It sends no other messages for key generations.", "quantifier": "all contents of shuttermint, all lives of a keyper (rounds, crash points, restarts)", "why_tests_cant": "every history, every schedule of rounds and restarts", "anchors": ["shuttermint/keyper/decide.go: startPhase1Dealing, startPhase2Accusing, startPhase3Apologizing, dkgFinalize, sendPolyEvals, handleDKGs", "shlib/puredkg/puredkg.go: StartPhase1Dealing, StartPhase2Accusing, StartPhase3Apologizing"]}
{"id": "C69", "title": "The key generation succeeds if enough keypers are honest and online", "statement": "An honest keyper that decides at least once in each phase and whose messages get on the chain in their phase is not considered corrupt by any keyper that finishes the key generation, whatever the others send and however often it is accused. If at least threshold many keypers of an eon are of this kind, each of them ends with a result, they all have the same eon public key, and each broadcasts it. An honest keyper that knew another one's encryption key in time is not accused by it.", "quantifier": "all contents of shuttermint, all behaviours of the dishonest keypers, all sets of honest keypers of at least threshold size, all schedules of the honest ones", "why_tests_cant": "adversarial keypers, every schedule, every set of honest keypers", "anchors": ["shuttermint/keyper/decide.go: handleDKGs, dkgFinalize", "shlib/puredkg/puredkg.go: isCorrupt, ComputeResult, HandleApologyMsg"]}
{"id": "C70", "title": "Enough shares give every keyper the key of a batch", "statement": "Whatever else is on shuttermint: once threshold many keypers of an eon have published shares for a batch that fit the result of the key generation, every keyper that has the result, has decided on the blocks with the shares, and whose view of shuttermint is only filtered after it has decided on it, has the key of the batch for the eon, and the key belongs to the eon public key. In particular, if threshold many keypers are honest and online during the key generation, the shares they publish are enough for each of them.", "quantifier": "all contents of shuttermint, all behaviours of the dishonest keypers, all lives of the keypers (rounds, filters, crash points, restarts), all eons and batches, all thresholds", "why_tests_cant": "adversarial keypers, every schedule of rounds and filters, every history", "anchors": ["shuttermint/keyper/decide.go: handleEpochKG, syncEKGs, syncEKGWithEon, GetShutterFilter", "shuttermint/keyper/epochkg/epochkg.go: HandleEpochSecretKeyShare", "shuttermint/keyper/observe/shutter.go: ApplyFilter, GetEpochSecretKeyShares", "shuttermint/keyper/keyper.go: syncLoop"]}
{"id": "C71", "title": "Keypers that send through the application complete the key generation", "statement": "The keypers read exactly the events the application has published for accepted transactions (except commitments without points), and a key generation message in the name of a keyper is one it has signed. Every keyper runs the key generation of an announced eon with the keypers, threshold and first batch of the config the application started it with, if no config for that batch is accepted later. What a keyper sends, delivered in the phase it is sent in, is accepted and published unchanged whatever transactions others send; so if threshold many keypers of an announced eon run the program, decide in each phase, have their messages delivered in time and are not impersonated, they all broadcast the same eon public key, and once their shares for a batch are delivered, each of them gets the key of the batch.", "quantifier": "all executions of the application with arbitrary transactions of anybody in any order, all announced eons, all lives of the keypers, all sets of participating keypers of at least threshold size", "why_tests_cant": "composition of application and keypers under adversarial transactions and every schedule", "anchors": ["shuttermint/app/app.go: DeliverTx, deliverMessage, handlePolyCommitmentMsg, handlePolyEvalMsg, handleAccusationMsg, handleApologyMsg, handleEpochSecretKeyShareMsg", "shuttermint/app/dkg.go", "shuttermint/shmsg/messages.go", "shuttermint/keyper/shutterevents/shutterevents.go", "shuttermint/keyper/decide.go: handleDKGs, startDKG"]}
{"id": "C72", "title": "Shuttermint follows the configs of the main chain", "statement": "A keyper votes only for the config with the number after the latest one on shuttermint, exactly as it is scheduled on the main chain, at most once for each number and in increasing order; if it decides and has seen both chains it does vote. If so many keypers of a config run the program that the others cannot reach the threshold, the next config shuttermint accepts is the next one scheduled on the main chain; if they also reach the threshold, every config scheduled next on the main chain is accepted once their votes are delivered.", "quantifier": "all executions of the application with arbitrary transactions of anybody in any order, all histories of the contracts, all lives of the keypers (rounds, crash points, restarts), all configs after the first, all sets of keypers that run the program", "why_tests_cant": "composition of both chains and the keypers under adversarial transactions and every schedule", "anchors": ["shuttermint/keyper/decide.go: maybeSendBatchConfig", "shuttermint/app/app.go: deliverBatchConfig, checkConfig, addConfig", "shuttermint/app/configvoting.go", "contracts/contracts/ConfigContract.sol: scheduleNextConfig"]}
{"id": "C73", "title": "A keyper executes what it is its turn to", "statement": "In every round in which a keyper decides, and has no half step of its own still waiting for the main chain, it executes or skips half steps from the next one of the executor contract on, up to the first one it is not its turn to, at most ten. It is its turn with the encrypted part of a batch if the batch is over for as many blocks as the keyper has to wait and not timed out, and the keyper is one of the batch, has a key and, unless no encrypted transactions were submitted, enough signatures are published; with skipping it if the timeout has passed for so long; with the plain part if the batch is over for so long. It executes the encrypted part with all transactions accepted for the batch. Nobody waits for longer than half of the timeout, and for each half step there is one keyper that does not wait, another one each time.", "quantifier": "all contents of shuttermint, all histories of the contracts, all lives of a keyper (rounds, filters, crash points, restarts)", "why_tests_cant": "liveness in every history and every schedule of rounds, filters and restarts", "anchors": ["shuttermint/keyper/decide.go: maybeExecuteBatch, maybeExecuteHalfStep, executeCipherBatch, executePlainBatch, getNumHalfStepsToExecute, executionDelay, syncBatch, handleDecryptionSignatures", "shuttermint/keyper/observe/shutter.go: ApplyFilter, GetBatchData"]}
{"id": "C74", "title": "Keypers sign what they decrypt", "statement": "A keyper signs a batch only in the round in which it gets the key of the batch, only if encrypted transactions were accepted for it, and what it signs is the encrypted transactions accepted by the batcher contract together with what this key decrypts them to; it does not sign when it is too late for executing the batch or when enough others have published the same signature; in all other cases it does sign. Shuttermint publishes the first signature for a batch of each keyper of the batch. Once the signatures of threshold many keypers with the same key are published, every keyper with this key is able to execute the batch.", "quantifier": "all contents of shuttermint, all histories of the contracts, all lives of the keypers (rounds, filters, crash points, restarts), all executions of the application", "why_tests_cant": "composition of both chains and several keypers in every history and every schedule", "anchors": ["shuttermint/keyper/decide.go: handleEpochKG, decryptTransactions, sendDecryptionSignature, syncBatch, syncSignatures, executionTimeoutReachedOrInactive", "shuttermint/app/app.go: deliverDecryptionSignature", "shuttermint/app/batch_state.go: AddDecryptionSignature"]}
{"id": "C75", "title": "Messages for shuttermint are delivered", "statement": "The keyper sends its messages for shuttermint in the order in which it has decided on them, each only when it is done with those before; time outs, failing calls and crashes lose none. It gives up on a message only if the application has refused to execute it, and it counts a message as sent only if the application has executed it in a committed block. Nothing is executed in its name that it has not decided on.", "quantifier": "all messages, all sequences of ABCI calls of the node with arbitrary transactions of others, all points at which a call of the RPC interface fails, all crash points", "why_tests_cant": "every interleaving of blocks, failing calls and crashes", "anchors": ["shuttermint/keyper/fx/messagesender.go: SendMessage, IsRetriable, addNonceAndChainID", "shuttermint/keyper/fx/runenv.go: handleAction, handleActions", "shuttermint/app/checktx.go", "shuttermint/app/app.go: CheckTx, DeliverTx, Commit"]}
{"id": "C76", "title": "Users find the key the keypers decrypt with", "statement": "The transaction a keyper makes to vote for the eon key it has got is accepted by the key broadcast contract if the keyper has this number in the config of the batch and has not voted for the batch before. If threshold many keypers of an announced eon take part in its key generation, and only one eon is announced for its first batch, there is a key such that: any key with more votes in the contract than there are other voters is this one; once the participants have voted and the other voters are fewer, the best key of the contract is this one; and the keys the participants get for the batches of the eon belong to it, so they decrypt what was encrypted with it.", "quantifier": "all histories of the contracts, all executions of the application with arbitrary transactions, all lives of the keypers, all votes of other accounts in any order", "why_tests_cant": "composition of both chains and several keypers under adversarial votes and every schedule", "anchors": ["contracts/contracts/KeyBroadcastContract.sol: vote, getNumVotes, getBestKey, getBestKeyNumVotes", "shuttermint/keyper/decide.go: dkgFinalize, broadcastEonPublicKey", "shuttermint/keyper/fx/actions.go: EonKeyBroadcast"]}
{"id": "C77", "title": "Transactions mean what was signed", "statement": "Whatever bytes a transaction consists of, decoding does not panic. What a keyper sends is understood by the application exactly as it was sent, with its nonce and chain id, and as sent by this keyper. A transaction is understood as a message of an account only if it carries a signature of the account over exactly the bytes the message is decoded from, after a prefix that no other signed data of a keyper begins with; so without forged signatures everything executed in the name of a keyper was signed by it. Numbers have 64 bits and signers 20 bytes. Of all transactions that can be made from a signed message only the first one delivered is executed. Messages in the keyper's files are read as they were written.", "quantifier": "all byte strings, all messages, all keys, all executions of the application", "why_tests_cant": "ranges over arbitrary byte strings, including malformed and adversarial encodings", "anchors": ["shuttermint/shmsg/encode.go: SignMessage, GetSigner, GetMessage, GobEncode, GobDecode", "shuttermint/shmsg/shmsg.proto", "shuttermint/app/app.go: decodeTx", "shuttermint/keyper/fx/messagesender.go: SendMessage"]}
{"id": "C78", "title": "Encryption in web pages", "statement": "For whatever arguments, the encryption and decryption functions for web pages return either an error text or the hexadecimal text of bytes, never something that can be read as both, and the key check returns a boolean or an error text. Missing, additional or malformed arguments are refused. A message encrypted for an eon key and an epoch decrypts, in a page and by the keypers, to exactly this message with the secret key of this epoch. The key check returns true for the right key and false for other keys.", "quantifier": "all lists of arguments of all types and lengths, all messages, keys, epochs and random numbers", "why_tests_cant": "ranges over all arguments and all random numbers", "anchors": ["shuttermint/shcryptowasm/both_wasm.go", "shuttermint/shcryptowasm/encrypt_wasm.go", "shuttermint/shcryptowasm/decrypt_wasm.go", "shlib/shcrypto/keys.go: VerifyEpochSecretKey", "shuttermint/keyper/observe/mainchain.go: DecryptTransactions"]}
{"id": "C79", "title": "Validator updates never stop the chain", "statement": "Whatever transactions are delivered, the validator updates returned at the end of each block are ones Tendermint applies to the validators it has: keys of 32 bytes, none twice, no negative power, only validators are removed, at least one is left, and the total power stays within Tendermint's bound. After every block more than two thirds of the voting power belongs to validators of the genesis document or to keypers that have checked in, so that they can make further blocks.", "quantifier": "all executions of the application with arbitrary transactions of anybody, all iteration orders of maps", "why_tests_cant": "ranges over all histories of votes and check-ins", "anchors": ["shuttermint/app/app.go: EndBlock, CurrentValidators, makePowermap, countCheckedInKeypers, InitChain", "shuttermint/app/powermap.go", "shuttermint/keyper/shutterevents/batchconfig.go: EnsureValid"]}
{"id": "C80", "title": "The keyper goes on working", "statement": "However the goroutines of a keyper are scheduled, their channels and workers never wait for each other in a circle: as long as every transaction is taken by the node, refused for good or expired, the keyper comes back after finitely many steps to look at both chains and decide, from every state, also after crashes and restarts. If its main loop waits, then a message is being sent, or twenty transactions are waiting to be sent, or twenty transactions are not mined yet.", "quantifier": "all histories of decisions, crashes, restarts and answers of the node, all schedules of the goroutines", "why_tests_cant": "ranges over all interleavings of goroutines with bounded channels, and absence of deadlock", "anchors": ["shuttermint/keyper/fx/runenv.go: scheduleAction, Load, RunActions, handleActions, handleInFlightTXs, sendMainChainTX", "shuttermint/keyper/keyper.go: syncOnce, syncLoop, run, runOneStep", "shuttermint/keyper/fx/actions.go: SendTX, IsExpired"]}
{"id": "C81", "title": "A user's encrypted transaction is executed", "statement": "If at least threshold many keypers of an eon take part in its key generation, and outvote the others in the key broadcast contract, then a message that a user encrypts with the best key of that contract for a batch, and that the batcher contract accepts, is executed: as soon as these keypers have sent their shares and signatures for the batch in time, each of them executes, when it is its turn, the encrypted part of the batch with this message in it; and the executor contract accepts this if nobody was faster and the batch has not timed out, and calls the target contract with the message.", "quantifier": "all executions of the application, all behaviours of the other keypers, all lives of the participants on both chains, all histories of the contracts, all messages", "why_tests_cant": "ranges over all histories of two chains and of several nodes, with arbitrary behaviour of the other keypers", "anchors": ["shuttermint/keyper/decide.go: publishEpochSecretKeyShares, maybeExecuteHalfStep, executeCipherBatch, sendDecryptionSignature", "shlib/shcrypto/keys.go", "shlib/shcrypto/encryption.go", "shuttermint/app/app.go", "contracts/contracts/ExecutorContract.sol: executeCipherBatch", "contracts/contracts/KeyBroadcastContract.sol: vote, getBestKey", "contracts/contracts/BatcherContract.sol: addTransaction"]}
{"id": "C82", "title": "The eon secret key stays secret", "statement": "Pool everything that some keypers, fewer than the threshold, are sent in a key generation, and count a keyper that accuses a dealer among them, since the dealer's apology is public. If a dealer draws its polynomial at random, then for whatever evaluations these keypers were sent, every secret of the dealer, and every eon secret key, is left equally possible: the same number of polynomials fits. What is published besides can be computed without the secret: the commitment from the dealer's part of the public key, the shares for a batch from the key of the batch, both by factors that do not depend on the secret, and all other messages are the same for every polynomial that fits.", "quantifier": "all thresholds, all sets of fewer than threshold keypers, all polynomials and evaluations, all sequences of calls and messages during the key generation", "why_tests_cant": "a statement about two executions and about the number of polynomials over a field of 255 bits", "anchors": ["shlib/puredkg/puredkg.go: StartPhase1Dealing, StartPhase2Accusing, StartPhase3Apologizing, HandleAccusationMsg", "shlib/shcrypto/feldman.go: RandomPolynomial, EvalForKeyper, Gammas", "shlib/shcrypto/keys.go: ComputeEonSecretKeyShare, ComputeEpochSecretKeyShare, ComputeEpochSecretKey"]}
{"id": "C83", "title": "A failed key generation is repeated", "statement": "A keyper of an announced eon that lives to see the end of the key generation broadcasts a key for the announced batch or votes for starting an eon for this batch again, after the last phase. If threshold many keypers of the eon have no key to broadcast, then, once their votes are delivered, the application has announced another eon with a higher number for the same batch and the same keypers. The votes of a keyper that runs the program are only for batches of eons announced before, and if in each config the keypers that vote for anything else are fewer than the threshold, every eon is for the start batch of its config.", "quantifier": "all executions of the application, all behaviours of the other keypers, all lives of the keypers, online or not during the key generation", "why_tests_cant": "ranges over all histories of the chain and of several keypers, with arbitrary votes of others", "anchors": ["shuttermint/app/app.go: deliverEonStartVoteMsg, countEonStartVote, maybeStartEon", "shuttermint/app/eonvoting.go", "shuttermint/app/voting.go: OutcomeIndex", "shuttermint/keyper/decide.go: dkgFinalize", "shmsg/messages.go: NewEonStartVote"]}
{"id": "C84", "title": "Target contracts do what was signed, once", "statement": "Transactions which the executor contract hands to the target proxy contract make exactly the call they were written for, with the receiver and the data given, and are reported if and only if the receiver succeeds; what anybody else calls the proxy or the test target with has no effect. The test target publishes for an address only what the owner of the address has signed, at most one message for each nonce, and nothing is withdrawn. So a message written with the example page, if its transaction is executed, is published exactly once as its author's, even if others copy the transaction or write their own.", "quantifier": "all messages, nonces, addresses, signatures and byte strings, all sequences of calls by anybody with any data, in any order, with or without enough gas, all histories of the other contracts", "why_tests_cant": "the decoder of the contracts accepts infinitely many byte strings, and the calls before a given one are arbitrary", "anchors": ["contracts/contracts/TargetProxyContract.sol: executeTransaction", "contracts/contracts/TestTargetContract.sol: executeTransaction, isNonceUsed", "contracts/contracts/ExecutorContract.sol: executeTransactions", "example/src/utils.js: encodeMessage, encodeTargetContractData, encodeProxyContractData", "shuttermint/cmd/deploy/deploy.go: batchContractDeployments", "shuttermint/cmd/prepare/configs.go: generateConfigJSON"]}
{"id": "C85", "title": "The example page's transactions reach an open batch", "statement": "The example page finds the batch config in force and, for a block, the batch the contracts and the keypers assign to it. A transaction it sends is accepted by the batcher contract if it is mined by the block for which the page predicts it and less than a batch earlier, whatever others have done since the page was opened, as long as the config found then is in force, the batch has room and there is no fee; and a message sent unencrypted is published once the batch is executed. The page offers encryption only with a key that threshold many keypers have voted for, shows as last executed the last batch that is, and lists the messages published.", "quantifier": "all histories of the contracts before and after the page is opened, all configs, block numbers, delays, messages and votes", "why_tests_cant": "ranges over all schedules of configs and everything that others do between opening the page and the execution of the batch", "anchors": ["example/src/utils.js: getConfigIndexAtBlock, getConfigAtBlock, getBatchIndexAtBlock", "example/src/App.vue: getKeyAndConfig", "example/src/components/SubmitForm.vue: sendTransaction", "example/src/components/StatusPanel.vue: lastExecutedBatch", "example/src/components/TargetSection.vue: mounted, handleExecutedTransaction", "contracts/contracts/BatcherContract.sol: addTransaction", "contracts/contracts/KeyBroadcastContract.sol: getBestKey, getBestKeyNumVotes"]}
{"id": "C86", "title": "A keyper becomes known with its own keys", "statement": "A keyper that runs the program checks in as soon as it decides in a round where it has seen a config with it on shuttermint, and not before. If nobody else signs check-ins for it, then once this is delivered the application has its validator key, and every keyper that reads the chain that far its encryption key; both stay, and no other key is ever taken for it. After every block from then on, if the config in force has the keyper, Tendermint gives its validator key power 10.", "quantifier": "all executions of the application, all behaviours of the other keypers, all lives of the keyper with restarts, all views of others", "why_tests_cant": "ranges over all histories of the chain and all interleavings of the keyper's rounds with it", "anchors": ["shuttermint/keyper/decide.go: shouldSendCheckIn, maybeSendCheckIn", "shuttermint/shmsg/messages.go: NewCheckIn", "shuttermint/app/app.go: deliverCheckIn, isKeyper, EndBlock, CurrentValidators", "shuttermint/app/powermap.go: MakePowermap", "shuttermint/keyper/observe/shutter.go: applyCheckIn, IsCheckedIn, IsKeyper"]}
{"id": "C87", "title": "The operator's commands set and schedule what is in the file", "statement": "If `shuttermint config set-next` reports success, the next config in the config contract is the one in the file, and nothing else in the contract has changed; unless transactions run out of gas it does succeed; and wherever it is interrupted, it can be run again. If the file leaves the start open, the start chosen follows the last scheduled config without a gap, at least 20 blocks after the required notice, so that the config can be scheduled within the next 19 blocks. If `schedule` reports success, the next config is the new last one of the schedule.", "quantifier": "all histories of the contract, all files, everything others do meanwhile, all points where the command is interrupted, all transactions that fail", "why_tests_cant": "ranges over all states of the contract, all interleavings of the transactions with the chain and all interruptions", "anchors": ["shuttermint/cmd/config/setnext.go: setNext, chooseStartBlockAndBatch", "shuttermint/cmd/config/schedule.go: schedule", "shuttermint/contract/config.go: SetNextBatchConfig, GetNextConfig, UnmarshalJSON, validateThreshold", "shuttermint/medley/txbatch/txbatch.go: TXBatch", "contracts/contracts/ConfigContract.sol: nextConfigSet*, nextConfigAddKeypers, nextConfigRemoveKeypers, scheduleNextConfig"]}
{"id": "C88", "title": "Bootstrapping makes the keypers of the config the validators, and validators follow the keyper sets", "statement": "A chain initialized with `shuttermint init` starts, with the node's key as the only validator. After `shuttermint bootstrap` has reported success, the config that it has read from the config contract is started on shuttermint, and once at least threshold many of its keypers have registered their validator keys, its keypers are the validators, with equal power. When later a config of other keypers is accepted and takes effect, these become the validators, without anybody running a command.", "quantifier": "all genesis keypers, all states of the config contract, all histories of the chain, all moments", "why_tests_cant": "ranges over all histories of the application between the command and the end of a block, and over all that follow", "anchors": ["shuttermint/cmd/bootstrap.go: bootstrap", "shuttermint/cmd/init.go: initFilesWithConfig", "shuttermint/app/app.go: InitChain, deliverBatchConfig, deliverBatchConfigStarted, EndBlock, CurrentValidators", "shuttermint/shmsg/messages.go: NewBatchConfigStarted", "shuttermint/keyper/decide.go: Decide"]}
{"id": "C89", "title": "Deposits are backed by tokens, and tokens move only by their holder's will", "statement": "With a deposit token as in the repository (ERC777 of OpenZeppelin without default operators, minted at deployment) the deposit contract's balance in the token contract is at all times the sum of all deposits, and all balances add up to the total supply, whatever hooks of senders and recipients do, including calling all contracts back. Tokens get to the deposit contract only as deposits credited to their holder; plain ERC20 transfers to it are refused. Any holder can deposit; after a request and the delay the depositor gets the whole deposit at any address without code and hook, and nobody can prevent it. After the time for appeals an accused executor can be slashed by anybody, if slashed tokens are burnt or go to such an address. The tokens of an account that authorises nobody and makes no calls never become fewer; if it authorises a spender, they become fewer by no more than is used up of the allowance. Holders without hook can transfer and burn their tokens.", "quantifier": "all histories of all contracts, the token contract and the registry of hooks, all callers, all behaviours of hooks and other foreign code", "why_tests_cant": "ranges over all nestings of transfers, hooks and calls of the contracts", "anchors": ["contracts/openzeppelin/contracts/token/ERC777/ERC777.sol: send, transfer, operatorSend, transferFrom, burn, operatorBurn, _send, _move, _burn, _callTokensToSend, _callTokensReceived", "contracts/openzeppelin/contracts/utils/introspection/IERC1820Registry.sol", "contracts/contracts/DepositContract.sol: tokensReceived, withdraw, slash", "contracts/contracts/KeyperSlasher.sol: slash", "contracts/contracts/TestDepositTokenContract.sol"]}
{"id": "C90", "title": "The keypers run with the keys and contracts they were prepared for", "statement": "From the file that `deploy` writes, `prepare configs` makes, for URLs without quotes, backslashes and control characters, one file per keyper with which the keyper runs with its own keys and address, the given URLs and the contracts that were deployed (and `unfund` uses the same key), and a config.json that the operator's commands accept, with exactly these keypers in their order, a threshold of two thirds rounded up, and the deployed target. Addresses in files are accepted only in their form with checksum, keys only as 64 hexadecimal digits of a valid key, configs only with a threshold between one and the number of keypers. Environment variables take precedence over the file, each for its own key only.", "quantifier": "all keys, deployed addresses, URLs, multipliers, environments and file contents", "why_tests_cant": "ranges over all keys, addresses and texts, including files that were edited by hand", "anchors": ["shuttermint/medley/checksum.go: ChecksumAddr", "shuttermint/cmd/deploy/contracts.go: Contracts", "shuttermint/contract/config.go: MarshalJSON, UnmarshalJSON", "shuttermint/keyper/config.go: Config, WriteTOML, Unmarshal, GenerateNewKeys", "shuttermint/cmd/keyper.go: readKeyperConfig, keyperMain", "shuttermint/cmd/prepare/configs.go: configs", "shuttermint/cmd/prepare/unfund.go: readKeyFromConfig"]}
{"id": "C91", "title": "Deploying succeeds only as a whole, and the file names contracts that belong together", "statement": "If `shuttermint deploy` writes its file, then each address in it is that of a contract of the kind it is for, the contracts refer to each other as they should, are owned by the deployer, and whatever others did with them meanwhile, their state is one that could as well have come about after a deployment all at once, in which no setting has been changed yet: no config, no fee, slashed tokens burnt. With the ERC1820 registry there, enough gas, and nobody who becomes the slasher first, the command succeeds; if somebody else becomes the slasher before the keyper slasher is created, it never does. With the file of a deployment, `prepare configs` gives keypers the addresses of contracts that belong together.", "quantifier": "all nonces and addresses, all calls of others between the transactions of the command, all blocks, all transactions that fail or run out of gas", "why_tests_cant": "ranges over all interleavings of the ten transactions with calls of everybody else, nested without bound", "anchors": ["shuttermint/cmd/deploy/deploy.go: deploy, batchContractDeployments", "shuttermint/medley/txbatch/txbatch.go: TXBatch, WaitMined", "contracts/contracts/KeyperSlasher.sol: constructor", "contracts/contracts/DepositContract.sol: constructor, setSlasher", "contracts/contracts/ConfigContract.sol: constructor"]}
{"id": "C92", "title": "Transactions are sent at the configured multiple of the suggested gas price", "statement": "The gas price of the keypers' transactions is the price suggested by the node times the multiplier of the config: up to 2^64 wei the exact product rounded down or up to an integer, above that up to one part in 2^64. With a multiplier of one or more it is never below the suggested price, with exactly one it is the suggested price, and a greater multiplier or a greater suggested price never make it lower. Negative multipliers are refused.", "quantifier": "all prices and all multipliers that a float64 can hold", "why_tests_cant": "the test has three multipliers and one price; precision and rounding depend on both", "anchors": ["shuttermint/keyper/gaspricer/gaspricer.go: SetMultiplier, Adjust", "shuttermint/contract/caller.go: Auth", "shuttermint/cmd/keyper.go: keyperMain"]}
{"id": "C93", "title": "Funding gives the keypers what they lack, and unfunding takes it back", "statement": "If `prepare fund` succeeds, every keyper has half an ether or more, unless somebody took from it meanwhile; those that had less have exactly one ether and the others what they had, and the owner has paid exactly the difference and the fees, unless something else happened to these accounts; run again, it sends nothing. While `prepare unfund` runs, an account has at any time what it had, or nothing; when it succeeds, the accounts are empty but for those that cannot pay the fee and those whose transaction was refused by the node, and the receiver has got the rest but the fees.", "quantifier": "all balances, prices, nonces and lists of accounts, all interleavings of the queries and transactions with what others do", "why_tests_cant": "ranges over all numbers of keypers, all balances and all interleavings", "anchors": ["shuttermint/cmd/prepare/fund.go: determineFundings, fundAddresses", "shuttermint/cmd/prepare/unfund.go: Drain, unfundCmd", "shuttermint/medley/txbatch/txbatch.go: Add, WaitMined", "shuttermint/medley/medley.go: WaitMinedMany"]}
{"id": "C94", "title": "Executed transactions get the gas limit of the config", "statement": "When a batch is executed, each of its transactions is called with the gas limit of the config, whoever executes it, so that the result does not depend on the one who executes; and the keypers' own transactions have enough gas for every batch that the batcher accepts.", "quantifier": "all batches, targets, costs of the contract, gas limits, and amounts of gas that whoever executes provides", "why_tests_cant": "ranges over all batches and all amounts of gas", "anchors": ["contracts/contracts/ExecutorContract.sol: executeTransactions", "shuttermint/keyper/fx/actions.go: gasLimit", "shuttermint/cmd/prepare/configs.go: generateConfigJSON"]}
{"id": "C95", "title": "Setting up a system ends with the keypers of the operator's file in charge", "statement": "If `deploy` reports success, then `config set-next` with a file that leaves the start open, then `config schedule`, and then, on a chain made by `init` for one keyper, `bootstrap`, then the contract has exactly the operator's config, to start 20 blocks after the required notice, and unless another config is accepted meanwhile the end of every later block finds config number 1 started in the application, with the keypers and the threshold of the file; as soon as a threshold of them has registered validator keys, they are the validators and the genesis key is none. `schedule` can succeed in each of the 19 blocks after the one at which `set-next` looked.", "quantifier": "all deployments, all calls of others between any two steps, all files, all executions of the application", "why_tests_cant": "composes runs of four programs with two chains, each of unbounded length", "anchors": ["shuttermint/cmd/deploy/deploy.go: deploy", "shuttermint/cmd/config/setnext.go: setNext", "shuttermint/cmd/config/schedule.go: schedule", "shuttermint/cmd/bootstrap.go: bootstrap", "shuttermint/cmd/init.go: initFiles", "contracts/contracts/ConfigContract.sol: constructor, scheduleNextConfig", "shuttermint/app/app.go: InitChain, EndBlock"]}
{"id": "C96", "title": "Looking at configs shows what is in the contract", "statement": "`config query` prints the next, the last or the numbered config of the contract, with each keyper once, and fails if there is none; `all` prints all in their order, `config list` a line for each with its number, start batch and start block. The text of a config can be used as a file for `config set-next` and gives the same config again, provided that the threshold is between one and the number of keypers shown; otherwise set-next refuses it. After a successful set-next with a file that has a start, `query -i next` prints that file. `CurrentAndFutureConfigs` gives the last config that starts at the block or before, and all later ones.", "quantifier": "all states of the config contract, all configs, indices, blocks, and all runs of set-next", "why_tests_cant": "ranges over all configs and lists of configs of any length, and composes with all runs of set-next", "anchors": ["shuttermint/cmd/config/query.go: query, printjson", "shuttermint/cmd/config/list.go: list", "shuttermint/contract/config.go: CurrentAndFutureConfigs, GetConfigByIndex, GetNextConfig, MarshalJSON, UnmarshalJSON"]}
{"id": "C97", "title": "A keyper's tasks work together, and stop together", "statement": "Until a keyper is told to stop, it decides exactly once for each view of one of the chains that its two tasks hand over, in order and with the newest views of both, beginning after it got both; no view is lost or handed over twice, and stored views from before the restart are not used. The tasks never block each other: whatever connections were lost and whatever requests failed, the keyper can go on and decide with the state at the nodes' heads. If it is told to stop, or a task fails, all tasks end, and none panics.", "quantifier": "all interleavings of the three tasks, all answers, failures and reconnections of both nodes, and all moments of stopping", "why_tests_cant": "ranges over all schedules of three concurrent tasks", "anchors": ["shuttermint/keyper/keyper.go: Run, run, syncOnce, syncLoop, startSyncTasks", "shuttermint/keyper/observe/mainchain.go: SyncMain", "shuttermint/keyper/observe/shutter.go: SyncShutter"]}
{"id": "C98", "title": "An option is what the command line says, else the environment, else its default", "statement": "A command runs exactly if its command line names only options it has, all texts that count parse, every required option is given on the command line or by the environment, and the command's checks accept the options. It then has each option as the command line gives it, whatever the environment holds; if left out there, as the variable of this command's option says, else as the variable of all commands, else the default. A variable is as good as an argument. The log format is one of four, and a command that asks for the owner's key signs with the one its option says. No two options of a command are set by the same variable, and the variable of one command's option sets no other option of a command of another name.", "quantifier": "all commands, types of options, environments and command lines; the variables for all commands and options of the program", "why_tests_cant": "ranges over all environments, command lines and types of options; there are no tests of it", "anchors": ["shuttermint/medley/medley.go: BindFlags, argumentFromEnvironmentVariable, normName", "shuttermint/cmd/root.go: rootCmd.PersistentPreRunE", "shuttermint/cmd/config/config.go: ConfigCmd.PersistentPreRunE, parseOwnerKey"]}
{"id": "C99", "title": "`deploy` sees to it that the token registry is there before it deploys", "statement": "When `deploy` goes on to the contracts, the ERC1820 registry is at its address, and stays there. If it was there before, the command sends nothing for it and pays nothing; otherwise the owner pays, whatever happens and whenever the command ends, nothing, or 0.08 ether and the fee of one transfer, once. The node has no reason to refuse the deployment but that somebody else has sent it meanwhile; the command is never stuck unless its transaction waits to be included, and with enough money and nobody interfering it can finish. The gas price is the operator's or the node's.", "quantifier": "all interleavings of the command with blocks and what others send, all gas prices, all moments at which a request fails", "why_tests_cant": "ranges over all interleavings with the chain and with others; there are no tests of it", "anchors": ["shuttermint/contract/erc1820/erc1820.go: IsDeployed, DeployContract, NewFundingTransaction, waitMinedSuccessful", "shuttermint/cmd/deploy/deploy.go: maybeDeployERC1820, DeployCmd", "shuttermint/medley/medley.go: WaitMined"]}
{"id": "C100", "title": "`init` makes nodes that can run side by side, and can be run again", "statement": "The nodes that `init` makes for different indices on one machine have no port in common: index i gets 26657 + 2i and 26656 + 2i. When `init` succeeds all files of the node are there, and a validator key, node key and genesis found there are kept; it fails only for keypers that are no addresses, a config that is not valid, or a validator key without its state. Run again it changes nothing that it made. A chain can be started with what it makes in an empty directory. If it crashes at any point, running it again completes the directory and keeps what was made, unless it crashed between the two files of the validator key.", "quantifier": "all directories, indices, options, random keys and moments of a crash", "why_tests_cant": "ranges over all contents of the directory, all indices and all moments of a crash", "anchors": ["shuttermint/cmd/init.go: initFiles, initFilesWithConfig, adjustPort", "shuttermint/app/types.go: NewGenesisAppState", "shuttermint/app/app.go: InitChain"]}
