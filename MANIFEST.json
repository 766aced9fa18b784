{
 "claims": [
  {
   "property": "C01",
   "status": "proved",
   "theorems": [
    "Shutter.Crypto.Props.C01_encrypt_decrypt",
    "Shutter.Crypto.Props.C01_verify_accepts_correct_key"
   ],
   "note": "groups/pairing/hashes abstract (Lawful)"
  },
  {
   "property": "C02",
   "status": "proved",
   "theorems": [
    "Shutter.Crypto.Props.C02_pad_layout",
    "Shutter.Crypto.Props.C02_unpad_pad",
    "Shutter.Crypto.Props.C02_pad_injective"
   ],
   "note": ""
  },
  {
   "property": "C03",
   "status": "partial",
   "theorems": [
    "Shutter.Crypto.Props.C03_decrypt_iff_partial",
    "Shutter.Crypto.Props.C03_accepted_is_encryption_partial",
    "Shutter.Crypto.Props.C03_truncation_counterexample",
    "Shutter.Crypto.Props.C03_padding_malleable_counterexample",
    "Shutter.Crypto.Props.C03_tampering_needs_collision",
    "Shutter.Crypto.Props.C03_block_counters",
    "Shutter.Crypto.Props.C03_block_counters_distinct"
   ],
   "note": "False of the code: UnpadMessage accepts zero blocks and ignores padding bytes other than the last, so accepted ciphertexts are malleable. Proved: exact characterisation of accepted ciphertexts."
  },
  {
   "property": "C04",
   "status": "proved",
   "theorems": [
    "Shutter.Crypto.Props.C04_any_threshold_shares_reconstruct",
    "Shutter.Crypto.Props.C04_quorums_agree",
    "Shutter.Crypto.Props.C04_wrong_number_rejected"
   ],
   "note": ""
  },
  {
   "property": "C05",
   "status": "proved",
   "theorems": [
    "Shutter.Crypto.Props.C05_share_verification_exact",
    "Shutter.Crypto.Props.C05_share_verification_exact_all",
    "Shutter.Crypto.Props.C05_key_verification_sound"
   ],
   "note": ""
  },
  {
   "property": "C06",
   "status": "proved",
   "theorems": [
    "Shutter.Crypto.Props.C06_eval_is_value",
    "Shutter.Crypto.Props.C06_newPolynomial_accepts",
    "Shutter.Crypto.Props.C06_verifyPolyEval_exact",
    "Shutter.Crypto.Props.C06_every_commitment_has_polynomial"
   ],
   "note": ""
  },
  {
   "property": "C07",
   "status": "proved",
   "theorems": [
    "Shutter.Crypto.Props.C07_roundtrip",
    "Shutter.Crypto.Props.C07_accepts_only_wellformed_length"
   ],
   "note": "blst point codec abstract"
  },
  {
   "property": "C08",
   "status": "partial",
   "theorems": [
    "Shutter.Crypto.Props.C08_gammas_exact",
    "Shutter.Crypto.Props.C08_gammas_roundtrip",
    "Shutter.Crypto.Props.C08_valid_point_stored_partial",
    "Shutter.Crypto.Props.C08_point_roundtrip_partial",
    "Shutter.Crypto.Props.C08_encrypted_message_counterexample",
    "Shutter.Crypto.Props.C08_point_counterexample"
   ],
   "note": "False of the code for encrypted messages and keys: the nil result of Uncompress is ignored (encoding.go:54,96,114,...). Proved in full for Gammas; for the others only for validly encoded points. The counterexamples are conditional on blst leaving the receiver untouched on malformed input."
  },
  {
   "property": "C09",
   "status": "proved",
   "theorems": [
    "Shutter.Crypto.Props.C09_eon_share_roundtrip",
    "Shutter.Crypto.Props.C09_eon_share_accepts",
    "Shutter.Crypto.Props.C09_bls_key_roundtrip",
    "Shutter.Crypto.Props.C09_bls_key_rejects",
    "Shutter.Crypto.Props.C09_eon_share_rejected_value_kept"
   ],
   "note": ""
  },
  {
   "property": "C10",
   "status": "proved",
   "theorems": [
    "Shutter.Crypto.Props.C10_shuffle_perm",
    "Shutter.Crypto.Props.C10_shuffle_fair",
    "Shutter.Crypto.Props.C10_every_order",
    "Shutter.Crypto.Props.C10_decryptTransactions_perm"
   ],
   "note": "math/rand is an arbitrary source; determinism is by construction (functions of key and list)"
  },
  {
   "property": "C100",
   "status": "proved",
   "theorems": [
    "Shutter.Init.Props.C100_ports",
    "Shutter.Init.Props.C100_disjoint",
    "Shutter.Init.Props.C100_files",
    "Shutter.Init.Props.C100_fails",
    "Shutter.Init.Props.C100_again",
    "Shutter.Init.Props.C100_starts",
    "Shutter.Init.Props.C100_crash",
    "Shutter.Init.Props.C100_crash_counterexample",
    "Shutter.Init.Props.C100_reset_counterexample",
    "Shutter.Init.Props.C100_index_counterexample",
    "Shutter.Init.Props.C100_example"
   ],
   "note": "For indices with 0 <= 26656 + 2i. A file is written or not: half written ones are left out. Tendermint's functions, ValidateBasic and the scaled timeouts (floating point) are parameters. Findings: after a crash between the validator key and its state the command fails for good (C100_crash_counterexample); run again in the directory of a node that has run, it replaces the operator's settings, also the peers, by its own and resets the application, which then has to replay the chain (C100_reset_counterexample); indices whose ports do not exist are accepted (C100_index_counterexample)."
  },
  {
   "property": "C11",
   "status": "proved",
   "theorems": [
    "Shutter.Bls.Props.C11_verify_exact",
    "Shutter.Bls.Props.C11_aggregate_verifies"
   ],
   "note": ""
  },
  {
   "property": "C12",
   "status": "partial",
   "theorems": [
    "Shutter.Bls.Props.C12_forgery_counterexample"
   ],
   "note": "False of the code: hashToG2 is a known multiple of the generator; the theorem is the general forgery."
  },
  {
   "property": "C13",
   "status": "proved",
   "theorems": [
    "Shutter.Dkg.Props.C13_agreement",
    "Shutter.Dkg.Props.C13_success_iff",
    "Shutter.Dkg.Props.C13_all_or_none"
   ],
   "note": "groups abstract; runs are arbitrary lists of API calls; keyper indexes non-negative"
  },
  {
   "property": "C14",
   "status": "proved",
   "theorems": [
    "Shutter.Dkg.Props.C14_result_consistent",
    "Shutter.Dkg.Props.C14_epoch_shares_verify",
    "Shutter.Dkg.Props.C14_joint_polynomial"
   ],
   "note": ""
  },
  {
   "property": "C15",
   "status": "proved",
   "theorems": [
    "Shutter.Dkg.Props.C15_honest_dealer_not_corrupt",
    "Shutter.Dkg.Props.C15_honest_dealer_not_accused"
   ],
   "note": ""
  },
  {
   "property": "C16",
   "status": "proved",
   "theorems": [
    "Shutter.Dkg.Props.C16_phases_one_by_one",
    "Shutter.Dkg.Props.C16_error_changes_nothing",
    "Shutter.Dkg.Props.C16_acceptance",
    "Shutter.Dkg.Props.C16_first_message_wins"
   ],
   "note": "StartPhase1Dealing returning an rng error leaves the phase advanced; this is not a message call"
  },
  {
   "property": "C17",
   "status": "proved",
   "theorems": [
    "Shutter.Dkg.Props.C17_dkg_then_decrypt"
   ],
   "note": ""
  },
  {
   "property": "C18",
   "status": "proved",
   "theorems": [
    "Shutter.Dkg.Props.C18_epoch_key",
    "Shutter.Dkg.Props.C18_epochs_distinct"
   ],
   "note": ""
  },
  {
   "property": "C19",
   "status": "proved",
   "theorems": [
    "Shutter.App.Props.C19_nonce_once",
    "Shutter.App.Props.C19_wrong_chain",
    "Shutter.App.Props.C19_accepted_is_new"
   ],
   "note": "ECDSA recovery and protobuf decoding are the abstract decoded transaction"
  },
  {
   "property": "C20",
   "status": "proved",
   "theorems": [
    "Shutter.App.Props.C20_error_no_effect"
   ],
   "note": ""
  },
  {
   "property": "C21",
   "status": "proved",
   "theorems": [
    "Shutter.App.Props.C21_checktx_irrelevant",
    "Shutter.App.Props.C21_checktx_limit",
    "Shutter.App.Props.C21_checktx_filter"
   ],
   "note": ""
  },
  {
   "property": "C22",
   "status": "proved",
   "theorems": [
    "Shutter.App.Props.C22_config_quorum",
    "Shutter.App.Props.C22_order_irrelevant"
   ],
   "note": "threshold of the voting config below 2^63"
  },
  {
   "property": "C23",
   "status": "proved",
   "theorems": [
    "Shutter.App.Props.C23_configs_well_formed",
    "Shutter.App.Props.C23_lookup_total",
    "Shutter.App.Props.C23_configs_append_only"
   ],
   "note": ""
  },
  {
   "property": "C24",
   "status": "partial",
   "theorems": [
    "Shutter.App.Props.C24_threshold_sensible_partial",
    "Shutter.App.Props.C24_counterexample"
   ],
   "note": "False of the code: a threshold of 2^63 or more passes EnsureValid, and then a single vote decides"
  },
  {
   "property": "C25",
   "status": "partial",
   "theorems": [
    "Shutter.App.Props.C25_started_votes_partial",
    "Shutter.App.Props.C25_counterexample"
   ],
   "note": "False of the code: pending reports are not reset when a new config is added; the started flag can be voted in"
  },
  {
   "property": "C26",
   "status": "proved",
   "theorems": [
    "Shutter.App.Props.C26_eons_increasing",
    "Shutter.App.Props.C26_instances_stable"
   ],
   "note": ""
  },
  {
   "property": "C27",
   "status": "proved",
   "theorems": [
    "Shutter.App.Props.C27_eon_quorum",
    "Shutter.App.Props.C27_eon_sources"
   ],
   "note": "threshold of the config below 2^63"
  },
  {
   "property": "C28",
   "status": "proved",
   "theorems": [
    "Shutter.App.Props.C28_check_in",
    "Shutter.App.Props.C28_check_in_once",
    "Shutter.App.Props.C28_identities"
   ],
   "note": ""
  },
  {
   "property": "C29",
   "status": "proved",
   "theorems": [
    "Shutter.App.Props.C29_published_once",
    "Shutter.App.Props.C29_parties",
    "Shutter.App.Props.C29_published_exactly"
   ],
   "note": ""
  },
  {
   "property": "C30",
   "status": "proved",
   "theorems": [
    "Shutter.App.Props.C29_published_once",
    "Shutter.App.Props.C30_signature_member"
   ],
   "note": ""
  },
  {
   "property": "C31",
   "status": "proved",
   "theorems": [
    "Shutter.App.Props.C31_validator_updates",
    "Shutter.App.Props.C31_tendermint_agrees"
   ],
   "note": "voting powers do not overflow int64"
  },
  {
   "property": "C32",
   "status": "proved",
   "theorems": [
    "Shutter.App.Props.C32_replay_state",
    "Shutter.App.Props.C32_replay_responses"
   ],
   "note": "gob encoding is assumed to be faithful; rename is atomic"
  },
  {
   "property": "C33",
   "status": "partial",
   "theorems": [
    "Shutter.Events.Props.C33_roundtrip_partial",
    "Shutter.Events.Props.C33_injective",
    "Shutter.Events.Props.C33_published_decode_partial",
    "Shutter.Events.Props.C33_names_checked",
    "Shutter.Events.Props.C33_address_value",
    "Shutter.Events.Props.C33_empty_gammas_counterexample",
    "Shutter.Events.Props.C33_empty_gammas_published"
   ],
   "note": "False of the code for a poly commitment without gammas: it is accepted and published but keypers cannot decode it (splitting the empty string yields one empty part). Proved for all other events."
  },
  {
   "property": "C34",
   "status": "proved",
   "theorems": [
    "Shutter.Medley.Props.C34_ensure_unique",
    "Shutter.Medley.Props.C34_dedup_first_occurrences",
    "Shutter.Medley.Props.C34_dedup",
    "Shutter.Medley.Props.C34_find_index",
    "Shutter.Medley.Props.C34_find_index_error"
   ],
   "note": ""
  },
  {
   "property": "C35",
   "status": "proved",
   "theorems": [
    "Shutter.Observe.Props.C35_windows_tile",
    "Shutter.Observe.Props.C35_tiles_cover",
    "Shutter.Observe.Props.C35_tiles_bounded",
    "Shutter.Observe.Props.C35_view_exact",
    "Shutter.Observe.Props.C35_is_keyper",
    "Shutter.Observe.Props.C35_eon_for_batch",
    "Shutter.Observe.Props.C35_no_panic",
    "Shutter.Observe.Props.C35_schedule_irrelevant",
    "Shutter.Observe.Props.C35_app_to_keyper",
    "Shutter.Observe.Props.C35_head_back_panics"
   ],
   "note": "Tendermint's TxSearch is modelled as returning the matching transactions in order, in pages of at most 100. Finding: the keyper panics if its node reports an older head."
  },
  {
   "property": "C36",
   "status": "partial",
   "theorems": [
    "Shutter.Observe.Props.C36_filter_loses_nothing_partial",
    "Shutter.Observe.Props.C36_processed_filter_exact",
    "Shutter.Observe.Props.C36_shares_lost_counterexample"
   ],
   "note": "False of the code: Eon.ApplyFilter does not copy the epoch secret key shares (counterexample). Proved for everything else, and for shares if the filter's sync height lies above the view it is applied to."
  },
  {
   "property": "C37",
   "status": "partial",
   "theorems": [
    "Shutter.Main.Props.C37_exact_partial",
    "Shutter.Main.Props.C37_nothing_lost",
    "Shutter.Main.Props.C37_double_count"
   ],
   "note": "False of the code when the node reports an older head (behind the block synced to): transactions are then counted twice (counterexample). Proved for heads that do not go back; for all heads nothing is lost. Reorganizations above the synced block are covered."
  },
  {
   "property": "C38",
   "status": "proved",
   "theorems": [
    "Shutter.Sol.Props.C38_partition",
    "Shutter.Sol.Props.C38_agrees_with_contract",
    "Shutter.Sol.Props.C38_next_batch_index",
    "Shutter.Sol.Props.C38_overflow_differs"
   ],
   "note": "as long as the blocks fit into 64 bits; C38_overflow_differs shows that beyond that the Go code wraps where the contract reverts"
  },
  {
   "property": "C39",
   "status": "partial",
   "theorems": [
    "Shutter.Decide.Props.C39_closed_partial",
    "Shutter.Decide.Props.C39_in_order_partial",
    "Shutter.Decide.Props.C39_order_of_active",
    "Shutter.Decide.Props.C39_early_counterexample",
    "Shutter.Decide.Props.C39_taken_back_counterexample"
   ],
   "note": "False of the code for two kinds of schedules (counterexamples): start blocks that go back after an inactive config, and configs the owner takes back after the keyper has seen them; shares are then published before the batch opens. Proved for all other schedules, for every life of a keyper: any rounds, crashes, restarts, reorganizations above the followed block."
  },
  {
   "property": "C40",
   "status": "partial",
   "theorems": [
    "Shutter.Decide.Props.C40_order",
    "Shutter.Decide.Props.C40_closed_partial",
    "Shutter.Decide.Props.C40_skip_partial",
    "Shutter.Decide.Props.C40_plain_partial",
    "Shutter.Decide.Props.C40_cipher_partial",
    "Shutter.Decide.Props.C40_accepted_partial",
    "Shutter.Decide.Props.C40_hash_not_zero",
    "Shutter.Decide.Props.C40_early_counterexample"
   ],
   "note": "False of the code if the key of a batch becomes known to a keyper whose view of the main chain lags behind (counterexample): the keyper takes the batch for an empty one and executes it with no transactions. Proved for every life of a keyper; configs taken back by the owner and overflowing block numbers are excluded. The contract accepts the calls (C40_accepted_partial)."
  },
  {
   "property": "C41",
   "status": "proved",
   "theorems": [
    "Shutter.Fx.Props.C41_queued_in_order",
    "Shutter.Fx.Props.C41_all_queued_before_next",
    "Shutter.Fx.Props.C41_ids_unique",
    "Shutter.Fx.Props.C41_offered_again",
    "Shutter.Fx.Props.C41_no_panic",
    "Shutter.Fx.Props.C41_not_lost",
    "Shutter.Fx.Props.C41_sent_only_queued",
    "Shutter.Fx.Props.C41_sent_at_most_once_per_run",
    "Shutter.Fx.Props.C41_sent_in_order",
    "Shutter.Fx.Props.C41_recovers",
    "Shutter.Fx.Props.C41_sent_twice_finding"
   ],
   "note": "file writes are atomic (temp file and rename); ids below 2^64; channels are FIFO lists. Finding: the sending itself is at least once, a crash before the transaction hash is recorded sends the transaction again."
  },
  {
   "property": "C42",
   "status": "partial",
   "theorems": [
    "Shutter.Decide.Props.C42_accepted_partial",
    "Shutter.Decide.Props.C42_example",
    "Shutter.Decide.Props.C42_mirrored_counterexample"
   ],
   "note": "False of the code for valid signatures with the larger s (counterexample): the keyper takes them, the contract's ECDSA library refuses them. Proved for canonical signatures, for every life of a keyper; configs taken back by the owner, targets that call the executor contract, lost first receipts, duplicate keypers and batches decrypted before they were over are excluded. Recovery on secp256k1 is a parameter with stated laws."
  },
  {
   "property": "C43",
   "status": "partial",
   "theorems": [
    "Shutter.Sol.Props.C43_schedule_partial",
    "Shutter.Sol.Props.C43_lookup",
    "Shutter.Sol.Props.C43_remove_keypers",
    "Shutter.Sol.Props.C43_remove_undoes_add",
    "Shutter.Sol.Props.C43_boundaries",
    "Shutter.Sol.Props.C43_batches_meet",
    "Shutter.Sol.Props.C43_start_block_counterexample"
   ],
   "note": "False of the code: after scheduling an inactive config for a future block another config may be scheduled for an earlier block. Everything else in the statement is proved."
  },
  {
   "property": "C44",
   "status": "proved",
   "theorems": [
    "Shutter.Sol.Props.C44_started_batches_fixed"
   ],
   "note": ""
  },
  {
   "property": "C45",
   "status": "proved",
   "theorems": [
    "Shutter.Sol.Props.C45_window",
    "Shutter.Sol.Props.C45_batch_size",
    "Shutter.Sol.Props.C45_accepts_iff",
    "Shutter.Sol.Props.C45_effect",
    "Shutter.Sol.Props.C45_hash_chain",
    "Shutter.Sol.Props.C45_hash_identifies",
    "Shutter.Sol.Props.C45_frozen"
   ],
   "note": "C45_hash_identifies assumes a collision free hash; blocks below 2^64; gas is not modelled"
  },
  {
   "property": "C46",
   "status": "proved",
   "theorems": [
    "Shutter.Sol.Props.C46_never_decreases",
    "Shutter.Sol.Props.C46_reported_once",
    "Shutter.Sol.Props.C46_in_order",
    "Shutter.Sol.Props.C46_after_end",
    "Shutter.Sol.Props.C46_skipped",
    "Shutter.Sol.Props.C46_cipher_executed",
    "Shutter.Sol.Props.C46_plain_executed",
    "Shutter.Sol.Props.C46_cipher_call",
    "Shutter.Sol.Props.C46_plain_possible",
    "Shutter.Sol.Props.C46_skip_possible"
   ],
   "note": "Order of execution is proved for targets that do not re-enter the executor; see C47 for what reentrancy does"
  },
  {
   "property": "C47",
   "status": "partial",
   "theorems": [
    "Shutter.Sol.Props.C47_calls",
    "Shutter.Sol.Props.C47_executed_once",
    "Shutter.Sol.Props.C47_plain_right_partial",
    "Shutter.Sol.Props.C47_reentrancy_counterexample"
   ],
   "note": "False of the code for re-entrant targets: executeCipherBatch increments numExecutionHalfSteps before the calls, so a target can have the plain half of the same batch executed in the middle of the cipher half (counterexample). Proved for the rest."
  },
  {
   "property": "C48",
   "status": "proved",
   "theorems": [
    "Shutter.Sol.Props.C48_slashing_justified",
    "Shutter.Sol.Props.C48_taken_once",
    "Shutter.Sol.Props.C48_accused_once",
    "Shutter.Sol.Props.C48_accused_executor",
    "Shutter.Sol.Props.C48_accused_acted",
    "Shutter.Sol.Props.C48_accuse_call",
    "Shutter.Sol.Props.C48_appeal_iff",
    "Shutter.Sol.Props.C48_appeal_quorum",
    "Shutter.Sol.Props.C48_signed_message_binds",
    "Shutter.Sol.Props.C48_slash_iff",
    "Shutter.Sol.Props.C48_slash_effect",
    "Shutter.Sol.Props.C48_double_event_finding",
    "Shutter.Sol.Props.C48_threshold_zero_finding",
    "Shutter.Decide.Props.C48_signatures_genuine"
   ],
   "note": "That the receipt belongs to the batch of the half step is proved for targets that do not re-enter the executor (C48_accused_acted). Findings: the receiver of slashed tokens can have a second Slashed event emitted for the same accusation; a threshold of zero makes every appeal succeed."
  },
  {
   "property": "C49",
   "status": "proved",
   "theorems": [
    "Shutter.Sol.Props.C49_balance",
    "Shutter.Sol.Props.C49_account",
    "Shutter.Sol.Props.C49_withdraw_after_request",
    "Shutter.Sol.Props.C49_slashed_final",
    "Shutter.Sol.Props.C49_withdraw_possible"
   ],
   "note": "OpenZeppelin's ERC777 is modelled by the deposit contract's balance and call backs to receivers"
  },
  {
   "property": "C50",
   "status": "proved",
   "theorems": [
    "Shutter.Sol.Props.C50_balance",
    "Shutter.Sol.Props.C50_account",
    "Shutter.Sol.Props.C50_no_overflow",
    "Shutter.Sol.Props.C50_withdraw_possible",
    "Shutter.Sol.Props.C50_full_account_finding"
   ],
   "note": "up to ether forced on the contract without a call. Finding: accounts are capped at 2^64-1 wei, so anyone can make addTransaction with a fee revert by filling up the fee receiver's account"
  },
  {
   "property": "C51",
   "status": "proved",
   "theorems": [
    "Shutter.Sol.Props.C51_counts_voters",
    "Shutter.Sol.Props.C51_votes_once",
    "Shutter.Sol.Props.C51_only_keypers",
    "Shutter.Sol.Props.C51_best"
   ],
   "note": "votes are recorded per key hash"
  },
  {
   "property": "C52",
   "status": "proved",
   "theorems": [
    "Shutter.Crypto.Props.C52_order_prime",
    "Shutter.Crypto.Props.C52_invert_correct"
   ],
   "note": ""
  },
  {
   "property": "C53",
   "status": "proved",
   "theorems": [
    "Shutter.App.Props.C53_no_panic"
   ],
   "note": ""
  },
  {
   "property": "C54",
   "status": "partial",
   "theorems": [
    "Shutter.Decide.Props.C54_prescribed_calls",
    "Shutter.Decide.Props.C54_phase",
    "Shutter.Decide.Props.C54_no_eon_missed",
    "Shutter.Decide.Props.C54_parameters",
    "Shutter.Decide.Props.C54_same_parameters",
    "Shutter.Decide.Props.C54_schedule_independent",
    "Shutter.Decide.Props.C54_agreement",
    "Shutter.Decide.Props.C54_late_config_counterexample",
    "Shutter.Decide.Props.C54_restart_counterexample"
   ],
   "note": "Proved for all schedules of rounds and crashes, except that a restart before the first decision loses messages (counterexample: LoadState 'fixes' a zero SyncHeight). Keypers that see an eon only after a newer config for its first batch use that config's keypers and threshold (counterexample). The eon is started with the keyper's configured phase length, the same in all rounds."
  },
  {
   "property": "C55",
   "status": "partial",
   "theorems": [
    "Shutter.Main.Props.C55_configs_partial",
    "Shutter.Main.Props.C55_unscheduled_config_stays"
   ],
   "note": "False of the code: a config that was seen and then unscheduled is never forgotten (counterexample). Proved as long as no scheduled config is taken back."
  },
  {
   "property": "C56",
   "status": "partial",
   "theorems": [
    "Shutter.Main.Props.C56_half_steps",
    "Shutter.Main.Props.C56_receipts_partial",
    "Shutter.Main.Props.C56_first_receipt_partial",
    "Shutter.Main.Props.C56_first_receipt_lost"
   ],
   "note": "False of the code for half step 0: its receipt is overwritten by the empty receipt of any later skipped half step (counterexample). Proved for all other even half steps, and for half step 0 if no encrypted part was skipped."
  },
  {
   "property": "C57",
   "status": "proved",
   "theorems": [
    "Shutter.Main.Props.C57_accusations",
    "Shutter.Main.Props.C57_deposits"
   ],
   "note": "heads do not go back"
  },
  {
   "property": "C58",
   "status": "proved",
   "theorems": [
    "Shutter.Main.Props.C58_closed_batches_agree"
   ],
   "note": "heads do not go back"
  },
  {
   "property": "C59",
   "status": "proved",
   "theorems": [
    "Shutter.Main.Props.C59_sync_succeeds"
   ],
   "note": ""
  },
  {
   "property": "C60",
   "status": "proved",
   "theorems": [
    "Shutter.App.Props.C60_config_has_dkg"
   ],
   "note": ""
  },
  {
   "property": "C61",
   "status": "proved",
   "theorems": [
    "Shutter.Sol.Props.C61_settings_owner_only",
    "Shutter.Sol.Props.C61_settings_owner_only_history",
    "Shutter.Sol.Props.C61_owner_sets"
   ],
   "note": "transferOwnership is modelled for the config contract only"
  },
  {
   "property": "C62",
   "status": "partial",
   "theorems": [
    "Shutter.Decide.Props.C62_accusation_partial",
    "Shutter.Decide.Props.C62_complete_partial",
    "Shutter.Decide.Props.C62_example",
    "Shutter.Decide.Props.C62_late_counterexample"
   ],
   "note": "False of the code for batches decrypted after their execution was seen (counterexample): they are never checked again. The rest is proved for every life of a keyper, with the same exclusions as C42."
  },
  {
   "property": "C63",
   "status": "proved",
   "theorems": [
    "Shutter.Decide.Props.C63_expired_iff",
    "Shutter.Decide.Props.C63_refused",
    "Shutter.Decide.Props.C63_appeals_kept",
    "Shutter.Decide.Props.C63_fresh",
    "Shutter.Decide.Props.C63_example"
   ],
   "note": "half steps below 2^64; heads do not go back"
  },
  {
   "property": "C64",
   "status": "partial",
   "theorems": [
    "Shutter.Decide.Props.C64_given_up",
    "Shutter.Decide.Props.C64_over",
    "Shutter.Decide.Props.C64_example",
    "Shutter.Decide.Props.C64_stuck_counterexample"
   ],
   "note": "The first half is proved. The second is false of the code (counterexample): an appeal with a mirrored signature can never succeed, is neither given up nor expires, and holds up the keyper's queue."
  },
  {
   "property": "C65",
   "status": "partial",
   "theorems": [
    "Shutter.Decide.Props.C65_accusations",
    "Shutter.Decide.Props.C65_appeals",
    "Shutter.Decide.Props.C65_votes",
    "Shutter.Decide.Props.C65_half_steps_partial",
    "Shutter.Decide.Props.C65_example",
    "Shutter.Decide.Props.C65_restart_counterexample"
   ],
   "note": "False of the code for half steps: a restart forgets a pending half step whose transaction was mined but not seen yet (or half step zero), and the keyper decides the same half steps again (counterexample). Proved between such restarts, and for everything else over whole lives."
  },
  {
   "property": "C66",
   "status": "partial",
   "theorems": [
    "Shutter.Decide.Props.C66_right_key",
    "Shutter.Decide.Props.C66_quorum",
    "Shutter.Decide.Props.C66_unique",
    "Shutter.Decide.Props.C66_keypers_agree",
    "Shutter.Decide.Props.C66_executed_partial",
    "Shutter.Decide.Props.C66_example",
    "Shutter.Decide.Props.C66_other_eon_counterexample"
   ],
   "note": "False of the code in one point (counterexample): threshold many keypers of another eon can make a keyper decrypt, sign and execute a batch with the key of their eon, so the transactions encrypted with the key of the batch's eon are dropped. The rest is proved for all lives of a keyper; agreement needs that no newer config for the eon's first batch follows (see C54), and execution has the exclusions of C40."
  },
  {
   "property": "C67",
   "status": "proved",
   "theorems": [
    "Shutter.Decide.Props.C67_right_share",
    "Shutter.Decide.Props.C67_published",
    "Shutter.Decide.Props.C67_accepted",
    "Shutter.Decide.Props.C67_example"
   ],
   "note": "Configs taken back by the owner and overflowing block numbers are excluded in C67_published; acceptance by the others needs that no newer config for the eon's first batch follows (see C54). When the share may be published is C39."
  },
  {
   "property": "C68",
   "status": "proved",
   "theorems": [
    "Shutter.Decide.Props.C68_commitment",
    "Shutter.Decide.Props.C68_evaluations",
    "Shutter.Decide.Props.C68_accusation",
    "Shutter.Decide.Props.C68_apology",
    "Shutter.Decide.Props.C68_verdict",
    "Shutter.Decide.Props.C68_silent",
    "Shutter.Decide.Props.C68_lives",
    "Shutter.Decide.Props.C68_example"
   ],
   "note": "For each eon the polynomial is a parameter (the randomness of the keyper). Which commitments, evaluations and accusations a keyper knows is C54."
  },
  {
   "property": "C69",
   "status": "proved",
   "theorems": [
    "Shutter.Decide.Props.C69_honest_not_corrupt",
    "Shutter.Decide.Props.C69_success",
    "Shutter.Decide.Props.C69_not_accused",
    "Shutter.Decide.Props.C69_example"
   ],
   "note": "That the messages of an honest keyper get on the chain in time and that nobody else can send in its name are hypotheses (Carried, Authentic, Dealt in Spec/Honest.lean); the keypers run with the same keypers and threshold (see C54_same_parameters). Not being accused needs keypers without duplicates."
  },
  {
   "property": "C70",
   "status": "proved",
   "theorems": [
    "Shutter.Decide.Props.C70_enough_shares",
    "Shutter.Decide.Props.C70_key_available",
    "Shutter.Decide.Props.C70_honest_keypers",
    "Shutter.Decide.Props.C70_example",
    "Shutter.Decide.Props.C70_honest_example",
    "Shutter.Decide.Props.C70_inattentive_counterexample"
   ],
   "note": "The lives are those in which a filter is only applied to a view the keyper has decided on (Attentive in Spec/Avail.lean, with the reason why this is the case if it decides in every round); without this it is false of the code (counterexample). Where the senders are keypers that run the code, no newer config for the eon's first batch may follow the eon's announcement (see C54)."
  },
  {
   "property": "C71",
   "status": "proved",
   "theorems": [
    "Shutter.Net.Props.C71_chain",
    "Shutter.Net.Props.C71_attributed",
    "Shutter.Net.Props.C71_parameters",
    "Shutter.Net.Props.C71_published",
    "Shutter.Net.Props.C71_key_generation",
    "Shutter.Net.Props.C71_batch_keys",
    "Shutter.Net.Props.C71_example"
   ],
   "note": "Here the hypotheses of C69 and C70 about the chain are discharged from the model of the application. What is asked of the participants is `Participates` in Spec/Net.lean; delivery in time is Tendermint's part. The eon is one of a config other than the genesis config (for which keypers do not run the key generation), and no config for its first batch is accepted after its announcement (see C54)."
  },
  {
   "property": "C72",
   "status": "partial",
   "theorems": [
    "Shutter.Net.Props.C72_vote",
    "Shutter.Net.Props.C72_vote_once",
    "Shutter.Net.Props.C72_voted",
    "Shutter.Net.Props.C72_follows",
    "Shutter.Net.Props.C72_accepted_partial",
    "Shutter.Net.Props.C72_example",
    "Shutter.Net.Props.C72_stuck_counterexample",
    "Shutter.Net.Props.C72_stuck_counterexample_run"
   ],
   "note": "The last part is false of the code (counterexample): the config contract takes configs without keypers or with threshold 0, which switch batching off; shuttermint refuses them, the keypers vote for no other number, and shuttermint gets no further config at all. Proved for all other configs; configs taken back by the owner are excluded (C55), and config number 1 is made by hand."
  },
  {
   "property": "C73",
   "status": "partial",
   "theorems": [
    "Shutter.Decide.Props.C73_runs_partial",
    "Shutter.Decide.Props.C73_decides_partial",
    "Shutter.Decide.Props.C73_cipher_partial",
    "Shutter.Decide.Props.C73_skip_partial",
    "Shutter.Decide.Props.C73_plain_partial",
    "Shutter.Decide.Props.C73_half_time",
    "Shutter.Decide.Props.C73_first",
    "Shutter.Decide.Props.C73_off",
    "Shutter.Decide.Props.C73_waits",
    "Shutter.Decide.Props.C73_example",
    "Shutter.Decide.Props.C73_off_counterexample"
   ],
   "note": "False of the code if batching is switched off (counterexample): the last batches before that are never executed or skipped, although their shares and signatures are published, as long as batching is off. Proved for all lives while batching is on; keys for batches that are not over (see C40), configs taken back by the owner (C55) and overflowing numbers are excluded. The view of shuttermint is filtered as the keyper does it, for batches not yet executed."
  },
  {
   "property": "C74",
   "status": "partial",
   "theorems": [
    "Shutter.Decide.Props.C74_signed",
    "Shutter.Decide.Props.C74_signs_partial",
    "Shutter.Decide.Props.C74_able",
    "Shutter.Decide.Props.C74_example",
    "Shutter.Decide.Props.C74_able_example",
    "Shutter.Net.Props.C74_published",
    "Shutter.Net.Props.C74_published_example"
   ],
   "note": "Missing: that a keyper signs in all other cases while configs are taken back by the owner (C55). That keypers with a key of the same eon have the same key is C66. Shuttermint publishes one signature for each keyper and batch: a keyper that has signed with the key of another eon (C66_other_eon_counterexample) cannot publish its signature with the right one."
  },
  {
   "property": "C75",
   "status": "partial",
   "theorems": [
    "Shutter.Sender.Props.C75_order",
    "Shutter.Sender.Props.C75_origin",
    "Shutter.Sender.Props.C75_sent_partial",
    "Shutter.Sender.Props.C75_gaveUp",
    "Shutter.Sender.Props.C75_lost",
    "Shutter.Sender.Props.C75_sent",
    "Shutter.Sender.Props.Demo.C75_example",
    "Shutter.Sender.Props.Demo.C75_lost_counterexample"
   ],
   "note": "False of the code (counterexample): SendMessage looks at the code of DeliverTx only, and Tendermint leaves it at zero if CheckTx has refused the transaction; such a message counts as sent and is lost. This takes ten transactions of the keyper in the mempool whose calls have timed out (C75_lost); otherwise the property holds (C75_sent). The behaviour of broadcast_tx_commit is assumed (Model/Sender.lean), and so is what a node does with refused transactions (Treats in Spec/Sender.lean)."
  },
  {
   "property": "C76",
   "status": "proved",
   "theorems": [
    "Shutter.Net.Props.C76_accepted",
    "Shutter.Net.Props.C76_one_key",
    "Shutter.Net.Props.C76_right_key",
    "Shutter.Net.Demo.C76_example"
   ],
   "note": "A keyper can vote once for each first batch only: that it decides on one key only is proved from the application announcing one eon for this batch (C76_one_key). That nobody else signs for the participants is GenuineKeyVotes in Spec/Broadcast.lean. Keys with the same hash count as one in the contract, so keys are compared by their hashes. The hypotheses about the key generation and the batch keys are those of C71."
  },
  {
   "property": "C77",
   "status": "proved",
   "theorems": [
    "Shutter.Tx.Props.C77_no_panic",
    "Shutter.Tx.Props.C77_round_trip",
    "Shutter.Tx.Props.C77_saved",
    "Shutter.Tx.Props.C77_signed",
    "Shutter.Tx.Props.C77_unforged",
    "Shutter.Tx.Props.C77_sane",
    "Shutter.Tx.Props.C77_genuine",
    "Shutter.Tx.Props.C77_variants",
    "Shutter.Tx.Props.C77_once",
    "Shutter.Tx.Props.C77_domain",
    "Shutter.Tx.Props.Demo.C77_example",
    "Shutter.Tx.Props.Demo.C77_run_example"
   ],
   "note": "Base64 and protocol buffers are dependencies, modelled from their source (Model/Proto.lean, Model/Tx.lean); SHA3 and the recovery of signers are parameters. That no delivered transaction carries a forged signature is a hypothesis of C77_unforged and C77_genuine. C77_sane and C77_genuine discharge hypotheses of C71."
  },
  {
   "property": "C78",
   "status": "partial",
   "theorems": [
    "Shutter.Wasm.Props.C78_encrypt_result",
    "Shutter.Wasm.Props.C78_decrypt_result",
    "Shutter.Wasm.Props.C78_verify_result",
    "Shutter.Wasm.Props.C78_encrypt_accepts",
    "Shutter.Wasm.Props.C78_decrypt_accepts",
    "Shutter.Wasm.Props.C78_round_trip",
    "Shutter.Wasm.Props.C78_batch",
    "Shutter.Wasm.Props.C78_verify_right",
    "Shutter.Wasm.Props.C78_verify_wrong",
    "Shutter.Wasm.Props.C78_bad_key_counterexample",
    "Shutter.Wasm.Props.C78_example",
    "Shutter.Wasm.Props.C78_verify_example"
   ],
   "note": "False of the code in one point (counterexample, from C08): an eon public key that is not the encoding of a point is not refused but taken for the point at infinity, and everybody can decrypt what is encrypted with it. C78_verify_wrong excludes collisions of the hash functions for the numbers drawn at random. JavaScript values are byte arrays or something else."
  },
  {
   "property": "C79",
   "status": "partial",
   "theorems": [
    "Shutter.App.C79_applicable",
    "Shutter.App.C79_live_partial",
    "Shutter.App.C79_counterexample",
    "Shutter.App.C79_example",
    "Shutter.App.C79_live_example"
   ],
   "note": "The second half is false of the code (counterexample): the validators come into force as soon as threshold many keypers of the config have checked in, also if this is two of three, and the power of the others goes to a key nobody holds. Proved for configs where more than two thirds of the keypers are needed, and if no accepted config claims that its validators are already in force (the message has a field for that). The first half holds for configs of less than about 2^55 keypers and a genesis document as Tendermint asks for."
  },
  {
   "property": "C80",
   "status": "partial",
   "theorems": [
    "Shutter.Fx.Props.C80_goes_on_partial",
    "Shutter.Fx.Props.C80_waits",
    "Shutter.Fx.Props.C80_looks_again",
    "Shutter.Fx.Props.C80_stuck",
    "Shutter.Fx.Props.C80_first",
    "Shutter.Fx.Props.C80_example",
    "Shutter.Fx.Props.C80_auth_finding",
    "Shutter.Decide.Props.C80_stuck_counterexample"
   ],
   "note": "Proved as long as no transaction has to be tried again and no call of the node fails while a transaction is prepared. Otherwise it is false of the code (C80_first: the transactions behind one that has to be tried again are never sent): a transaction that is refused but not given up (the appeal of C64_stuck_counterexample, made with a mirrored signature of one malicious keyper) blocks the worker, and with 21 further transactions the main loop; since only the main loop stores the view in which actions expire, this lasts until a restart, and beyond it while the accusation is not appealed (C80_stuck, C80_stuck_counterexample). A failing call in Auth ends the process (C80_auth_finding)."
  },
  {
   "property": "C81",
   "status": "partial",
   "theorems": [
    "Shutter.Net.Props.C81_executed_partial",
    "Shutter.Net.EndDemo.C81_example"
   ],
   "note": "Composes C71, C76, C01, C07, C10, C66, C74, C73 and C40, over one application, one main chain and the lives of the participants on both. Missing: what is missing in C73 and C74 (batching switched off, configs taken back, keys published before a batch is over, overflowing numbers), and shares of other eons for the batch (C66_other_eon_counterexample)."
  },
  {
   "property": "C82",
   "status": "proved",
   "theorems": [
    "Shutter.Dkg.Props.C82_uniform",
    "Shutter.Dkg.Props.C82_eon_key_uniform",
    "Shutter.Dkg.Props.C82_commitment",
    "Shutter.Dkg.Props.C82_shares",
    "Shutter.Dkg.Props.C82_indistinguishable",
    "Shutter.Dkg.Props.C82_revealed",
    "Shutter.Dkg.Props.C82_accused_counterexample"
   ],
   "note": "Perfect secrecy of the sharing and simulation of what is published; that the discrete logarithm is hard, that the encryption of evaluations hides them and that the random numbers are good is outside the model. That accusers count is necessary: C82_revealed and the finding C82_accused_counterexample (a dealer is not excluded however many accuse it, so late evaluations can make the eon secret key public among honest keypers)."
  },
  {
   "property": "C83",
   "status": "proved",
   "theorems": [
    "Shutter.Net.Props.C83_verdict",
    "Shutter.Net.Props.C83_faithful",
    "Shutter.Net.Props.C83_start_batch",
    "Shutter.Net.Props.C83_votes_count",
    "Shutter.Net.Props.C83_repeated",
    "Shutter.Net.Props.C83_example"
   ],
   "note": "The eon is one of a config other than the genesis config, and no config for its first batch is accepted after its announcement (see C54). Delivery of the votes is Tendermint's part, and that nobody else signs for the keypers is GenuineEonVotes in Spec/Restart.lean. If some keypers fail and others do not, and neither are threshold many, nothing follows: see C71 for when all that take part succeed."
  },
  {
   "property": "C84",
   "status": "partial",
   "theorems": [
    "Shutter.Target.Props.C84_read_as_written",
    "Shutter.Target.Props.C84_only_executor",
    "Shutter.Target.Props.C84_forwarded",
    "Shutter.Target.Props.C84_forwards_only",
    "Shutter.Target.Props.C84_once",
    "Shutter.Target.Props.C84_permanent",
    "Shutter.Target.Props.C84_signed",
    "Shutter.Target.Props.C84_published",
    "Shutter.Target.Props.C84_unsigned_counterexample",
    "Shutter.Target.Props.C84_replay_counterexample",
    "Shutter.Target.Props.C84_prepared_counterexample",
    "Shutter.Target.Props.C84_example"
   ],
   "note": "Proved for all addresses but zero: an invalid signature counts as one of the zero address (C84_unsigned_counterexample). The signature does not name the contract, so other deployments accept it as well (C84_replay_counterexample). The config that the command line tool prepares names the wrong target (C84_prepared_counterexample). Gas is a yes or no for each call; receivers other than the test target are arbitrary; hash function and signatures are parameters, and that nobody else makes signatures is Unforged in Spec/Targets.lean."
  },
  {
   "property": "C85",
   "status": "partial",
   "theorems": [
    "Shutter.Page.Props.C85_config",
    "Shutter.Page.Props.C85_batch",
    "Shutter.Page.Props.C85_accepted",
    "Shutter.Page.Props.C85_published",
    "Shutter.Page.Props.C85_key_partial",
    "Shutter.Page.Props.C85_status",
    "Shutter.Page.Props.C85_list_partial",
    "Shutter.Page.Props.C85_few_votes_counterexample",
    "Shutter.Page.Props.C85_many_votes_counterexample",
    "Shutter.Page.Props.C85_stale_counterexample",
    "Shutter.Page.Props.C85_first_key_counterexample",
    "Shutter.Page.Props.C85_list_counterexample",
    "Shutter.Page.Props.C85_example"
   ],
   "note": "The first part is proved; it needs that no further config begins after the page was opened (C85_stale_counterexample). The part about the key is false of the code: votes and threshold are compared as strings, proved if they have equally many digits or one begins with the other (C85_key_partial, with counterexamples both ways); and the key is always the one for the eon that starts with batch 0 (C85_first_key_counterexample). The list of messages ends at the first one that is not UTF-8 (C85_list_counterexample). That BigNumbers of ethers are compared as strings is a fact about JavaScript and ethers 5, read from their documentation. Encryption in the page is not modelled: it calls a function that the WebAssembly module of this commit does not define."
  },
  {
   "property": "C86",
   "status": "proved",
   "theorems": [
    "Shutter.Net.Props.C86_only",
    "Shutter.Net.Props.C86_sent",
    "Shutter.Net.Props.C86_known",
    "Shutter.Net.Props.C86_no_other",
    "Shutter.Net.Props.C86_others",
    "Shutter.Net.Props.C86_validator",
    "Shutter.Net.Props.C86_example"
   ],
   "note": "That nobody else signs check-ins for the keyper is GenuineCheckIns, and that its check-in is delivered CheckInArrives in Spec/CheckIn.lean; its keys are assumed to be ones the application can read (32 bytes, a compressed point). Power 10 at least in any case, exactly 10 if no other keyper of the config has the same validator key. Keypers that are only in the genesis config, which is not announced, do not check in (C86_only)."
  },
  {
   "property": "C87",
   "status": "partial",
   "theorems": [
    "Shutter.Operator.C87_set_partial",
    "Shutter.Operator.C87_set_only",
    "Shutter.Operator.C87_set_succeeds",
    "Shutter.Operator.C87_schedule",
    "Shutter.Operator.C87_schedulable",
    "Shutter.Operator.C87_again",
    "Shutter.Operator.C87_late_counterexample",
    "Shutter.Operator.C87_repeated_counterexample",
    "Shutter.Operator.C87_pending_counterexample",
    "Shutter.Operator.C87_span_counterexample",
    "Shutter.Operator.C87_example"
   ],
   "note": "Proved if the keypers of the next config in the contract so far are different from each other, the account has nothing pending, the last config starts soon enough and its batches are not longer than the notice. Otherwise it is false of the code: repeated keypers stay in the contract (C87_repeated_counterexample), running the command again while its transactions are pending doubles the keypers (C87_pending_counterexample), a last config that starts later makes the choice of a start wrap around (C87_late_counterexample: the contract never accepts it), and with longer batches the chosen start can be too early (C87_span_counterexample). Parsing of the file is not modelled."
  },
  {
   "property": "C88",
   "status": "partial",
   "theorems": [
    "Shutter.Bootstrap.Props.C88_init",
    "Shutter.Bootstrap.Props.C88_read",
    "Shutter.Bootstrap.Props.C88_bootstrap_partial",
    "Shutter.Bootstrap.Props.C88_several_partial",
    "Shutter.Bootstrap.Props.C88_alone",
    "Shutter.Bootstrap.Props.C88_frozen",
    "Shutter.Bootstrap.Props.C88_superseded",
    "Shutter.Bootstrap.Props.C88_example",
    "Shutter.Bootstrap.Props.C88_superseded_example",
    "Shutter.Bootstrap.Props.C88_several_example"
   ],
   "note": "The first half is proved if no other config is accepted before the end of the block, and the predecessors of the config have threshold 1, or that many genesis keypers have got their reports accepted and nobody asks for another config of this number; one keyper alone cannot do it (C88_alone). The second half is false of the code: no keyper program reports that a config has started, only the command does, so later configs never start and their keypers never become validators (C88_frozen); and a config superseded before enough of its keypers have checked in never gives the validators (C88_superseded). Both hold for all histories in which only keyper programs send messages; the examples show that their hypotheses are met. Registered validator keys are those of C86."
  },
  {
   "property": "C89",
   "status": "proved",
   "theorems": [
    "Shutter.Token.Props.C89_refines",
    "Shutter.Token.Props.C89_backed",
    "Shutter.Token.Props.C89_holders",
    "Shutter.Token.Props.C89_allowance",
    "Shutter.Token.Props.C89_transfer",
    "Shutter.Token.Props.C89_burn",
    "Shutter.Token.Props.C89_allowance_example",
    "Shutter.Token.Props.C89_withdraw",
    "Shutter.Token.Props.C89_deposit",
    "Shutter.Token.Props.C89_only_deposits",
    "Shutter.Token.Props.C89_slash",
    "Shutter.Token.Props.C89_refused",
    "Shutter.Token.Props.C89_history",
    "Shutter.Token.Props.C89_slash_history",
    "Shutter.Token.Props.C89_default_operator_counterexample"
   ],
   "note": "C89_refines discharges what Model/SolContracts assumes of the token, so C43 to C51 and all that is built on them hold with the real balances. Necessary: no default operators (C89_default_operator_counterexample: the deposit contract never revokes them); the receiver of slashed tokens is no contract without hook (C89_refused: nobody can be slashed then). The registry is modelled from its interface (the repository has only this and bytecode). No tokens are sent to the address of the deposit contract before its deployment. Events of the token contract are not modelled."
  },
  {
   "property": "C90",
   "status": "proved",
   "theorems": [
    "Shutter.Files.Props.C90_address",
    "Shutter.Files.Props.C90_address_case",
    "Shutter.Files.Props.C90_key",
    "Shutter.Files.Props.C90_key_text",
    "Shutter.Files.Props.C90_contracts",
    "Shutter.Files.Props.C90_config",
    "Shutter.Files.Props.C90_keyper",
    "Shutter.Files.Props.C90_environment",
    "Shutter.Files.Props.C90_accepted",
    "Shutter.Files.Props.C90_runs",
    "Shutter.Files.Props.C90_prepare",
    "Shutter.Files.Props.C90_example",
    "Shutter.Files.Props.C90_backslash_counterexample",
    "Shutter.Files.Props.C90_no_url_counterexample",
    "Shutter.Files.Props.C90_missing_counterexample"
   ],
   "note": "The formats are modelled as far as needed: JSON objects as written by encoding/json, TOML lines as go-toml reads them, precedence and decoding as in viper and mapstructure. Formatting and parsing of floating point numbers, the checksum (Keccak), addresses of keys and joining of paths are parameters; Lib.Lawful states what is used of them. Outside the statement: URLs with backslashes are written unescaped (C90_backslash_counterexample), the URL is optional for the command but not for the keyper (C90_no_url_counterexample), and what is missing in the keyper's file is zero without a word (C90_missing_counterexample)."
  },
  {
   "property": "C91",
   "status": "proved",
   "theorems": [
    "Shutter.Deploy.Props.C91_success",
    "Shutter.Deploy.Props.C91_untouched",
    "Shutter.Deploy.Props.C91_untouched_example",
    "Shutter.Deploy.Props.C91_succeeds",
    "Shutter.Deploy.Props.C91_front_run",
    "Shutter.Deploy.Props.C91_no_registry",
    "Shutter.Deploy.Props.C91_prepared",
    "Shutter.Deploy.Props.C91_example",
    "Shutter.Deploy.Props.C91_front_run_example"
   ],
   "note": "Addresses of created contracts are a parameter (20 bytes, not zero, different for the ten nonces). Others make any calls of the contracts that are there, from any account but the deployer's, which sends nothing else with these nonces. The token and the targets have no state here. Finding: setSlasher is public, so anybody can make every deployment fail (C91_front_run), and the command does not clean up."
  },
  {
   "property": "C92",
   "status": "proved",
   "theorems": [
    "Shutter.Gas.Props.C92_set",
    "Shutter.Gas.Props.C92_price",
    "Shutter.Gas.Props.C92_near",
    "Shutter.Gas.Props.C92_at_least",
    "Shutter.Gas.Props.C92_monotone",
    "Shutter.Gas.Props.C92_monotone_price",
    "Shutter.Gas.Props.C92_default",
    "Shutter.Gas.Props.C92_infinite_finding",
    "Shutter.Gas.Props.C92_example"
   ],
   "note": "math/big is modelled from its documentation: precision of SetInt, rounding to the nearest even, truncation. Monotone in the suggested price below 2^64. Finding: a multiplier of infinity is accepted (C92_infinite_finding), NaN makes the program panic (C92_set)."
  },
  {
   "property": "C93",
   "status": "proved",
   "theorems": [
    "Shutter.Fund.Props.C93_fund",
    "Shutter.Fund.Props.C93_again",
    "Shutter.Fund.Props.C93_exact",
    "Shutter.Fund.Props.C93_unfund",
    "Shutter.Fund.Props.C93_example",
    "Shutter.Fund.Props.C93_unfund_example",
    "Shutter.Fund.Props.C93_twice_counterexample"
   ],
   "note": "The owner is none of the keypers, and the receiver none of the accounts. For the exact amounts the keypers are different from each other (C93_twice_counterexample: one that is listed twice gets twice what it lacks). Fees are 21000 times the gas price (21000 gas are always used up); what miners get is among what others do. That unfund succeeds although the node refused a transaction is in the statement."
  },
  {
   "property": "C94",
   "status": "partial",
   "theorems": [
    "Shutter.ExecGas.Props.C94_enough",
    "Shutter.ExecGas.Props.C94_paid",
    "Shutter.ExecGas.Props.C94_keyper",
    "Shutter.ExecGas.Props.C94_starved",
    "Shutter.ExecGas.Props.C94_censored",
    "Shutter.ExecGas.Props.C94_too_big",
    "Shutter.ExecGas.Props.C94_full",
    "Shutter.ExecGas.Props.C94_stuck",
    "Shutter.ExecGas.Props.C94_stuck_example",
    "Shutter.ExecGas.Props.C94_shipped_counterexample",
    "Shutter.ExecGas.Props.C94_example",
    "Shutter.ExecGas.Props.C94_starved_example",
    "Shutter.ExecGas.Props.C94_censored_example"
   ],
   "note": "The full statement is false of the code. C94_enough: with enough gas each transaction gets the limit. C94_keyper: the keypers' gas limit is enough if the data and the contract need at most the fixed part of 250000. But the contract does not check how much gas is left: whoever executes a batch can let its last transaction have as little gas as he likes, and the batch counts as executed with the right hash (C94_starved, C94_censored). And a batch for which 16 gas per byte other than zero are more than 229000 plus the gas limits of its transactions cannot be executed by the keypers at all: the node refuses their transaction (C94_too_big, C94_full; with the shipped config C94_shipped_counterexample). What the contract itself needs is a parameter."
  },
  {
   "property": "C95",
   "status": "proved",
   "theorems": [
    "Shutter.SetUp.Props.C95_scheduled",
    "Shutter.SetUp.Props.C95_set_up",
    "Shutter.SetUp.Props.C95_example"
   ],
   "note": "Composes C91, C87 and C88. The operator's account is the deployer's, with nothing pending before each command; the keypers in the file are different from each other. The threshold of the genesis (1) is derived, not assumed. No other config is accepted between the start report and the end of the block looked at (see C88 for what happens otherwise)."
  },
  {
   "property": "C96",
   "status": "proved",
   "theorems": [
    "Shutter.Query.Props.C96_one",
    "Shutter.Query.Props.C96_all",
    "Shutter.Query.Props.C96_flag",
    "Shutter.Query.Props.C96_list",
    "Shutter.Query.Props.C96_active",
    "Shutter.Query.Props.C96_set_shown",
    "Shutter.Query.Props.C96_copy",
    "Shutter.Query.Props.C96_example",
    "Shutter.Query.Props.C96_copy_example"
   ],
   "note": "All calls of a command are answered for the same block (the commands fix the block). For `all` the objects are modelled, not the brackets and the indentation of the list. Finding: the text printed for a config whose keypers repeat can be refused by set-next (C96_example)."
  },
  {
   "property": "C97",
   "status": "partial",
   "theorems": [
    "Shutter.Tasks.Props.C97_decides",
    "Shutter.Tasks.Props.C97_known",
    "Shutter.Tasks.Props.C97_views",
    "Shutter.Tasks.Props.C97_observed",
    "Shutter.Tasks.Props.C97_run",
    "Shutter.Tasks.Props.C97_goes_on",
    "Shutter.Tasks.Props.C97_follows",
    "Shutter.Tasks.Props.C97_busy",
    "Shutter.Tasks.Props.C97_busy_real",
    "Shutter.Tasks.Props.C97_busy_example",
    "Shutter.Tasks.Props.C97_filters",
    "Shutter.Tasks.Props.C97_stops_partial",
    "Shutter.Tasks.Props.C97_broken",
    "Shutter.Tasks.Props.C97_panic",
    "Shutter.Tasks.Props.C97_example",
    "Shutter.Tasks.Props.C97_follows_example",
    "Shutter.Tasks.Props.C97_stops_example",
    "Shutter.Tasks.Props.C97_decides_counterexample",
    "Shutter.Tasks.Props.C97_stops_counterexample"
   ],
   "note": "The last sentence is false of the code: a keyper that is told to stop while its connection to the main chain is broken panics, since `reconnect` returns with a subscription that is nil (C97_stops_counterexample, C97_broken: it cannot end otherwise); in all other states it can end (C97_stops_partial). C97_goes_on and C97_follows say that it can always go on (there is a schedule without anything bad happening); C97_busy says that every schedule without anything bad has a decision at least every few steps, but not for which of the chains. After it is told to stop, it may still decide with a stored view (C97_decides_counterexample). The tasks of the runtime environment are those of C80."
  },
  {
   "property": "C98",
   "status": "proved",
   "theorems": [
    "Shutter.Options.Props.C98_runs",
    "Shutter.Options.Props.C98_values",
    "Shutter.Options.Props.C98_value",
    "Shutter.Options.Props.C98_line_wins",
    "Shutter.Options.Props.C98_as_given",
    "Shutter.Options.Props.C98_log",
    "Shutter.Options.Props.C98_owner_key",
    "Shutter.Options.Props.C98_distinct",
    "Shutter.Options.Props.C98_own",
    "Shutter.Options.Props.C98_shared_counterexample",
    "Shutter.Options.Props.C98_example",
    "Shutter.Options.Props.C98_help_counterexample"
   ],
   "note": "pflag's parsing of arguments and cobra's order of execution are modelled from their sources' behaviour (trusted), without shorthands, positional arguments and `--help` on the command line. C98_distinct and C98_own are checked over the complete table of the program's commands and options, which is finite. Findings: the two commands called `query` share their variables, and SHUTTER_CONFIG names files of different kinds for six commands (C98_shared_counterexample); a variable SHUTTER_HELP that is no truth value makes every command fail, and an empty variable satisfies a required option (C98_help_counterexample)."
  },
  {
   "property": "C99",
   "status": "proved",
   "theorems": [
    "Shutter.Erc1820.Props.C99_deployed",
    "Shutter.Erc1820.Props.C99_nothing",
    "Shutter.Erc1820.Props.C99_cost",
    "Shutter.Erc1820.Props.C99_settled",
    "Shutter.Erc1820.Props.C99_refused",
    "Shutter.Erc1820.Props.C99_goes_on",
    "Shutter.Erc1820.Props.C99_succeeds",
    "Shutter.Erc1820.Props.C99_price",
    "Shutter.Erc1820.Props.C99_overtaken_counterexample",
    "Shutter.Erc1820.Props.C99_again_counterexample"
   ],
   "note": "The owner's account is used by nothing else meanwhile, but may get money. The transaction and its bytecode are trusted; how much gas it uses and whether it works are parameters. C99_deployed is the condition hreg of C91_succeeds. Findings: if somebody else sends the public transaction once the account has the money, the command fails although the registry is there (C99_overtaken_counterexample); run again after a failure it pays again (C99_again_counterexample), and what the deployment leaves over is lost; with a gas price of zero, which the flag's check allows, the command panics for the sake of a log line (C99_price)."
  }
 ]
}
