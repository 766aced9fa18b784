DE="Shutter.Decide.Props."
c("C07","proved",[CR+"C07_roundtrip",CR+"C07_accepts_only_wellformed_length"],"blst point codec abstract")
c("C08","partial",[CR+"C08_gammas_exact",CR+"C08_gammas_roundtrip",CR+"C08_valid_point_stored_partial",CR+"C08_point_roundtrip_partial",CR+"C08_encrypted_message_counterexample",CR+"C08_point_counterexample"],"False of the code for encrypted messages and keys: the nil result of Uncompress is ignored (encoding.go:54,96,114,...). Proved in full for Gammas; for the others only for validly encoded points. The counterexamples are conditional on blst leaving the receiver untouched on malformed input.")
c("C09","proved",[CR+"C09_eon_share_roundtrip",CR+"C09_eon_share_accepts",CR+"C09_bls_key_roundtrip",CR+"C09_bls_key_rejects",CR+"C09_eon_share_rejected_value_kept"])
c("C10","proved",[CR+"C10_shuffle_perm",CR+"C10_shuffle_fair",CR+"C10_every_order",CR+"C10_decryptTransactions_perm"],"math/rand is an arbitrary source; determinism is by construction (functions of key and list)")
BL="Shutter.Bls.Props."
c("C11","proved",[BL+"C11_verify_exact",BL+"C11_aggregate_verifies"])
c("C12","partial",[BL+"C12_forgery_counterexample"],"False of the code: hashToG2 is a known multiple of the generator; the theorem is the general forgery.")
DK="Shutter.Dkg.Props."
c("C13","proved",[DK+"C13_agreement",DK+"C13_success_iff",DK+"C13_all_or_none"],"groups abstract; runs are arbitrary lists of API calls; keyper indexes non-negative")
c("C14","proved",[DK+"C14_result_consistent",DK+"C14_epoch_shares_verify",DK+"C14_joint_polynomial"])
c("C15","proved",[DK+"C15_honest_dealer_not_corrupt",DK+"C15_honest_dealer_not_accused"])
c("C16","proved",[DK+"C16_phases_one_by_one",DK+"C16_error_changes_nothing",DK+"C16_acceptance",DK+"C16_first_message_wins"],"StartPhase1Dealing returning an rng error leaves the phase advanced; this is not a message call")
c("C17","proved",[DK+"C17_dkg_then_decrypt"])
c("C18","proved",[DK+"C18_epoch_key",DK+"C18_epochs_distinct"])

AP="Shutter.App.Props."
c("C19","proved",[AP+"C19_nonce_once",AP+"C19_wrong_chain",AP+"C19_accepted_is_new"],"ECDSA recovery and protobuf decoding are the abstract decoded transaction")
c("C20","proved",[AP+"C20_error_no_effect"])
c("C21","proved",[AP+"C21_checktx_irrelevant",AP+"C21_checktx_limit",AP+"C21_checktx_filter"])
c("C22","proved",[AP+"C22_config_quorum",AP+"C22_order_irrelevant"],"threshold of the voting config below 2^63")
c("C23","proved",[AP+"C23_configs_well_formed",AP+"C23_lookup_total",AP+"C23_configs_append_only"])
c("C24","partial",[AP+"C24_threshold_sensible_partial",AP+"C24_counterexample"],"False of the code: a threshold of 2^63 or more passes EnsureValid, and then a single vote decides")
c("C25","partial",[AP+"C25_started_votes_partial",AP+"C25_counterexample"],"False of the code: pending reports are not reset when a new config is added; the started flag can be voted in")
c("C26","proved",[AP+"C26_eons_increasing",AP+"C26_instances_stable"])
c("C27","proved",[AP+"C27_eon_quorum",AP+"C27_eon_sources"],"threshold of the config below 2^63")
c("C28","proved",[AP+"C28_check_in",AP+"C28_check_in_once",AP+"C28_identities"])
c("C29","proved",[AP+"C29_published_once",AP+"C29_parties",AP+"C29_published_exactly"])
c("C30","proved",[AP+"C29_published_once",AP+"C30_signature_member"])
c("C31","proved",[AP+"C31_validator_updates",AP+"C31_tendermint_agrees"],"voting powers do not overflow int64")
c("C32","proved",[AP+"C32_replay_state",AP+"C32_replay_responses"],"gob encoding is assumed to be faithful; rename is atomic")
c("C53","proved",[AP+"C53_no_panic"])
EV="Shutter.Events.Props."
c("C33","partial",[EV+"C33_roundtrip_partial",EV+"C33_injective",EV+"C33_published_decode_partial",EV+"C33_names_checked",EV+"C33_address_value",EV+"C33_empty_gammas_counterexample",EV+"C33_empty_gammas_published"],"False of the code for a poly commitment without gammas: it is accepted and published but keypers cannot decode it (splitting the empty string yields one empty part). Proved for all other events.")
ME="Shutter.Medley.Props."
c("C34","proved",[ME+"C34_ensure_unique",ME+"C34_dedup_first_occurrences",ME+"C34_dedup",ME+"C34_find_index",ME+"C34_find_index_error"])
SO="Shutter.Sol.Props."
c("C38","proved",[SO+"C38_partition",SO+"C38_agrees_with_contract",SO+"C38_next_batch_index",SO+"C38_overflow_differs"],"as long as the blocks fit into 64 bits; C38_overflow_differs shows that beyond that the Go code wraps where the contract reverts")
c("C43","partial",[SO+"C43_schedule_partial",SO+"C43_lookup",SO+"C43_remove_keypers",SO+"C43_remove_undoes_add",SO+"C43_boundaries",SO+"C43_batches_meet",SO+"C43_start_block_counterexample"],"False of the code: after scheduling an inactive config for a future block another config may be scheduled for an earlier block. Everything else in the statement is proved.")
c("C44","proved",[SO+"C44_started_batches_fixed"])
c("C45","proved",[SO+x for x in ["C45_window","C45_batch_size","C45_accepts_iff","C45_effect","C45_hash_chain","C45_hash_identifies","C45_frozen"]],"C45_hash_identifies assumes a collision free hash; blocks below 2^64; gas is not modelled")
c("C46","proved",[SO+x for x in ["C46_never_decreases","C46_reported_once","C46_in_order","C46_after_end","C46_skipped","C46_cipher_executed","C46_plain_executed","C46_cipher_call","C46_plain_possible","C46_skip_possible"]],"Order of execution is proved for targets that do not re-enter the executor; see C47 for what reentrancy does")
c("C47","partial",[SO+x for x in ["C47_calls","C47_executed_once","C47_plain_right_partial","C47_reentrancy_counterexample"]],"False of the code for re-entrant targets: executeCipherBatch increments numExecutionHalfSteps before the calls, so a target can have the plain half of the same batch executed in the middle of the cipher half (counterexample). Proved for the rest.")
c("C48","proved",[SO+x for x in ["C48_slashing_justified","C48_taken_once","C48_accused_once","C48_accused_executor","C48_accused_acted","C48_accuse_call","C48_appeal_iff","C48_appeal_quorum","C48_signed_message_binds","C48_slash_iff","C48_slash_effect","C48_double_event_finding","C48_threshold_zero_finding"]]+[DE+"C48_signatures_genuine"],"That the receipt belongs to the batch of the half step is proved for targets that do not re-enter the executor (C48_accused_acted). Findings: the receiver of slashed tokens can have a second Slashed event emitted for the same accusation; a threshold of zero makes every appeal succeed.")
c("C49","proved",[SO+x for x in ["C49_balance","C49_account","C49_withdraw_after_request","C49_slashed_final","C49_withdraw_possible"]],"OpenZeppelin's ERC777 is modelled by the deposit contract's balance and call backs to receivers")
c("C50","proved",[SO+x for x in ["C50_balance","C50_account","C50_no_overflow","C50_withdraw_possible","C50_full_account_finding"]],"up to ether forced on the contract without a call. Finding: accounts are capped at 2^64-1 wei, so anyone can make addTransaction with a fee revert by filling up the fee receiver's account")
c("C51","proved",[SO+x for x in ["C51_counts_voters","C51_votes_once","C51_only_keypers","C51_best"]],"votes are recorded per key hash")
FX="Shutter.Fx.Props."
c("C41","proved",[FX+x for x in ["C41_queued_in_order","C41_all_queued_before_next","C41_ids_unique","C41_offered_again","C41_no_panic","C41_not_lost","C41_sent_only_queued","C41_sent_at_most_once_per_run","C41_sent_in_order","C41_recovers","C41_sent_twice_finding"]],"file writes are atomic (temp file and rename); ids below 2^64; channels are FIFO lists. Finding: the sending itself is at least once, a crash before the transaction hash is recorded sends the transaction again.")
OB="Shutter.Observe.Props."
c("C35","proved",[OB+x for x in ["C35_windows_tile","C35_tiles_cover","C35_tiles_bounded","C35_view_exact","C35_is_keyper","C35_eon_for_batch","C35_no_panic","C35_schedule_irrelevant","C35_app_to_keyper","C35_head_back_panics"]],"Tendermint's TxSearch is modelled as returning the matching transactions in order, in pages of at most 100. Finding: the keyper panics if its node reports an older head.")
c("C36","partial",[OB+x for x in ["C36_filter_loses_nothing_partial","C36_processed_filter_exact","C36_shares_lost_counterexample"]],"False of the code: Eon.ApplyFilter does not copy the epoch secret key shares (counterexample). Proved for everything else, and for shares if the filter's sync height lies above the view it is applied to.")
MC="Shutter.Main.Props."
c("C37","partial",[MC+x for x in ["C37_exact_partial","C37_nothing_lost","C37_double_count"]],"False of the code when the node reports an older head (behind the block synced to): transactions are then counted twice (counterexample). Proved for heads that do not go back; for all heads nothing is lost. Reorganizations above the synced block are covered.")
c("C55","partial",[MC+x for x in ["C55_configs_partial","C55_unscheduled_config_stays"]],"False of the code: a config that was seen and then unscheduled is never forgotten (counterexample). Proved as long as no scheduled config is taken back.")
c("C56","partial",[MC+x for x in ["C56_half_steps","C56_receipts_partial","C56_first_receipt_partial","C56_first_receipt_lost"]],"False of the code for half step 0: its receipt is overwritten by the empty receipt of any later skipped half step (counterexample). Proved for all other even half steps, and for half step 0 if no encrypted part was skipped.")
c("C57","proved",[MC+x for x in ["C57_accusations","C57_deposits"]],"heads do not go back")
c("C58","proved",[MC+"C58_closed_batches_agree"],"heads do not go back")
c("C59","proved",[MC+"C59_sync_succeeds"])
c("C54","partial",[DE+x for x in ["C54_prescribed_calls","C54_phase","C54_no_eon_missed","C54_parameters","C54_same_parameters","C54_schedule_independent","C54_agreement","C54_late_config_counterexample","C54_restart_counterexample"]],"Proved for all schedules of rounds and crashes, except that a restart before the first decision loses messages (counterexample: LoadState 'fixes' a zero SyncHeight). Keypers that see an eon only after a newer config for its first batch use that config's keypers and threshold (counterexample). The eon is started with the keyper's configured phase length, the same in all rounds.")
c("C60","proved",[AP+"C60_config_has_dkg"])
c("C39","partial",[DE+x for x in ["C39_closed_partial","C39_in_order_partial","C39_order_of_active","C39_early_counterexample","C39_taken_back_counterexample"]],"False of the code for two kinds of schedules (counterexamples): start blocks that go back after an inactive config, and configs the owner takes back after the keyper has seen them; shares are then published before the batch opens. Proved for all other schedules, for every life of a keyper: any rounds, crashes, restarts, reorganizations above the followed block.")
c("C40","partial",[DE+x for x in ["C40_order","C40_closed_partial","C40_skip_partial","C40_plain_partial","C40_cipher_partial","C40_accepted_partial","C40_hash_not_zero","C40_early_counterexample"]],"False of the code if the key of a batch becomes known to a keyper whose view of the main chain lags behind (counterexample): the keyper takes the batch for an empty one and executes it with no transactions. Proved for every life of a keyper; configs taken back by the owner and overflowing block numbers are excluded. The contract accepts the calls (C40_accepted_partial).")
c("C61","proved",[SO+x for x in ["C61_settings_owner_only","C61_settings_owner_only_history","C61_owner_sets"]],"transferOwnership is modelled for the config contract only")
c("C42","partial",[DE+x for x in ["C42_accepted_partial","C42_example","C42_mirrored_counterexample"]],"False of the code for valid signatures with the larger s (counterexample): the keyper takes them, the contract's ECDSA library refuses them. Proved for canonical signatures, for every life of a keyper; configs taken back by the owner, targets that call the executor contract, lost first receipts, duplicate keypers and batches decrypted before they were over are excluded. Recovery on secp256k1 is a parameter with stated laws.")
c("C62","partial",[DE+x for x in ["C62_accusation_partial","C62_complete_partial","C62_example","C62_late_counterexample"]],"False of the code for batches decrypted after their execution was seen (counterexample): they are never checked again. The rest is proved for every life of a keyper, with the same exclusions as C42.")
c("C63","proved",[DE+x for x in ["C63_expired_iff","C63_refused","C63_appeals_kept","C63_fresh","C63_example"]],"half steps below 2^64; heads do not go back")
c("C64","partial",[DE+x for x in ["C64_given_up","C64_over","C64_example","C64_stuck_counterexample"]],"The first half is proved. The second is false of the code (counterexample): an appeal with a mirrored signature can never succeed, is neither given up nor expires, and holds up the keyper's queue.")
c("C65","partial",[DE+x for x in ["C65_accusations","C65_appeals","C65_votes","C65_half_steps_partial","C65_example","C65_restart_counterexample"]],"False of the code for half steps: a restart forgets a pending half step whose transaction was mined but not seen yet (or half step zero), and the keyper decides the same half steps again (counterexample). Proved between such restarts, and for everything else over whole lives.")
c("C66","partial",[DE+x for x in ["C66_right_key","C66_quorum","C66_unique","C66_keypers_agree","C66_executed_partial","C66_example","C66_other_eon_counterexample"]],"False of the code in one point (counterexample): threshold many keypers of another eon can make a keyper decrypt, sign and execute a batch with the key of their eon, so the transactions encrypted with the key of the batch's eon are dropped. The rest is proved for all lives of a keyper; agreement needs that no newer config for the eon's first batch follows (see C54), and execution has the exclusions of C40.")
c("C67","proved",[DE+x for x in ["C67_right_share","C67_published","C67_accepted","C67_example"]],"Configs taken back by the owner and overflowing block numbers are excluded in C67_published; acceptance by the others needs that no newer config for the eon's first batch follows (see C54). When the share may be published is C39.")
c("C68","proved",[DE+x for x in ["C68_commitment","C68_evaluations","C68_accusation","C68_apology","C68_verdict","C68_silent","C68_lives","C68_example"]],"For each eon the polynomial is a parameter (the randomness of the keyper). Which commitments, evaluations and accusations a keyper knows is C54.")
c("C69","proved",[DE+x for x in ["C69_honest_not_corrupt","C69_success","C69_not_accused","C69_example"]],"That the messages of an honest keyper get on the chain in time and that nobody else can send in its name are hypotheses (Carried, Authentic, Dealt in Spec/Honest.lean); the keypers run with the same keypers and threshold (see C54_same_parameters). Not being accused needs keypers without duplicates.")
c("C70","proved",[DE+x for x in ["C70_enough_shares","C70_key_available","C70_honest_keypers","C70_example","C70_honest_example","C70_inattentive_counterexample"]],"The lives are those in which a filter is only applied to a view the keyper has decided on (Attentive in Spec/Avail.lean, with the reason why this is the case if it decides in every round); without this it is false of the code (counterexample). Where the senders are keypers that run the code, no newer config for the eon's first batch may follow the eon's announcement (see C54).")
c("C71","proved",["Shutter.Net.Props."+x for x in ["C71_chain","C71_attributed","C71_parameters","C71_published","C71_key_generation","C71_batch_keys","C71_example"]],"Here the hypotheses of C69 and C70 about the chain are discharged from the model of the application. What is asked of the participants is `Participates` in Spec/Net.lean; delivery in time is Tendermint's part. The eon is one of a config other than the genesis config (for which keypers do not run the key generation), and no config for its first batch is accepted after its announcement (see C54).")
c("C72","partial",["Shutter.Net.Props."+x for x in ["C72_vote","C72_vote_once","C72_voted","C72_follows","C72_accepted_partial","C72_example","C72_stuck_counterexample","C72_stuck_counterexample_run"]],"The last part is false of the code (counterexample): the config contract takes configs without keypers or with threshold 0, which switch batching off; shuttermint refuses them, the keypers vote for no other number, and shuttermint gets no further config at all. Proved for all other configs; configs taken back by the owner are excluded (C55), and config number 1 is made by hand.")
c("C73","partial",[DE+x for x in ["C73_runs_partial","C73_decides_partial","C73_cipher_partial","C73_skip_partial","C73_plain_partial","C73_half_time","C73_first","C73_off","C73_waits","C73_example","C73_off_counterexample"]],"False of the code if batching is switched off (counterexample): the last batches before that are never executed or skipped, although their shares and signatures are published, as long as batching is off. Proved for all lives while batching is on; keys for batches that are not over (see C40), configs taken back by the owner (C55) and overflowing numbers are excluded. The view of shuttermint is filtered as the keyper does it, for batches not yet executed.")
c("C74","partial",[DE+x for x in ["C74_signed","C74_signs_partial","C74_able","C74_example","C74_able_example"]]+["Shutter.Net.Props."+x for x in ["C74_published","C74_published_example"]],"Missing: that a keyper signs in all other cases while configs are taken back by the owner (C55). That keypers with a key of the same eon have the same key is C66. Shuttermint publishes one signature for each keyper and batch: a keyper that has signed with the key of another eon (C66_other_eon_counterexample) cannot publish its signature with the right one.")
c("C75","partial",["Shutter.Sender.Props."+x for x in ["C75_order","C75_origin","C75_sent_partial","C75_gaveUp","C75_lost","C75_sent","Demo.C75_example","Demo.C75_lost_counterexample"]],"False of the code (counterexample): SendMessage looks at the code of DeliverTx only, and Tendermint leaves it at zero if CheckTx has refused the transaction; such a message counts as sent and is lost. This takes ten transactions of the keyper in the mempool whose calls have timed out (C75_lost); otherwise the property holds (C75_sent). The behaviour of broadcast_tx_commit is assumed (Model/Sender.lean), and so is what a node does with refused transactions (Treats in Spec/Sender.lean).")
c("C76","proved",["Shutter.Net.Props."+x for x in ["C76_accepted","C76_one_key","C76_right_key"]]+["Shutter.Net.Demo.C76_example"],"A keyper can vote once for each first batch only: that it decides on one key only is proved from the application announcing one eon for this batch (C76_one_key). That nobody else signs for the participants is GenuineKeyVotes in Spec/Broadcast.lean. Keys with the same hash count as one in the contract, so keys are compared by their hashes. The hypotheses about the key generation and the batch keys are those of C71.")
c("C77","proved",["Shutter.Tx.Props."+x for x in ["C77_no_panic","C77_round_trip","C77_saved","C77_signed","C77_unforged","C77_sane","C77_genuine","C77_variants","C77_once","C77_domain","Demo.C77_example","Demo.C77_run_example"]],"Base64 and protocol buffers are dependencies, modelled from their source (Model/Proto.lean, Model/Tx.lean); SHA3 and the recovery of signers are parameters. That no delivered transaction carries a forged signature is a hypothesis of C77_unforged and C77_genuine. C77_sane and C77_genuine discharge hypotheses of C71.")
c("C78","partial",["Shutter.Wasm.Props."+x for x in ["C78_encrypt_result","C78_decrypt_result","C78_verify_result","C78_encrypt_accepts","C78_decrypt_accepts","C78_round_trip","C78_batch","C78_verify_right","C78_verify_wrong","C78_bad_key_counterexample","C78_example","C78_verify_example"]],"False of the code in one point (counterexample, from C08): an eon public key that is not the encoding of a point is not refused but taken for the point at infinity, and everybody can decrypt what is encrypted with it. C78_verify_wrong excludes collisions of the hash functions for the numbers drawn at random. JavaScript values are byte arrays or something else.")
c("C79","partial",["Shutter.App."+x for x in ["C79_applicable","C79_live_partial","C79_counterexample","C79_example","C79_live_example"]],"The second half is false of the code (counterexample): the validators come into force as soon as threshold many keypers of the config have checked in, also if this is two of three, and the power of the others goes to a key nobody holds. Proved for configs where more than two thirds of the keypers are needed, and if no accepted config claims that its validators are already in force (the message has a field for that). The first half holds for configs of less than about 2^55 keypers and a genesis document as Tendermint asks for.")
c("C80","partial",["Shutter.Fx.Props."+x for x in ["C80_goes_on_partial","C80_waits","C80_looks_again","C80_stuck","C80_first","C80_example","C80_auth_finding"]]+[DE+"C80_stuck_counterexample"],"Proved as long as no transaction has to be tried again and no call of the node fails while a transaction is prepared. Otherwise it is false of the code (C80_first: the transactions behind one that has to be tried again are never sent): a transaction that is refused but not given up (the appeal of C64_stuck_counterexample, made with a mirrored signature of one malicious keyper) blocks the worker, and with 21 further transactions the main loop; since only the main loop stores the view in which actions expire, this lasts until a restart, and beyond it while the accusation is not appealed (C80_stuck, C80_stuck_counterexample). A failing call in Auth ends the process (C80_auth_finding).")
c("C81","partial",["Shutter.Net.Props.C81_executed_partial","Shutter.Net.EndDemo.C81_example"],"Composes C71, C76, C01, C07, C10, C66, C74, C73 and C40, over one application, one main chain and the lives of the participants on both. Missing: what is missing in C73 and C74 (batching switched off, configs taken back, keys published before a batch is over, overflowing numbers), and shares of other eons for the batch (C66_other_eon_counterexample).")
c("C82","proved",["Shutter.Dkg.Props."+x for x in ["C82_uniform","C82_eon_key_uniform","C82_commitment","C82_shares","C82_indistinguishable","C82_revealed","C82_accused_counterexample"]],"Perfect secrecy of the sharing and simulation of what is published; that the discrete logarithm is hard, that the encryption of evaluations hides them and that the random numbers are good is outside the model. That accusers count is necessary: C82_revealed and the finding C82_accused_counterexample (a dealer is not excluded however many accuse it, so late evaluations can make the eon secret key public among honest keypers).")
c("C83","proved",["Shutter.Net.Props."+x for x in ["C83_verdict","C83_faithful","C83_start_batch","C83_votes_count","C83_repeated","C83_example"]],"The eon is one of a config other than the genesis config, and no config for its first batch is accepted after its announcement (see C54). Delivery of the votes is Tendermint's part, and that nobody else signs for the keypers is GenuineEonVotes in Spec/Restart.lean. If some keypers fail and others do not, and neither are threshold many, nothing follows: see C71 for when all that take part succeed.")
c("C84","partial",["Shutter.Target.Props."+x for x in ["C84_read_as_written","C84_only_executor","C84_forwarded","C84_forwards_only","C84_once","C84_permanent","C84_signed","C84_published","C84_unsigned_counterexample","C84_replay_counterexample","C84_prepared_counterexample","C84_example"]],"Proved for all addresses but zero: an invalid signature counts as one of the zero address (C84_unsigned_counterexample). The signature does not name the contract, so other deployments accept it as well (C84_replay_counterexample). The config that the command line tool prepares names the wrong target (C84_prepared_counterexample). Gas is a yes or no for each call; receivers other than the test target are arbitrary; hash function and signatures are parameters, and that nobody else makes signatures is Unforged in Spec/Targets.lean.")
c("C85","partial",["Shutter.Page.Props."+x for x in ["C85_config","C85_batch","C85_accepted","C85_published","C85_key_partial","C85_status","C85_list_partial","C85_few_votes_counterexample","C85_many_votes_counterexample","C85_stale_counterexample","C85_first_key_counterexample","C85_list_counterexample","C85_example"]],"The first part is proved; it needs that no further config begins after the page was opened (C85_stale_counterexample). The part about the key is false of the code: votes and threshold are compared as strings, proved if they have equally many digits or one begins with the other (C85_key_partial, with counterexamples both ways); and the key is always the one for the eon that starts with batch 0 (C85_first_key_counterexample). The list of messages ends at the first one that is not UTF-8 (C85_list_counterexample). That BigNumbers of ethers are compared as strings is a fact about JavaScript and ethers 5, read from their documentation. Encryption in the page is not modelled: it calls a function that the WebAssembly module of this commit does not define.")
c("C86","proved",["Shutter.Net.Props."+x for x in ["C86_only","C86_sent","C86_known","C86_no_other","C86_others","C86_validator","C86_example"]],"That nobody else signs check-ins for the keyper is GenuineCheckIns, and that its check-in is delivered CheckInArrives in Spec/CheckIn.lean; its keys are assumed to be ones the application can read (32 bytes, a compressed point). Power 10 at least in any case, exactly 10 if no other keyper of the config has the same validator key. Keypers that are only in the genesis config, which is not announced, do not check in (C86_only).")
c("C87","partial",["Shutter.Operator."+x for x in ["C87_set_partial","C87_set_only","C87_set_succeeds","C87_schedule","C87_schedulable","C87_again","C87_late_counterexample","C87_repeated_counterexample","C87_pending_counterexample","C87_span_counterexample","C87_example"]],"Proved if the keypers of the next config in the contract so far are different from each other, the account has nothing pending, the last config starts soon enough and its batches are not longer than the notice. Otherwise it is false of the code: repeated keypers stay in the contract (C87_repeated_counterexample), running the command again while its transactions are pending doubles the keypers (C87_pending_counterexample), a last config that starts later makes the choice of a start wrap around (C87_late_counterexample: the contract never accepts it), and with longer batches the chosen start can be too early (C87_span_counterexample). Parsing of the file is not modelled.")
c("C88","partial",["Shutter.Bootstrap.Props."+x for x in ["C88_init","C88_read","C88_bootstrap_partial","C88_several_partial","C88_alone","C88_frozen","C88_superseded","C88_example","C88_superseded_example","C88_several_example"]],"The first half is proved if no other config is accepted before the end of the block, and the predecessors of the config have threshold 1, or that many genesis keypers have got their reports accepted and nobody asks for another config of this number; one keyper alone cannot do it (C88_alone). The second half is false of the code: no keyper program reports that a config has started, only the command does, so later configs never start and their keypers never become validators (C88_frozen); and a config superseded before enough of its keypers have checked in never gives the validators (C88_superseded). Both hold for all histories in which only keyper programs send messages; the examples show that their hypotheses are met. Registered validator keys are those of C86.")
c("C89","proved",["Shutter.Token.Props."+x for x in ["C89_refines","C89_backed","C89_holders","C89_allowance","C89_transfer","C89_burn","C89_allowance_example","C89_withdraw","C89_deposit","C89_only_deposits","C89_slash","C89_refused","C89_history","C89_slash_history","C89_default_operator_counterexample"]],"C89_refines discharges what Model/SolContracts assumes of the token, so C43 to C51 and all that is built on them hold with the real balances. Necessary: no default operators (C89_default_operator_counterexample: the deposit contract never revokes them); the receiver of slashed tokens is no contract without hook (C89_refused: nobody can be slashed then). The registry is modelled from its interface (the repository has only this and bytecode). No tokens are sent to the address of the deposit contract before its deployment. Events of the token contract are not modelled.")
c("C90","proved",["Shutter.Files.Props."+x for x in ["C90_address","C90_address_case","C90_key","C90_key_text","C90_contracts","C90_config","C90_keyper","C90_environment","C90_accepted","C90_runs","C90_prepare","C90_example","C90_backslash_counterexample","C90_no_url_counterexample","C90_missing_counterexample"]],"The formats are modelled as far as needed: JSON objects as written by encoding/json, TOML lines as go-toml reads them, precedence and decoding as in viper and mapstructure. Formatting and parsing of floating point numbers, the checksum (Keccak), addresses of keys and joining of paths are parameters; Lib.Lawful states what is used of them. Outside the statement: URLs with backslashes are written unescaped (C90_backslash_counterexample), the URL is optional for the command but not for the keyper (C90_no_url_counterexample), and what is missing in the keyper's file is zero without a word (C90_missing_counterexample).")
c("C91","proved",["Shutter.Deploy.Props."+x for x in ["C91_success","C91_untouched","C91_untouched_example","C91_succeeds","C91_front_run","C91_no_registry","C91_prepared","C91_example","C91_front_run_example"]],"Addresses of created contracts are a parameter (20 bytes, not zero, different for the ten nonces). Others make any calls of the contracts that are there, from any account but the deployer's, which sends nothing else with these nonces. The token and the targets have no state here. Finding: setSlasher is public, so anybody can make every deployment fail (C91_front_run), and the command does not clean up.")
c("C92","proved",["Shutter.Gas.Props."+x for x in ["C92_set","C92_price","C92_near","C92_at_least","C92_monotone","C92_monotone_price","C92_default","C92_infinite_finding","C92_example"]],"math/big is modelled from its documentation: precision of SetInt, rounding to the nearest even, truncation. Monotone in the suggested price below 2^64. Finding: a multiplier of infinity is accepted (C92_infinite_finding), NaN makes the program panic (C92_set).")
c("C93","proved",["Shutter.Fund.Props."+x for x in ["C93_fund","C93_again","C93_exact","C93_unfund","C93_example","C93_unfund_example","C93_twice_counterexample"]],"The owner is none of the keypers, and the receiver none of the accounts. For the exact amounts the keypers are different from each other (C93_twice_counterexample: one that is listed twice gets twice what it lacks). Fees are 21000 times the gas price (21000 gas are always used up); what miners get is among what others do. That unfund succeeds although the node refused a transaction is in the statement.")
c("C94","partial",["Shutter.ExecGas.Props."+x for x in ["C94_enough","C94_paid","C94_keyper","C94_starved","C94_censored","C94_too_big","C94_full","C94_stuck","C94_stuck_example","C94_shipped_counterexample","C94_example","C94_starved_example","C94_censored_example"]],"The full statement is false of the code. C94_enough: with enough gas each transaction gets the limit. C94_keyper: the keypers' gas limit is enough if the data and the contract need at most the fixed part of 250000. But the contract does not check how much gas is left: whoever executes a batch can let its last transaction have as little gas as he likes, and the batch counts as executed with the right hash (C94_starved, C94_censored). And a batch for which 16 gas per byte other than zero are more than 229000 plus the gas limits of its transactions cannot be executed by the keypers at all: the node refuses their transaction (C94_too_big, C94_full; with the shipped config C94_shipped_counterexample). What the contract itself needs is a parameter.")
c("C95","proved",["Shutter.SetUp.Props."+x for x in ["C95_scheduled","C95_set_up","C95_example"]],"Composes C91, C87 and C88. The operator's account is the deployer's, with nothing pending before each command; the keypers in the file are different from each other. The threshold of the genesis (1) is derived, not assumed. No other config is accepted between the start report and the end of the block looked at (see C88 for what happens otherwise).")
c("C96","proved",["Shutter.Query.Props."+x for x in ["C96_one","C96_all","C96_flag","C96_list","C96_active","C96_set_shown","C96_copy","C96_example","C96_copy_example"]],"All calls of a command are answered for the same block (the commands fix the block). For `all` the objects are modelled, not the brackets and the indentation of the list. Finding: the text printed for a config whose keypers repeat can be refused by set-next (C96_example).")
c("C97","partial",["Shutter.Tasks.Props."+x for x in ["C97_decides","C97_known","C97_views","C97_observed","C97_run","C97_goes_on","C97_follows","C97_busy","C97_busy_real","C97_busy_example","C97_filters","C97_stops_partial","C97_broken","C97_panic","C97_example","C97_follows_example","C97_stops_example","C97_decides_counterexample","C97_stops_counterexample"]],"The last sentence is false of the code: a keyper that is told to stop while its connection to the main chain is broken panics, since `reconnect` returns with a subscription that is nil (C97_stops_counterexample, C97_broken: it cannot end otherwise); in all other states it can end (C97_stops_partial). C97_goes_on and C97_follows say that it can always go on (there is a schedule without anything bad happening); C97_busy says that every schedule without anything bad has a decision at least every few steps, but not for which of the chains. After it is told to stop, it may still decide with a stored view (C97_decides_counterexample). The tasks of the runtime environment are those of C80.")
c("C98","proved",["Shutter.Options.Props."+x for x in ["C98_runs","C98_values","C98_value","C98_line_wins","C98_as_given","C98_log","C98_owner_key","C98_distinct","C98_own","C98_shared_counterexample","C98_example","C98_help_counterexample"]],"pflag's parsing of arguments and cobra's order of execution are modelled from their sources' behaviour (trusted), without shorthands, positional arguments and `--help` on the command line. C98_distinct and C98_own are checked over the complete table of the program's commands and options, which is finite. Findings: the two commands called `query` share their variables, and SHUTTER_CONFIG names files of different kinds for six commands (C98_shared_counterexample); a variable SHUTTER_HELP that is no truth value makes every command fail, and an empty variable satisfies a required option (C98_help_counterexample).")
c("C99","proved",["Shutter.Erc1820.Props."+x for x in ["C99_deployed","C99_nothing","C99_cost","C99_settled","C99_refused","C99_goes_on","C99_succeeds","C99_price","C99_overtaken_counterexample","C99_again_counterexample"]],"The owner's account is used by nothing else meanwhile, but may get money. The transaction and its bytecode are trusted; how much gas it uses and whether it works are parameters. C99_deployed is the condition hreg of C91_succeeds. Findings: if somebody else sends the public transaction once the account has the money, the command fails although the registry is there (C99_overtaken_counterexample); run again after a failure it pays again (C99_again_counterexample), and what the deployment leaves over is lost; with a gas price of zero, which the flag's check allows, the command panics for the sake of a log line (C99_price).")
c("C100","proved",["Shutter.Init.Props."+x for x in ["C100_ports","C100_disjoint","C100_files","C100_fails","C100_again","C100_starts","C100_crash","C100_crash_counterexample","C100_reset_counterexample","C100_index_counterexample","C100_example"]],"For indices with 0 <= 26656 + 2i. A file is written or not: half written ones are left out. Tendermint's functions, ValidateBasic and the scaled timeouts (floating point) are parameters. Findings: after a crash between the validator key and its state the command fails for good (C100_crash_counterexample); run again in the directory of a node that has run, it replaces the operator's settings, also the peers, by its own and resets the application, which then has to replay the chain (C100_reset_counterexample); indices whose ports do not exist are accepted (C100_index_counterexample).")
