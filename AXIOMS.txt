Shutter.Crypto.Props.C01_encrypt_decrypt depends on axioms: [propext, Classical.choice, Quot.sound]
Shutter.Crypto.Props.C01_verify_accepts_correct_key depends on axioms: [propext, Classical.choice, Quot.sound]
Shutter.Crypto.Props.C02_pad_layout depends on axioms: [propext, Classical.choice, Quot.sound]
Shutter.Crypto.Props.C02_unpad_pad depends on axioms: [propext, Classical.choice, Quot.sound]
Shutter.Crypto.Props.C02_pad_injective depends on axioms: [propext, Classical.choice, Quot.sound]
Shutter.Crypto.Props.C03_decrypt_iff_partial depends on axioms: [propext, Classical.choice, Quot.sound]
Shutter.Crypto.Props.C03_accepted_is_encryption_partial depends on axioms: [propext, Classical.choice, Quot.sound]
Shutter.Crypto.Props.C03_truncation_counterexample depends on axioms: [propext, Classical.choice, Quot.sound]
Shutter.Crypto.Props.C03_padding_malleable_counterexample depends on axioms: [propext, Classical.choice, Quot.sound]
Shutter.Crypto.Props.C03_tampering_needs_collision depends on axioms: [propext, Classical.choice, Quot.sound]
Shutter.Crypto.Props.C03_block_counters depends on axioms: [propext, Classical.choice, Quot.sound]
Shutter.Crypto.Props.C03_block_counters_distinct depends on axioms: [propext, Classical.choice, Quot.sound]
Shutter.Crypto.Props.C04_any_threshold_shares_reconstruct depends on axioms: [propext, Classical.choice, Quot.sound]
Shutter.Crypto.Props.C04_quorums_agree depends on axioms: [propext, Classical.choice, Quot.sound]
Shutter.Crypto.Props.C04_wrong_number_rejected depends on axioms: [propext]
Shutter.Crypto.Props.C05_share_verification_exact depends on axioms: [propext]
Shutter.Crypto.Props.C05_share_verification_exact_all depends on axioms: [propext]
Shutter.Crypto.Props.C05_key_verification_sound depends on axioms: [propext, Classical.choice, Quot.sound]
Shutter.Crypto.Props.C06_eval_is_value depends on axioms: [propext, Classical.choice, Quot.sound]
Shutter.Crypto.Props.C06_newPolynomial_accepts depends on axioms: [propext, Classical.choice, Quot.sound]
Shutter.Crypto.Props.C06_verifyPolyEval_exact depends on axioms: [propext, Classical.choice, Quot.sound]
Shutter.Crypto.Props.C06_every_commitment_has_polynomial depends on axioms: [propext]
Shutter.Crypto.Props.C07_roundtrip depends on axioms: [propext, Quot.sound]
Shutter.Crypto.Props.C07_accepts_only_wellformed_length depends on axioms: [propext, Classical.choice, Quot.sound]
Shutter.Crypto.Props.C08_gammas_exact depends on axioms: [propext, Classical.choice, Quot.sound]
Shutter.Crypto.Props.C08_gammas_roundtrip depends on axioms: [propext, Quot.sound]
Shutter.Crypto.Props.C08_valid_point_stored_partial depends on axioms: [propext]
Shutter.Crypto.Props.C08_point_roundtrip_partial depends on axioms: [propext]
Shutter.Crypto.Props.C08_encrypted_message_counterexample depends on axioms: [propext, Quot.sound]
Shutter.Crypto.Props.C08_point_counterexample depends on axioms: [propext]
Shutter.Crypto.Props.C09_eon_share_roundtrip depends on axioms: [propext, Classical.choice, Quot.sound]
Shutter.Crypto.Props.C09_eon_share_accepts depends on axioms: [propext, Quot.sound]
Shutter.Crypto.Props.C09_bls_key_roundtrip depends on axioms: [propext, Classical.choice, Quot.sound]
Shutter.Crypto.Props.C09_bls_key_rejects depends on axioms: [propext, Quot.sound]
Shutter.Crypto.Props.C09_eon_share_rejected_value_kept depends on axioms: [propext, Classical.choice, Quot.sound]
Shutter.Crypto.Props.C10_shuffle_perm depends on axioms: [propext, Quot.sound]
Shutter.Crypto.Props.C10_shuffle_fair depends on axioms: [propext, Classical.choice, Quot.sound]
Shutter.Crypto.Props.C10_every_order depends on axioms: [propext, Classical.choice, Quot.sound]
Shutter.Crypto.Props.C10_decryptTransactions_perm depends on axioms: [propext, Quot.sound]
Shutter.Init.Props.C100_ports depends on axioms: [propext, Classical.choice, Quot.sound]
Shutter.Init.Props.C100_disjoint depends on axioms: [propext, Classical.choice, Quot.sound]
Shutter.Init.Props.C100_files depends on axioms: [propext, Classical.choice, Quot.sound]
Shutter.Init.Props.C100_fails depends on axioms: [propext, Classical.choice, Quot.sound]
Shutter.Init.Props.C100_again depends on axioms: [propext, Classical.choice, Quot.sound]
Shutter.Init.Props.C100_starts depends on axioms: [propext, Classical.choice, Quot.sound]
Shutter.Init.Props.C100_crash depends on axioms: [propext, Classical.choice, Quot.sound]
Shutter.Init.Props.C100_crash_counterexample depends on axioms: [propext, Classical.choice, Quot.sound]
Shutter.Init.Props.C100_reset_counterexample depends on axioms: [propext, Classical.choice, Quot.sound]
Shutter.Init.Props.C100_index_counterexample depends on axioms: [propext, Classical.choice, Quot.sound]
Shutter.Init.Props.C100_example depends on axioms: [propext, Classical.choice, Quot.sound]
Shutter.Bls.Props.C11_verify_exact depends on axioms: [propext]
Shutter.Bls.Props.C11_aggregate_verifies depends on axioms: [propext, Quot.sound]
Shutter.Bls.Props.C12_forgery_counterexample depends on axioms: [propext, Classical.choice, Quot.sound]
Shutter.Dkg.Props.C13_agreement depends on axioms: [propext, Classical.choice, Quot.sound]
Shutter.Dkg.Props.C13_success_iff depends on axioms: [propext, Classical.choice, Quot.sound]
Shutter.Dkg.Props.C13_all_or_none depends on axioms: [propext, Classical.choice, Quot.sound]
Shutter.Dkg.Props.C14_result_consistent depends on axioms: [propext, Classical.choice, Quot.sound]
Shutter.Dkg.Props.C14_epoch_shares_verify depends on axioms: [propext, Classical.choice, Quot.sound]
Shutter.Dkg.Props.C14_joint_polynomial depends on axioms: [propext, Classical.choice, Quot.sound]
Shutter.Dkg.Props.C15_honest_dealer_not_corrupt depends on axioms: [propext, Classical.choice, Quot.sound]
Shutter.Dkg.Props.C15_honest_dealer_not_accused depends on axioms: [propext, Classical.choice, Quot.sound]
Shutter.Dkg.Props.C16_phases_one_by_one depends on axioms: [propext, Classical.choice, Quot.sound]
Shutter.Dkg.Props.C16_error_changes_nothing depends on axioms: [propext, Classical.choice, Quot.sound]
Shutter.Dkg.Props.C16_acceptance depends on axioms: [propext, Classical.choice, Quot.sound]
Shutter.Dkg.Props.C16_first_message_wins depends on axioms: [propext, Classical.choice, Quot.sound]
Shutter.Dkg.Props.C17_dkg_then_decrypt depends on axioms: [propext, Classical.choice, Quot.sound]
Shutter.Dkg.Props.C18_epoch_key depends on axioms: [propext, Classical.choice, Quot.sound]
Shutter.Dkg.Props.C18_epochs_distinct depends on axioms: [propext, Quot.sound]
Shutter.App.Props.C19_nonce_once depends on axioms: [propext, Quot.sound]
Shutter.App.Props.C19_wrong_chain depends on axioms: [propext]
Shutter.App.Props.C19_accepted_is_new depends on axioms: [propext, Quot.sound]
Shutter.App.Props.C20_error_no_effect depends on axioms: [propext, Classical.choice, Quot.sound]
Shutter.App.Props.C21_checktx_irrelevant depends on axioms: [propext, Classical.choice, Quot.sound]
Shutter.App.Props.C21_checktx_limit depends on axioms: [propext, Classical.choice, Quot.sound]
Shutter.App.Props.C21_checktx_filter depends on axioms: [propext, Classical.choice, Quot.sound]
Shutter.App.Props.C22_config_quorum depends on axioms: [propext, Classical.choice, Quot.sound]
Shutter.App.Props.C22_order_irrelevant depends on axioms: [propext, Classical.choice, Quot.sound]
Shutter.App.Props.C23_configs_well_formed depends on axioms: [propext, Classical.choice, Quot.sound]
Shutter.App.Props.C23_lookup_total depends on axioms: [propext, Classical.choice, Quot.sound]
Shutter.App.Props.C23_configs_append_only depends on axioms: [propext, Quot.sound]
Shutter.App.Props.C24_threshold_sensible_partial depends on axioms: [propext, Classical.choice, Quot.sound]
Shutter.App.Props.C24_counterexample depends on axioms: [propext, Quot.sound]
Shutter.App.Props.C25_started_votes_partial depends on axioms: [propext, Classical.choice, Quot.sound]
Shutter.App.Props.C25_counterexample depends on axioms: [propext, Quot.sound]
Shutter.App.Props.C26_eons_increasing depends on axioms: [propext, Classical.choice, Quot.sound]
Shutter.App.Props.C26_instances_stable depends on axioms: [propext, Classical.choice, Quot.sound]
Shutter.App.Props.C27_eon_quorum depends on axioms: [propext, Classical.choice, Quot.sound]
Shutter.App.Props.C27_eon_sources depends on axioms: [propext, Classical.choice, Quot.sound]
Shutter.App.Props.C28_check_in depends on axioms: [propext, Classical.choice, Quot.sound]
Shutter.App.Props.C28_check_in_once depends on axioms: [propext, Classical.choice, Quot.sound]
Shutter.App.Props.C28_identities depends on axioms: [propext, Quot.sound]
Shutter.App.Props.C29_published_once depends on axioms: [propext, Classical.choice, Quot.sound]
Shutter.App.Props.C29_parties depends on axioms: [propext, Classical.choice, Quot.sound]
Shutter.App.Props.C29_published_exactly depends on axioms: [propext, Quot.sound]
Shutter.App.Props.C30_signature_member depends on axioms: [propext, Classical.choice, Quot.sound]
Shutter.App.Props.C31_validator_updates depends on axioms: [propext, Classical.choice, Quot.sound]
Shutter.App.Props.C31_tendermint_agrees depends on axioms: [propext, Classical.choice, Quot.sound]
Shutter.App.Props.C32_replay_state depends on axioms: [propext, Classical.choice, Quot.sound]
Shutter.App.Props.C32_replay_responses depends on axioms: [propext, Classical.choice, Quot.sound]
Shutter.Events.Props.C33_roundtrip_partial depends on axioms: [propext, Classical.choice, Quot.sound]
Shutter.Events.Props.C33_injective depends on axioms: [propext, Classical.choice, Quot.sound]
Shutter.Events.Props.C33_published_decode_partial depends on axioms: [propext, Classical.choice, Quot.sound]
Shutter.Events.Props.C33_names_checked depends on axioms: [propext, Classical.choice, Quot.sound]
Shutter.Events.Props.C33_address_value depends on axioms: [propext, Classical.choice, Quot.sound]
Shutter.Events.Props.C33_empty_gammas_counterexample depends on axioms: [propext, Classical.choice, Quot.sound]
Shutter.Events.Props.C33_empty_gammas_published depends on axioms: [propext, Quot.sound]
Shutter.Medley.Props.C34_ensure_unique depends on axioms: [propext, Quot.sound]
Shutter.Medley.Props.C34_dedup_first_occurrences depends on axioms: [propext, Quot.sound]
Shutter.Medley.Props.C34_dedup depends on axioms: [propext, Quot.sound]
Shutter.Medley.Props.C34_find_index depends on axioms: [propext, Classical.choice, Quot.sound]
Shutter.Medley.Props.C34_find_index_error depends on axioms: [propext, Classical.choice, Quot.sound]
Shutter.Observe.Props.C35_windows_tile depends on axioms: [propext, Classical.choice, Quot.sound]
Shutter.Observe.Props.C35_tiles_cover depends on axioms: [propext, Classical.choice, Quot.sound]
Shutter.Observe.Props.C35_tiles_bounded depends on axioms: [propext, Classical.choice, Quot.sound]
Shutter.Observe.Props.C35_view_exact depends on axioms: [propext, Classical.choice, Quot.sound]
Shutter.Observe.Props.C35_is_keyper depends on axioms: [propext, Classical.choice, Quot.sound]
Shutter.Observe.Props.C35_eon_for_batch depends on axioms: [propext, Classical.choice, Quot.sound]
Shutter.Observe.Props.C35_no_panic depends on axioms: [propext, Classical.choice, Quot.sound]
Shutter.Observe.Props.C35_schedule_irrelevant depends on axioms: [propext, Classical.choice, Quot.sound]
Shutter.Observe.Props.C35_app_to_keyper depends on axioms: [propext, Classical.choice, Quot.sound]
Shutter.Observe.Props.C35_head_back_panics depends on axioms: [propext, Quot.sound]
Shutter.Observe.Props.C36_filter_loses_nothing_partial depends on axioms: [propext, Classical.choice, Quot.sound]
Shutter.Observe.Props.C36_processed_filter_exact depends on axioms: [propext, Classical.choice, Quot.sound]
Shutter.Observe.Props.C36_shares_lost_counterexample depends on axioms: [propext, Classical.choice, Quot.sound]
Shutter.Main.Props.C37_exact_partial depends on axioms: [propext, Classical.choice, Quot.sound]
Shutter.Main.Props.C37_nothing_lost depends on axioms: [propext, Classical.choice, Quot.sound]
Shutter.Main.Props.C37_double_count depends on axioms: [propext, Classical.choice, Quot.sound]
Shutter.Sol.Props.C38_partition depends on axioms: [propext, Classical.choice, Quot.sound]
Shutter.Sol.Props.C38_agrees_with_contract depends on axioms: [propext, Classical.choice, Quot.sound]
Shutter.Sol.Props.C38_next_batch_index depends on axioms: [propext, Quot.sound]
Shutter.Sol.Props.C38_overflow_differs depends on axioms: [propext]
Shutter.Decide.Props.C39_closed_partial depends on axioms: [propext, Classical.choice, Quot.sound]
Shutter.Decide.Props.C39_in_order_partial depends on axioms: [propext, Classical.choice, Quot.sound]
Shutter.Decide.Props.C39_order_of_active depends on axioms: [propext, Classical.choice, Quot.sound]
Shutter.Decide.Props.C39_early_counterexample depends on axioms: [propext, Classical.choice, Quot.sound]
Shutter.Decide.Props.C39_taken_back_counterexample depends on axioms: [propext, Classical.choice, Quot.sound]
Shutter.Decide.Props.C40_order depends on axioms: [propext, Classical.choice, Quot.sound]
Shutter.Decide.Props.C40_closed_partial depends on axioms: [propext, Classical.choice, Quot.sound]
Shutter.Decide.Props.C40_skip_partial depends on axioms: [propext, Classical.choice, Quot.sound]
Shutter.Decide.Props.C40_plain_partial depends on axioms: [propext, Classical.choice, Quot.sound]
Shutter.Decide.Props.C40_cipher_partial depends on axioms: [propext, Classical.choice, Quot.sound]
Shutter.Decide.Props.C40_accepted_partial depends on axioms: [propext, Classical.choice, Quot.sound]
Shutter.Decide.Props.C40_hash_not_zero depends on axioms: [propext, Quot.sound]
Shutter.Decide.Props.C40_early_counterexample depends on axioms: [propext, Classical.choice, Quot.sound]
Shutter.Fx.Props.C41_queued_in_order depends on axioms: [propext, Classical.choice, Quot.sound]
Shutter.Fx.Props.C41_all_queued_before_next depends on axioms: [propext, Classical.choice, Quot.sound]
Shutter.Fx.Props.C41_ids_unique depends on axioms: [propext, Classical.choice, Quot.sound]
Shutter.Fx.Props.C41_offered_again depends on axioms: [propext, Classical.choice, Quot.sound]
Shutter.Fx.Props.C41_no_panic depends on axioms: [propext, Classical.choice, Quot.sound]
Shutter.Fx.Props.C41_not_lost depends on axioms: [propext, Classical.choice, Quot.sound]
Shutter.Fx.Props.C41_sent_only_queued depends on axioms: [propext, Classical.choice, Quot.sound]
Shutter.Fx.Props.C41_sent_at_most_once_per_run depends on axioms: [propext, Classical.choice, Quot.sound]
Shutter.Fx.Props.C41_sent_in_order depends on axioms: [propext, Classical.choice, Quot.sound]
Shutter.Fx.Props.C41_recovers depends on axioms: [propext, Classical.choice, Quot.sound]
Shutter.Fx.Props.C41_sent_twice_finding depends on axioms: [propext, Quot.sound]
Shutter.Decide.Props.C42_accepted_partial depends on axioms: [propext, Classical.choice, Quot.sound]
Shutter.Decide.Props.C42_example depends on axioms: [propext, Classical.choice, Quot.sound]
Shutter.Decide.Props.C42_mirrored_counterexample depends on axioms: [propext, Classical.choice, Quot.sound]
Shutter.Sol.Props.C43_schedule_partial depends on axioms: [propext, Classical.choice, Quot.sound]
Shutter.Sol.Props.C43_lookup depends on axioms: [propext, Classical.choice, Quot.sound]
Shutter.Sol.Props.C43_remove_keypers depends on axioms: [propext, Classical.choice, Quot.sound]
Shutter.Sol.Props.C43_remove_undoes_add depends on axioms: [propext, Classical.choice, Quot.sound]
Shutter.Sol.Props.C43_boundaries depends on axioms: [propext, Classical.choice, Quot.sound]
Shutter.Sol.Props.C43_batches_meet depends on axioms: [propext, Classical.choice, Quot.sound]
Shutter.Sol.Props.C43_start_block_counterexample depends on axioms: [propext]
Shutter.Sol.Props.C44_started_batches_fixed depends on axioms: [propext, Classical.choice, Quot.sound]
Shutter.Sol.Props.C45_window depends on axioms: [propext, Classical.choice, Quot.sound]
Shutter.Sol.Props.C45_batch_size depends on axioms: [propext, Classical.choice, Quot.sound]
Shutter.Sol.Props.C45_accepts_iff depends on axioms: [propext, Classical.choice, Quot.sound]
Shutter.Sol.Props.C45_effect depends on axioms: [propext, Quot.sound]
Shutter.Sol.Props.C45_hash_chain depends on axioms: [propext, Classical.choice, Quot.sound]
Shutter.Sol.Props.C45_hash_identifies depends on axioms: [propext, Classical.choice, Quot.sound]
Shutter.Sol.Props.C45_frozen depends on axioms: [propext, Classical.choice, Quot.sound]
Shutter.Sol.Props.C46_never_decreases depends on axioms: [propext, Classical.choice, Quot.sound]
Shutter.Sol.Props.C46_reported_once depends on axioms: [propext, Classical.choice, Quot.sound]
Shutter.Sol.Props.C46_in_order depends on axioms: [propext, Classical.choice, Quot.sound]
Shutter.Sol.Props.C46_after_end depends on axioms: [propext, Classical.choice, Quot.sound]
Shutter.Sol.Props.C46_skipped depends on axioms: [propext, Classical.choice, Quot.sound]
Shutter.Sol.Props.C46_cipher_executed depends on axioms: [propext, Classical.choice, Quot.sound]
Shutter.Sol.Props.C46_plain_executed depends on axioms: [propext, Classical.choice, Quot.sound]
Shutter.Sol.Props.C46_cipher_call depends on axioms: [propext, Classical.choice, Quot.sound]
Shutter.Sol.Props.C46_plain_possible depends on axioms: [propext, Classical.choice, Quot.sound]
Shutter.Sol.Props.C46_skip_possible depends on axioms: [propext, Classical.choice, Quot.sound]
Shutter.Sol.Props.C47_calls depends on axioms: [propext, Classical.choice, Quot.sound]
Shutter.Sol.Props.C47_executed_once depends on axioms: [propext, Classical.choice, Quot.sound]
Shutter.Sol.Props.C47_plain_right_partial depends on axioms: [propext, Classical.choice, Quot.sound]
Shutter.Sol.Props.C47_reentrancy_counterexample depends on axioms: [propext]
Shutter.Sol.Props.C48_slashing_justified depends on axioms: [propext, Classical.choice, Quot.sound]
Shutter.Sol.Props.C48_taken_once depends on axioms: [propext, Classical.choice, Quot.sound]
Shutter.Sol.Props.C48_accused_once depends on axioms: [propext, Classical.choice, Quot.sound]
Shutter.Sol.Props.C48_accused_executor depends on axioms: [propext, Classical.choice, Quot.sound]
Shutter.Sol.Props.C48_accused_acted depends on axioms: [propext, Classical.choice, Quot.sound]
Shutter.Sol.Props.C48_accuse_call depends on axioms: [propext, Quot.sound]
Shutter.Sol.Props.C48_appeal_iff depends on axioms: [propext, Quot.sound]
Shutter.Sol.Props.C48_appeal_quorum depends on axioms: [propext, Quot.sound]
Shutter.Sol.Props.C48_signed_message_binds depends on axioms: [propext, Classical.choice, Quot.sound]
Shutter.Sol.Props.C48_slash_iff depends on axioms: [propext, Classical.choice, Quot.sound]
Shutter.Sol.Props.C48_slash_effect depends on axioms: [propext, Classical.choice, Quot.sound]
Shutter.Sol.Props.C48_double_event_finding depends on axioms: [propext, Quot.sound]
Shutter.Sol.Props.C48_threshold_zero_finding depends on axioms: [propext]
Shutter.Decide.Props.C48_signatures_genuine depends on axioms: [propext, Classical.choice, Quot.sound]
Shutter.Sol.Props.C49_balance depends on axioms: [propext, Classical.choice, Quot.sound]
Shutter.Sol.Props.C49_account depends on axioms: [propext, Classical.choice, Quot.sound]
Shutter.Sol.Props.C49_withdraw_after_request depends on axioms: [propext, Classical.choice, Quot.sound]
Shutter.Sol.Props.C49_slashed_final depends on axioms: [propext, Classical.choice, Quot.sound]
Shutter.Sol.Props.C49_withdraw_possible depends on axioms: [propext, Classical.choice, Quot.sound]
Shutter.Sol.Props.C50_balance depends on axioms: [propext, Classical.choice, Quot.sound]
Shutter.Sol.Props.C50_account depends on axioms: [propext, Classical.choice, Quot.sound]
Shutter.Sol.Props.C50_no_overflow depends on axioms: [propext, Classical.choice, Quot.sound]
Shutter.Sol.Props.C50_withdraw_possible depends on axioms: [propext, Classical.choice, Quot.sound]
Shutter.Sol.Props.C50_full_account_finding depends on axioms: [propext, Quot.sound]
Shutter.Sol.Props.C51_counts_voters depends on axioms: [propext, Classical.choice, Quot.sound]
Shutter.Sol.Props.C51_votes_once depends on axioms: [propext, Classical.choice, Quot.sound]
Shutter.Sol.Props.C51_only_keypers depends on axioms: [propext, Classical.choice, Quot.sound]
Shutter.Sol.Props.C51_best depends on axioms: [propext, Classical.choice, Quot.sound]
Shutter.Crypto.Props.C52_order_prime depends on axioms: [propext, Classical.choice, Quot.sound]
Shutter.Crypto.Props.C52_invert_correct depends on axioms: [propext, Classical.choice, Quot.sound]
Shutter.App.Props.C53_no_panic depends on axioms: [propext, Classical.choice, Quot.sound]
Shutter.Decide.Props.C54_prescribed_calls depends on axioms: [propext, Classical.choice, Quot.sound]
Shutter.Decide.Props.C54_phase depends on axioms: [propext, Classical.choice, Quot.sound]
Shutter.Decide.Props.C54_no_eon_missed depends on axioms: [propext, Classical.choice, Quot.sound]
Shutter.Decide.Props.C54_parameters depends on axioms: [propext, Classical.choice, Quot.sound]
Shutter.Decide.Props.C54_same_parameters depends on axioms: [propext, Classical.choice, Quot.sound]
Shutter.Decide.Props.C54_schedule_independent depends on axioms: [propext, Classical.choice, Quot.sound]
Shutter.Decide.Props.C54_agreement depends on axioms: [propext, Classical.choice, Quot.sound]
Shutter.Decide.Props.C54_late_config_counterexample depends on axioms: [propext, Classical.choice, Quot.sound]
Shutter.Decide.Props.C54_restart_counterexample depends on axioms: [propext, Classical.choice, Quot.sound]
Shutter.Main.Props.C55_configs_partial depends on axioms: [propext, Classical.choice, Quot.sound]
Shutter.Main.Props.C55_unscheduled_config_stays depends on axioms: [propext, Classical.choice, Quot.sound]
Shutter.Main.Props.C56_half_steps depends on axioms: [propext, Classical.choice, Quot.sound]
Shutter.Main.Props.C56_receipts_partial depends on axioms: [propext, Classical.choice, Quot.sound]
Shutter.Main.Props.C56_first_receipt_partial depends on axioms: [propext, Classical.choice, Quot.sound]
Shutter.Main.Props.C56_first_receipt_lost depends on axioms: [propext, Classical.choice, Quot.sound]
Shutter.Main.Props.C57_accusations depends on axioms: [propext, Classical.choice, Quot.sound]
Shutter.Main.Props.C57_deposits depends on axioms: [propext, Classical.choice, Quot.sound]
Shutter.Main.Props.C58_closed_batches_agree depends on axioms: [propext, Classical.choice, Quot.sound]
Shutter.Main.Props.C59_sync_succeeds depends on axioms: [propext, Classical.choice, Quot.sound]
Shutter.App.Props.C60_config_has_dkg depends on axioms: [propext, Quot.sound]
Shutter.Sol.Props.C61_settings_owner_only depends on axioms: [propext, Classical.choice, Quot.sound]
Shutter.Sol.Props.C61_settings_owner_only_history depends on axioms: [propext, Classical.choice, Quot.sound]
Shutter.Sol.Props.C61_owner_sets depends on axioms: [propext, Quot.sound]
Shutter.Decide.Props.C62_accusation_partial depends on axioms: [propext, Classical.choice, Quot.sound]
Shutter.Decide.Props.C62_complete_partial depends on axioms: [propext, Classical.choice, Quot.sound]
Shutter.Decide.Props.C62_example depends on axioms: [propext, Classical.choice, Quot.sound]
Shutter.Decide.Props.C62_late_counterexample depends on axioms: [propext, Classical.choice, Quot.sound]
Shutter.Decide.Props.C63_expired_iff depends on axioms: [propext, Classical.choice, Quot.sound]
Shutter.Decide.Props.C63_refused depends on axioms: [propext, Classical.choice, Quot.sound]
Shutter.Decide.Props.C63_appeals_kept depends on axioms: [propext, Classical.choice, Quot.sound]
Shutter.Decide.Props.C63_fresh depends on axioms: [propext, Classical.choice, Quot.sound]
Shutter.Decide.Props.C63_example depends on axioms: [propext, Classical.choice, Quot.sound]
Shutter.Decide.Props.C64_given_up depends on axioms: [propext, Classical.choice, Quot.sound]
Shutter.Decide.Props.C64_over depends on axioms: [propext, Classical.choice, Quot.sound]
Shutter.Decide.Props.C64_example depends on axioms: [propext, Classical.choice, Quot.sound]
Shutter.Decide.Props.C64_stuck_counterexample depends on axioms: [propext, Classical.choice, Quot.sound]
Shutter.Decide.Props.C65_accusations depends on axioms: [propext, Classical.choice, Quot.sound]
Shutter.Decide.Props.C65_appeals depends on axioms: [propext, Classical.choice, Quot.sound]
Shutter.Decide.Props.C65_votes depends on axioms: [propext, Classical.choice, Quot.sound]
Shutter.Decide.Props.C65_half_steps_partial depends on axioms: [propext, Classical.choice, Quot.sound]
Shutter.Decide.Props.C65_example depends on axioms: [propext, Classical.choice, Quot.sound]
Shutter.Decide.Props.C65_restart_counterexample depends on axioms: [propext, Classical.choice, Quot.sound]
Shutter.Decide.Props.C66_right_key depends on axioms: [propext, Classical.choice, Quot.sound]
Shutter.Decide.Props.C66_quorum depends on axioms: [propext, Classical.choice, Quot.sound]
Shutter.Decide.Props.C66_unique depends on axioms: [propext]
Shutter.Decide.Props.C66_keypers_agree depends on axioms: [propext, Classical.choice, Quot.sound]
Shutter.Decide.Props.C66_executed_partial depends on axioms: [propext, Classical.choice, Quot.sound]
Shutter.Decide.Props.C66_example depends on axioms: [propext, Classical.choice, Quot.sound]
Shutter.Decide.Props.C66_other_eon_counterexample depends on axioms: [propext, Classical.choice, Quot.sound]
Shutter.Decide.Props.C67_right_share depends on axioms: [propext, Classical.choice, Quot.sound]
Shutter.Decide.Props.C67_published depends on axioms: [propext, Classical.choice, Quot.sound]
Shutter.Decide.Props.C67_accepted depends on axioms: [propext, Classical.choice, Quot.sound]
Shutter.Decide.Props.C67_example depends on axioms: [propext, Classical.choice, Quot.sound]
Shutter.Decide.Props.C68_commitment depends on axioms: [propext, Classical.choice, Quot.sound]
Shutter.Decide.Props.C68_evaluations depends on axioms: [propext, Classical.choice, Quot.sound]
Shutter.Decide.Props.C68_accusation depends on axioms: [propext, Classical.choice, Quot.sound]
Shutter.Decide.Props.C68_apology depends on axioms: [propext, Classical.choice, Quot.sound]
Shutter.Decide.Props.C68_verdict depends on axioms: [propext, Classical.choice, Quot.sound]
Shutter.Decide.Props.C68_silent depends on axioms: [propext, Classical.choice, Quot.sound]
Shutter.Decide.Props.C68_lives depends on axioms: [propext, Classical.choice, Quot.sound]
Shutter.Decide.Props.C68_example depends on axioms: [propext, Classical.choice, Quot.sound]
Shutter.Decide.Props.C69_honest_not_corrupt depends on axioms: [propext, Classical.choice, Quot.sound]
Shutter.Decide.Props.C69_success depends on axioms: [propext, Classical.choice, Quot.sound]
Shutter.Decide.Props.C69_not_accused depends on axioms: [propext, Classical.choice, Quot.sound]
Shutter.Decide.Props.C69_example depends on axioms: [propext, Classical.choice, Quot.sound]
Shutter.Decide.Props.C70_enough_shares depends on axioms: [propext, Classical.choice, Quot.sound]
Shutter.Decide.Props.C70_key_available depends on axioms: [propext, Classical.choice, Quot.sound]
Shutter.Decide.Props.C70_honest_keypers depends on axioms: [propext, Classical.choice, Quot.sound]
Shutter.Decide.Props.C70_example depends on axioms: [propext, Classical.choice, Quot.sound]
Shutter.Decide.Props.C70_honest_example depends on axioms: [propext, Classical.choice, Quot.sound]
Shutter.Decide.Props.C70_inattentive_counterexample depends on axioms: [propext, Classical.choice, Quot.sound]
Shutter.Net.Props.C71_chain depends on axioms: [propext, Classical.choice, Quot.sound]
Shutter.Net.Props.C71_attributed depends on axioms: [propext, Classical.choice, Quot.sound]
Shutter.Net.Props.C71_parameters depends on axioms: [propext, Classical.choice, Quot.sound]
Shutter.Net.Props.C71_published depends on axioms: [propext, Classical.choice, Quot.sound]
Shutter.Net.Props.C71_key_generation depends on axioms: [propext, Classical.choice, Quot.sound]
Shutter.Net.Props.C71_batch_keys depends on axioms: [propext, Classical.choice, Quot.sound]
Shutter.Net.Props.C71_example depends on axioms: [propext, Classical.choice, Quot.sound]
Shutter.Net.Props.C72_vote depends on axioms: [propext, Classical.choice, Quot.sound]
Shutter.Net.Props.C72_vote_once depends on axioms: [propext, Classical.choice, Quot.sound]
Shutter.Net.Props.C72_voted depends on axioms: [propext, Classical.choice, Quot.sound]
Shutter.Net.Props.C72_follows depends on axioms: [propext, Classical.choice, Quot.sound]
Shutter.Net.Props.C72_accepted_partial depends on axioms: [propext, Classical.choice, Quot.sound]
Shutter.Net.Props.C72_example depends on axioms: [propext, Classical.choice, Quot.sound]
Shutter.Net.Props.C72_stuck_counterexample depends on axioms: [propext, Classical.choice, Quot.sound]
Shutter.Net.Props.C72_stuck_counterexample_run depends on axioms: [propext, Classical.choice, Quot.sound]
Shutter.Decide.Props.C73_runs_partial depends on axioms: [propext, Classical.choice, Quot.sound]
Shutter.Decide.Props.C73_decides_partial depends on axioms: [propext, Classical.choice, Quot.sound]
Shutter.Decide.Props.C73_cipher_partial depends on axioms: [propext, Classical.choice, Quot.sound]
Shutter.Decide.Props.C73_skip_partial depends on axioms: [propext, Classical.choice, Quot.sound]
Shutter.Decide.Props.C73_plain_partial depends on axioms: [propext, Classical.choice, Quot.sound]
Shutter.Decide.Props.C73_half_time depends on axioms: [propext, Quot.sound]
Shutter.Decide.Props.C73_first depends on axioms: [propext, Quot.sound]
Shutter.Decide.Props.C73_off depends on axioms: [propext, Classical.choice, Quot.sound]
Shutter.Decide.Props.C73_waits depends on axioms: [propext, Classical.choice, Quot.sound]
Shutter.Decide.Props.C73_example depends on axioms: [propext, Classical.choice, Quot.sound]
Shutter.Decide.Props.C73_off_counterexample depends on axioms: [propext, Classical.choice, Quot.sound]
Shutter.Decide.Props.C74_signed depends on axioms: [propext, Classical.choice, Quot.sound]
Shutter.Decide.Props.C74_signs_partial depends on axioms: [propext, Classical.choice, Quot.sound]
Shutter.Decide.Props.C74_able depends on axioms: [propext, Classical.choice, Quot.sound]
Shutter.Decide.Props.C74_example depends on axioms: [propext, Classical.choice, Quot.sound]
Shutter.Decide.Props.C74_able_example depends on axioms: [propext, Classical.choice, Quot.sound]
Shutter.Net.Props.C74_published depends on axioms: [propext, Classical.choice, Quot.sound]
Shutter.Net.Props.C74_published_example depends on axioms: [propext, Classical.choice, Quot.sound]
Shutter.Sender.Props.C75_order depends on axioms: [propext, Classical.choice, Quot.sound]
Shutter.Sender.Props.C75_origin depends on axioms: [propext, Classical.choice, Quot.sound]
Shutter.Sender.Props.C75_sent_partial depends on axioms: [propext, Classical.choice, Quot.sound]
Shutter.Sender.Props.C75_gaveUp depends on axioms: [propext, Classical.choice, Quot.sound]
Shutter.Sender.Props.C75_lost depends on axioms: [propext, Classical.choice, Quot.sound]
Shutter.Sender.Props.C75_sent depends on axioms: [propext, Classical.choice, Quot.sound]
Shutter.Sender.Props.Demo.C75_example depends on axioms: [propext, Classical.choice, Quot.sound]
Shutter.Sender.Props.Demo.C75_lost_counterexample depends on axioms: [propext, Quot.sound]
Shutter.Net.Props.C76_accepted depends on axioms: [propext, Classical.choice, Quot.sound]
Shutter.Net.Props.C76_one_key depends on axioms: [propext, Classical.choice, Quot.sound]
Shutter.Net.Props.C76_right_key depends on axioms: [propext, Classical.choice, Quot.sound]
Shutter.Net.Demo.C76_example depends on axioms: [propext, Classical.choice, Quot.sound]
Shutter.Tx.Props.C77_no_panic depends on axioms: [propext, Quot.sound]
Shutter.Tx.Props.C77_round_trip depends on axioms: [propext, Classical.choice, Quot.sound]
Shutter.Tx.Props.C77_saved depends on axioms: [propext, Classical.choice, Quot.sound]
Shutter.Tx.Props.C77_signed depends on axioms: [propext, Quot.sound]
Shutter.Tx.Props.C77_unforged depends on axioms: [propext, Classical.choice, Quot.sound]
Shutter.Tx.Props.C77_sane depends on axioms: [propext, Classical.choice, Quot.sound]
Shutter.Tx.Props.C77_genuine depends on axioms: [propext, Classical.choice, Quot.sound]
Shutter.Tx.Props.C77_variants depends on axioms: [propext]
Shutter.Tx.Props.C77_once depends on axioms: [propext, Quot.sound]
Shutter.Tx.Props.C77_domain depends on axioms: [propext]
Shutter.Tx.Props.Demo.C77_example depends on axioms: [propext, Classical.choice, Quot.sound]
Shutter.Tx.Props.Demo.C77_run_example depends on axioms: [propext, Classical.choice, Quot.sound]
Shutter.Wasm.Props.C78_encrypt_result depends on axioms: [propext, Classical.choice, Quot.sound]
Shutter.Wasm.Props.C78_decrypt_result depends on axioms: [propext, Classical.choice, Quot.sound]
Shutter.Wasm.Props.C78_verify_result depends on axioms: [propext, Classical.choice, Quot.sound]
Shutter.Wasm.Props.C78_encrypt_accepts depends on axioms: [propext, Classical.choice, Quot.sound]
Shutter.Wasm.Props.C78_decrypt_accepts depends on axioms: [propext, Classical.choice, Quot.sound]
Shutter.Wasm.Props.C78_round_trip depends on axioms: [propext, Classical.choice, Quot.sound]
Shutter.Wasm.Props.C78_batch depends on axioms: [propext, Classical.choice, Quot.sound]
Shutter.Wasm.Props.C78_verify_right depends on axioms: [propext, Classical.choice, Quot.sound]
Shutter.Wasm.Props.C78_verify_wrong depends on axioms: [propext, Classical.choice, Quot.sound]
Shutter.Wasm.Props.C78_bad_key_counterexample depends on axioms: [propext, Classical.choice, Quot.sound]
Shutter.Wasm.Props.C78_example depends on axioms: [propext, Classical.choice, Quot.sound]
Shutter.Wasm.Props.C78_verify_example depends on axioms: [propext, Classical.choice, Quot.sound]
Shutter.App.C79_applicable depends on axioms: [propext, Classical.choice, Quot.sound]
Shutter.App.C79_live_partial depends on axioms: [propext, Classical.choice, Quot.sound]
Shutter.App.C79_counterexample depends on axioms: [propext, Classical.choice, Quot.sound]
Shutter.App.C79_example depends on axioms: [propext, Quot.sound]
Shutter.App.C79_live_example depends on axioms: [propext, Classical.choice, Quot.sound]
Shutter.Fx.Props.C80_goes_on_partial depends on axioms: [propext, Classical.choice, Quot.sound]
Shutter.Fx.Props.C80_waits depends on axioms: [propext, Classical.choice, Quot.sound]
Shutter.Fx.Props.C80_looks_again depends on axioms: [propext, Quot.sound]
Shutter.Fx.Props.C80_stuck depends on axioms: [propext, Classical.choice, Quot.sound]
Shutter.Fx.Props.C80_first depends on axioms: [propext, Classical.choice, Quot.sound]
Shutter.Fx.Props.C80_example depends on axioms: [propext, Quot.sound]
Shutter.Fx.Props.C80_auth_finding depends on axioms: [propext, Quot.sound]
Shutter.Decide.Props.C80_stuck_counterexample depends on axioms: [propext, Classical.choice, Quot.sound]
Shutter.Net.Props.C81_executed_partial depends on axioms: [propext, Classical.choice, Quot.sound]
Shutter.Net.EndDemo.C81_example depends on axioms: [propext, Classical.choice, Quot.sound]
Shutter.Dkg.Props.C82_uniform depends on axioms: [propext, Classical.choice, Quot.sound]
Shutter.Dkg.Props.C82_eon_key_uniform depends on axioms: [propext, Classical.choice, Quot.sound]
Shutter.Dkg.Props.C82_commitment depends on axioms: [propext, Classical.choice, Quot.sound]
Shutter.Dkg.Props.C82_shares depends on axioms: [propext, Classical.choice, Quot.sound]
Shutter.Dkg.Props.C82_indistinguishable depends on axioms: [propext, Classical.choice, Quot.sound]
Shutter.Dkg.Props.C82_revealed depends on axioms: [propext, Classical.choice, Quot.sound]
Shutter.Dkg.Props.C82_accused_counterexample depends on axioms: [propext, Classical.choice, Quot.sound]
Shutter.Net.Props.C83_verdict depends on axioms: [propext, Classical.choice, Quot.sound]
Shutter.Net.Props.C83_faithful depends on axioms: [propext, Classical.choice, Quot.sound]
Shutter.Net.Props.C83_start_batch depends on axioms: [propext, Classical.choice, Quot.sound]
Shutter.Net.Props.C83_votes_count depends on axioms: [propext, Classical.choice, Quot.sound]
Shutter.Net.Props.C83_repeated depends on axioms: [propext, Classical.choice, Quot.sound]
Shutter.Net.Props.C83_example depends on axioms: [propext, Classical.choice, Quot.sound]
Shutter.Target.Props.C84_read_as_written depends on axioms: [propext, Classical.choice, Quot.sound]
Shutter.Target.Props.C84_only_executor depends on axioms: [propext, Classical.choice, Quot.sound]
Shutter.Target.Props.C84_forwarded depends on axioms: [propext, Classical.choice, Quot.sound]
Shutter.Target.Props.C84_forwards_only depends on axioms: [propext, Classical.choice, Quot.sound]
Shutter.Target.Props.C84_once depends on axioms: [propext, Classical.choice, Quot.sound]
Shutter.Target.Props.C84_permanent depends on axioms: [propext, Classical.choice, Quot.sound]
Shutter.Target.Props.C84_signed depends on axioms: [propext, Classical.choice, Quot.sound]
Shutter.Target.Props.C84_published depends on axioms: [propext, Classical.choice, Quot.sound]
Shutter.Target.Props.C84_unsigned_counterexample depends on axioms: [propext, Classical.choice, Quot.sound]
Shutter.Target.Props.C84_replay_counterexample depends on axioms: [propext, Classical.choice, Quot.sound]
Shutter.Target.Props.C84_prepared_counterexample depends on axioms: [propext, Classical.choice, Quot.sound]
Shutter.Target.Props.C84_example depends on axioms: [propext, Classical.choice, Quot.sound]
Shutter.Page.Props.C85_config depends on axioms: [propext, Classical.choice, Quot.sound]
Shutter.Page.Props.C85_batch depends on axioms: [propext, Classical.choice, Quot.sound]
Shutter.Page.Props.C85_accepted depends on axioms: [propext, Classical.choice, Quot.sound]
Shutter.Page.Props.C85_published depends on axioms: [propext, Classical.choice, Quot.sound]
Shutter.Page.Props.C85_key_partial depends on axioms: [propext, Classical.choice, Quot.sound]
Shutter.Page.Props.C85_status depends on axioms: [propext, Classical.choice, Quot.sound]
Shutter.Page.Props.C85_list_partial depends on axioms: [propext]
Shutter.Page.Props.C85_few_votes_counterexample depends on axioms: [propext, Classical.choice, Quot.sound]
Shutter.Page.Props.C85_many_votes_counterexample depends on axioms: [propext, Classical.choice, Quot.sound]
Shutter.Page.Props.C85_stale_counterexample depends on axioms: [propext, Classical.choice, Quot.sound]
Shutter.Page.Props.C85_first_key_counterexample depends on axioms: [propext, Classical.choice, Quot.sound]
Shutter.Page.Props.C85_list_counterexample depends on axioms: [propext]
Shutter.Page.Props.C85_example depends on axioms: [propext, Classical.choice, Quot.sound]
Shutter.Net.Props.C86_only depends on axioms: [propext, Classical.choice, Quot.sound]
Shutter.Net.Props.C86_sent depends on axioms: [propext, Classical.choice, Quot.sound]
Shutter.Net.Props.C86_known depends on axioms: [propext, Classical.choice, Quot.sound]
Shutter.Net.Props.C86_no_other depends on axioms: [propext, Classical.choice, Quot.sound]
Shutter.Net.Props.C86_others depends on axioms: [propext, Classical.choice, Quot.sound]
Shutter.Net.Props.C86_validator depends on axioms: [propext, Classical.choice, Quot.sound]
Shutter.Net.Props.C86_example depends on axioms: [propext, Classical.choice, Quot.sound]
Shutter.Operator.C87_set_partial depends on axioms: [propext, Classical.choice, Quot.sound]
Shutter.Operator.C87_set_only depends on axioms: [propext, Classical.choice, Quot.sound]
Shutter.Operator.C87_set_succeeds depends on axioms: [propext, Classical.choice, Quot.sound]
Shutter.Operator.C87_schedule depends on axioms: [propext, Classical.choice, Quot.sound]
Shutter.Operator.C87_schedulable depends on axioms: [propext, Classical.choice, Quot.sound]
Shutter.Operator.C87_again depends on axioms: [propext, Classical.choice, Quot.sound]
Shutter.Operator.C87_late_counterexample depends on axioms: [propext, Classical.choice, Quot.sound]
Shutter.Operator.C87_repeated_counterexample depends on axioms: [propext]
Shutter.Operator.C87_pending_counterexample depends on axioms: [propext]
Shutter.Operator.C87_span_counterexample depends on axioms: [propext, Classical.choice, Quot.sound]
Shutter.Operator.C87_example depends on axioms: [propext]
Shutter.Bootstrap.Props.C88_init depends on axioms: [propext, Classical.choice, Quot.sound]
Shutter.Bootstrap.Props.C88_read depends on axioms: [propext, Classical.choice, Quot.sound]
Shutter.Bootstrap.Props.C88_bootstrap_partial depends on axioms: [propext, Classical.choice, Quot.sound]
Shutter.Bootstrap.Props.C88_several_partial depends on axioms: [propext, Classical.choice, Quot.sound]
Shutter.Bootstrap.Props.C88_alone depends on axioms: [propext, Classical.choice, Quot.sound]
Shutter.Bootstrap.Props.C88_frozen depends on axioms: [propext, Classical.choice, Quot.sound]
Shutter.Bootstrap.Props.C88_superseded depends on axioms: [propext, Classical.choice, Quot.sound]
Shutter.Bootstrap.Props.C88_example depends on axioms: [propext, Classical.choice, Quot.sound]
Shutter.Bootstrap.Props.C88_superseded_example depends on axioms: [propext, Classical.choice, Quot.sound]
Shutter.Bootstrap.Props.C88_several_example depends on axioms: [propext, Quot.sound]
Shutter.Token.Props.C89_refines depends on axioms: [propext, Classical.choice, Quot.sound]
Shutter.Token.Props.C89_backed depends on axioms: [propext, Classical.choice, Quot.sound]
Shutter.Token.Props.C89_holders depends on axioms: [propext, Classical.choice, Quot.sound]
Shutter.Token.Props.C89_allowance depends on axioms: [propext, Classical.choice, Quot.sound]
Shutter.Token.Props.C89_transfer depends on axioms: [propext, Classical.choice, Quot.sound]
Shutter.Token.Props.C89_burn depends on axioms: [propext, Classical.choice, Quot.sound]
Shutter.Token.Props.C89_allowance_example depends on axioms: [propext, Classical.choice, Quot.sound]
Shutter.Token.Props.C89_withdraw depends on axioms: [propext, Classical.choice, Quot.sound]
Shutter.Token.Props.C89_deposit depends on axioms: [propext, Classical.choice, Quot.sound]
Shutter.Token.Props.C89_only_deposits depends on axioms: [propext, Classical.choice, Quot.sound]
Shutter.Token.Props.C89_slash depends on axioms: [propext, Classical.choice, Quot.sound]
Shutter.Token.Props.C89_refused depends on axioms: [propext, Classical.choice, Quot.sound]
Shutter.Token.Props.C89_history depends on axioms: [propext, Classical.choice, Quot.sound]
Shutter.Token.Props.C89_slash_history depends on axioms: [propext, Classical.choice, Quot.sound]
Shutter.Token.Props.C89_default_operator_counterexample depends on axioms: [propext]
Shutter.Files.Props.C90_address depends on axioms: [propext, Classical.choice, Quot.sound]
Shutter.Files.Props.C90_address_case depends on axioms: [propext, Classical.choice, Quot.sound]
Shutter.Files.Props.C90_key depends on axioms: [propext, Classical.choice, Quot.sound]
Shutter.Files.Props.C90_key_text depends on axioms: [propext, Classical.choice, Quot.sound]
Shutter.Files.Props.C90_contracts depends on axioms: [propext, Classical.choice, Quot.sound]
Shutter.Files.Props.C90_config depends on axioms: [propext, Classical.choice, Quot.sound]
Shutter.Files.Props.C90_keyper depends on axioms: [propext, Classical.choice, Quot.sound]
Shutter.Files.Props.C90_environment depends on axioms: [propext, Classical.choice, Quot.sound]
Shutter.Files.Props.C90_accepted depends on axioms: [propext, Classical.choice, Quot.sound]
Shutter.Files.Props.C90_runs depends on axioms: [propext, Classical.choice, Quot.sound]
Shutter.Files.Props.C90_prepare depends on axioms: [propext, Classical.choice, Quot.sound]
Shutter.Files.Props.C90_example depends on axioms: [propext, Classical.choice, Quot.sound]
Shutter.Files.Props.C90_backslash_counterexample depends on axioms: [propext, Classical.choice, Quot.sound]
Shutter.Files.Props.C90_no_url_counterexample depends on axioms: [propext, Classical.choice, Quot.sound]
Shutter.Files.Props.C90_missing_counterexample depends on axioms: [propext, Classical.choice, Quot.sound]
Shutter.Deploy.Props.C91_success depends on axioms: [propext, Classical.choice, Quot.sound]
Shutter.Deploy.Props.C91_untouched depends on axioms: [propext, Classical.choice, Quot.sound]
Shutter.Deploy.Props.C91_untouched_example depends on axioms: [propext, Classical.choice, Quot.sound]
Shutter.Deploy.Props.C91_succeeds depends on axioms: [propext, Classical.choice, Quot.sound]
Shutter.Deploy.Props.C91_front_run depends on axioms: [propext, Classical.choice, Quot.sound]
Shutter.Deploy.Props.C91_no_registry depends on axioms: [propext, Classical.choice, Quot.sound]
Shutter.Deploy.Props.C91_prepared depends on axioms: [propext, Classical.choice, Quot.sound]
Shutter.Deploy.Props.C91_example depends on axioms: [propext, Classical.choice, Quot.sound]
Shutter.Deploy.Props.C91_front_run_example depends on axioms: [propext, Classical.choice, Quot.sound]
Shutter.Gas.Props.C92_set depends on axioms: [propext, Quot.sound]
Shutter.Gas.Props.C92_price depends on axioms: [propext, Classical.choice, Quot.sound]
Shutter.Gas.Props.C92_near depends on axioms: [propext, Classical.choice, Quot.sound]
Shutter.Gas.Props.C92_at_least depends on axioms: [propext, Classical.choice, Quot.sound]
Shutter.Gas.Props.C92_monotone depends on axioms: [propext, Classical.choice, Quot.sound]
Shutter.Gas.Props.C92_monotone_price depends on axioms: [propext, Classical.choice, Quot.sound]
Shutter.Gas.Props.C92_default depends on axioms: [propext, Classical.choice, Quot.sound]
Shutter.Gas.Props.C92_infinite_finding depends on axioms: [propext, Quot.sound]
Shutter.Gas.Props.C92_example depends on axioms: [propext, Quot.sound]
Shutter.Fund.Props.C93_fund depends on axioms: [propext, Classical.choice, Quot.sound]
Shutter.Fund.Props.C93_again depends on axioms: [propext, Classical.choice, Quot.sound]
Shutter.Fund.Props.C93_exact depends on axioms: [propext, Classical.choice, Quot.sound]
Shutter.Fund.Props.C93_unfund depends on axioms: [propext, Classical.choice, Quot.sound]
Shutter.Fund.Props.C93_example depends on axioms: [propext, Quot.sound]
Shutter.Fund.Props.C93_unfund_example depends on axioms: [propext, Quot.sound]
Shutter.Fund.Props.C93_twice_counterexample depends on axioms: [propext, Quot.sound]
Shutter.ExecGas.Props.C94_enough depends on axioms: [propext, Quot.sound]
Shutter.ExecGas.Props.C94_paid depends on axioms: [propext, Quot.sound]
Shutter.ExecGas.Props.C94_keyper depends on axioms: [propext, Quot.sound]
Shutter.ExecGas.Props.C94_starved depends on axioms: [propext, Quot.sound]
Shutter.ExecGas.Props.C94_censored depends on axioms: [propext, Quot.sound]
Shutter.ExecGas.Props.C94_too_big depends on axioms: [propext, Quot.sound]
Shutter.ExecGas.Props.C94_full depends on axioms: [propext, Classical.choice, Quot.sound]
Shutter.ExecGas.Props.C94_stuck depends on axioms: [propext, Classical.choice, Quot.sound]
Shutter.ExecGas.Props.C94_stuck_example depends on axioms: [propext, Classical.choice, Quot.sound]
Shutter.ExecGas.Props.C94_shipped_counterexample depends on axioms: [propext, Classical.choice, Quot.sound]
Shutter.ExecGas.Props.C94_example depends on axioms: [propext, Quot.sound]
Shutter.ExecGas.Props.C94_starved_example depends on axioms: [propext]
Shutter.ExecGas.Props.C94_censored_example depends on axioms: [propext, Quot.sound]
Shutter.SetUp.Props.C95_scheduled depends on axioms: [propext, Classical.choice, Quot.sound]
Shutter.SetUp.Props.C95_set_up depends on axioms: [propext, Classical.choice, Quot.sound]
Shutter.SetUp.Props.C95_example depends on axioms: [propext, Classical.choice, Quot.sound]
Shutter.Query.Props.C96_one depends on axioms: [propext, Classical.choice, Quot.sound]
Shutter.Query.Props.C96_all depends on axioms: [propext, Classical.choice, Quot.sound]
Shutter.Query.Props.C96_flag depends on axioms: [propext, Classical.choice, Quot.sound]
Shutter.Query.Props.C96_list depends on axioms: [propext, Classical.choice, Quot.sound]
Shutter.Query.Props.C96_active depends on axioms: [propext, Classical.choice, Quot.sound]
Shutter.Query.Props.C96_set_shown depends on axioms: [propext, Classical.choice, Quot.sound]
Shutter.Query.Props.C96_copy depends on axioms: [propext, Classical.choice, Quot.sound]
Shutter.Query.Props.C96_example depends on axioms: [propext, Classical.choice, Quot.sound]
Shutter.Query.Props.C96_copy_example depends on axioms: [propext, Classical.choice, Quot.sound]
Shutter.Tasks.Props.C97_decides depends on axioms: [propext, Classical.choice, Quot.sound]
Shutter.Tasks.Props.C97_known depends on axioms: [propext, Classical.choice, Quot.sound]
Shutter.Tasks.Props.C97_views depends on axioms: [propext, Classical.choice, Quot.sound]
Shutter.Tasks.Props.C97_observed depends on axioms: [propext, Classical.choice, Quot.sound]
Shutter.Tasks.Props.C97_run depends on axioms: [propext, Classical.choice, Quot.sound]
Shutter.Tasks.Props.C97_goes_on depends on axioms: [propext, Classical.choice, Quot.sound]
Shutter.Tasks.Props.C97_follows depends on axioms: [propext, Classical.choice, Quot.sound]
Shutter.Tasks.Props.C97_busy depends on axioms: [propext, Classical.choice, Quot.sound]
Shutter.Tasks.Props.C97_busy_real depends on axioms: [propext, Classical.choice, Quot.sound]
Shutter.Tasks.Props.C97_busy_example depends on axioms: [propext]
Shutter.Tasks.Props.C97_filters depends on axioms: [propext, Classical.choice, Quot.sound]
Shutter.Tasks.Props.C97_stops_partial depends on axioms: [propext, Quot.sound]
Shutter.Tasks.Props.C97_broken depends on axioms: [propext, Quot.sound]
Shutter.Tasks.Props.C97_panic depends on axioms: [propext, Classical.choice, Quot.sound]
Shutter.Tasks.Props.C97_example depends on axioms: [propext, Classical.choice, Quot.sound]
Shutter.Tasks.Props.C97_follows_example depends on axioms: [propext, Classical.choice, Quot.sound]
Shutter.Tasks.Props.C97_stops_example depends on axioms: [propext]
Shutter.Tasks.Props.C97_decides_counterexample depends on axioms: [propext]
Shutter.Tasks.Props.C97_stops_counterexample depends on axioms: [propext]
Shutter.Options.Props.C98_runs depends on axioms: [propext, Quot.sound]
Shutter.Options.Props.C98_values depends on axioms: [propext, Quot.sound]
Shutter.Options.Props.C98_value depends on axioms: [propext, Quot.sound]
Shutter.Options.Props.C98_line_wins depends on axioms: [propext, Quot.sound]
Shutter.Options.Props.C98_as_given depends on axioms: [propext, Quot.sound]
Shutter.Options.Props.C98_log depends on axioms: [propext, Classical.choice, Quot.sound]
Shutter.Options.Props.C98_owner_key depends on axioms: [propext, Classical.choice, Quot.sound]
Shutter.Options.Props.C98_distinct depends on axioms: [propext, Classical.choice, Quot.sound]
Shutter.Options.Props.C98_own depends on axioms: [propext, Classical.choice, Quot.sound]
Shutter.Options.Props.C98_shared_counterexample depends on axioms: [propext, Classical.choice, Quot.sound]
Shutter.Options.Props.C98_example depends on axioms: [propext, Classical.choice, Quot.sound]
Shutter.Options.Props.C98_help_counterexample depends on axioms: [propext, Classical.choice, Quot.sound]
Shutter.Erc1820.Props.C99_deployed depends on axioms: [propext, Quot.sound]
Shutter.Erc1820.Props.C99_nothing depends on axioms: [propext, Quot.sound]
Shutter.Erc1820.Props.C99_cost depends on axioms: [propext, Quot.sound]
Shutter.Erc1820.Props.C99_settled depends on axioms: [propext, Quot.sound]
Shutter.Erc1820.Props.C99_refused depends on axioms: [propext, Quot.sound]
Shutter.Erc1820.Props.C99_goes_on depends on axioms: [propext, Quot.sound]
Shutter.Erc1820.Props.C99_succeeds depends on axioms: [propext, Quot.sound]
Shutter.Erc1820.Props.C99_price depends on axioms: [propext, Classical.choice, Quot.sound]
Shutter.Erc1820.Props.C99_overtaken_counterexample does not depend on any axioms
Shutter.Erc1820.Props.C99_again_counterexample depends on axioms: [propext, Quot.sound] 
