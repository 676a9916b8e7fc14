# Axioms of every theorem in MANIFEST.json

Output of `#print axioms`, sorted. `propext`, `Classical.choice` and `Quot.sound` are the standard axioms of Lean.

| Property | Theorem | Axioms |
| --- | --- | --- |
| C01 | `Dollar.C01_down_exact` | Classical.choice, Quot.sound, propext |
| C01 | `Dollar.C01_up_exact` | Classical.choice, Quot.sound, propext |
| C01 | `Dollar.C01_present_exact` | Classical.choice, Quot.sound, propext |
| C01 | `Dollar.C01_up_down` | Classical.choice, Quot.sound, propext |
| C01 | `Dollar.C01_down_back` | Classical.choice, Quot.sound, propext |
| C01 | `Dollar.C01_up_back` | Classical.choice, Quot.sound, propext |
| C01 | `Dollar.C01_exact_iff` | Classical.choice, Quot.sound, propext |
| C02 | `Dollar.C02_index_step` | Classical.choice, Quot.sound, propext |
| C02 | `Dollar.C02_index_monotone` | Classical.choice, Quot.sound, propext |
| C03 | `Dollar.C03_update_index` | Classical.choice, Quot.sound, propext |
| C03 | `Dollar.C03_delivered_index` | Classical.choice, Quot.sound, propext |
| C04 | `Dollar.C04_balances_sum_to_supply` | Classical.choice, Quot.sound, propext |
| C04 | `Dollar.C04_balance_le_supply` | Classical.choice, Quot.sound, propext |
| C05 | `Dollar.C05_supply_tx` | Classical.choice, Quot.sound, propext |
| C05 | `Dollar.C05_supply_ledger` | Classical.choice, Quot.sound, propext |
| C05 | `Dollar.C05_supply_from_start` | Classical.choice, Quot.sound, propext |
| C06 | `Dollar.C06_principal_le_total` | Classical.choice, Quot.sound, propext |
| C06 | `Dollar.C06_unchanged` | Classical.choice, Quot.sound, propext |
| C06 | `Dollar.C06_transfer_gap` | Classical.choice, Quot.sound, propext |
| C06 | `Dollar.C06_deliver_gap` | Classical.choice, Quot.sound, propext |
| C07 | `Dollar.C07_yield_query` | Classical.choice, Quot.sound, propext |
| C07 | `Dollar.C07_claim` | Classical.choice, Quot.sound, propext |
| C07 | `Dollar.C07_claim_succeeds_iff` | Classical.choice, Quot.sound, propext |
| C07 | `Dollar.C07_second_claim` | Classical.choice, Quot.sound, propext |
| C08 | `Dollar.C08_not_credited` | Classical.choice, Quot.sound, propext |
| C08 | `Dollar.C08_principal_constant` | Classical.choice, Quot.sound, propext |
| C08 | `Dollar.C08_transfers_to_yield_fail` | Classical.choice, Quot.sound, propext |
| C08 | `Dollar.C08_only_claims_debit` | Classical.choice, Quot.sound, propext |
| C08 | `Dollar.C08_deliver_accounts` | Classical.choice, Quot.sound, propext |
| C09 | `Dollar.C09_paused_claim_fails` | Classical.choice, Quot.sound, propext |
| C09 | `Dollar.C09_stays_paused` | Classical.choice, Quot.sound, propext |
| C09 | `Dollar.C10_authority_settings` | Classical.choice, Quot.sound, propext |
| C10 | `Dollar.C10_authority_settings` | Classical.choice, Quot.sound, propext |
| C10 | `Dollar.C10_owner_settings` | Classical.choice, Quot.sound, propext |
| C10 | `Dollar.C10_fixed_settings` | Classical.choice, Quot.sound, propext |
| C10 | `Dollar.C10_no_owner` | Classical.choice, Quot.sound, propext |
| C11 | `Dollar.C11_deliver_authenticated` | Classical.choice, Quot.sound, propext |
| C11 | `Dollar.C11_deliver_addressed` | Classical.choice, Quot.sound, propext |
| C12 | `Dollar.C12_no_second_delivery` | Classical.choice, Quot.sound, propext |
| C12 | `Dollar.C12_delivered_once` | Classical.choice, Quot.sound, propext |
| C12 | `Dollar.C12_replay_fails` | Classical.choice, Quot.sound, propext |
| C13 | `Dollar.C13_token_delivery` | Classical.choice, Quot.sound, propext |
| C13 | `Dollar.C13_token_delivery_succeeds` | Classical.choice, Quot.sound, propext |
| C13 | `Dollar.C13_stale_index_succeeds` | Classical.choice, Quot.sound, propext |
| C14 | `Dollar.C14_transfer` | Classical.choice, Quot.sound, propext |
| C14 | `Dollar.C14_principal` | Classical.choice, Quot.sound, propext |
| C14 | `Dollar.C14_sizes_kept` | Classical.choice, Quot.sound, propext |
| C14 | `Dollar.C14_sizes_reachable` | Classical.choice, Quot.sound, propext |
| C15 | `Dollar.C15_consecutive` | Classical.choice, Quot.sound, propext |
| C15 | `Dollar.C15_unique` | Classical.choice, Quot.sound, propext |
| C16 | `Dollar.C16_wire_format` | Classical.choice, Quot.sound, propext |
| C16 | `Dollar.C16_round_trip` | Classical.choice, Quot.sound, propext |
| C16 | `Dollar.C16_accepts_only_encodings` | Classical.choice, Quot.sound, propext |
| C16 | `Dollar.C16_encoding_injective` | Classical.choice, Quot.sound, propext |
| C16 | `Dollar.C16_no_panic` | Quot.sound, propext |
| C17 | `Dollar.C17_prefix_parses` | Classical.choice, Quot.sound, propext |
| C17 | `Dollar.C17_round_trip` | Classical.choice, Quot.sound, propext |
| C17 | `Dollar.C17_accepts_only_prefix` | Classical.choice, Quot.sound, propext |
| C17 | `Dollar.C17_wrong_prefix` | Quot.sound, propext |
| C17 | `Dollar.C17_encoding_injective` | Classical.choice, Quot.sound, propext |
| C18 | `Dollar.C18_ntt_round_trip` | Classical.choice, Quot.sound, propext |
| C18 | `Dollar.C18_ntt_complete` | Classical.choice, Quot.sound, propext |
| C18 | `Dollar.C18_ntt_no_panic` | Quot.sound, propext |
| C18 | `Dollar.C18_ntt_accepts` | Classical.choice, Quot.sound, propext |
| C18 | `Dollar.C18_additional_round_trip` | Classical.choice, Quot.sound, propext |
| C18 | `Dollar.C18_additional_exact` | Classical.choice, Quot.sound, propext |
| C18 | `Dollar.C18_additional_no_panic` | Quot.sound, propext |
| C18 | `Dollar.C18_index_round_trip` | Classical.choice, Quot.sound, propext |
| C18 | `Dollar.C18_payload_type` | Quot.sound, propext |
| C18 | `Dollar.C18_payload_type_exact` | Classical.choice, Quot.sound, propext |
| C19 | `Dollar.C19_malformed_can_panic` | Classical.choice, Quot.sound, propext |
| C19 | `Dollar.C19_panic_causes_partial` | Classical.choice, Quot.sound, propext |
| C19 | `Dollar.C19_transceiver_panic_iff_partial` | Classical.choice, Quot.sound, propext |
| C20 | `Dollar.C20_unsupported_path_still_usable` | Classical.choice, Quot.sound, propext |
| C20 | `Dollar.C20_unset_path_fails_partial` | Classical.choice, Quot.sound, propext |
| C20 | `Dollar.C20_path_never_closed` | Classical.choice, Quot.sound, propext |
| C21 | `Dollar.C21_paused_calls_fail` | Classical.choice, Quot.sound, propext |
| C21 | `Dollar.C21_supply_constant` | Classical.choice, Quot.sound, propext |
| C22 | `Dollar.C22_staked_vault_backed` | Classical.choice, Quot.sound, propext |
| C23 | `Dollar.C23_flexible_positions_backed` | Classical.choice, Quot.sound, propext |
| C24 | `Dollar.C24_staked_unlock_iff` | Classical.choice, Quot.sound, propext |
| C24 | `Dollar.C24_staked_withdrawable` | Classical.choice, Quot.sound, propext |
| C25 | `Dollar.C25_staked_unlock_effect` | Classical.choice, Quot.sound, propext |
| C25 | `Dollar.C25_flexible_unlock_effect` | Classical.choice, Quot.sound, propext |
| C26 | `Dollar.C26_principal_totals` | Classical.choice, Quot.sound, propext |
| C27 | `Dollar.C27_user_counts` | Classical.choice, Quot.sound, propext |
| C27 | `Dollar.C27_user_counts_exact` | Classical.choice, Quot.sound, propext |
| C28 | `Dollar.C28_rewards_funded` | Classical.choice, Quot.sound, propext |
| C28 | `Dollar.C28_records_nonneg` | Classical.choice, Quot.sound, propext |
| C28 | `Dollar.C28_claim_succeeds` | Classical.choice, Quot.sound, propext |
| C29 | `Dollar.C29_reward_share` | Classical.choice, Quot.sound, propext |
| C29 | `Dollar.C29_exact` | Classical.choice, Quot.sound, propext |
| C30 | `Dollar.C30_lock_iff` | Classical.choice, Quot.sound, propext |
| C30 | `Dollar.C30_lock_effect` | Classical.choice, Quot.sound, propext |
| C30 | `Dollar.C30_lock_nil` | Classical.choice, Quot.sound, propext |
| C31 | `Dollar.C31_paused_actions_fail` | Classical.choice, Quot.sound, propext |
| C32 | `Dollar.C32_query_predicts_payout` | Classical.choice, Quot.sound, propext |
| C33 | `Dollar.C33_collector_gets_staked_yield` | Classical.choice, Quot.sound, propext |
| C33 | `Dollar.C33_no_rewards_in_season_two` | Classical.choice, Quot.sound, propext |
| C34 | `Dollar.C34_index_update` | Classical.choice, Quot.sound, propext |
| C34 | `Dollar.C34_conserved` | Classical.choice, Quot.sound, propext |
| C34 | `Dollar.C34_escrow_covers` | Classical.choice, Quot.sound, propext |
| C35 | `Dollar.C35_share_rounds_down` | Classical.choice, Quot.sound, propext |
| C35 | `Dollar.C35_shares_sum` | Classical.choice, Quot.sound, propext |
| C35 | `Dollar.C35_shares_dust` | Classical.choice, Quot.sound, propext |
| C35 | `Dollar.C35_index_update` | Classical.choice, Quot.sound, propext |
| C35 | `Dollar.C35_distribution_bounded` | Classical.choice, Quot.sound, propext |
| C35 | `Dollar.C35_distribution_dust` | Classical.choice, Quot.sound, propext |
| C36 | `Dollar.C36_retry_lost` | Classical.choice, Quot.sound, propext |
| C36 | `Dollar.C36_kept_partial` | Classical.choice, Quot.sound, propext |
| C36 | `Dollar.C36_index_kept` | Classical.choice, Quot.sound, propext |
| C37 | `Dollar.C37_send_packet` | Classical.choice, propext |
| C37 | `Dollar.C37_packets_leave_on_enabled_channels` | Classical.choice, Quot.sound, propext |
| C38 | `Dollar.C38_middleware` | Classical.choice, Quot.sound, propext |
| C38 | `Dollar.C38_failed_packet` | Classical.choice, Quot.sound, propext |
| C38 | `Dollar.C38_acked_packet` | Classical.choice, Quot.sound, propext |
| C39 | `Dollar.C39_roundtrip_any` | Classical.choice, Quot.sound, propext |
| C39 | `Dollar.C39_roundtrip` | Classical.choice, Quot.sound, propext |
| C39 | `Dollar.C39_export_stable` | Classical.choice, Quot.sound, propext |
| C39 | `Dollar.C39_default_panics` | Classical.choice, Quot.sound, propext |
| C39 | `Dollar.C39_unknown_provider` | Classical.choice, Quot.sound, propext |
| C39 | `Dollar.C39_slash` | Classical.choice, Quot.sound, propext |
| C40 | `Dollar.C40_transaction` | Classical.choice, Quot.sound, propext |
| C40 | `Dollar.C40_history` | Classical.choice, Quot.sound, propext |
| C40 | `Dollar.C40_genesis_partial` | Classical.choice, Quot.sound, propext |
| C40 | `Dollar.C40_genesis_collision` | Classical.choice, Quot.sound, propext |
| C41 | `Dollar.C41_larger_index_can_panic` | Classical.choice, Quot.sound, propext |
| C41 | `Dollar.C41_panic_iff_partial` | Classical.choice, Quot.sound, propext |
| C41 | `Dollar.C41_covered_no_panic_partial` | Classical.choice, Quot.sound, propext |
| C41 | `Dollar.C41_shortfall` | Classical.choice, Quot.sound, propext |
| C41 | `Dollar.C41_initial_covered` | Classical.choice, Quot.sound, propext |
| C41 | `Dollar.C41_updated_covered` | Classical.choice, Quot.sound, propext |
| C41 | `Dollar.C41_bounded_no_panic_partial` | Classical.choice, Quot.sound, propext |
| C42 | `Dollar.C42_not_covered` | Classical.choice, Quot.sound, propext |
| C42 | `Dollar.C42_shortfall_partial` | Classical.choice, Quot.sound, propext |
| C42 | `Dollar.C42_covered_partial` | Classical.choice, Quot.sound, propext |
| C42 | `Dollar.C42_losses_partial` | Classical.choice, Quot.sound, propext |
| C42 | `Dollar.C42_bound_partial` | Classical.choice, Quot.sound, propext |
| C43 | `Dollar.C43_not_exact` | Classical.choice, Quot.sound, propext |
| C43 | `Dollar.C43_never_overcounts` | Classical.choice, Quot.sound, propext |
| C43 | `Dollar.C43_exact_partial` | Classical.choice, Quot.sound, propext |
| C43 | `Dollar.C43_exact_history_partial` | Classical.choice, Quot.sound, propext |
| C43 | `Dollar.C43_missed_partial` | Classical.choice, Quot.sound, propext |
| C43 | `Dollar.C43_missed_fresh_partial` | Classical.choice, Quot.sound, propext |
| C44 | `Dollar.C44_transfer` | Classical.choice, Quot.sound, propext |
| C44 | `Dollar.C44_bank_send` | Classical.choice, Quot.sound, propext |
| C44 | `Dollar.C44_multi_send` | Classical.choice, Quot.sound, propext |
| C45 | `Dollar.C45_migration` | none |
| C45 | `Dollar.C45_bytes` | Classical.choice, Quot.sound, propext |
| C45 | `Dollar.C45_bytes_refused` | Classical.choice, Quot.sound, propext |
| C45 | `Dollar.C45_store` | Classical.choice, Quot.sound, propext |
| C46 | `Dollar.C46_claim_leaves_others` | Classical.choice, Quot.sound, propext |
| C47 | `Dollar.C47_oldest_first` | Classical.choice, Quot.sound, propext |
| C48 | `Dollar.C48_set_recipient_iff` | Classical.choice, Quot.sound, propext |
| C48 | `Dollar.C48_set_recipient_effect` | Classical.choice, Quot.sound, propext |
| C49 | `Dollar.C49_flexible_withdrawable` | Classical.choice, Quot.sound, propext |
| C50 | `Dollar.C50_season_one` | Classical.choice, Quot.sound, propext |
| C50 | `Dollar.C50_nothing_left` | Classical.choice, Quot.sound, propext |
| C51 | `Dollar.C51_set_paused` | Classical.choice, Quot.sound, propext |
| C51 | `Dollar.C51_vaults_set_paused` | Classical.choice, Quot.sound, propext |
| C51 | `Dollar.C51_portal_set_paused` | Classical.choice, Quot.sound, propext |
| C51 | `Dollar.C51_set_peer` | Classical.choice, Quot.sound, propext |
| C51 | `Dollar.C51_set_bridging_path` | Classical.choice, Quot.sound, propext |
| C51 | `Dollar.C51_transfer_ownership` | Classical.choice, Quot.sound, propext |
| C51 | `Dollar.C51_one_key` | Quot.sound, propext |
| C52 | `Dollar.C52_transfer_iff` | Classical.choice, Quot.sound, propext |
| C52 | `Dollar.C52_transfer_events` | Classical.choice, Quot.sound, propext |
| C53 | `Dollar.C53_send_iff` | Classical.choice, Quot.sound, propext |
| C53 | `Dollar.C53_multi_send_iff` | Classical.choice, Quot.sound, propext |
| C53 | `Dollar.C53_whole_balance` | Classical.choice, Quot.sound, propext |
| C54 | `Dollar.C54_principal_covers` | Classical.choice, Quot.sound, propext |
| C54 | `Dollar.C54_earns_growth` | Classical.choice, Quot.sound, propext |
| C55 | `Dollar.C55_others_cannot_take` | Classical.choice, Quot.sound, propext |
| C55 | `Dollar.C55_history` | Classical.choice, Quot.sound, propext |
| C56 | `Dollar.C56_history` | Classical.choice, Quot.sound, propext |
| C56 | `Dollar.C56_schedule_independent` | Classical.choice, Quot.sound, propext |
| C57 | `Dollar.C57_transfer_bytes` | Classical.choice, Quot.sound, propext |
| C57 | `Dollar.C57_wire_injective` | Classical.choice, Quot.sound, propext |
| C57 | `Dollar.C57_index_bytes` | Classical.choice, Quot.sound, propext |
| C58 | `Dollar.C58_positions_ledger` | Classical.choice, Quot.sound, propext |
| C58 | `Dollar.C58_positions_from_start` | Classical.choice, Quot.sound, propext |
| C59 | `Dollar.C59_switches` | Classical.choice, Quot.sound, propext |
| C59 | `Dollar.C59_routes` | Classical.choice, Quot.sound, propext |
| C59 | `Dollar.C59_listings` | Classical.choice, Quot.sound, propext |
| C59 | `Dollar.C59_index` | Classical.choice, Quot.sound, propext |
| C59 | `Dollar.C59_stats` | Classical.choice, Quot.sound, propext |
| C59 | `Dollar.C59_principal` | none |
| C60 | `Dollar.C60_yield_books` | Classical.choice, Quot.sound, propext |
| C60 | `Dollar.C60_yield_books_from_start` | Classical.choice, Quot.sound, propext |
| C61 | `Dollar.C61_log_complete` | Classical.choice, Quot.sound, propext |
| C61 | `Dollar.C61_same_log_same_chain` | Classical.choice, Quot.sound, propext |
| C62 | `Dollar.C62_supply_from_log_partial` | Classical.choice, Quot.sound, propext |
| C62 | `Dollar.C62_log_misses_yield` | Classical.choice, Quot.sound, propext |
| C63 | `Dollar.C63_unlock_events` | Classical.choice, Quot.sound, propext |
| C63 | `Dollar.C63_lock_event` | Classical.choice, Quot.sound, propext |
| C63 | `Dollar.C63_deliver_events` | Classical.choice, Quot.sound, propext |
| C64 | `Dollar.C64_token_accepted_iff` | Classical.choice, Quot.sound, propext |
| C64 | `Dollar.C64_unknown_ignored` | Classical.choice, Quot.sound, propext |
| C64 | `Dollar.C64_bridge_end_to_end` | Classical.choice, Quot.sound, propext |
| C65 | `Dollar.C65_yield_books` | Classical.choice, Quot.sound, propext |
| C65 | `Dollar.C65_yield_books_from_start` | Classical.choice, Quot.sound, propext |
| C65 | `Dollar.C65_single` | Classical.choice, Quot.sound, propext |
| C65 | `Dollar.C65_books_can_be_off` | Classical.choice, Quot.sound, propext |
| C66 | `Dollar.C66_keys_distinct` | Classical.choice, Quot.sound, propext |
| C66 | `Dollar.C66_collections_apart` | Classical.choice, Quot.sound, propext |
| C66 | `Dollar.C66_reads` | Classical.choice, Quot.sound, propext |
| C66 | `Dollar.C66_by_owner_and_vault` | Classical.choice, Quot.sound, propext |
| C66 | `Dollar.C66_by_owner` | Classical.choice, Quot.sound, propext |
| C66 | `Dollar.C66_all_positions` | Classical.choice, Quot.sound, propext |
| C66 | `Dollar.C66_rewards_from` | Classical.choice, Quot.sound, propext |
| C66 | `Dollar.C66_recipients_of` | Classical.choice, Quot.sound, propext |
| C66 | `Dollar.C66_paths_of` | Classical.choice, Quot.sound, propext |
| C66 | `Dollar.C66_positions_of` | Classical.choice, Quot.sound, propext |
| C67 | `Dollar.C67_stake` | Classical.choice, Quot.sound, propext |
| C67 | `Dollar.C67_worth` | Classical.choice, Quot.sound, propext |
| C68 | `Dollar.C68_batch` | Classical.choice, Quot.sound, propext |
| C68 | `Dollar.C68_any_order` | Classical.choice, Quot.sound, propext |
| C68 | `Dollar.C68_first_come_first_served` | Classical.choice, Quot.sound, propext |
| C69 | `Dollar.C69_affordable_any_order` | Classical.choice, Quot.sound, propext |
| C69 | `Dollar.C69_same_result` | Classical.choice, Quot.sound, propext |
| C69 | `Dollar.C69_success_agrees` | Classical.choice, Quot.sound, propext |
| C70 | `Dollar.C70_supply_bounded` | Classical.choice, Quot.sound, propext |
| C70 | `Dollar.C70_absolute` | Classical.choice, Quot.sound, propext |
| C71 | `Dollar.C71_step` | Classical.choice, Quot.sound, propext |
| C71 | `Dollar.C71_step_total` | Classical.choice, Quot.sound, propext |
| C71 | `Dollar.C71_principal_bounded` | Classical.choice, Quot.sound, propext |
| C71 | `Dollar.C71_no_overflow` | Classical.choice, Quot.sound, propext |
| C71 | `Dollar.C71_overflow_iff` | Classical.choice, Quot.sound, propext |
| C72 | `Dollar.C72_all_or_nothing` | Classical.choice, Quot.sound, propext |
| C72 | `Dollar.C72_fee_kept` | Classical.choice, Quot.sound, propext |
| C72 | `Dollar.C72_tx_is_history` | Classical.choice, Quot.sound, propext |
| C72 | `Dollar.C72_reachable` | Classical.choice, Quot.sound, propext |
| C72 | `Dollar.C72_complete` | Classical.choice, Quot.sound, propext |
| C73 | `Dollar.C73_reward` | Classical.choice, Quot.sound, propext |
| C73 | `Dollar.C73_position` | Classical.choice, Quot.sound, propext |
| C73 | `Dollar.C73_vault_stats` | Classical.choice, Quot.sound, propext |
| C73 | `Dollar.C73_stats` | Classical.choice, Quot.sound, propext |
| C73 | `Dollar.C73_peer` | Classical.choice, Quot.sound, propext |
| C73 | `Dollar.C73_scalars` | Classical.choice, Quot.sound, propext |
| C73 | `Dollar.C73_size` | Classical.choice, Quot.sound, propext |
| C74 | `Dollar.C74_messages` | Classical.choice, Quot.sound, propext |
| C74 | `Dollar.C74_values` | Classical.choice, Quot.sound, propext |
| C74 | `Dollar.C74_unknown_fields` | Classical.choice, Quot.sound, propext |
| C74 | `Dollar.C74_bad_tags` | Classical.choice, Quot.sound, propext |
| C75 | `Dollar.C75_roundtrip` | Classical.choice, Quot.sound, propext |
| C75 | `Dollar.C75_injective` | Classical.choice, Quot.sound, propext |
| C75 | `Dollar.C75_missing_amount` | Classical.choice, Quot.sound, propext |
| C75 | `Dollar.C75_chain_truncated` | Classical.choice, Quot.sound, propext |
| C75 | `Dollar.C75_chain_collision` | Classical.choice, Quot.sound, propext |
| C76 | `Dollar.C76_panic_census` | Classical.choice, Quot.sound, propext |
| C76 | `Dollar.C76_transfer_panics_iff` | Classical.choice, Quot.sound, propext |
| C76 | `Dollar.C76_lock_panics_iff` | Classical.choice, Quot.sound, propext |
| C76 | `Dollar.C76_transactions` | Classical.choice, Quot.sound, propext |
| C77 | `Dollar.C77_any_portions` | Classical.choice, Quot.sound, propext |
| C77 | `Dollar.C77_exit` | Classical.choice, Quot.sound, propext |
| C78 | `Dollar.C78_sweep` | Classical.choice, Quot.sound, propext |
| C78 | `Dollar.C78_survives` | Classical.choice, Quot.sound, propext |
| C79 | `Dollar.C79_restart` | Classical.choice, Quot.sound, propext |
| C79 | `Dollar.C79_bytes_determine` | Classical.choice, Quot.sound, propext |
| C80 | `Dollar.C80_share_kept` | Classical.choice, Quot.sound, propext |
| C80 | `Dollar.C80_rewards_kept` | Classical.choice, Quot.sound, propext |
| C80 | `Dollar.C80_payout_kept` | Classical.choice, Quot.sound, propext |
| C81 | `Dollar.C81_restart` | Classical.choice, Quot.sound, propext |
| C81 | `Dollar.C81_flag_fixed` | Classical.choice, Quot.sound, propext |
| C81 | `Dollar.C81_books_frozen` | Classical.choice, Quot.sound, propext |
| C81 | `Dollar.C81_stuck` | Classical.choice, Quot.sound, propext |
| C81 | `Dollar.C81_season_end` | Classical.choice, Quot.sound, propext |
| C82 | `Dollar.C82_fits` | Classical.choice, Quot.sound, propext |
| C82 | `Dollar.C82_holders_le_supply` | Classical.choice, Quot.sound, propext |
| C82 | `Dollar.C82_restart` | Classical.choice, Quot.sound, propext |
| C83 | `Dollar.C83_only_registered` | Classical.choice, Quot.sound, propext |
| C83 | `Dollar.C83_never_removed` | Classical.choice, Quot.sound, propext |
| C84 | `Dollar.C84_traceable` | Classical.choice, Quot.sound, propext |
| C84 | `Dollar.C84_received_le_sent` | Classical.choice, Quot.sound, propext |
| C84 | `Dollar.C84_conservation` | Classical.choice, Quot.sound, propext |
| C85 | `Dollar.C85_no_overflow` | Classical.choice, Quot.sound, propext |
| C86 | `Dollar.C86_accepted_iff` | Classical.choice, Quot.sound, propext |
| C86 | `Dollar.C86_yield_account` | Classical.choice, Quot.sound, propext |
| C86 | `Dollar.C86_covered` | Classical.choice, Quot.sound, propext |
| C86 | `Dollar.C86_transfer_updates_iff` | Classical.choice, Quot.sound, propext |
| C86 | `Dollar.C86_dust_blocks_announcement` | Classical.choice, Quot.sound, propext |
| C87 | `Dollar.C87_records_do_not_matter` | Classical.choice, Quot.sound, propext |
| C87 | `Dollar.C87_histories` | Classical.choice, Quot.sound, propext |
| C88 | `Dollar.C88_settings_that_matter` | Classical.choice, Quot.sound, propext |
| C88 | `Dollar.C88_histories` | Classical.choice, Quot.sound, propext |
| C89 | `Dollar.C89_announce_first` | Classical.choice, Quot.sound, propext |
| C89 | `Dollar.C89_split` | Classical.choice, Quot.sound, propext |
| C89 | `Dollar.C89_plain_transfer` | Classical.choice, Quot.sound, propext |
| C89 | `Dollar.C89_update_within` | Classical.choice, Quot.sound, propext |
| C89 | `Dollar.C89_channels` | Classical.choice, Quot.sound, propext |
| C89 | `Dollar.C89_warp_routes` | Classical.choice, Quot.sound, propext |
| C89 | `Dollar.C89_season_one` | Classical.choice, Quot.sound, propext |
| C89 | `Dollar.C89_collector` | Classical.choice, Quot.sound, propext |
| C90 | `Dollar.C90_decoded_in_range` | Classical.choice, Quot.sound, propext |
| C90 | `Dollar.C90_typed` | Classical.choice, Quot.sound, propext |
| C90 | `Dollar.C90_reencoded` | Classical.choice, Quot.sound, propext |
| C91 | `Dollar.C91_accepted_iff` | Classical.choice, Quot.sound, propext |
| C91 | `Dollar.C91_fresh` | Classical.choice, Quot.sound, propext |
| C91 | `Dollar.C91_maps` | Classical.choice, Quot.sound, propext |
| C92 | `Dollar.C92_order` | Classical.choice, Quot.sound, propext |
| C92 | `Dollar.C92_pair` | Classical.choice, Quot.sound, propext |
| C93 | `Dollar.C93_minting_account_empty` | Classical.choice, Quot.sound, propext |
| C93 | `Dollar.C93_supply_elsewhere` | Classical.choice, Quot.sound, propext |
| C94 | `Dollar.C94_principal_covers` | Classical.choice, Quot.sound, propext |
| C94 | `Dollar.C94_earns_growth` | Classical.choice, Quot.sound, propext |
| C94 | `Dollar.C94_escrow_roundings` | Classical.choice, Quot.sound, propext |
| C94 | `Dollar.C94_vouchers_earn_growth` | Classical.choice, Quot.sound, propext |
| C95 | `Dollar.C95_backing_kept` | Classical.choice, Quot.sound, propext |
| C95 | `Dollar.C95_vouchers_backed` | Classical.choice, Quot.sound, propext |
| C96 | `Dollar.C96_vouchers_redeemable` | Classical.choice, Quot.sound, propext |
| C96 | `Dollar.C96_refunds_succeed` | Classical.choice, Quot.sound, propext |
| C97 | `Dollar.C97_collateral_kept_partial` | Classical.choice, Quot.sound, propext |
| C97 | `Dollar.C97_collateral_covers_partial` | Classical.choice, Quot.sound, propext |
| C97 | `Dollar.C97_redeemable_partial` | Classical.choice, Quot.sound, propext |
| C97 | `Dollar.C97_two_identifiers_break_it` | Classical.choice, Quot.sound, propext |
| C98 | `Dollar.C98_collateral_backed_partial` | Classical.choice, Quot.sound, propext |
| C98 | `Dollar.C98_late_failure_breaks_collateral` | Classical.choice, Quot.sound, propext |
| C99 | `Dollar.C99_digits` | Classical.choice, Quot.sound, propext |
| C99 | `Dollar.C99_signed` | Classical.choice, Quot.sound, propext |
| C99 | `Dollar.C99_written_is_read` | Classical.choice, Quot.sound, propext |
| C99 | `Dollar.C99_wire` | Classical.choice, Quot.sound, propext |
| C99 | `Dollar.C99_genesis_octal` | Classical.choice, Quot.sound, propext |
| C99 | `Dollar.C99_message_octal` | Classical.choice, Quot.sound, propext |
| C99 | `Dollar.C99_literal` | Classical.choice, Quot.sound, propext |
| C99 | `Dollar.C99_wire_literal` | Classical.choice, Quot.sound, propext |
| C100 | `Dollar.C100_share_settled` | Classical.choice, Quot.sound, propext |
| C100 | `Dollar.C100_rewards_settled` | Classical.choice, Quot.sound, propext |
| C101 | `Dollar.C101_stranded_forever` | Classical.choice, Quot.sound, propext |
| C101 | `Dollar.C101_stranded_coins` | Classical.choice, Quot.sound, propext |
| C101 | `Dollar.C101_empty_vault` | Classical.choice, Quot.sound, propext |
| C101 | `Dollar.C101_counterexample` | Classical.choice, Quot.sound, propext |
| C101 | `Dollar.C101_proportional_partial` | Classical.choice, Quot.sound, propext |
| C101 | `Dollar.C101_last_payout_partial` | Classical.choice, Quot.sound, propext |
| C102 | `Dollar.C102_vouchers_earn_growth_partial` | Classical.choice, Quot.sound, propext |
| C102 | `Dollar.C102_unrouted_stranded` | Classical.choice, Quot.sound, propext |
| C102 | `Dollar.C102_unrouted_paid_to_others` | Classical.choice, Quot.sound, propext |
| C102 | `Dollar.C102_warp_roundings` | Classical.choice, Quot.sound, propext |
| C103 | `Dollar.C103_stats` | Classical.choice, Quot.sound, propext |
| C103 | `Dollar.C103_shown_is_destination` | Classical.choice, Quot.sound, propext |
| C104 | `Dollar.C104_shown_covered` | Classical.choice, Quot.sound, propext |
| C104 | `Dollar.C104_shown_complete` | Classical.choice, Quot.sound, propext |
| C104 | `Dollar.C104_flexible_principal` | Classical.choice, Quot.sound, propext |
| C105 | `Dollar.C105_positions` | Classical.choice, Quot.sound, propext |
| C105 | `Dollar.C105_pending` | Classical.choice, Quot.sound, propext |
| C105 | `Dollar.C105_tokens` | Classical.choice, Quot.sound, propext |
| C105 | `Dollar.C105_peers` | Classical.choice, Quot.sound, propext |
| C105 | `Dollar.C105_string_map` | Classical.choice, Quot.sound, propext |
| C105 | `Dollar.C105_stats` | Classical.choice, Quot.sound, propext |
| C105 | `Dollar.C105_size` | Classical.choice, Quot.sound, propext |
| C105 | `Dollar.C105_no_panic` | Classical.choice, Quot.sound, propext |
| C105 | `Dollar.C105_amount` | Classical.choice, Quot.sound, propext |
| C105 | `Dollar.C105_index` | Classical.choice, Quot.sound, propext |
| C105 | `Dollar.C105_flag` | Classical.choice, Quot.sound, propext |
| C105 | `Dollar.C105_word_cut` | Classical.choice, Quot.sound, propext |
| C105 | `Dollar.C105_nonce` | Classical.choice, Quot.sound, propext |
| C105 | `Dollar.C105_chain` | Classical.choice, Quot.sound, propext |
| C105 | `Dollar.C105_text` | Classical.choice, Quot.sound, propext |
| C105 | `Dollar.C105_route` | Classical.choice, Quot.sound, propext |
| C106 | `Dollar.C106_peers` | Classical.choice, Quot.sound, propext |
| C106 | `Dollar.C106_recipients` | Classical.choice, Quot.sound, propext |
| C106 | `Dollar.C106_retry` | Classical.choice, Quot.sound, propext |
| C106 | `Dollar.C106_stats` | Classical.choice, Quot.sound, propext |
| C107 | `Dollar.C107_provider` | Classical.choice, Quot.sound, propext |
| C107 | `Dollar.C107_recipients` | Classical.choice, Quot.sound, propext |
| C107 | `Dollar.C107_retry` | Classical.choice, Quot.sound, propext |
| C107 | `Dollar.C107_set` | Classical.choice, Quot.sound, propext |
| C107 | `Dollar.C107_known` | Classical.choice, Quot.sound, propext |
| C108 | `Dollar.C108_send` | Quot.sound, propext |
| C108 | `Dollar.C108_multi` | Quot.sound, propext |
| C108 | `Dollar.C108_statistic` | Quot.sound, propext |
| C108 | `Dollar.C108_multi_statistic` | Quot.sound, propext |
| C109 | `Dollar.C109_positions` | Classical.choice, Quot.sound, propext |
| C109 | `Dollar.C109_records` | Classical.choice, Quot.sound, propext |
| C109 | `Dollar.C109_reads` | Classical.choice, Quot.sound, propext |
| C109 | `Dollar.C109_fresh` | Classical.choice, Quot.sound, propext |
| C109 | `Dollar.C109_recipients` | Classical.choice, Quot.sound, propext |
| C110 | `Dollar.C110_alone` | Classical.choice, Quot.sound, propext |
| C110 | `Dollar.C110_goes` | Classical.choice, Quot.sound, propext |
| C110 | `Dollar.C110_other` | Classical.choice, Quot.sound, propext |
| C110 | `Dollar.C110_multi_alone` | Classical.choice, Quot.sound, propext |
| C110 | `Dollar.C110_multi_goes` | Classical.choice, Quot.sound, propext |
| C111 | `Dollar.C111_read` | Classical.choice, Quot.sound, propext |
| C111 | `Dollar.C111_injective` | Classical.choice, Quot.sound, propext |
| C111 | `Dollar.C111_stopped` | Classical.choice, Quot.sound, propext |
| C111 | `Dollar.C111_passed` | Classical.choice, Quot.sound, propext |
| C111 | `Dollar.C111_transfer` | Classical.choice, Quot.sound, propext |
| C111 | `Dollar.C111_retry` | Classical.choice, Quot.sound, propext |
| C112 | `Dollar.C112_read` | Classical.choice, Quot.sound, propext |
| C112 | `Dollar.C112_written` | Classical.choice, Quot.sound, propext |
| C112 | `Dollar.C112_restores` | Classical.choice, Quot.sound, propext |
| C112 | `Dollar.C112_unknown` | Classical.choice, Quot.sound, propext |
| C112 | `Dollar.C112_missing` | Classical.choice, Quot.sound, propext |
| C112 | `Dollar.C112_no_index` | Classical.choice, Quot.sound, propext |
| C112 | `Dollar.C112_index_zero` | Classical.choice, Quot.sound, propext |
| C112 | `Dollar.C112_no_vaults` | Classical.choice, Quot.sound, propext |
| C112 | `Dollar.C112_json_names` | Classical.choice, Quot.sound, propext |
| C113 | `Dollar.C113_spellings` | Classical.choice, Quot.sound, propext |
| C113 | `Dollar.C113_roundtrip` | Classical.choice, Quot.sound, propext |
| C113 | `Dollar.C113_injective` | Classical.choice, Quot.sound, propext |
| C113 | `Dollar.C113_typo` | Classical.choice, Quot.sound, propext |
| C113 | `Dollar.C113_swap` | Classical.choice, Quot.sound, propext |
| C113 | `Dollar.C113_one_char` | Classical.choice, Quot.sound, propext |
| C113 | `Dollar.C113_longer` | Classical.choice, Quot.sound, propext |
| C113 | `Dollar.C113_wf` | Classical.choice, Quot.sound, propext |
| C113 | `Dollar.C113_exportable` | Classical.choice, Quot.sound, propext |
| C113 | `Dollar.C113_either` | Classical.choice, Quot.sound, propext |
| C113 | `Dollar.C113_authority` | Classical.choice, Quot.sound, propext |
| C113 | `Dollar.C113_own_account` | Classical.choice, Quot.sound, propext |
| C114 | `Dollar.C114_attributes` | Classical.choice, Quot.sound, propext |
| C114 | `Dollar.C114_recovers` | Classical.choice, Quot.sound, propext |
| C114 | `Dollar.C114_injective` | Classical.choice, Quot.sound, propext |
| C114 | `Dollar.C114_log` | Classical.choice, Quot.sound, propext |
| C114 | `Dollar.C114_digest_lost` | Classical.choice, Quot.sound, propext |
| C114 | `Dollar.C114_recipient_lost` | Classical.choice, Quot.sound, propext |
| C114 | `Dollar.C114_bytes_shown` | Classical.choice, Quot.sound, propext |
| C114 | `Dollar.C114_text_shown` | Classical.choice, Quot.sound, propext |
| C115 | `Dollar.C115_binding` | Classical.choice, Quot.sound, propext |
| C115 | `Dollar.C115_missing` | Classical.choice, Quot.sound, propext |
| C115 | `Dollar.C115_effect` | Classical.choice, Quot.sound, propext |
| C115 | `Dollar.C115_chain` | Classical.choice, Quot.sound, propext |
| C116 | `Dollar.C116_reaches` | Classical.choice, Quot.sound, propext |
| C116 | `Dollar.C116_order` | Classical.choice, Quot.sound, propext |
| C116 | `Dollar.C116_askable` | Classical.choice, Quot.sound, propext |
| C116 | `Dollar.C116_everyday` | Classical.choice, Quot.sound, propext |
| C116 | `Dollar.C116_slash` | Classical.choice, Quot.sound, propext |
| C117 | `Dollar.C117_read_result` | Classical.choice, Quot.sound, propext |
| C117 | `Dollar.C117_read_error` | Classical.choice, Quot.sound, propext |
| C117 | `Dollar.C117_error` | Classical.choice, Quot.sound, propext |
| C117 | `Dollar.C117_result` | Classical.choice, Quot.sound, propext |
| C117 | `Dollar.C117_other` | Classical.choice, Quot.sound, propext |
| C117 | `Dollar.C117_same` | Classical.choice, Quot.sound, propext |
| C117 | `Dollar.C117_paired` | Classical.choice, Quot.sound, propext |
| C117 | `Dollar.C117_undetermined` | Classical.choice, Quot.sound, propext |
| C117 | `Dollar.C117_needs_bytes` | Classical.choice, Quot.sound, propext |
| C117 | `Dollar.C117_needs_empty` | Classical.choice, Quot.sound, propext |
| C118 | `Dollar.C118_transactions` | Classical.choice, Quot.sound, propext |
| C118 | `Dollar.C118_queries` | Classical.choice, Quot.sound, propext |
| C118 | `Dollar.C118_line` | Classical.choice, Quot.sound, propext |
| C118 | `Dollar.C118_no_negative` | Classical.choice, Quot.sound, propext |
| C118 | `Dollar.C118_hex` | Classical.choice, Quot.sound, propext |
| C118 | `Dollar.C118_base64` | Classical.choice, Quot.sound, propext |
| C118 | `Dollar.C118_prefix` | Classical.choice, Quot.sound, propext |
| C118 | `Dollar.C118_key_first` | Classical.choice, Quot.sound, propext |
| C118 | `Dollar.C118_stats` | Classical.choice, Quot.sound, propext |
| C118 | `Dollar.C118_octal` | Classical.choice, Quot.sound, propext |
| C118 | `Dollar.C118_ambiguous` | Classical.choice, Quot.sound, propext |
| C119 | `Dollar.C119_messages` | Classical.choice, Quot.sound, propext |
| C119 | `Dollar.C119_run` | Classical.choice, Quot.sound, propext |
| C119 | `Dollar.C119_queries` | Classical.choice, Quot.sound, propext |
| C120 | `Dollar.C120_read` | Classical.choice, Quot.sound, propext |
| C120 | `Dollar.C120_get` | Classical.choice, Quot.sound, propext |
| C120 | `Dollar.C120_nothing` | Classical.choice, Quot.sound, propext |
| C120 | `Dollar.C120_wallet` | Classical.choice, Quot.sound, propext |
| C120 | `Dollar.C120_unquoted` | Classical.choice, Quot.sound, propext |
| C120 | `Dollar.C120_says` | Classical.choice, Quot.sound, propext |
| C120 | `Dollar.C120_truth` | Classical.choice, Quot.sound, propext |
| C121 | `Dollar.C121_cause` | Classical.choice, Quot.sound, propext |
| C121 | `Dollar.C121_distinct` | none |
| C121 | `Dollar.C121_never_zero` | Classical.choice, Quot.sound, propext |
| C121 | `Dollar.C121_nothing_happened` | Classical.choice, Quot.sound, propext |
| C121 | `Dollar.C121_transaction` | Classical.choice, Quot.sound, propext |
| C121 | `Dollar.C121_same_block` | Classical.choice, Quot.sound, propext |
| C122 | `Dollar.C122_messages` | Classical.choice, Quot.sound, propext |
| C122 | `Dollar.C122_run` | Classical.choice, Quot.sound, propext |
| C122 | `Dollar.C122_yield` | Classical.choice, Quot.sound, propext |
| C123 | `Dollar.C123_reads` | Classical.choice, Quot.sound, propext |
| C123 | `Dollar.C123_explorer` | Classical.choice, Quot.sound, propext |
| C123 | `Dollar.C123_codec` | Classical.choice, Quot.sound, propext |
| C124 | `Dollar.C124_state` | Classical.choice, Quot.sound, propext |
| C124 | `Dollar.C124_answers` | Classical.choice, Quot.sound, propext |
| C124 | `Dollar.C124_log` | Classical.choice, Quot.sound, propext |
| C124 | `Dollar.C124_clients` | Classical.choice, Quot.sound, propext |
| C125 | `Dollar.C125_node` | Classical.choice, Quot.sound, propext |
| C125 | `Dollar.C125_request` | Classical.choice, Quot.sound, propext |
| C125 | `Dollar.C125_read` | Classical.choice, Quot.sound, propext |
| C125 | `Dollar.C125_any_order` | Classical.choice, Quot.sound, propext |
| C125 | `Dollar.C125_hostile` | Classical.choice, Quot.sound, propext |
| C125 | `Dollar.C125_no_panic` | Classical.choice, Quot.sound, propext |
