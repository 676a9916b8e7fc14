{"claims": [
 {"property": "C01", "status": "proved", "theorems": ["Dollar.C01_down_exact", "Dollar.C01_up_exact", "Dollar.C01_present_exact", "Dollar.C01_up_down", "Dollar.C01_down_back", "Dollar.C01_up_back", "Dollar.C01_exact_iff"], "note": ""},
 {"property": "C02", "status": "proved", "theorems": ["Dollar.C02_index_step", "Dollar.C02_index_monotone"], "note": "Per transaction and along every history."},
 {"property": "C03", "status": "proved", "theorems": ["Dollar.C03_update_index", "Dollar.C03_delivered_index"], "note": "UpdateIndex succeeded in a reachable state; also for a delivered index payload. When the total principal is negative (possible through dust burns) supply is the truncated quotient."},
 {"property": "C04", "status": "proved", "theorems": ["Dollar.C04_balances_sum_to_supply", "Dollar.C04_balance_le_supply"], "note": "Every reachable state."},
 {"property": "C05", "status": "proved", "theorems": ["Dollar.C05_supply_tx", "Dollar.C05_supply_ledger", "Dollar.C05_supply_from_start"], "note": "Per transaction, along histories, and from a fresh chain."},
 {"property": "C06", "status": "proved", "theorems": ["Dollar.C06_principal_le_total", "Dollar.C06_unchanged", "Dollar.C06_transfer_gap", "Dollar.C06_deliver_gap"], "note": "Bound in every reachable state, frame for all other transactions, growth of the gap by delivery and transfer."},
 {"property": "C07", "status": "proved", "theorems": ["Dollar.C07_yield_query", "Dollar.C07_claim", "Dollar.C07_claim_succeeds_iff", "Dollar.C07_second_claim"], "note": "Exact effect of a claim, characterisation of the Yield query and of when a claim succeeds, and the second claim."},
 {"property": "C08", "status": "proved", "theorems": ["Dollar.C08_not_credited", "Dollar.C08_principal_constant", "Dollar.C08_transfers_to_yield_fail", "Dollar.C08_only_claims_debit", "Dollar.C08_deliver_accounts"], "note": "A portal delivery can mint to the yield account when its message names that account as recipient; every other transaction cannot credit it."},
 {"property": "C09", "status": "proved", "theorems": ["Dollar.C09_paused_claim_fails", "Dollar.C09_stays_paused", "Dollar.C10_authority_settings"], "note": ""},
 {"property": "C10", "status": "proved", "theorems": ["Dollar.C10_authority_settings", "Dollar.C10_owner_settings", "Dollar.C10_fixed_settings", "Dollar.C10_no_owner"], "note": ""},
 {"property": "C11", "status": "proved", "theorems": ["Dollar.C11_deliver_authenticated", "Dollar.C11_deliver_addressed"], "note": ""},
 {"property": "C12", "status": "proved", "theorems": ["Dollar.C12_no_second_delivery", "Dollar.C12_delivered_once", "Dollar.C12_replay_fails"], "note": ""},
 {"property": "C13", "status": "proved", "theorems": ["Dollar.C13_token_delivery", "Dollar.C13_token_delivery_succeeds", "Dollar.C13_stale_index_succeeds"], "note": ""},
 {"property": "C14", "status": "proved", "theorems": ["Dollar.C14_transfer", "Dollar.C14_principal", "Dollar.C14_sizes_kept", "Dollar.C14_sizes_reachable"], "note": "every successful transfer posts exactly the announced message; principal leaves with it; posted sizes fit their fields on reachable states"},
 {"property": "C15", "status": "proved", "theorems": ["Dollar.C15_consecutive", "Dollar.C15_unique"], "note": "nonces consecutive mod 2^32; message identifiers unique below 2^32 transfers"},
 {"property": "C16", "status": "proved", "theorems": ["Dollar.C16_wire_format", "Dollar.C16_round_trip", "Dollar.C16_accepts_only_encodings", "Dollar.C16_encoding_injective", "Dollar.C16_no_panic"], "note": ""},
 {"property": "C17", "status": "proved", "theorems": ["Dollar.C17_prefix_parses", "Dollar.C17_round_trip", "Dollar.C17_accepts_only_prefix", "Dollar.C17_wrong_prefix", "Dollar.C17_encoding_injective"], "note": ""},
 {"property": "C18", "status": "proved", "theorems": ["Dollar.C18_ntt_round_trip", "Dollar.C18_ntt_complete", "Dollar.C18_ntt_no_panic", "Dollar.C18_ntt_accepts", "Dollar.C18_additional_round_trip", "Dollar.C18_additional_exact", "Dollar.C18_additional_no_panic", "Dollar.C18_index_round_trip", "Dollar.C18_payload_type", "Dollar.C18_payload_type_exact"], "note": ""},
 {"property": "C19", "status": "partial", "theorems": ["Dollar.C19_malformed_can_panic", "Dollar.C19_panic_causes_partial", "Dollar.C19_transceiver_panic_iff_partial"], "note": "false of the code for malformed inner data (witness C19_malformed_can_panic); the exact panic causes are proved"},
 {"property": "C20", "status": "partial", "theorems": ["Dollar.C20_unsupported_path_still_usable", "Dollar.C20_unset_path_fails_partial", "Dollar.C20_path_never_closed"], "note": "The full claim is false of this code and its negation is proved with a reachable witness: SetBridgingPath(supported=false) stores the value false but Transfer only checks that the key exists. Proved instead: transfers along a path that was never set fail. C20_path_never_closed: once a path and a peer were set, no later setting stops transfers along it except pausing the portal."},
 {"property": "C21", "status": "proved", "theorems": ["Dollar.C21_paused_calls_fail", "Dollar.C21_supply_constant"], "note": ""},
 {"property": "C22", "status": "proved", "theorems": ["Dollar.C22_staked_vault_backed"], "note": "Invariant over every reachable state."},
 {"property": "C23", "status": "proved", "theorems": ["Dollar.C23_flexible_positions_backed"], "note": "Invariant plus injectivity of position accounts (address derivation injective, see Cfg.WF)."},
 {"property": "C24", "status": "proved", "theorems": ["Dollar.C24_staked_unlock_iff", "Dollar.C24_staked_withdrawable"], "note": "Exactly when a staked unlock succeeds, in every reachable state."},
 {"property": "C25", "status": "proved", "theorems": ["Dollar.C25_staked_unlock_effect", "Dollar.C25_flexible_unlock_effect"], "note": "Staked and flexible withdrawals."},
 {"property": "C26", "status": "proved", "theorems": ["Dollar.C26_principal_totals"], "note": "Invariant over every reachable state."},
 {"property": "C27", "status": "proved", "theorems": ["Dollar.C27_user_counts", "Dollar.C27_user_counts_exact"], "note": "Counts are exact modulo 2^64 and exact while fewer than 2^64 users exist."},
 {"property": "C28", "status": "proved", "theorems": ["Dollar.C28_rewards_funded", "Dollar.C28_records_nonneg", "Dollar.C28_claim_succeeds"], "note": "Funding holds unconditionally; non-negativity and success of claims along histories whose flexible positions stay below 2*10^18 principal (the bound in the statement; an example shows it is needed)."},
 {"property": "C29", "status": "proved", "theorems": ["Dollar.C29_reward_share", "Dollar.C29_exact"], "note": "Record by record: bounds stated without division, and the exact amount to the last digit (C29_exact)."},
 {"property": "C30", "status": "proved", "theorems": ["Dollar.C30_lock_iff", "Dollar.C30_lock_effect", "Dollar.C30_lock_nil"], "note": ""},
 {"property": "C31", "status": "proved", "theorems": ["Dollar.C31_paused_actions_fail"], "note": ""},
 {"property": "C32", "status": "proved", "theorems": ["Dollar.C32_query_predicts_payout"], "note": "The query walk is modelled separately from the claim."},
 {"property": "C33", "status": "proved", "theorems": ["Dollar.C33_collector_gets_staked_yield", "Dollar.C33_no_rewards_in_season_two"], "note": "The collector is assumed to be a user account for the exact payout."},
 {"property": "C34", "status": "proved", "theorems": ["Dollar.C34_index_update", "Dollar.C34_conserved", "Dollar.C34_escrow_covers"], "note": "Per-channel IBC yield: what an index update sends, conservation, escrow cover."},
 {"property": "C35", "status": "proved", "theorems": ["Dollar.C35_share_rounds_down", "Dollar.C35_shares_sum", "Dollar.C35_shares_dust", "Dollar.C35_index_update", "Dollar.C35_distribution_bounded", "Dollar.C35_distribution_dust"], "note": "Hyperlane shares: rounding, sum bounds from above and below, what an index update sends."},
 {"property": "C36", "status": "partial", "theorems": ["Dollar.C36_retry_lost", "Dollar.C36_kept_partial", "Dollar.C36_index_kept"], "note": "The full claim is false of the code: a token delivery whose swallowed index update fails after the retry was removed loses the retry record (C36_retry_lost is the machine-checked counterexample). C36_kept_partial proves it for every message but that case; C36_index_kept for index deliveries."},
 {"property": "C37", "status": "proved", "theorems": ["Dollar.C37_send_packet", "Dollar.C37_packets_leave_on_enabled_channels"], "note": ""},
 {"property": "C38", "status": "proved", "theorems": ["Dollar.C38_middleware", "Dollar.C38_failed_packet", "Dollar.C38_acked_packet"], "note": ""},
 {"property": "C39", "status": "proved", "theorems": ["Dollar.C39_roundtrip_any", "Dollar.C39_roundtrip", "Dollar.C39_export_stable", "Dollar.C39_default_panics", "Dollar.C39_unknown_provider", "Dollar.C39_slash"], "note": "Round trip for every reachable state meeting the stated conditions, for every iteration order of the exported maps; the conditions are shown necessary (C39_unknown_provider, C39_slash); the default genesis cannot be imported (C39_default_panics)."},
 {"property": "C40", "status": "partial", "theorems": ["Dollar.C40_transaction", "Dollar.C40_history", "Dollar.C40_genesis_partial", "Dollar.C40_genesis_collision"], "note": "Transactions and histories: proved without condition. Genesis import: the full claim is false (C40_genesis_collision: two genesis keys may denote one route, the last one iterated wins); C40_genesis_partial proves it when keys do not collide."},
 {"property": "C41", "status": "partial", "theorems": ["Dollar.C41_larger_index_can_panic", "Dollar.C41_panic_iff_partial", "Dollar.C41_covered_no_panic_partial", "Dollar.C41_shortfall", "Dollar.C41_initial_covered", "Dollar.C41_updated_covered", "Dollar.C41_bounded_no_panic_partial"], "note": "False of the code (witness C41_larger_index_can_panic). Proved instead: the exact panic condition, and a bound on the shortfall after every history: one unit of principal per bridge transfer out since the last covered state (fresh chain, or any successful index update) plus what was delivered to the yield account itself. So an update only panics if the index grows by less than that bound allows."},
 {"property": "C42", "status": "partial", "theorems": ["Dollar.C42_not_covered", "Dollar.C42_shortfall_partial", "Dollar.C42_covered_partial", "Dollar.C42_losses_partial", "Dollar.C42_bound_partial"], "note": "The full claim is false: C42_not_covered exhibits a reachable chain (index 3, one bank send of 1 unit) where the shares sum to more than the account holds. Proved in its place: after every delivered index update the shares are at most the held yield plus the explicit rounding shortfall, hence covered whenever the shortfall is zero; and after any history the shortfall is at most the value of one unit of principal for each rounding so far, counted message by message (Spec/Rounds.lean)."},
 {"property": "C43", "status": "partial", "theorems": ["Dollar.C43_not_exact", "Dollar.C43_never_overcounts", "Dollar.C43_exact_partial", "Dollar.C43_exact_history_partial", "Dollar.C43_missed_partial", "Dollar.C43_missed_fresh_partial"], "note": "The full claim is false (C43_not_exact: a multi-send that empties the sender is subtracted once per output). Proved: the statistic never exceeds the number of holders after any history, it stays exact under every transaction except four explicitly listed kinds, and after any history it is behind by at most the sum of what its transactions can make it miss, counted from the state before each of them (missedIn); the bound is attained."},
 {"property": "C44", "status": "proved", "theorems": ["Dollar.C44_transfer", "Dollar.C44_bank_send", "Dollar.C44_multi_send"], "note": ""},
 {"property": "C45", "status": "proved", "theorems": ["Dollar.C45_migration", "Dollar.C45_bytes", "Dollar.C45_bytes_refused", "Dollar.C45_store"], "note": ""},
 {"property": "C46", "status": "proved", "theorems": ["Dollar.C46_claim_leaves_others"], "note": ""},
 {"property": "C47", "status": "proved", "theorems": ["Dollar.C47_oldest_first"], "note": "The whole position store after an unlock is given by an independent specification."},
 {"property": "C48", "status": "proved", "theorems": ["Dollar.C48_set_recipient_iff", "Dollar.C48_set_recipient_effect"], "note": "A provider other than IBC and Hyperlane is accepted without any check; the theorem states this."},
 {"property": "C49", "status": "proved", "theorems": ["Dollar.C49_flexible_withdrawable"], "note": "Conditional on the yield account covering the yield of the user's positions (C42 shows it may not)."},
 {"property": "C50", "status": "proved", "theorems": ["Dollar.C50_season_one", "Dollar.C50_nothing_left"], "note": ""},
 {"property": "C51", "status": "proved", "theorems": ["Dollar.C51_set_paused", "Dollar.C51_vaults_set_paused", "Dollar.C51_portal_set_paused", "Dollar.C51_set_peer", "Dollar.C51_set_bridging_path", "Dollar.C51_transfer_ownership", "Dollar.C51_one_key"], "note": ""},
 {"property": "C52", "status": "proved", "theorems": ["Dollar.C52_transfer_iff", "Dollar.C52_transfer_events"], "note": ""},
 {"property": "C53", "status": "proved", "theorems": ["Dollar.C53_send_iff", "Dollar.C53_multi_send_iff", "Dollar.C53_whole_balance"], "note": ""},
 {"property": "C54", "status": "proved", "theorems": ["Dollar.C54_principal_covers", "Dollar.C54_earns_growth"], "note": ""},
 {"property": "C55", "status": "proved", "theorems": ["Dollar.C55_others_cannot_take", "Dollar.C55_history"], "note": "Every message and every history not signed by the user; also the flexible position accounts."},
 {"property": "C56", "status": "proved", "theorems": ["Dollar.C56_history", "Dollar.C56_schedule_independent"], "note": "All interleavings; the yield collector is excluded because season-two yield is sent to it."},
 {"property": "C57", "status": "proved", "theorems": ["Dollar.C57_transfer_bytes", "Dollar.C57_wire_injective", "Dollar.C57_index_bytes"], "note": "Exact bytes of every posted transfer against an independent layout (Spec.wire), injectivity, index payload. EncodeIndexPayload is used by tests only."},
 {"property": "C58", "status": "proved", "theorems": ["Dollar.C58_positions_ledger", "Dollar.C58_positions_from_start"], "note": "Ledger over histories of accepted messages; the query result is related to it."},
 {"property": "C59", "status": "proved", "theorems": ["Dollar.C59_switches", "Dollar.C59_routes", "Dollar.C59_listings", "Dollar.C59_index", "Dollar.C59_stats", "Dollar.C59_principal"], "note": "Retry and external-yield listings are for routes with printable names (known provider, no slash), the case in which the Go map keys cannot clash."},
 {"property": "C60", "status": "proved", "theorems": ["Dollar.C60_yield_books", "Dollar.C60_yield_books_from_start"], "note": "Every message is classified by its effect on external yield, retry amounts and the packets sent from the escrow address of the channel; the ledger is carried through the swallowed failures of index updates."},
 {"property": "C61", "status": "proved", "theorems": ["Dollar.C61_log_complete", "Dollar.C61_same_log_same_chain"], "note": "The indexer is a small specification (Spec/Indexer.lean) with consistency checks on each event. Failures of index updates swallowed while minting are covered: the receipt event still carries the index. (What the log misses in that case is the amount of yield.)"},
 {"property": "C62", "status": "partial", "theorems": ["Dollar.C62_supply_from_log_partial", "Dollar.C62_log_misses_yield"], "note": "False in full: C62_log_misses_yield exhibits a delivery whose yield is minted but not logged. Proved: the bridged part is always exact, the log never overstates the yield, and supply and yield are exact if every index quoted by a receipt was announced. Missing: receipts whose index update failed."},
 {"property": "C63", "status": "proved", "theorems": ["Dollar.C63_unlock_events", "Dollar.C63_lock_event", "Dollar.C63_deliver_events"], "note": "Unlock, lock and deliver events; the amounts add up to the balance change."},
 {"property": "C64", "status": "proved", "theorems": ["Dollar.C64_token_accepted_iff", "Dollar.C64_unknown_ignored", "Dollar.C64_bridge_end_to_end"], "note": "Acceptance of token messages is characterised exactly; end to end theorem for two configurations."},
 {"property": "C65", "status": "proved", "theorems": ["Dollar.C65_yield_books", "Dollar.C65_yield_books_from_start", "Dollar.C65_single", "Dollar.C65_books_can_be_off"], "note": "Totals per warp token over the stored amounts; C65_single relates them to the amount of one identifier. C65_books_can_be_off shows that the equality needs its condition (a swallowed index update loses the waiting amount)."},
 {"property": "C66", "status": "proved", "theorems": ["Dollar.C66_keys_distinct", "Dollar.C66_collections_apart", "Dollar.C66_reads", "Dollar.C66_by_owner_and_vault", "Dollar.C66_by_owner", "Dollar.C66_all_positions", "Dollar.C66_rewards_from", "Dollar.C66_recipients_of", "Dollar.C66_paths_of", "Dollar.C66_positions_of"], "note": "byte-level layout of the store; the key codecs of cosmossdk.io/collections are modelled from their documentation, values are opaque bytes"},
 {"property": "C67", "status": "proved", "theorems": ["Dollar.C67_stake", "Dollar.C67_worth"], "note": "Stake of a group over arbitrary histories with no inflow; the bound of one unit per payment is met by the example (300 coins become worth 302 after one payment of one coin at index 3). Unlocks and refunds to members count as inflow."},
 {"property": "C68", "status": "proved", "theorems": ["Dollar.C68_batch", "Dollar.C68_any_order", "Dollar.C68_first_come_first_served"], "note": "Exact condition for a batch, independence of the order, and a reachable witness that the order decides who is paid when the yield account is short (see C42)."},
 {"property": "C69", "status": "proved", "theorems": ["Dollar.C69_affordable_any_order", "Dollar.C69_same_result", "Dollar.C69_success_agrees"], "note": "Each payment is a bank message in its own environment. The holder statistic is left out of the comparison of the rest of the state."},
 {"property": "C70", "status": "proved", "theorems": ["Dollar.C70_supply_bounded", "Dollar.C70_absolute"], "note": ""},
 {"property": "C71", "status": "proved", "theorems": ["Dollar.C71_step", "Dollar.C71_step_total", "Dollar.C71_principal_bounded", "Dollar.C71_no_overflow", "Dollar.C71_overflow_iff"], "note": "Per message, over whole histories, and for the checked (overflow-panicking) versions of the three conversions in Model/Checked.lean."},
 {"property": "C72", "status": "proved", "theorems": ["Dollar.C72_all_or_nothing", "Dollar.C72_fee_kept", "Dollar.C72_tx_is_history", "Dollar.C72_reachable", "Dollar.C72_complete"], "note": "Model/Tx.lean: fee deduction through the bank keeper and the messages in order, as BaseApp runs them; the theorems reduce this to single-message histories in both directions."},
 {"property": "C73", "status": "proved", "theorems": ["Dollar.C73_reward", "Dollar.C73_position", "Dollar.C73_vault_stats", "Dollar.C73_stats", "Dollar.C73_peer", "Dollar.C73_scalars", "Dollar.C73_size"], "note": "Model/Proto models the generated template (Marshal, Size, Unmarshal, skip), Model/Wire the schemas. Times are read back in whole seconds, the form the module uses."},
 {"property": "C74", "status": "proved", "theorems": ["Dollar.C74_messages", "Dollar.C74_values", "Dollar.C74_unknown_fields", "Dollar.C74_bad_tags"], "note": "Running out of fuel counts as a panic in the model, so the theorem also excludes endless loops."},
 {"property": "C75", "status": "proved", "theorems": ["Dollar.C75_roundtrip", "Dollar.C75_injective", "Dollar.C75_missing_amount", "Dollar.C75_chain_truncated", "Dollar.C75_chain_collision"], "note": "The truncation of chain ids is proved for every 32-bit id, with a concrete collision."},
 {"property": "C76", "status": "proved", "theorems": ["Dollar.C76_panic_census", "Dollar.C76_transfer_panics_iff", "Dollar.C76_lock_panics_iff", "Dollar.C76_transactions"], "note": "exact conditions for Transfer and Lock; complete list of causes for every message; extends to transactions with fees and several messages"},
 {"property": "C77", "status": "proved", "theorems": ["Dollar.C77_any_portions", "Dollar.C77_exit"], "note": "Any portions below 2^63 can be bridged out; the exit plan (unlock the stake, bridge everything) always succeeds"},
 {"property": "C78", "status": "proved", "theorems": ["Dollar.C78_sweep", "Dollar.C78_survives"], "note": "The routine is not called in this commit; it is proved at the keeper level. Payout under the condition that the yield account can pay; absence of failures and of changes to stakes without condition"},
 {"property": "C79", "status": "proved", "theorems": ["Dollar.C79_restart", "Dollar.C79_bytes_determine"], "note": "The store is the list of all entries with the key codecs of C66 and the value codecs of C73. Numbers of the model are unbounded; Fits says that they are in the ranges of the Go types."},
 {"property": "C80", "status": "proved", "theorems": ["Dollar.C80_share_kept", "Dollar.C80_rewards_kept", "Dollar.C80_payout_kept"], "note": "Lemmas/Share.lean carries the share inequality through every withdrawal; totals below 2/3*10^18 for the one-unit form."},
 {"property": "C81", "status": "proved", "theorems": ["Dollar.C81_restart", "Dollar.C81_flag_fixed", "Dollar.C81_books_frozen", "Dollar.C81_stuck", "Dollar.C81_season_end"], "note": "Restart from an edited export keeps the amounts and is reachable; season flag never set by a message; books of season one frozen; leftover flexible positions stay backed and locked; sweep plus restart ends the season cleanly."},
 {"property": "C82", "status": "proved", "theorems": ["Dollar.C82_fits", "Dollar.C82_holders_le_supply", "Dollar.C82_restart"], "note": "all fields of the state; the number of holders is assumed below 2^64 (never more than the supply)"},
 {"property": "C83", "status": "proved", "theorems": ["Dollar.C83_only_registered", "Dollar.C83_never_removed"], "note": "for chains without upgrades that edit the recipients"},
 {"property": "C84", "status": "proved", "theorems": ["Dollar.C84_traceable", "Dollar.C84_received_le_sent", "Dollar.C84_conservation"], "note": "Guardian honesty, injective digests and truthful setPeer messages are hypotheses; nothing is assumed about emitters outside the network. Upgrades between transactions are not part of network histories."},
 {"property": "C85", "status": "proved", "theorems": ["Dollar.C85_no_overflow"], "note": "The checked computations are in Model/Checked.lean; limits as in cosmossdk.io/math v1.4.0 (315 bits for LegacyDec, 256 for Int)."},
 {"property": "C86", "status": "proved", "theorems": ["Dollar.C86_accepted_iff", "Dollar.C86_yield_account", "Dollar.C86_covered", "Dollar.C86_transfer_updates_iff", "Dollar.C86_dust_blocks_announcement"], "note": "The accounts paid must not be on the bank's blocked list, and the collector of season two must be neither the warp account nor an escrow account."},
 {"property": "C87", "status": "proved", "theorems": ["Dollar.C87_records_do_not_matter", "Dollar.C87_histories"], "note": "Non-interference over pairs of states for every message, including failures and their errors."},
 {"property": "C88", "status": "proved", "theorems": ["Dollar.C88_settings_that_matter", "Dollar.C88_histories"], "note": "looksAt in Spec/Agree.lean lists what each message may read."},
 {"property": "C89", "status": "proved", "theorems": ["Dollar.C89_announce_first", "Dollar.C89_split", "Dollar.C89_plain_transfer", "Dollar.C89_update_within", "Dollar.C89_channels", "Dollar.C89_warp_routes", "Dollar.C89_season_one", "Dollar.C89_collector"], "note": "C89_update_within transfers every theorem about announcements (C03, C33, C34, C35, C50) to transfers."},
 {"property": "C90", "status": "proved", "theorems": ["Dollar.C90_decoded_in_range", "Dollar.C90_typed", "Dollar.C90_reencoded"], "note": "Range of every decoded message, the hypothesis of C82 (C90_typed) and re-encoding. An absent amount is re-encoded as zero and therefore excluded from C90_reencoded (C75_missing_amount)."},
 {"property": "C91", "status": "proved", "theorems": ["Dollar.C91_accepted_iff", "Dollar.C91_fresh", "Dollar.C91_maps"], "note": "Acceptance characterised exactly; the result meets Spec.Initial."},
 {"property": "C92", "status": "proved", "theorems": ["Dollar.C92_order", "Dollar.C92_pair"], "note": "Independence is defined in Spec/Independent.lean. The records (log, outboxes, holder count, statistics) are left out of the comparison: the log keeps the order of the block. An example shows that the assumption that nobody pays another spender is needed."},
 {"property": "C93", "status": "proved", "theorems": ["Dollar.C93_minting_account_empty", "Dollar.C93_supply_elsewhere"], "note": "Assumes what C02 assumes of the chain: the module account is blocked for bank messages and no other module's keeper pays into it."},
 {"property": "C94", "status": "proved", "theorems": ["Dollar.C94_principal_covers", "Dollar.C94_earns_growth", "Dollar.C94_escrow_roundings", "Dollar.C94_vouchers_earn_growth"], "note": "All accounts via a per-account ledger of roundings; the IBC corollary combines it with C34."},
 {"property": "C95", "status": "proved", "theorems": ["Dollar.C95_backing_kept", "Dollar.C95_vouchers_backed"], "note": "For every history, including late failures."},
 {"property": "C96", "status": "proved", "theorems": ["Dollar.C96_vouchers_redeemable", "Dollar.C96_refunds_succeed"], "note": "The model of the counterparty only returns vouchers it was sent."},
 {"property": "C97", "status": "partial", "theorems": ["Dollar.C97_collateral_kept_partial", "Dollar.C97_collateral_covers_partial", "Dollar.C97_redeemable_partial", "Dollar.C97_two_identifiers_break_it"], "note": "Needs that no two Hyperlane identifiers with a recipient stand for the same token; false otherwise (witness)."},
 {"property": "C98", "status": "partial", "theorems": ["Dollar.C98_collateral_backed_partial", "Dollar.C98_late_failure_breaks_collateral"], "note": "Holds as long as no transfer fails after the warp module booked it; false otherwise (witness)."},
 {"property": "C99", "status": "proved", "theorems": ["Dollar.C99_digits", "Dollar.C99_signed", "Dollar.C99_written_is_read", "Dollar.C99_wire", "Dollar.C99_genesis_octal", "Dollar.C99_message_octal", "Dollar.C99_literal", "Dollar.C99_wire_literal"], "note": "The number parser of Go (math/big SetString with base 0) is modelled in full; texts are characterised completely: a text is a number exactly if it is a Go integer literal with an optional sign and what the chain writes is read back. It also discharges the parser assumption of the encoding theorems (C73, C75)."},
 {"property": "C100", "status": "proved", "theorems": ["Dollar.C100_share_settled", "Dollar.C100_rewards_settled"], "note": "Upper bound to go with C80; the records of the current cycle are excluded from the share statement because leavers forfeit their part of the running cycle to those who stay."},
 {"property": "C101", "status": "partial", "theorems": ["Dollar.C101_stranded_forever", "Dollar.C101_stranded_coins", "Dollar.C101_empty_vault", "Dollar.C101_counterexample", "Dollar.C101_proportional_partial", "Dollar.C101_last_payout_partial"], "note": "Holds for records of closed cycles with a positive total (C101_proportional_partial, C101_last_payout_partial). False in general: rewards recorded while nobody is in the flexible vault, or whose last holder leaves during the running cycle, are never paid (C101_stranded_forever, C101_empty_vault, C101_stranded_coins, C101_counterexample)."},
 {"property": "C102", "status": "partial", "theorems": ["Dollar.C102_vouchers_earn_growth_partial", "Dollar.C102_unrouted_stranded", "Dollar.C102_unrouted_paid_to_others", "Dollar.C102_warp_roundings"], "note": "Lower bound on the yield of a route in terms of the USDN that circulates on its other side. Missing from the full statement: histories in which two identifiers stand for one token, or a transfer of the module fails after the warp module booked it. C102_unrouted_stranded and C102_unrouted_paid_to_others show where the yield of routes without a recipient goes."},
 {"property": "C103", "status": "proved", "theorems": ["Dollar.C103_stats", "Dollar.C103_shown_is_destination"], "note": "Also covers the entries of the map and the UNKNOWN case."},
 {"property": "C104", "status": "proved", "theorems": ["Dollar.C104_shown_covered", "Dollar.C104_shown_complete", "Dollar.C104_flexible_principal"], "note": "Upper bound under the smallness condition of C28 (positions and record totals below 2*10^18); completeness for histories in which every payout claimed (the code skips the claim when the vault account has no principal), with record totals up to 10^18. Genesis is the empty one; no upgrades in the completeness theorem."},
 {"property": "C105", "status": "proved", "theorems": ["Dollar.C105_positions", "Dollar.C105_pending", "Dollar.C105_tokens", "Dollar.C105_peers", "Dollar.C105_string_map", "Dollar.C105_stats", "Dollar.C105_size", "Dollar.C105_no_panic", "Dollar.C105_amount", "Dollar.C105_index", "Dollar.C105_flag", "Dollar.C105_word_cut", "Dollar.C105_nonce", "Dollar.C105_chain", "Dollar.C105_text", "Dollar.C105_route"], "note": "Encoder and decoder of the generated code modelled over schemas; round trip, sizes, no panic on hostile bytes; 32-bit fields keep the lowest bits"},
 {"property": "C106", "status": "proved", "theorems": ["Dollar.C106_peers", "Dollar.C106_recipients", "Dollar.C106_retry", "Dollar.C106_stats"], "note": "The expected property (same bytes on every node) is false of the code; proved is the exact condition under which it holds, with a reachable witness of two encodings"},
 {"property": "C107", "status": "proved", "theorems": ["Dollar.C107_provider", "Dollar.C107_recipients", "Dollar.C107_retry", "Dollar.C107_set", "Dollar.C107_known"], "note": "Model/Cli; a message with an unknown provider is accepted by the chain (witness in the example), but no command signs it"},
 {"property": "C108", "status": "proved", "theorems": ["Dollar.C108_send", "Dollar.C108_multi", "Dollar.C108_statistic", "Dollar.C108_multi_statistic"], "note": "The alternative orders are modelled in Model/BankOrder (the test bank of the repository, and a multi-send that asks first). With C87 (statistics never influence what happens) the other claims do not depend on the order, except that a failed transfer is compared as a failure only."},
 {"property": "C109", "status": "proved", "theorems": ["Dollar.C109_positions", "Dollar.C109_records", "Dollar.C109_reads", "Dollar.C109_fresh", "Dollar.C109_recipients"], "note": "reads counted from the loops of unlock; cost of the store itself not modelled"},
 {"property": "C110", "status": "proved", "theorems": ["Dollar.C110_alone", "Dollar.C110_goes", "Dollar.C110_other", "Dollar.C110_multi_alone", "Dollar.C110_multi_goes"], "note": "x/bank transfers and multi-sends of coin sets modelled in Model/Coins"},
 {"property": "C111", "status": "proved", "theorems": ["Dollar.C111_read", "Dollar.C111_injective", "Dollar.C111_stopped", "Dollar.C111_passed", "Dollar.C111_transfer", "Dollar.C111_retry"], "note": "JSON of ibc-go and gogoproto modelled from their documented behaviour (Model/PacketJson)"},
 {"property": "C112", "status": "proved", "theorems": ["Dollar.C112_read", "Dollar.C112_written", "Dollar.C112_restores", "Dollar.C112_unknown", "Dollar.C112_missing", "Dollar.C112_no_index", "Dollar.C112_index_zero", "Dollar.C112_no_vaults", "Dollar.C112_json_names"], "note": "The genesis file as JSON text (Model/Json, Model/GenesisJson): reader and writer of the codec, all string escapes, base64, dates, enums, big integers. Assumes that the numbers of the state are in the range of their Go types (Fits)."},
 {"property": "C113", "status": "proved", "theorems": ["Dollar.C113_spellings", "Dollar.C113_roundtrip", "Dollar.C113_injective", "Dollar.C113_typo", "Dollar.C113_swap", "Dollar.C113_one_char", "Dollar.C113_longer", "Dollar.C113_wf", "Dollar.C113_exportable", "Dollar.C113_either", "Dollar.C113_authority", "Dollar.C113_own_account"], "note": "The codec is modelled bit by bit from BIP-173 and the SDK's documentation. Insertions are not caught by bech32 (C113_longer)."},
 {"property": "C114", "status": "proved", "theorems": ["Dollar.C114_attributes", "Dollar.C114_recovers", "Dollar.C114_injective", "Dollar.C114_log", "Dollar.C114_digest_lost", "Dollar.C114_recipient_lost", "Dollar.C114_bytes_shown", "Dollar.C114_text_shown"], "note": "Attributes, JSON and UTF-8 are modelled; recovery holds for numbers within the field types, injectivity without bounds. The raw bytes in transfer_sent are shown to be lost."},
 {"property": "C115", "status": "proved", "theorems": ["Dollar.C115_binding", "Dollar.C115_missing", "Dollar.C115_effect", "Dollar.C115_chain"], "note": "The JSON text of a list of messages determines it up to missing amounts; messages with a missing amount change nothing; the executed chain of a transfer differs from the signed one from 65536 on."},
 {"property": "C116", "status": "proved", "theorems": ["Dollar.C116_reaches", "Dollar.C116_order", "Dollar.C116_askable", "Dollar.C116_everyday", "Dollar.C116_slash"], "note": "Exact description of which path reaches which query, independence of the order of routes, and which queries can be asked for at all."},
 {"property": "C117", "status": "proved", "theorems": ["Dollar.C117_read_result", "Dollar.C117_read_error", "Dollar.C117_error", "Dollar.C117_result", "Dollar.C117_other", "Dollar.C117_same", "Dollar.C117_paired", "Dollar.C117_undetermined", "Dollar.C117_needs_bytes", "Dollar.C117_needs_empty"], "note": "The text of acknowledgements, the two decodings with their orders, and the wrapped transfer application are modelled. The transfer application is modelled after the published ibc-go v8.7.0, which is not in the sandbox; C117_needs_bytes and C117_needs_empty show that the pairing rests on its two checks. C117_undetermined shows that what the middleware does before a refusal depends on Go's map order."},
 {"property": "C118", "status": "proved", "theorems": ["Dollar.C118_transactions", "Dollar.C118_queries", "Dollar.C118_line", "Dollar.C118_no_negative", "Dollar.C118_hex", "Dollar.C118_base64", "Dollar.C118_prefix", "Dollar.C118_key_first", "Dollar.C118_stats", "Dollar.C118_octal", "Dollar.C118_ambiguous"], "note": "Model/AutoCli: module.go's descriptors, and autocli, pflag and strconv as known from their published source (unchecked, no copy here). Lines with options are outside the model. C118_octal and C118_ambiguous are concrete traps: a leading zero makes an amount octal, chain identifiers are reduced to 16 bits, base64 that is also hexadecimal is read as hexadecimal."},
 {"property": "C119", "status": "proved", "theorems": ["Dollar.C119_messages", "Dollar.C119_run", "Dollar.C119_queries"], "note": "Model/CheckedVaults repeats MsgLock, MsgUnlock and the two queries with the overflow panic of math.Int and LegacyDec at every operation that keeper/msg_server_vaults.go, keeper/state_vaults.go and keeper/query_server_vaults.go write down, the walks over the records record by record as in the source. C119_messages: they equal the unchecked handlers (result, error and state) in every state after at most 2^39 signed messages; C119_run: so does the whole history; C119_queries: the queries return what C28 characterises, never a panic. The coin transfers and the yield claim inside an unlock are those of the main model (their conversions are the subject of C71 and their stored results of C82); the totals per user in the end of season one are not repeated."},
 {"property": "C120", "status": "proved", "theorems": ["Dollar.C120_read", "Dollar.C120_get", "Dollar.C120_nothing", "Dollar.C120_wallet", "Dollar.C120_unquoted", "Dollar.C120_says", "Dollar.C120_truth"], "note": "JSON as known from jsonpb's published source (unchecked); map entries in any order; the client is Spec/RestJson, what an answer must tell about the state is Tells in Props/C120Says. Listings assume routes of the provider enumeration with identifiers without a slash, as C59 and C103 do. Times in whole seconds (fractions are read and dropped)."},
 {"property": "C121", "status": "proved", "theorems": ["Dollar.C121_cause", "Dollar.C121_distinct", "Dollar.C121_never_zero", "Dollar.C121_nothing_happened", "Dollar.C121_transaction", "Dollar.C121_same_block"], "note": "Exact characterisation of every registered error code over all messages and states; codes are pairwise distinct and non-zero; the code of a transaction is that of its first failing message. Errors of other modules and unregistered ones (fmt.Errorf) are only known to be neither."},
 {"property": "C122", "status": "proved", "theorems": ["Dollar.C122_messages", "Dollar.C122_run", "Dollar.C122_yield"], "note": "C122_messages: the next message after any bounded history; C122_run: whole histories; C122_yield: the query of claimable yield. The checked model is Model/CheckedAll."},
 {"property": "C123", "status": "proved", "theorems": ["Dollar.C123_reads", "Dollar.C123_explorer", "Dollar.C123_codec"], "note": "The JSON log of a node, read back event by event, over histories of up to 2^39 messages; numbers outside the width of their field cannot be sent on the wire."},
 {"property": "C124", "status": "proved", "theorems": ["Dollar.C124_state", "Dollar.C124_answers", "Dollar.C124_log", "Dollar.C124_clients"], "note": "Composition of C75, C79, C82, C90, C120, C122 and C123 over whole histories of bytes; assumes fewer than 2^64 holders at all times, as C82 does. Actions of other modules (bank, IBC, warp) enter as such, not as bytes."},
 {"property": "C125", "status": "proved", "theorems": ["Dollar.C125_node", "Dollar.C125_request", "Dollar.C125_read", "Dollar.C125_any_order", "Dollar.C125_hostile", "Dollar.C125_no_panic"], "note": "Composition of C73, C105, C106 and C124 over the methods of the four query services; assumes that an answer has fewer than 2^63 bytes. C125_node writes maps in the order of the model's lists; C125_any_order covers every other order."}
]}
