{"claims": [
{"property": "C01", "status": "proved", "theorems": ["MemIAVL.C01_get_eq_content", "MemIAVL.C01_remove_reports", "MemIAVL.C01_set_reports", "MemIAVL.C01_pairs"], "note": ""},
{"property": "C02", "status": "proved", "theorems": ["MemIAVL.C02_wellFormed", "MemIAVL.C02_depth_logarithmic"], "note": ""},
{"property": "C03", "status": "proved", "theorems": ["MemIAVL.C03_getByIndex", "MemIAVL.C03_getWithIndex", "MemIAVL.C03_inverse"], "note": ""},
{"property": "C04", "status": "proved", "theorems": ["MemIAVL.C04_iterator", "MemIAVL.C04_iterator_content"], "note": ""},
{"property": "C05", "status": "proved", "theorems": ["MemIAVL.C05_copies_isolated", "MemIAVL.C05_lookups", "MemIAVL.C05_progress", "MemIAVL.C05_copy_of_unsaved_tree_not_isolated"], "note": "For copies of trees without unsaved writes (as DB.Copy makes them after Commit); the last theorem shows the restriction is needed."},
{"property": "C06", "status": "proved", "theorems": ["MemIAVL.C06_snapshot_reads_back", "MemIAVL.C06_empty_snapshot", "MemIAVL.C06_snapshot_queries", "MemIAVL.C06_persisted_getByIndex_wraps"], "note": "Byte level; for trees that fit the fixed-width fields of the format. C06_persisted_getByIndex_wraps records an index wrap-around of the code."},
{"property": "C07", "status": "proved", "theorems": ["MemIAVL.C07_import_export", "MemIAVL.C07_import_reads_back", "MemIAVL.C07_snapshot_export", "MemIAVL.C07_export_leaves", "MemIAVL.C07_importer_rejects_bad_stream", "MemIAVL.C07_import_accepts_iff"], "note": ""},
{"property": "C08", "status": "proved", "theorems": ["MemIAVL.C08_rootHash_injective", "MemIAVL.C08_rootHash_content"], "note": "Up to an exhibited collision of the hash function among the strings actually hashed."},
{"property": "C09", "status": "proved", "theorems": ["MemIAVL.C09_membership_complete", "MemIAVL.C09_membership_sound", "MemIAVL.C09_created_proofs_admissible"], "note": "Soundness up to an exhibited collision."},
{"property": "C10", "status": "proved", "theorems": ["MemIAVL.C10_version_of_index", "MemIAVL.C10_index_of_version", "MemIAVL.C10_consecutive", "MemIAVL.C10_entries_at_their_index"], "note": ""},
{"property": "C100", "status": "partial", "theorems": ["Ics.from_signer_or_caller", "Ics.own_call_iff", "Ics.by_contract_iff", "Ics.approve_sets", "Ics.approve_needs", "Ics.revoke_clears", "Ics.increase_adds", "Ics.decrease_takes", "Ics.transfer_takes", "Ics.grants_only_of_the_signer", "Ics.sent_within_consent_partial", "Ics.sent_within_consent_without_code", "Ics.consent_exceeded", "Ics.nothing_without_grant", "Ics.revoked_for_good", "Ics.revocation_undone", "Ics.approval_ends", "Ics.called_contracts_send_for_the_signer", "Ics.own_coins_need_the_signers_grant", "Ics.own_coins_use_up_the_signers_grant", "Ics.limit_is_of_the_name", "Ics.empty_cannot_be_raised", "Ics.raised_to_the_end_is_unlimited"], "note": "The total is bounded for all histories in which nothing else is done about a grant while a transfer under it is under way; token code that calls back breaks it. Consent: approvals count as the signer's whoever calls. TransferAuthorization and authz are modelled from knowledge of ibc-go and the SDK."},
{"property": "C101", "status": "partial", "theorems": ["Pages.block_page", "Pages.block_page_whole", "Pages.oldest_blocks_on_no_page", "Pages.no_block_missed", "Pages.far_page_shows_newest", "Pages.shown_in_place", "Pages.tx_page_partial", "Pages.tx_page_young_chain", "Pages.newest_on_no_page", "Pages.account_recent_only", "Pages.account_old_on_no_page", "Pages.account_page_young_chain"], "note": "Pages of blocks are exact where they lie wholly within the chain; the last one is refused. Pages of transactions are exact up to 1000 blocks, or while no block has more Cosmos transactions than Ethereum ones; otherwise transactions are on no page. Those of accounts reach 2000 blocks back. The searches of the modified CometBFT are assumed to return the blocks of the range, newest first."},
{"property": "C102", "status": "partial", "theorems": ["History.archive_holds", "History.recent_holds", "History.keys_in_order", "History.page_size", "History.first_page", "History.page_partial", "History.older_on_no_page", "History.all_pages_alike", "History.deposits_on_no_page", "History.all_page_shows", "History.forgotten_at_switch"], "note": "The archive and the first page are proved exact. Later pages are exact only for accounts that have withdrawals under way and nothing else: finished transfers repeat on every page and older ones are on none, deposits can be on none, and what was finished by height 34800 is not found after it."},
{"property": "C103", "status": "partial", "theorems": ["Gate.accepted_iff", "Gate.accepted_keeps", "Gate.reads_one", "Gate.permitted_partial", "Gate.allowed_call_runs_partial", "Gate.refused_changes_nothing", "Gate.acts_as", "Gate.permission_is_the_signers", "Gate.restricted_does_nothing", "Gate.builtin_by_address_partial", "Gate.fork_does_not_matter", "Gate.enable_adds", "Gate.blocked_by_other_spelling", "Gate.refused_by_other_spelling", "Gate.small_letters_not_seen", "Gate.inactive_by_other_spelling", "Gate.unknown_active_panics", "Gate.usual_lists"], "note": "Access and built-in contracts are proved for all transactions, for lists whose entries are written as the chain writes addresses. Accepted entries written otherwise are never matched, and an active entry without a contract makes calls to it panic. The capitals of addresses (Keccak) are a parameter."},
{"property": "C104", "status": "proved", "theorems": ["Std.modexp_runs", "Std.modexp_one", "Std.copy_runs", "Std.sha256_runs", "Std.ripemd_runs", "Std.signer_runs", "Std.add_runs", "Std.mul_runs", "Std.pairing_runs", "Std.pairing_fails", "Std.blake_runs", "Std.blake_fails", "Std.calls_end"], "note": "For all inputs shorter than 2^63 bytes and gas below 2^64 - 1. Hashes, curves, key recovery and the BLAKE2b rounds are parameters; memory is not modelled."},
{"property": "C105", "status": "partial", "theorems": ["Admin.only_those_in_charge", "Admin.others_untouched", "Admin.bridge_is_its_own", "Admin.settings_written", "Admin.new_contract", "Admin.forced", "Admin.events_cleared", "Admin.added", "Admin.renamed", "Admin.token_linked", "Admin.token_unlinked", "Admin.all_cancelled", "Admin.some_cancelled", "Admin.waiting_given_back", "Admin.settings_written_2", "Admin.logo_written", "Admin.server_used", "Admin.servers_edited", "Admin.batch_counter_rises", "Admin.users_do_not_pay", "Admin.mint_partial", "Admin.any_coin_can_be_made", "Admin.any_coin_can_count", "Admin.burn_takes_from_the_bridge", "Admin.deleted", "Admin.batched_withdrawals_lost", "Admin.whitelist_edits", "Admin.other_spelling_stays", "Admin.used_server_dropped", "Admin.new_server_added"], "note": "Who may change what, and that other bridges stay as they are, is proved for all histories; the effects message by message. False, and proved so: initializers can make any coin that has an ERC20 contract, burning takes the bridge's coins, deletion loses withdrawals in batches, other spellings stay on the whitelist. Addresses as texts, their validity, voting power and the validity of metadata are parameters; default holders of tokens are left out."},
{"property": "C106", "status": "partial", "theorems": ["CronArchive.found_by_number", "CronArchive.lost_at_the_switch", "CronArchive.found_by_hash_partial", "CronArchive.any_word_is_a_hash", "CronArchive.hashes_of_a_block", "CronArchive.hashes_beyond_the_switch", "CronArchive.txs_of_a_block", "CronArchive.ended_calls_kept", "CronArchive.shown_for_a_call", "CronArchive.call_complete", "CronArchive.foreign_transactions_shown", "CronArchive.call_exact_partial", "CronArchive.call_in_order_partial", "CronArchive.receipts_never_shown", "CronArchive.all_shown", "CronArchive.all_in_order_partial", "CronArchive.ended_count", "CronArchive.last_block_counts_everything", "CronArchive.active_count", "CronArchive.failed_execution_stops", "CronArchive.execution_recorded", "CronArchive.stranger_on_the_page", "CronArchive.tenth_before_second"], "note": "Lookups by number, hash and block are exact on each side of the switch of stores at height 34800. Pages of a call are exact where all identifiers have equally many digits and in order where the numbers do; otherwise they show foreign transactions, out of order. Pages of receipts are always empty. The archive store of the SDK fork is assumed to be an ordered store; the pages before the switch are not modelled."},
{"property": "C107", "status": "partial", "theorems": ["Create.create_iff", "Create.created", "Create.amount_exists_twice", "Create.caller_gets_nothing", "Create.created_once", "Create.supply_fixed_partial", "Create.coins_of_others_diluted", "Create.held_within_supply", "Create.registry_in_order", "Create.logos_in_order", "Create.token_shows_its_logo", "Create.store_iff", "Create.stored_again_changes_the_date", "Create.size_limit", "Create.picture_of_the_limit_refused", "Create.logo_of_refused_creation_stays", "Create.failed_creation_takes_the_name", "Create.reverted_creation_stays", "Create.registered_creation_would_vanish"], "note": "Acceptance, effect, once-only, registry and logos are proved for all histories. The supply is what was asked for only if no coins of that name existed. False, and proved so: creations survive calls that are taken back, refused creations leave their logo when a contract goes on, pictures of exactly the size allowed are refused. The hash, the PNG test, the blank test, contract addresses and the success of the two calls of the EVM are parameters; gas is not modelled."},
{"property": "C108", "status": "partial", "theorems": ["Grant.unvested_stays_partial", "Grant.delegate_iff", "Grant.other_coins_escape", "Grant.free_coins_refused", "Grant.clawback_iff", "Grant.taken_back", "Grant.funder_gets_it_back", "Grant.funded", "Grant.only_funder_grants", "Grant.fund_iff", "Grant.only_three_change", "Grant.funder_passes_on", "Grant.convert_iff", "Grant.create_iff", "Grant.new_account", "Grant.frozen", "Grant.cancelled_stays_frozen", "Grant.deposit_freezes", "Grant.small_deposit", "Grant.first_end_unfreezes", "Grant.second_vote_does_not_hold", "Grant.rejected_proposal_unfreezes", "Grant.opted_out_stays", "Grant.choice_ends_with_vesting"], "note": "Proved for all histories in which vesting accounts delegate the staking coin only. The delegation check compares amounts of any coin with the staking coin's balance, so unvested coins of other kinds can be delegated and then not be taken back. Governance's freeze is one mark per account: it ends with the first of two votes or with a rejected later proposal, and stays after a cancelled one. The module x/vesting is not part of the application at this commit; the staking module's check is. The bank and the Helios fork of the SDK's staking are modelled, not read."},
{"property": "C109", "status": "partial", "theorems": ["Propose.accepted_iff", "Propose.submitted", "Propose.filed_as_asked", "Propose.caller_does_not_matter", "Propose.costs_what_it_says_partial", "Propose.block_proposal_underpays", "Propose.does_not_cost_what_it_says", "Propose.deposits_are_small", "Propose.panics_when", "Propose.route_of", "Propose.routes", "Propose.other_routes_refused", "Propose.route_is_no_limit", "Propose.executes_iff", "Propose.passed", "Propose.not_passed", "Propose.rules_change_only_by_passing", "Propose.foreign_change_fails", "Propose.written_authority_ignored", "Propose.hyperion_acts_as_governance", "Propose.takes_only_from_named_partial", "Propose.governance_takes_from_anyone", "Propose.governance_acts_for_others", "Propose.numbers_differ", "Propose.deposits_always_there_partial", "Propose.deposits_can_be_spent", "Propose.deposit_comes_back"], "note": "Partial: the property is false in three places, each refuted. A proposal about block parameters costs the deposit modulo 2^64. A proposal for modules that names any account in a field other than Authority and Signer acts for that account. A proposal that pays from the governance account takes the deposits of others along. Proved: acceptance, effect of submission and end, routes, and the three statements with these cases excluded. The gov module itself is a fork not in the repository; its part follows the SDK's 0.50."},
{"property": "C11", "status": "proved", "theorems": ["MemIAVL.C11_load_returns_committed_state", "MemIAVL.C11_restart_succeeds", "MemIAVL.C11_sync_crash_loses_nothing", "MemIAVL.C11_load_every_version", "MemIAVL.C11_sync_load_every_version", "MemIAVL.C11_sync_commit", "MemIAVL.C11_switch_invisible", "MemIAVL.C11_snapshots_are_committed", "MemIAVL.C11_snapshot_needs_clean_state", "MemIAVL.C11_upgrades_need_to_come_first", "MemIAVL.C11_failed_change_poisons_the_log", "MemIAVL.C11_crash_while_linking_blocks_rewrites", "MemIAVL.C11_async_snapshot_overtakes_log", "MemIAVL.C11_async_stale_directory"], "note": "For callers that follow DBSpec.Usage; the last six theorems are witnesses of what happens otherwise and of gaps of the asynchronous log."},
{"property": "C110", "status": "partial", "theorems": ["Evidence.convicted_iff", "Evidence.cost", "Evidence.panics_iff", "Evidence.checkpoint_iff", "Evidence.bridge_not_signed", "Evidence.asked_is_no_evidence", "Evidence.archive_grows", "Evidence.honest_are_safe_partial", "Evidence.convicted_elsewhere", "Evidence.honest_are_not_safe", "Evidence.convicted_after_restart", "Evidence.guilty_can_be_convicted", "Evidence.again_and_again", "Evidence.each_time_costs", "Evidence.once_is_not_enough", "Evidence.items_are_filed", "Evidence.registration_is_local"], "note": "Partial: the property is false. Checkpoints do not contain the bridge but the archive does, so a signature given for one bridge is evidence on another; the archive is not part of the genesis export; and evidence is not remembered. Proved: decision and cost, safety of validators honest for each single bridge over histories without restart, and that the guilty can be convicted. The slash follows the SDK's 0.50, whose fork is not in the repository."},
{"property": "C111", "status": "partial", "theorems": ["BlockRef.hex_number", "BlockRef.hex_leading_zero", "BlockRef.decimal_number", "BlockRef.every_number_has_a_name", "BlockRef.words", "BlockRef.safe_refused", "BlockRef.quotes", "BlockRef.no_prefix_accepted", "BlockRef.mistyped_is_earliest", "BlockRef.odd_names", "BlockRef.ref_refuses", "BlockRef.requests_agree", "BlockRef.prefixed_agree", "BlockRef.hash_read", "BlockRef.object_names_one", "BlockRef.found_by_number", "BlockRef.right_block_partial", "BlockRef.zero_is_one", "BlockRef.found_by_hash", "BlockRef.crashes_iff"], "note": "Partial: numbers from 1 on, hashes and words are shown to find their block. False: texts without 0x are never refused (mistyped words and large decimals are block 0), 0 finds block 1, `safe` is refused where a hash may stand, and an unknown hash is a nil-pointer dereference. The parsers of strconv, go-ethereum and cast v1.7.0 and CometBFT's HeaderByHash are modelled from knowledge of their sources, which are not in the repository."},
{"property": "C112", "status": "partial", "theorems": ["BlockHash.gives_hash_partial", "BlockHash.never_another", "BlockHash.zero_outside", "BlockHash.always_zero", "BlockHash.does_not_give_hashes", "BlockHash.zero_without_entries", "BlockHash.current_and_later", "BlockHash.machine_agrees"], "note": "Partial: proved for contexts that hold whole headers and at least 257 headers kept. Contexts of version 0.50 of the SDK hold only some fields, and then every answer is zero; the fork in use is not in the repository, so this is conditional on it following that version. TrackHistoricalInfo and the headers' checks are modelled from knowledge of the SDK 0.50 and CometBFT 0.38."},
{"property": "C113", "status": "partial", "theorems": ["Ledger.command_arrives", "Ledger.commands_differ", "Ledger.long_data_misread", "Ledger.answer_arrives", "Ledger.every_answer_has_packets", "Ledger.status_ignored", "Ledger.panics_when", "Ledger.numbers_not_checked", "Ledger.other_channel_fails", "Ledger.incomplete_fails", "Ledger.request_arrives", "Ledger.signature_iff"], "note": "Partial: commands of up to 255 bytes of data and all answers are shown to arrive. False: the status at the end of an answer is cut off unseen, so refusals are empty answers, which only some callers notice by their length; answers of less than two bytes and answers that begin with a later packet are panics. The device is a stream of packets; time-outs and errors of transport are not modelled."},
{"property": "C114", "status": "partial", "theorems": ["ZeroHeight.plain_export", "ZeroHeight.zero_export", "ZeroHeight.bad_list_fails", "ZeroHeight.never_exports", "ZeroHeight.panics_with_delegations", "ZeroHeight.repaired_partial", "ZeroHeight.everyone_is_paid", "ZeroHeight.records_stay", "ZeroHeight.leaving_out_panics"], "note": "Partial: the property is false of the code. With a validator the export for height zero never succeeds, with a delegation it panics. It is proved for the code with two lines repaired and lists that leave no active validator out; with one left out even that panics. The distribution and staking modules are a fork not in the repository; their part follows the SDK's 0.50, and the negative results are conditional on it. The crisis module's invariants and the modules' own genesis are not modelled here."},
{"property": "C115", "status": "partial", "theorems": ["LogRecords.texts_read", "LogRecords.hash_round_trip", "LogRecords.address_round_trip", "LogRecords.log_round_trip", "LogRecords.logs_round_trip", "LogRecords.records_differ", "LogRecords.record_valid_iff", "LogRecords.transaction_valid_iff", "LogRecords.valid_iff", "LogRecords.other_spellings", "LogRecords.topics_unchecked", "LogRecords.unreadable_is_cut", "LogRecords.valid_records_collide", "LogRecords.spelling_matters"], "note": "Partial: logs come back from their records, and validation of records made from logs is characterised. False: records that pass validation need not stand for one log each, since topics are not checked and hashes only for being zero. go-ethereum's hexadecimal conversions and Go's encoding/hex are modelled from knowledge of their sources."},
{"property": "C116", "status": "proved", "theorems": ["ForkOrder.valid_iff", "ForkOrder.earlier_forks_active", "ForkOrder.stays_active", "ForkOrder.active_iff", "ForkOrder.chain_number", "ForkOrder.set_once", "ForkOrder.default_set", "ForkOrder.hash_hardly_checked"], "note": "go-ethereum's CheckConfigForkOrder and isForked are modelled from knowledge of version 1.10.26; the fork in use is not in the repository. Which characters are space is a parameter. The hash kept for EIP 150 is checked only for not being blank."},
{"property": "C117", "status": "partial", "theorems": ["ProposalList.pages_tile", "ProposalList.page_zero", "ProposalList.no_filter", "ProposalList.nothing_filtered", "ProposalList.malformed_ignored", "ProposalList.fails_iff", "ProposalList.parts_add_up", "ProposalList.last_part", "ProposalList.status_part", "ProposalList.bad_status_ignored", "ProposalList.address_parts", "ProposalList.asked_for", "ProposalList.status_asked_for", "ProposalList.title_ignored", "ProposalList.page_stays", "ProposalList.shown_partial", "ProposalList.panics_iff"], "note": "Partial: pages, parts for status and addresses and their combination are proved. Parts for titles and descriptions are read and then ignored, bad statuses are no filter, page 0 wraps around, and a proposal without times of voting, or with a message without content, makes its page panic. Decoding of messages and the JSON codec are not modelled, only what ParseProposal does with the outcome. That proposals which collect deposits have no times of voting is known of version 0.50 of the SDK; the fork in use is not in the repository."},
{"property": "C12", "status": "partial", "theorems": ["MemIAVL.C12_target_beyond_latest_returns_older", "MemIAVL.C12_load_target_partial", "MemIAVL.C12_sync_load_target_partial", "MemIAVL.C12_never_above_target", "MemIAVL.C12_rollback_exact", "MemIAVL.C12_rollback_to_oldest_snapshot_refused"], "note": "The property is false of the code for targets beyond the latest version (witness); proved for all other targets."},
{"property": "C13", "status": "proved", "theorems": ["MemIAVL.C13_pending_log_replays", "MemIAVL.C13_split", "MemIAVL.C13_split_log", "MemIAVL.C13_duplicate_names_reorder"], "note": "C13_split_log for calls that name each store once per call; the last theorem shows this is needed."},
{"property": "C14", "status": "proved", "theorems": ["MemIAVL.C14_recent_snapshots_kept", "MemIAVL.C14_snapshots_ascending", "MemIAVL.C14_old_snapshots_removed", "MemIAVL.C14_pruned_store_loads", "MemIAVL.C14_latest_unaffected"], "note": ""},
{"property": "C15", "status": "partial", "theorems": ["MemIAVL.C15_undamaged", "MemIAVL.C15_tail_as_long_as_the_rest_not_cut", "MemIAVL.C15_tail_cut_partial", "MemIAVL.C15_complete_entries_kept", "MemIAVL.C15_zero_tail_accepted"], "note": "The property is false of the code (witness: a tail exactly as long as the good part is not cut; a zero-filled tail is accepted); proved for damaged tails of any other length."},
{"property": "C16", "status": "partial", "theorems": ["MemIAVL.C16_upgrades_as_specified", "MemIAVL.C16_single_upgrade_iff", "MemIAVL.C16_accepted_lists_partial", "MemIAVL.C16_transient_conflict_accepted"], "note": "Results are as specified; single upgrades are refused exactly when they should be; lists with a conflict that a later upgrade removes are accepted (witness)."},
{"property": "C17", "status": "proved", "theorems": ["EVM.runs_like_the_specification", "EVM.revert_restores", "EVM.reverted_operations_leave_no_trace"], "note": "Every operation of the state except precompile calls; full refinement to pictures saved by snapshot."},
{"property": "C18", "status": "partial", "theorems": ["EVM.commit_writes_the_final_state_partial", "EVM.recreated_account_not_written", "EVM.selfdestruct_at_funded_address_fails"], "note": "Holds when replaced accounts are changed again, balances are not negative and destroyed accounts are contracts or new; false otherwise (two witnesses). Precompile calls are not part of it."},
{"property": "C19", "status": "proved", "theorems": ["EVM.address_warm_iff", "EVM.slot_warm_iff", "EVM.first_addition_reported"], "note": ""},
{"property": "C20", "status": "proved", "theorems": ["EVM.refund_counter", "EVM.refund_never_negative", "EVM.snapshot_identifier", "EVM.revert_iff_open", "EVM.revert_closes_later"], "note": ""},
{"property": "C21", "status": "partial", "theorems": ["Hyperion.withdrawal_places", "Hyperion.withdrawal_in_one_place_partial", "Hyperion.pool_query", "Hyperion.withdrawal_can_be_lost"], "note": "One place each, for every history, if nothing is deposited for a coin of this chain while its withdrawals are locked short (honestRun); otherwise a withdrawal can be lost (witness)."},
{"property": "C22", "status": "partial", "theorems": ["Hyperion.ends_once_partial", "Hyperion.cancel_send", "Hyperion.timeouts_refund", "Hyperion.executed_ends", "Hyperion.others_end_nothing", "Hyperion.refunded_and_executed"], "note": "On this chain each withdrawal ends at most once, with the exact refund; because timeouts use a projected height, the counterparty can execute a batch that was refunded here (witness)."},
{"property": "C23", "status": "partial", "theorems": ["Hyperion.supply_conserved_partial", "Hyperion.fees_covered", "Hyperion.send_takes", "Hyperion.deposit_credits", "Hyperion.first_deposit_issues_more", "Hyperion.native_supply_constant", "Hyperion.deposit_within_locked"], "note": "Conservation up to the extra unit the first deposit of an unknown token issues (witness); fee escrow in full."},
{"property": "C24", "status": "partial", "theorems": ["Hyperion.Attest.claims_need_power_partial", "Hyperion.Attest.departed_vote_counts", "Hyperion.Attest.zero_threshold", "Hyperion.Attest.early_double_vote"], "note": "Distinct senders with floor(66 percent) of the keyed bonded power, for all histories after height 34800. Missing: voters that gave up their key still count, the threshold is rounded down, early heights allow double votes (witnesses)."},
{"property": "C25", "status": "partial", "theorems": ["Hyperion.Attest.claim_takes_effect_once_partial", "Hyperion.Attest.one_claim_per_nonce_partial", "Hyperion.Attest.conflicting_claims_both_apply", "Hyperion.Attest.double_voters_both_apply", "Hyperion.Attest.other_chain_replayed", "Hyperion.Attest.block_time_replays", "Hyperion.Attest.early_replay"], "note": "The full property is false (five witnesses). Proved: no claim twice (height from 244300, no resets), and at most one claim per nonce when powers do not change and double voters have less than 2R - T."},
{"property": "C26", "status": "proved", "theorems": ["Hyperion.ids_never_reused", "Hyperion.nonces_never_reused"], "note": "For every history of bridge operations. Genesis import is C47; the testnet governance message that sets the nonce counter is not modelled."},
{"property": "C27", "status": "proved", "theorems": ["Hyperion.batch_highest_fees", "Hyperion.batch_chosen_ids"], "note": ""},
{"property": "C28", "status": "proved", "theorems": ["Hyperion.key_injective", "Hyperion.listing_exact", "Hyperion.prefixRange_visits_other_keys", "Hyperion.feeIndex_order", "Hyperion.batch_order"], "note": "For all 34 kinds of keys with components in their fixed widths; listing_exact for the listings that use whole prefixes. prefixRange_visits_other_keys shows why fixed lengths are needed. Searches with other ranges are C48 and C29."},
{"property": "C29", "status": "partial", "theorems": ["Hyperion.skipped_query_partial", "Hyperion.skipped_never_listed", "Hyperion.skipped_clean_does_nothing", "Hyperion.skipped_list_of_all_chains"], "note": "Skipped nonces are written under a doubled prefix: queries by key work, the list of a chain is always empty, clean-ups do nothing, the list over all chains reads wrong bytes (theorems for all histories)."},
{"property": "C30", "status": "proved", "theorems": ["Hyperion.Valset.published_members", "Hyperion.Valset.published_sum", "Hyperion.Valset.published_order", "Hyperion.Valset.published_two_thirds", "Hyperion.Valset.published_lower", "Hyperion.Valset.zero_power_published", "Hyperion.Valset.zero_total_panics"], "note": "Witnesses record published zero powers and the panic on zero total power."},
{"property": "C31", "status": "partial", "theorems": ["Hyperion.External.answered_without_power", "Hyperion.External.answered_needs_pooled_power", "Hyperion.External.answered_with_power_partial", "Hyperion.External.answered_when_enough", "Hyperion.External.few_decide_against_many"], "note": "Violated by the code when several requests with votes are in one block (witness)."},
{"property": "C32", "status": "partial", "theorems": ["FeeMarket.same_at_target", "FeeMarket.rises_above_target", "FeeMarket.falls_below_target", "FeeMarket.monotone_in_gas", "FeeMarket.growth_bounded", "FeeMarket.never_below_minimum", "FeeMarket.block_gas_between", "FeeMarket.not_monotone_below_minimum", "FeeMarket.zero_target_drops_fee", "FeeMarket.zero_target_disables", "FeeMarket.zero_elasticity_panics", "FeeMarket.gas_wanted_wraps"], "note": "Proved for a positive gas target and a base fee not below the minimum gas price where needed; a zero target (gas limit below the elasticity) drops the fee to 0, and monotonicity fails below the minimum (witnesses)."},
{"property": "C33", "status": "partial", "theorems": ["Vesting.union_releases_sum", "Vesting.union_total", "Vesting.read_is_released", "Vesting.union_reads_sum_partial", "Vesting.union_early_at_start", "Vesting.align_keeps"], "note": "Exact for the events; reading differs in the one second of the later start time when that schedule releases something at its start (witness)."},
{"property": "C34", "status": "proved", "theorems": ["Vesting.intersection_releases_min", "Vesting.read_is_released"], "note": "For schedules with non-negative lengths."},
{"property": "C35", "status": "partial", "theorems": ["Vesting.clawback_takes_unvested", "Vesting.clawback_good", "Vesting.clawback_schedules", "Vesting.clawback_message", "Vesting.clawback_frees_locked", "Vesting.clawback_may_be_invalid", "Vesting.validate_iff", "Vesting.vested_spec", "Vesting.unlocked_spec", "Vesting.vested_mono", "Vesting.all_vested_at_end", "Vesting.locked_spec", "Vesting.grant_adds"], "note": "Proved for ComputeClawback, LockedCoins and AddGrant; the clawback message drops the new schedule and frees locked coins (witness)."},
{"property": "C36", "status": "partial", "theorems": ["Epochs.epochs_independent", "Epochs.starts_on_grid", "Epochs.one_step", "Epochs.started_in_order", "Epochs.never_early", "Epochs.catches_up", "Epochs.right_when_settled", "Epochs.end_hook_has_next_number", "Epochs.negative_duration_accepted", "Epochs.number_may_fall"], "note": "For genesis entries with a positive duration and number 0 before the start; otherwise violated (witnesses)."},
{"property": "C37", "status": "proved", "theorems": ["TokenFactory.deconstruct_construct", "TokenFactory.construct_injective", "TokenFactory.construct_same", "TokenFactory.constructed_mintable", "TokenFactory.deconstruct_canonical", "TokenFactory.deconstruct_not_injective"], "note": "Bech32 is abstract: decoding inverts encoding and encodings contain no slash."},
{"property": "C38", "status": "partial", "theorems": ["TokenFactory.supply_grows_by_admin", "TokenFactory.supply_shrinks_by_owner", "TokenFactory.admin_moves", "TokenFactory.metadata_kept", "TokenFactory.metadata_changed_by_admin", "TokenFactory.no_admin_forever", "TokenFactory.admin_never_given_up", "TokenFactory.safe_without_signature", "TokenFactory.run_sound", "TokenFactory.export_import", "TokenFactory.proposal_mints_without_signature", "TokenFactory.admin_is_a_spelling", "TokenFactory.export_loses_description"], "note": "For signed messages; a passed governance proposal runs a mint message in the name of any account (witness)."},
{"property": "C39", "status": "partial", "theorems": ["Erc20.registry_bijective_partial", "Erc20.delete_both", "Erc20.toggle_only", "Erc20.registered_at_most_once", "Erc20.preimage_injective", "Erc20.genesis_spelling_breaks_registry", "Erc20.undescribed_denom_taken_over"], "note": "For genesis states with different contracts and described denominations, fresh addresses, and no hash collision among the registered pairs; violated by some genesis states (witnesses)."},
{"property": "C40", "status": "partial", "theorems": ["Erc20.Convert.convert_exact", "Erc20.Convert.back_exact", "Erc20.Convert.always_backed_partial", "Erc20.Convert.conversions_in_keep_backing", "Erc20.Convert.plain_honest", "Erc20.Convert.skimming_contract_unbacked", "Erc20.Convert.reentrant_contract_unbacked"], "note": "The checks are exact for each conversion; the backing is proved for well-behaved contracts and violated by contracts that take more from the escrow on payout or re-enter (witnesses)."},
{"property": "C41", "status": "proved", "theorems": ["MemIAVL.C41_cached_root_hash", "MemIAVL.C41_root_hash_reads_only"], "note": ""},
{"property": "C42", "status": "proved", "theorems": ["MemIAVL.C42_leaf_versions", "MemIAVL.C42_branch_versions"], "note": ""},
{"property": "C43", "status": "proved", "theorems": ["MemIAVL.C43_set_initial_version", "MemIAVL.C43_first_commit", "MemIAVL.C43_second_call_splits_versions"], "note": "For the first call on an empty database; the last theorem shows what a second call does."},
{"property": "C44", "status": "partial", "theorems": ["MemIAVL.C44_latest_version", "MemIAVL.C44_empty_store_reports_phantom_version", "MemIAVL.C44_async_behind_snapshot"], "note": "Holds for the synchronous log once something was committed (or initial version at most 1); false otherwise (two witnesses)."},
{"property": "C45", "status": "partial", "theorems": ["Hyperion.never_panics", "Hyperion.blocked_orchestrator_panics"], "note": "No operation panics except an executed batch whose orchestrator account cannot receive coins (witness)."},
{"property": "C46", "status": "proved", "theorems": ["Hyperion.timeouts_complete", "Hyperion.timeouts_only_overdue", "Hyperion.reset_complete"], "note": ""},
{"property": "C47", "status": "partial", "theorems": ["Hyperion.genesis_keeps_partial", "Hyperion.genesis_forgets_waiting", "Hyperion.genesis_reuses_ids"], "note": "Stored withdrawals, batches and nonces survive; the waiting index and the id counter do not (two witnesses)."},
{"property": "C48", "status": "partial", "theorems": ["Hyperion.slashed_valsets_selected", "Hyperion.slashed_batches_selected_by_chain", "Hyperion.clean_valset_confirms_removes_nothing", "Hyperion.clean_nonces_of_all_chains"], "note": "Holds for validator sets; false for the other three: batches are selected by chain id instead of block, the clean-up of confirmations removes nothing, the clean-up of nonces empties all chains."},
{"property": "C49", "status": "partial", "theorems": ["Hyperion.deposit_hash_covers", "Hyperion.withdraw_hash_covers_partial", "Hyperion.withdraw_height_not_hashed", "Hyperion.deployed_hash_covers_partial", "Hyperion.deployed_fields_run_together", "Hyperion.valset_hash_covers_partial", "Hyperion.valset_reward_not_hashed", "Hyperion.claim_kinds_apart_partial", "Hyperion.deposit_and_deployment_collide", "Hyperion.Attest.first_reporter_sets_height"], "note": "Deposits are fully covered; for the other kinds fields are missing or run together (witnesses)."},
{"property": "C50", "status": "proved", "theorems": ["Hyperion.Attest.last_observed_is_greatest", "Hyperion.Attest.skipped_nonces_exact"], "note": ""},
{"property": "C51", "status": "proved", "theorems": ["Hyperion.Attest.enough_votes_take_effect"], "note": "From height 244300 and without resets."},
{"property": "C52", "status": "partial", "theorems": ["Hyperion.Valset.powerDiff_spec", "Hyperion.Valset.powerDiff_self", "Hyperion.Valset.powerDiff_comm", "Hyperion.Valset.latest_follows_current", "Hyperion.Valset.requests_never_change", "Hyperion.Valset.pruned_only_when_superseded", "Hyperion.Valset.pruned_by_window_of_other_chain", "Hyperion.Valset.lowered_offset_reuses_nonce"], "note": "For histories in which the offset of nonces is never lowered; the pruning window of another chain is applied too (witness)."},
{"property": "C53", "status": "partial", "theorems": ["Hyperion.External.answer_depends_on_order", "Hyperion.External.order_independent_partial"], "note": "Violated by the code on ties (witness)."},
{"property": "C54", "status": "partial", "theorems": ["Hyperion.External.fees_covered", "Hyperion.External.ends_at_most_once", "Hyperion.External.payments_bounded", "Hyperion.External.timeout_refunds", "Hyperion.External.pending_or_ended", "Hyperion.External.cancelled_without_refund", "Hyperion.External.cancelled_fee_stays"], "note": "A later answered request cancels earlier ones without refund (witness); the rest is proved."},
{"property": "C55", "status": "proved", "theorems": ["FeeMarket.price_paid", "FeeMarket.collector_gets_gas_used", "FeeMarket.refund_never_fails", "FeeMarket.failed_costs_only_gas", "FeeMarket.error_costs_gas_limit", "FeeMarket.value_still_covered", "FeeMarket.refused_changes_nothing", "FeeMarket.zero_base_fee_refuses_all"], "note": "Executions are arbitrary functions on the accounts that leave the fee collector alone; gas limits below 2^63 are enforced by the ante handler."},
{"property": "C56", "status": "proved", "theorems": ["FeeMarket.no_replay", "FeeMarket.nonces_in_order"], "note": "Assumes that executions and other modules never lower the nonce of an account with a key."},
{"property": "C57", "status": "proved", "theorems": ["FeeMarket.gas_used_bounds"], "note": "For multipliers up to 1, which the parameters enforce."},
{"property": "C58", "status": "partial", "theorems": ["FeeMarket.paid_between_base_and_offer", "FeeMarket.paid_at_most_base_and_tip", "FeeMarket.accepted_iff", "FeeMarket.offer_covers_minimum", "FeeMarket.pays_minimum_partial", "FeeMarket.may_pay_less_than_minimum", "FeeMarket.may_pay_nothing"], "note": "The minimum gas price is only checked against the offered fee, so a transaction with a zero tip can pay less (witness)."},
{"property": "C59", "status": "partial", "theorems": ["VersionDB.get_at_version", "VersionDB.has_at_version", "VersionDB.iterator_at_version", "VersionDB.latest_version", "VersionDB.replay_harmless", "VersionDB.rollback_leaves_abandoned", "VersionDB.slash_names_collide", "VersionDB.negative_version_reads_latest"], "note": "RocksDB is modelled by its contract. For heights that never go back and store names without a slash; after a rollback of the chain the entries of abandoned blocks stay visible (witness)."},
{"property": "C60", "status": "proved", "theorems": ["VersionDB.read_write", "VersionDB.skip_write", "VersionDB.iterate_whole", "VersionDB.iterate_cut_off", "VersionDB.versions_agree", "VersionDB.uvarintSize_eq", "VersionDB.encodedSize_eq", "VersionDB.cut_between_pairs_is_silent"], "note": "Compression is left out. A cut between two pairs is not reported as an error (witness)."},
{"property": "C61", "status": "proved", "theorems": ["VersionDB.decode_encode", "VersionDB.less_encode", "VersionDB.delta_round_trip", "VersionDB.sorter_sorts", "VersionDB.sorter_runs", "VersionDB.sorter_deterministic", "VersionDB.built_from_files"], "note": "Snappy compression and temporary files are left out; sort.Slice and container/heap are trusted."},
{"property": "C62", "status": "partial", "theorems": ["Hyperion.Slashing.slashed_exactly", "Hyperion.Slashing.slashed_once", "Hyperion.Slashing.batch_slashed_iff", "Hyperion.Slashing.batches_slashed_exactly", "Hyperion.Slashing.nobody_is_slashed", "Hyperion.Slashing.window_not_kept", "Hyperion.Slashing.batch_punished_again"], "note": "The conditions and uniqueness for requests are proved; the window is not kept, batches may be punished again, and as operators' addresses are read as account addresses nobody is slashed at all (the prefix check of the SDK is assumed, its source not being available)."},
{"property": "C63", "status": "proved", "theorems": ["VM.jump_accepted_iff", "VM.codeBitmap_spec"], "note": ""},
{"property": "C64", "status": "proved", "theorems": ["VM.expansion_fee", "VM.expansions_total", "VM.call_gas_sound"], "note": ""},
{"property": "C65", "status": "proved", "theorems": ["VM.writes_net_cost", "VM.round_trip_cost", "VM.refund_never_negative"], "note": "The counter is a natural number (no wrap at 2^64, far beyond any block's gas)."},
{"property": "C66", "status": "proved", "theorems": ["VM.call_terminates", "VM.create_terminates", "VM.call_fuel_irrelevant"], "note": "Precompiled contracts are assumed to return and to give back at most their gas."},
{"property": "C67", "status": "proved", "theorems": ["VM.call_never_panics", "VM.create_never_panics", "VM.fresh_safe", "VM.step_bounds"], "note": "Precompiled contracts are assumed to leave storage, refund counter and access list alone."},
{"property": "C68", "status": "partial", "theorems": ["VM.static_call_changes_nothing_partial", "VM.static_call_can_write"], "note": "Violated: a plain call inside a static call hands readOnly = false to precompiled contracts (witness). Proved for precompiled contracts that write nothing when called without value."},
{"property": "C69", "status": "proved", "theorems": ["VM.failed_call_leaves_no_trace", "VM.failed_transaction_leaves_no_trace", "VM.failed_call_uses_gas", "VM.failed_create_leaves_nonce"], "note": "Snapshot and revert are value semantics here; C17 justifies this for the journal."},
{"property": "C70", "status": "proved", "theorems": ["VM.call_conserves", "VM.create_conserves"], "note": "Precompiled contracts are assumed to conserve coins. Coins sent to a contract that has self-destructed in the same transaction are lost when the transaction is committed; that step is not part of the execution."},
{"property": "C71", "status": "proved", "theorems": ["VM.call_spares_wallets", "VM.create_spares_wallets"], "note": "Precompiled contracts are assumed to touch only their caller and the sender."},
{"property": "C72", "status": "proved", "theorems": ["VM.unOp_correct", "VM.binOp_correct", "VM.ternOp_correct", "VM.expOp_correct", "VM.exec_correct", "VM.step_correct", "VM.decode_opcodes"], "note": "For inputs, codes and results shorter than 2^64 bytes. Keccak, block hashes and address derivation are parameters. The amounts of gas are the subject of C64, C65 and C73."},
{"property": "C73", "status": "proved", "theorems": ["VM.expr_runs", "VM.contract_returns"], "note": "EXP is left out of the expressions, its gas depending on the value."},
{"property": "C74", "status": "partial", "theorems": ["Addr.decode_encode", "Addr.encode_decode", "Addr.spelling_unique", "Addr.typos_detected", "Addr.any_val", "Addr.any_hex", "Addr.any_acc_partial", "Addr.any_acc_zero", "Addr.any_acc_iff", "Addr.any_acc_fails", "Addr.any_collides", "Addr.initializer_partial", "Addr.initializer_fails"], "note": "False for account addresses whose text contains the letters val: they are read as the zero address. Proved for all others, and proved that exactly these fail. SHA-256 of cron identifiers was computed outside Lean for the witnesses."},
{"property": "C75", "status": "partial", "theorems": ["Chronos.create_effect", "Chronos.create_checked", "Chronos.record_change", "Chronos.archive_final", "Chronos.cancel_moves", "Chronos.coins_safe", "Chronos.deposit_kept", "Chronos.retired_stuck", "Chronos.deposit_returned_partial", "Chronos.deposit_lost", "Chronos.capital_stuck", "Chronos.capital_stuck_witness", "Chronos.indexes", "Chronos.never_executed"], "note": "The deposit comes back except if the wallet's text contains val, or the owner's text is in capitals (both proved to fail). Wallet addresses are assumed different for different identifiers. Execution of the calls is disabled in the code."},
{"property": "C76", "status": "partial", "theorems": ["Chronos.queue_exact_partial", "Chronos.answered_queued_partial", "Chronos.early_never_queued", "Chronos.queue_stale", "Chronos.stale_forever"], "note": "False if the owner changes the price of a waiting call; proved for histories without that."},
{"property": "C77", "status": "proved", "theorems": ["VM.tx_conserves", "VM.refused_tx_changes_nothing", "VM.error_costs_limit", "VM.failure_costs_gas", "VM.tx_spares_others", "VM.sender_loses_at_most", "VM.collector_is_paid", "VM.developer_is_paid", "VM.tx_error_reasons", "VM.commit_can_fail", "VM.history_conserves", "VM.gas_charged", "VM.plain_transfer"], "note": "One Ethereum message in each transaction, London rules, a coin with 18 decimals. Precompiled contracts are parameters with stated obligations (conserve coins, touch only their caller and the sender). That no contract can be created at addresses in use is the assumption NotDerived about Keccak."},
{"property": "C78", "status": "proved", "theorems": ["VM.tx_nonce", "VM.tx_nonces_in_order", "VM.tx_no_replay"], "note": "Same model as C77; nonces do not wrap around at 2^64."},
{"property": "C79", "status": "partial", "theorems": ["Revenue.shares_are_rightful", "Revenue.only_deployer_redirects", "Revenue.deployer_is_fixed", "Revenue.deployers_are_listed", "Revenue.withdrawers_are_listed_partial", "Revenue.withdrawers_are_not_listed", "Revenue.payee_after_created", "Revenue.payee_after_register", "Revenue.payee_after_update", "Revenue.payee_after_cancel", "Revenue.import_of_export", "Revenue.entries_distinct"], "note": "False for the index of withdrawers: contracts registered on creation name the deployer as withdrawer but are not listed; proved for all others."},
{"property": "C80", "status": "partial", "theorems": ["PC.runs_like_the_specification_partial", "PC.reverted_frame_leaves_no_trace_partial", "PC.coins_are_conserved_partial", "PC.reverted_storage_stays", "PC.failed_call_mints", "PC.failed_call_takes_effect", "PC.failed_call_mints_for_modules", "PC.commit_in_the_middle_mints", "PC.unreported_change_mints", "PC.unreported_change_alone", "PC.reported_other_coin_burns", "PC.eighth_call_fails"], "note": "False in general: witnesses for failed calls, for contracts that commit in the middle of the transaction and for contracts that do not report balances. Proved for transactions in which all calls succeed and the contracts keep to the rules. Nonces, codes, logs and refunds are left out."},
{"property": "C81", "status": "partial", "theorems": ["Erc20Token.calls_do_what_they_must", "Erc20Token.permitted_calls_go_through_partial", "Erc20Token.only_the_owner_or_the_approved_take", "Erc20Token.allowances_are_the_owners", "Erc20Token.revocation_ends_allowances", "Erc20Token.spending_stays_within_grants", "Erc20Token.transfer_logs_tell_balances", "Erc20Token.coins_neither_appear_nor_vanish", "Erc20Token.approval_lasts_a_year", "Erc20Token.zero_amounts_fail", "Erc20Token.never_quite_an_erc20", "Erc20Token.approval_of_zero_may_fail", "Erc20Token.later_approval_ends_with_the_first", "Erc20Token.approve_log_names_the_token", "Erc20Token.approvals_are_not_told", "Erc20Token.spending_is_told_partial"], "note": "False as it stands: amounts of zero fail, approvals of zero may fail, approvals expire (and with an older grant for another coin), and the Approval log of approve, increaseAllowance and decreaseAllowance names the token itself as owner. What successful calls do is proved in full."},
{"property": "C82", "status": "partial", "theorems": ["Authority.only_caller_and_signer_are_touched", "Authority.grants_change_only_for_the_signer", "Authority.grants_become_what_the_method_says", "Authority.bystanders_are_left_alone", "Authority.staking_for_another_needs_a_grant", "Authority.granted_calls_succeed", "Authority.own_calls_are_the_message", "Authority.only_listed_coins_are_staked", "Authority.validators_are_managed_by_themselves", "Authority.moved_within_what_was_allowed", "Authority.called_contracts_stake_for_the_signer", "Authority.consent_is_not_needed", "Authority.anyone_unjails_any_validator", "Authority.called_contracts_act_for_the_signer", "Authority.own_stake_of_contracts_uses_the_signers_grant", "Authority.cancel_allowances_cannot_be_raised"], "note": "Consent of the signer is false: a contract may approve itself in the signer's name, and all methods outside the staking contract act for the signer without a grant; anyone may unjail any validator. Proved: nobody but caller and signer is touched (unjail apart), stake moves only within grants, limits hold over histories. The ICS-20 contract is not included."},
{"property": "C83", "status": "partial", "theorems": ["Estimate.estimate_answers", "Estimate.estimate_usable", "Estimate.estimate_least", "Estimate.estimate_works_partial", "Estimate.estimate_found", "Estimate.estimate_refusal", "Estimate.estimate_no_funds", "Estimate.short_funds_give_untested_estimate", "Estimate.estimate_may_not_work", "Estimate.endless_search"], "note": "That the transaction runs through with the estimate is false when the sender's funds lower the limit: the last test compares with the limit before that. Proved when one more unit of gas is affordable or no fee is offered. Answering is proved for gas caps below 2^63; with a cap of 2^64-1 the search need not end."},
{"property": "C84", "status": "partial", "theorems": ["Routes.limiter_exact", "Routes.limiter_depth", "Routes.siblings_count_as_nesting", "Routes.eth_only_by_its_route", "Routes.disabled_not_delegated", "Routes.built_is_admitted", "Routes.eth_envelope_partial", "Routes.other_fee_coins_are_ignored", "Routes.proposals_are_not_searched"], "note": "The envelope is fixed up to coins of other denominations in its fee; the limit on nesting also counts siblings, so harmless transactions are refused; messages carried by proposals are not searched."},
{"property": "C85", "status": "partial", "theorems": ["LogQuery.filter_exact", "LogQuery.filter_bounds", "LogQuery.block_logs_exact", "LogQuery.range_exact_partial", "LogQuery.range_without_bloom", "LogQuery.range_refused", "LogQuery.past_the_head_nothing_is_found", "LogQuery.logs_lost_past_the_head", "LogQuery.dropped_blocks_hide_all", "LogQuery.hash_exact_partial", "LogQuery.scheduled_calls_missing_by_hash", "LogQuery.unknown_hash_crashes"], "note": "Proved for ranges of blocks the node has. False otherwise: a range that ends after the last block gives nothing at all, as does one that starts at a dropped block; asked for by hash, a block lacks the logs of its scheduled calls; an unknown hash crashes the handler."},
{"property": "C86", "status": "partial", "theorems": ["EthIndex.listing_exact", "EthIndex.events_read_back", "EthIndex.index_block", "EthIndex.index_exact_partial", "EthIndex.number_agrees", "EthIndex.events_agree_partial", "EthIndex.events_disagree", "EthIndex.skipped_on_empty", "EthIndex.failed_write_is_final", "EthIndex.refused_text_panics"], "note": "Proved for histories in which no write fails and the service does not start again on an empty index with blocks still to come, and without the index for blocks without failed commits. Outside of that it is false, each with a theorem."},
{"property": "C87", "status": "partial", "theorems": ["EthIndex.receipt_exact", "EthIndex.receipt_only", "EthIndex.logs_agree", "EthIndex.cumulative_grows", "EthIndex.cumulative_bounded", "EthIndex.block_receipts_partial", "EthIndex.block_receipt_gas_partial", "EthIndex.block_receipts_never_fail", "EthIndex.reverted_shown_as_success", "EthIndex.block_receipts_gas_wrong", "EthIndex.repeated_shown_as_failed"], "note": "Proved for the receipt by hash. The receipts of a block have the right hash, place and logs; their status is always success, and their gas is that of the whole Cosmos transaction."},
{"property": "C88", "status": "partial", "theorems": ["Wrap.wrap_roundtrip", "Wrap.wrap_injective", "Wrap.wrap_outcome", "Wrap.huge_chain_panics", "Wrap.basic_means", "Wrap.wrapped_admitted", "Wrap.legacy_chain", "Wrap.forms_not_unique", "Wrap.negative_chain_validates"], "note": "Round trip, injectivity, exact conditions and admission are proved. That one transaction has one message form is false (texts and absent amounts), and a chain number of more than 256 bits crashes the wrapping."},
{"property": "C89", "status": "partial", "theorems": ["Send.raw_sent", "Send.sent_as_asked", "Send.defaults_answer", "Send.fee_not_limited", "Send.next_nonce_partial", "Send.next_nonce_new", "Send.next_nonce_taken", "Send.next_nonce_other", "Send.next_nonce_gap", "Send.resend_finds_nothing"], "note": "Proved for signed transactions and those the node signs. The next nonce is proved for at most thirty pending transactions, Ethereum ones of the account without gaps; otherwise it is false. The limit on fees limits nothing, and sending again never finds a transaction."},
{"property": "C90", "status": "partial", "theorems": ["GasPrice.price_enough_partial", "GasPrice.price_nearly", "GasPrice.enough_accepted", "GasPrice.short_by_fraction", "GasPrice.short_after_five", "GasPrice.short_when_small", "GasPrice.short_when_great", "GasPrice.short_by_least_price"], "note": "Proved for whole base fees and least prices, changes of at least one and numbers within 63 bits; with fractions the price is at most 2 + (elasticity-1)/denominator short. False otherwise: after five full blocks from the start the suggested price is refused."},
{"property": "C91", "status": "partial", "theorems": ["FeeHistory.rewards_exact", "FeeHistory.history_exact_partial", "FeeHistory.history_bounded", "FeeHistory.others_percentiles", "FeeHistory.unordered_percentiles", "FeeHistory.next_base_fee_wrong", "FeeHistory.block_zero", "FeeHistory.great_counts_panic"], "note": "Proved for ascending percentiles, histories of requests for the same percentiles and blocks from the first on. The cache ignores the percentiles, so other users' requests change the answers; the base fee after the last block is that of the newest."},
{"property": "C92", "status": "partial", "theorems": ["Typed.typed_binds", "Typed.typed_exact", "Typed.only_known_fields", "Typed.old_binds", "Typed.one_signature_one_order", "Typed.direct_binds_partial", "Typed.granter_not_signed", "Typed.key_not_signed", "Typed.anyone_can_be_charged", "Typed.direct_binds_false", "Typed.mixed_lists_confused"], "note": "Proved for messages, fee, memo, account, sequence and chain, for names without punctuation, under no collision of the hash among the strings hashed. Who pays is not covered in direct mode: the granter and payer can be changed under a signature. Text in a list that begins with a number is taken for a number."},
{"property": "C93", "status": "partial", "theorems": ["Poll.polls_sound", "Poll.in_order_partial", "Poll.late_and_out_of_order", "Poll.misses_nothing_partial", "Poll.new_filter_works", "Poll.a_burst_loses", "Poll.lost_only_with_an_opener", "Poll.uninstalling_takes_others_along", "Poll.a_later_filter_is_lost_too", "Poll.others_stay_partial", "Poll.crash_only_with_an_opener", "Poll.uninstalling_can_crash", "Poll.never_more_than_the_cap", "Poll.gone_for_good", "Poll.removed_filters_stop_partial", "Poll.removed_pending_filters_spin", "Poll.second_message_not_given", "Poll.silent_after_an_undecodable_response"], "note": "Soundness, at most once, the limit and that gone filters stay gone are proved for all schedules. Order is proved while the filter that opened the topic stays, completeness for events that do not come in bursts, and that removing a filter leaves others alone for all but the one that opened the topic; each fails otherwise, with a schedule. Removing a filter can crash the node."},
{"property": "C94", "status": "partial", "theorems": ["Erc20.Ibc.transfer_exact", "Erc20.Ibc.transfer_succeeds_iff_partial", "Erc20.Ibc.locked_coins_block_transfers", "Erc20.Ibc.refund_exact", "Erc20.Ibc.refunded_once", "Erc20.Ibc.escrow_covers_partial", "Erc20.Ibc.refund_succeeds_partial", "Erc20.Ibc.paused_token_blocks_refunds", "Erc20.Ibc.refunded_in_tokens", "Erc20.Ibc.arrival_exact", "Erc20.Ibc.returns_succeed_partial", "Erc20.Ibc.there_and_back_partial", "Erc20.Ibc.anyone_can_empty_the_escrow", "Erc20.Ibc.vouchers_lost", "Erc20.Ibc.locked_accounts_receive_nothing", "Erc20.Ibc.locked_by_a_stranger", "Erc20.Ibc.only_signers_lose"], "note": "Exactness, at most one refund and that others cannot lessen a holding are proved for all histories. That channels stay covered, and that refunds and returns succeed, is proved as long as nobody names the account of a channel as recipient, the token is not paused and the recipient has no locked coins; each fails otherwise. ibc-go, IBC core and the other chains are modelled as the standard has them."},
{"property": "C95", "status": "partial", "theorems": ["Erc20.Weights.update_exact", "Erc20.Weights.add_exact", "Erc20.Weights.weights_positive_partial", "Erc20.Weights.weight_zero_is_accepted", "Erc20.Weights.fair_partial", "Erc20.Weights.even_iff", "Erc20.Weights.equal_amounts_unequal_power", "Erc20.Weights.power_grows_without_bound", "Erc20.Weights.up_and_down_loses", "Erc20.Weights.archived_assets_are_updated", "Erc20.Weights.archive_and_back"], "note": "Fairness is proved for histories whose updates come out even and spare archived assets; otherwise it is false, without bound. Weights stay positive if assets are added with a weight, which the message does not check. Assumes that the staking module, whose source is not in the repository, scales weighted amounts as its arguments say; float64 arithmetic is modelled by whole numbers."},
{"property": "C96", "status": "partial", "theorems": ["Hyperion.Orch.register_exact", "Hyperion.Orch.register_fee_exact", "Hyperion.Orch.register_fee_refused", "Hyperion.Orch.only_own", "Hyperion.Orch.orchestrators_stay", "Hyperion.Orch.unset_exact", "Hyperion.Orch.delete_fee_exact", "Hyperion.Orch.sound_partial", "Hyperion.Orch.fees_registered", "Hyperion.Orch.lowest_exact", "Hyperion.Orch.send_accepted_iff", "Hyperion.Orch.update_fee_exact", "Hyperion.Orch.update_fee_refused", "Hyperion.Orch.register_again_partial", "Hyperion.Orch.listing_panics_iff", "Hyperion.Orch.listing_partial", "Hyperion.Orch.votes_after_leaving", "Hyperion.Orch.two_orchestrators", "Hyperion.Orch.shared_address", "Hyperion.Orch.others_link_removed", "Hyperion.Orch.listing_can_panic", "Hyperion.Orch.negative_fee", "Hyperion.Orch.fee_cannot_change", "Hyperion.Orch.deleted_fee_stays", "Hyperion.Orch.export_is_lost"], "note": "Fees are proved in full. Agreement of the maps is proved for histories in which nobody registers an address somebody has and only validators that are their own orchestrators leave, naming their own address; nothing in the code demands that, and it fails otherwise in five ways. Registrations do not survive an export."},
{"property": "C97", "status": "partial", "theorems": ["Rpc.Limits.requests_limited", "Rpc.Limits.request_passes_iff", "Rpc.Limits.methods_limited", "Rpc.Limits.call_counted_iff", "Rpc.Limits.call_starts_iff", "Rpc.Limits.clients_named_by_themselves", "Rpc.Limits.timeouts_are_free", "Rpc.Limits.loopback_text_exempt", "Rpc.Limits.header_evades", "Rpc.Limits.ports_are_clients", "Rpc.Limits.batches_evade", "Rpc.Limits.content_type_evades", "Rpc.Limits.anybody_empties", "Rpc.Limits.clients_limited", "Rpc.Limits.connections_limited_partial", "Rpc.Limits.one_client_unlimited", "Rpc.Limits.place_freed_early", "Rpc.Limits.two_new_methods_crash", "Rpc.Limits.no_crash_partial", "Rpc.Limits.never_forgotten"], "note": "Limits on requests, calls and time are proved exact for every schedule, per text that stands for a client and since the tables were last emptied. Clients choose that text, anybody empties the tables, batches count as no method and calls that time out as no time. Connections are limited if no client has two; the process cannot end if all methods called have limits of their own; both fail otherwise."},
{"property": "C98", "status": "partial", "theorems": ["Rpc.Cache.hits_fresh", "Rpc.Cache.hit_last", "Rpc.Cache.hit_iff_partial", "Rpc.Cache.answered_or_asked", "Rpc.Cache.uncached_asked", "Rpc.Cache.fetch_exact", "Rpc.Cache.size_bounded", "Rpc.Cache.questions_differ", "Rpc.Cache.never_back_partial", "Rpc.Cache.goes_back", "Rpc.Cache.behind_other_answers", "Rpc.Cache.stampede", "Rpc.Cache.routines_pile_up"], "note": "Freshness, that hits are the last answer, the capacity and that questions differ are proved for all schedules; that answers do not go back for schedules in which the method never works on the same question twice at a time, and it fails otherwise. SHA-256 is taken to be free of collisions; U+2028, U+2029 and invalid UTF-8 in texts are left out."},
{"property": "C99", "status": "partial", "theorems": ["Sock.notes_sound", "Sock.notes_own", "Sock.from_now_on", "Sock.cancel_stops", "Sock.cannot_cancel_others", "Sock.closed_off_bus", "Sock.misses_nothing_partial", "Sock.burst_loses", "Sock.note_before_answer", "Sock.undecodable_silences", "Sock.goroutines_never_end", "Sock.visits_pile_up", "Sock.logs_subscription", "Sock.heads_subscription_iff", "Sock.block_range_ignored", "Sock.last_field_counts", "Sock.others_forwarded_iff", "Sock.lists_forwarded", "Sock.own_id_partial", "Sock.text_id_changed", "Sock.forwarded_same_partial", "Sock.forwarded_changes", "Sock.header_partial", "Sock.header_as_queried_iff", "Sock.header_differs"], "note": "That notifications are right, in order, at most once, the client's own, and only from subscription to cancellation is proved for all schedules, and the meaning of criteria for all JSON values. Completeness is proved for subscribers that are free to take the event; answers and ids are proved unchanged up to 2^53, and headers in four of their fields; each fails otherwise. Goroutines never end."}
]}
