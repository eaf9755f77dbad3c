{
 "claims": [
  {
   "property": "C01",
   "status": "proved",
   "theorems": [
    "Verif.Msa.C01_ids_consecutive",
    "Verif.Msa.C01_retired_never_resolves",
    "Verif.Msa.C01_creation_exact"
   ],
   "note": ""
  },
  {
   "property": "C02",
   "status": "partial",
   "theorems": [
    "Verif.Msa.C02_key_count_exact_partial",
    "Verif.Msa.C02_broken_by_wrapped_delete",
    "Verif.Msa.C02_full_false"
   ],
   "note": "False of the code for wrapped calls (C02_full_false): a deletion dispatched without the transaction extension decrements the counter of the wrong account. Proved for every history of directly submitted transactions."
  },
  {
   "property": "C03",
   "status": "partial",
   "theorems": [
    "Verif.Msa.C03_key_removed_only_by_owner_partial",
    "Verif.Runtime.C03_full_false",
    "Verif.Runtime.C03_wrapped_partial"
   ],
   "note": "False of the code for wrapped calls (C03_full_false): a batch with one allowed call passes the filter, and the ownership check is only in the transaction extension, which does not see nested calls. Proved: the full claim for directly submitted transactions; for every call tree, that only a deletion of this key or its own retirement removes it (C03_wrapped_partial)."
  },
  {
   "property": "C04",
   "status": "partial",
   "theorems": [
    "Verif.Msa.C04_retire_only_empty_partial",
    "Verif.Msa.C04_full_false"
   ],
   "note": "False of the code in its last clause (C04_full_false): records of delegations revoked earlier stay in storage. Proved: everything else, and that no delegation check accepts these records for the block of the retirement or a later one."
  },
  {
   "property": "C05",
   "status": "proved",
   "theorems": [
    "Verif.Msa.C05_add_key_needs_both"
   ],
   "note": ""
  },
  {
   "property": "C06",
   "status": "partial",
   "theorems": [
    "Verif.Msa.C06_step_partial",
    "Verif.Msa.C06_authority_needs_signature_partial",
    "Verif.Msa.C06_same_block_regrant",
    "Verif.Msa.C06_revocation_authorises",
    "Verif.Msa.C06_full_false"
   ],
   "note": "False of the code for the block of the call itself: a second revocation of a schema authorises the provider again for the rest of that block (C06_revocation_authorises, C06_full_false), and so does a new grant that does not list the schema (C06_same_block_regrant). Proved for every later block."
  },
  {
   "property": "C07",
   "status": "proved",
   "theorems": [
    "Verif.Msa.C07_grant_sets_exactly",
    "Verif.Msa.C07_authorised_iff_listed"
   ],
   "note": ""
  },
  {
   "property": "C08",
   "status": "partial",
   "theorems": [
    "Verif.Msa.C08_revoked_until_regrant_partial",
    "Verif.Msa.C08_schema_revoked_until_regrant_partial",
    "Verif.Msa.C08_past_kept_partial",
    "Verif.Msa.C08_full_false"
   ],
   "note": "False of the code: a second revocation of a schema in a later block makes the check about that block accept (C08_full_false). Proved: in full for whole delegations and later blocks; for single schemas about blocks later than all calls; answers yes about past blocks are never lost (C08_past_kept_partial)."
  },
  {
   "property": "C09",
   "status": "partial",
   "theorems": [
    "Verif.Msa.C09_report_agrees_with_check",
    "Verif.Msa.C09_marks_iff_partial",
    "Verif.Msa.C09_full_false",
    "Verif.Msa.C09_error_means_nothing_granted"
   ],
   "note": "False of the code in the block of a revocation: the query lists the schema as revoked at once, but the check accepts the current block until the next one (C09_full_false). Partial: both equivalences for all other blocks (C09_marks_iff_partial); at any time what is listed tells the answer of the check for every block (C09_report_agrees_with_check)."
  },
  {
   "property": "C10",
   "status": "proved",
   "theorems": [
    "Verif.Msa.C10_proof_accepted_once",
    "Verif.Msa.C10_signature_accepted_once",
    "Verif.SigRegistry.C10_registry_no_replay",
    "Verif.SigRegistry.C10_registry_signature_single_use"
   ],
   "note": "C10_signature_accepted_once assumes of the signature scheme that no signature verifies for two different byte strings; C10_proof_accepted_once needs no such assumption but speaks of pairs of signature and expiration block."
  },
  {
   "property": "C11",
   "status": "proved",
   "theorems": [
    "Verif.SigRegistry.C11_registry_is_bounded_queue",
    "Verif.SigRegistry.C11_never_corrupted",
    "Verif.SigRegistry.C11_capacity_one_corrupts",
    "Verif.SigRegistry.C11_capacity_zero_corrupts",
    "Verif.SigRegistry.C11_storage_bounded",
    "Verif.SigRegistry.C11_limit_error_only_when_full"
   ],
   "note": ""
  },
  {
   "property": "C12",
   "status": "proved",
   "theorems": [
    "Verif.Msa.C12_accepted_in_window",
    "Verif.SigRegistry.C12_window",
    "Verif.SigRegistry.C12_refused_outside"
   ],
   "note": ""
  },
  {
   "property": "C13",
   "status": "proved",
   "theorems": [
    "Verif.Msa.C13_providers_permanent",
    "Verif.Msa.C13_registered_once",
    "Verif.Msa.C13_provider_at_that_time",
    "Verif.Msa.C13_delegations_target_providers"
   ],
   "note": ""
  },
  {
   "property": "C14",
   "status": "proved",
   "theorems": [
    "Verif.Msa.C14_grants_bounded",
    "Verif.Msa.C14_oversized_grant_rejected",
    "Verif.Msa.C14_growth_rejected"
   ],
   "note": ""
  },
  {
   "property": "C15",
   "status": "partial",
   "theorems": [
    "Verif.Msa.C15_free_calls_succeed_partial",
    "Verif.Msa.C15_revocation_succeeds_partial",
    "Verif.Msa.C15_revocation_can_fail"
   ],
   "note": "Proved for deletions and retirements, and for revocations outside the block of an earlier revocation. C15_revocation_can_fail is the counterexample inside it."
  },
  {
   "property": "C16",
   "status": "partial",
   "theorems": [
    "Verif.Msa.C16_revocation_moves_later",
    "Verif.Msa.C16_stays_revoked_partial"
   ],
   "note": "False of the code: C16_revocation_moves_later. C16_stays_revoked_partial is what holds instead."
  },
  {
   "property": "C17",
   "status": "partial",
   "theorems": [
    "Verif.Offchain.C17_index_equals_chain_partial",
    "Verif.Offchain.C17_interrupted_run_recovers_partial",
    "Verif.Offchain.C17_interrupted_initial_index_stale",
    "Verif.Offchain.C17_no_duplicates",
    "Verif.Offchain.C17_initial_index_complete_partial"
   ],
   "note": "Partial: proved for key additions and deletions submitted directly and for interrupted later runs; false for an interrupted initial index (witness C17_interrupted_initial_index_stale). Forks: see C140. Wrapped calls, and why no block has more than 65535 events: see C146. Proved whether or not the clearing of events by the worker reaches the database."
  },
  {
   "property": "C18",
   "status": "proved",
   "theorems": [
    "Verif.Offchain.C18_storage_keys_distinct"
   ],
   "note": ""
  },
  {
   "property": "C19",
   "status": "proved",
   "theorems": [
    "Verif.Stateful.C19_parse_of_encoded",
    "Verif.Stateful.C19_parsed_reencodes",
    "Verif.Stateful.C19_parses_iff_encoding"
   ],
   "note": ""
  },
  {
   "property": "C20",
   "status": "proved",
   "theorems": [
    "Verif.Stateful.C20_actions_exact",
    "Verif.Stateful.C20_malformed_fails"
   ],
   "note": ""
  },
  {
   "property": "C21",
   "status": "partial",
   "theorems": [
    "Verif.Stateful.C21_stale_update_reported_partial",
    "Verif.Stateful.C21_full_false",
    "Verif.Stateful.C21_stale_call_no_effect"
   ],
   "note": "False of the code for the deletion of a page that does not exist, which succeeds for every hash (C21_full_false). Proved: everything else, and that a stale call changes nothing without exception."
  },
  {
   "property": "C22",
   "status": "proved",
   "theorems": [
    "Verif.Stateful.C22_append_only"
   ],
   "note": ""
  },
  {
   "property": "C23",
   "status": "proved",
   "theorems": [
    "Verif.Stateful.C23_signature_required"
   ],
   "note": ""
  },
  {
   "property": "C24",
   "status": "proved",
   "theorems": [
    "Verif.Stateful.C24_change_needs_authority"
   ],
   "note": ""
  },
  {
   "property": "C25",
   "status": "proved",
   "theorems": [
    "Verif.Stateful.C25_other_locations_unchanged",
    "Verif.Stateful.C25_locations"
   ],
   "note": ""
  },
  {
   "property": "C26",
   "status": "proved",
   "theorems": [
    "Verif.Stateful.C26_keys_unique",
    "Verif.Stateful.C26_query_lists_exactly"
   ],
   "note": "Key hash assumed collision-free on two-byte inputs, Blake2-128 on the prefixes of the accounts considered (HashOk, KeyInj; the bound `accounts` on their ids is arbitrary)."
  },
  {
   "property": "C27",
   "status": "proved",
   "theorems": [
    "Verif.Stateful.C27_limits"
   ],
   "note": ""
  },
  {
   "property": "C28",
   "status": "partial",
   "theorems": [
    "Verif.Stateful.C28_reuse_needs_same_page_partial",
    "Verif.Stateful.C28_single_use_partial",
    "Verif.Stateful.C28_replay_after_delete",
    "Verif.Stateful.C28_replay_empty_payload",
    "Verif.Stateful.C28_replay_after_key_moves",
    "Verif.Stateful.C28_replay_after_wrap"
   ],
   "note": "False in general: replay after deletion, with empty payload, after the key moved, and after 65,535 further updates (the 16-bit nonce wraps; that many fit into the window of 14,400 blocks). All with witness theorems. Proved while the page keeps content and fewer than 65535 updates, with a collision-free page hash; the bound is sharp."
  },
  {
   "property": "C29",
   "status": "proved",
   "theorems": [
    "Verif.Stateful.C29_accepted_in_window",
    "Verif.Stateful.C29_window_exact"
   ],
   "note": ""
  },
  {
   "property": "C30",
   "status": "partial",
   "theorems": [
    "Verif.Handles.C30_lookup_partial",
    "Verif.Handles.C30_no_shared_handle",
    "Verif.Handles.C30_found_account_has_handle",
    "Verif.Handles.C30_korean_names_collide"
   ],
   "note": "False of the code: names whose canonical form has more than 32 bytes share one key (C30_korean_names_collide). Proved for shorter canonical forms; uniqueness of display handles proved in full while the suffix range is unchanged."
  },
  {
   "property": "C31",
   "status": "proved",
   "theorems": [
    "Verif.Handles.C31_permutation",
    "Verif.Handles.C31_is_shuffle",
    "Verif.Handles.C31_any_stream"
   ],
   "note": "C31_any_stream covers every stream of draws; the generator of the code is an instance (C31_is_shuffle). The rejection loop of the generator is modelled with a bound of 64 rounds."
  },
  {
   "property": "C32",
   "status": "partial",
   "theorems": [
    "Verif.Handles.C32_never_assigned_twice_partial",
    "Verif.Handles.C32_assigned_complete",
    "Verif.Handles.C32_new_maximum_assigns_again"
   ],
   "note": "Proved while the whole suffix range is unchanged. False when only the maximum changes: C32_new_maximum_assigns_again."
  },
  {
   "property": "C33",
   "status": "partial",
   "theorems": [
    "Verif.Handles.C33_preview_partial",
    "Verif.Handles.C33_number_partial",
    "Verif.Handles.C33_korean_preview_wrong"
   ],
   "note": "Proved for canonical forms of at most 32 bytes; false for longer ones: C33_korean_preview_wrong."
  },
  {
   "property": "C34",
   "status": "proved",
   "theorems": [
    "Verif.Handles.C34_split_inverse"
   ],
   "note": ""
  },
  {
   "property": "C35",
   "status": "proved",
   "theorems": [
    "Verif.Handles.C35_stored_names_valid",
    "Verif.Handles.C35_stored_names_valid_any_range"
   ],
   "note": "Character normalisation (NFKD, marks, confusable table) is a parameter of the model: proved for every such table."
  },
  {
   "property": "C36",
   "status": "partial",
   "theorems": [
    "Verif.Handles.C36_query_agrees_partial",
    "Verif.Handles.C36_query_too_lenient"
   ],
   "note": "False of the code: the query ignores the byte length and the canonical length (C36_query_too_lenient). Proved for names meeting both. A node never asks the runtime about more than 32 bytes (C161), so the longer of these names are not reached through it."
  },
  {
   "property": "C37",
   "status": "partial",
   "theorems": [
    "Verif.Handles.C37_supported_partial",
    "Verif.Handles.C37_truncated_code_points"
   ],
   "note": "False of the code for code points from U+10000 on, which are truncated to 16 bits (C37_truncated_code_points). Proved below U+10000."
  },
  {
   "property": "C38",
   "status": "partial",
   "theorems": [
    "Verif.Handles.C38_kept_until_expiration_partial",
    "Verif.Handles.C38_change_before_expiration"
   ],
   "note": "Proved for claims and direct retirements; false for change_handle: C38_change_before_expiration."
  },
  {
   "property": "C39",
   "status": "proved",
   "theorems": [
    "Verif.Schemas.C39_ids_sequential",
    "Verif.Schemas.C39_as_registered",
    "Verif.Schemas.C39_nothing_else_registers",
    "Verif.Schemas.C39_immutable"
   ],
   "note": ""
  },
  {
   "property": "C40",
   "status": "proved",
   "theorems": [
    "Verif.Schemas.C40_versions_gapless",
    "Verif.Schemas.C40_versions_permanent",
    "Verif.Schemas.C40_namespace_query"
   ],
   "note": ""
  },
  {
   "property": "C41",
   "status": "partial",
   "theorems": [
    "Verif.Schemas.C41_one_name_partial",
    "Verif.Schemas.C41_two_names_by_governance_partial",
    "Verif.Schemas.C41_governance_names_twice"
   ],
   "note": "False of the code: governance naming does not set has_name (C41_governance_names_twice). Proved for schemas registered together with a name, and that every name of a schema that has two was given by governance (C41_two_names_by_governance_partial)."
  },
  {
   "property": "C42",
   "status": "proved",
   "theorems": [
    "Verif.Schemas.C42_case_insensitive",
    "Verif.Schemas.C42_white_space",
    "Verif.Schemas.C42_round_trip"
   ],
   "note": ""
  },
  {
   "property": "C43",
   "status": "proved",
   "theorems": [
    "Verif.Schemas.C43_rules",
    "Verif.Schemas.C43_governance_maximum",
    "Verif.Schemas.C43_maximum_set_by_root"
   ],
   "note": "The JSON parsers behind ensure_valid_model are a parameter of the model."
  },
  {
   "property": "C44",
   "status": "partial",
   "theorems": [
    "Verif.Schemas.C44_limit_not_enforced",
    "Verif.Schemas.C44_hard_limit_partial"
   ],
   "note": "False of the code: MaxSchemaRegistrations is never read (C44_limit_not_enforced, for every limit below 65535). Proved: the hard limit of 65535."
  },
  {
   "property": "C45",
   "status": "partial",
   "theorems": [
    "Verif.Schemas.C45_ids_exist_partial",
    "Verif.Schemas.C45_zero_accepted"
   ],
   "note": "False of the code for id 0 (C45_zero_accepted). Proved for all lists without 0."
  },
  {
   "property": "C46",
   "status": "partial",
   "theorems": [
    "Verif.Messages.C46_retrievable_partial",
    "Verif.Messages.C46_past_blocks_fixed",
    "Verif.Messages.C46_full_block_loses_messages"
   ],
   "note": "False of the pallet alone, without a bound on the messages of one block: the index saturates at 65535 (C46_full_block_loses_messages). Proved for every history with at most 65536 accepted messages per block. C141 shows in full that on the chain the limit on the weight of blocks excludes all other histories of transactions."
  },
  {
   "property": "C47",
   "status": "proved",
   "theorems": [
    "Verif.Messages.C47_announced_once"
   ],
   "note": ""
  },
  {
   "property": "C48",
   "status": "proved",
   "theorems": [
    "Verif.Messages.C48_answered_iff",
    "Verif.Messages.C48_pages"
   ],
   "note": "The chain content is fixed while the client follows the pages; C46_past_blocks_fixed shows that finished blocks do not change."
  },
  {
   "property": "C49",
   "status": "proved",
   "theorems": [
    "Verif.Messages.C49_authorised"
   ],
   "note": ""
  },
  {
   "property": "C50",
   "status": "proved",
   "theorems": [
    "Verif.Messages.C50_reference_survives"
   ],
   "note": "The multibase decoder and the CID parser are parameters; Base32 is modelled and proved to be inverted by its decoder."
  },
  {
   "property": "C51",
   "status": "proved",
   "theorems": [
    "Verif.Capacity.C51_frozen_is_active_plus_unlocking"
   ],
   "note": ""
  },
  {
   "property": "C52",
   "status": "proved",
   "theorems": [
    "Verif.Capacity.C52_remaining_le_issued"
   ],
   "note": ""
  },
  {
   "property": "C53",
   "status": "partial",
   "theorems": [
    "Verif.Capacity.C53_bookkeeping_bound_partial",
    "Verif.Capacity.C53_bookkeeping_exact_partial",
    "Verif.Capacity.C53_unstake_from_wrong_target"
   ],
   "note": "False of the code: C53_unstake_from_wrong_target. Proved: the records bound the totals in every history, and equality when no unstake exceeds the stake recorded for the target named."
  },
  {
   "property": "C54",
   "status": "proved",
   "theorems": [
    "Verif.Capacity.C54_withdraw_exact",
    "Verif.Capacity.C54_withdraw_possible",
    "Verif.Capacity.C54_unstaked_stays_frozen_until",
    "Verif.Capacity.C54_unstaked_stays_frozen"
   ],
   "note": "On chain histories: calls happen inside blocks, block numbers grow and are 32-bit like epoch numbers (Chronological). C54_unstaked_stays_frozen_until needs no such assumption and gives the minimum with the last epoch number."
  },
  {
   "property": "C55",
   "status": "proved",
   "theorems": [
    "Verif.Capacity.C55_minimum_and_chunks"
   ],
   "note": ""
  },
  {
   "property": "C56",
   "status": "proved",
   "theorems": [
    "Verif.Capacity.C56_epochs"
   ],
   "note": ""
  },
  {
   "property": "C57",
   "status": "proved",
   "theorems": [
    "Verif.Capacity.C57_spending_covered",
    "Verif.Capacity.C57_balance"
   ],
   "note": "Operations of the runtime only; the trait functions replenish and deduct called from outside the fee payment are excluded (RuntimeOp)."
  },
  {
   "property": "C58",
   "status": "partial",
   "theorems": [
    "Verif.Capacity.C58_single_stake_bound_partial",
    "Verif.Capacity.C58_same_tokens_staked_twice"
   ],
   "note": "False of the code: C58_same_tokens_staked_twice. Proved for one stake: the increase is at most the balance less the minimum balance."
  },
  {
   "property": "C59",
   "status": "partial",
   "theorems": [
    "Verif.Capacity.C59_partial_replenish_no_effect"
   ],
   "note": "False of the code in every state: C59_partial_replenish_no_effect proves that a successful partial replenishment changes nothing. The function is not called by the runtime."
  },
  {
   "property": "C60",
   "status": "proved",
   "theorems": [
    "Verif.TimeRelease.C60_curve",
    "Verif.TimeRelease.C60_steps"
   ],
   "note": ""
  },
  {
   "property": "C61",
   "status": "proved",
   "theorems": [
    "Verif.TimeRelease.C61_freeze_covers",
    "Verif.TimeRelease.C61_backed",
    "Verif.TimeRelease.C61_claim_exact",
    "Verif.TimeRelease.C61_no_panic"
   ],
   "note": "For every genesis and every history; other pallets change balances arbitrarily as long as they respect the freeze. The balances pallet is modelled from its published interface, it is not in the repository."
  },
  {
   "property": "C62",
   "status": "partial",
   "theorems": [
    "Verif.TimeRelease.C62_transfer_exact",
    "Verif.TimeRelease.C62_full_false",
    "Verif.TimeRelease.C62_conserved_partial",
    "Verif.TimeRelease.C62_only_transfer_moves"
   ],
   "note": "False in its last clause: remainders below the existential deposit are burned (C62_full_false). Proved: the exact effect of a transfer including that case, and conservation counting burned remainders. The balances pallet (transfer, set_freeze, closing of accounts) is modelled from its published interface, it is not in the repository."
  },
  {
   "property": "C63",
   "status": "proved",
   "theorems": [
    "Verif.Runtime.C63_batch_of_ten",
    "Verif.TxPayment.C63_accepted_iff",
    "Verif.TxPayment.C63_charged_exactly",
    "Verif.TxPayment.C63_only_eligible_executed"
   ],
   "note": "For every key state, capacity state and conversion of weights to fees. The fee is capped by the largest balance and the weight by a full block; the length is taken modulo 2^32 as in the code. Payment with tokens is not modelled."
  },
  {
   "property": "C64",
   "status": "partial",
   "theorems": [
    "Verif.TxPayment.C64_full_false",
    "Verif.TxPayment.C64_nothing_reported",
    "Verif.TxPayment.C64_estimate_covers_partial",
    "Verif.TxPayment.C64_call_alone",
    "Verif.TxPayment.C64_call_not_payable"
   ],
   "note": "False of the code for a batch without calls: nothing is reported, base and length fee are charged (C64_full_false). Proved for transactions with at least one call whose weights do not overflow."
  },
  {
   "property": "C65",
   "status": "partial",
   "theorems": [
    "Verif.Nonce.C65_full_false",
    "Verif.Nonce.C65_reaped",
    "Verif.Nonce.C65_deletion_replayed",
    "Verif.Nonce.C65_consumed_partial",
    "Verif.Nonce.C65_in_order"
   ],
   "note": "False of the code for free transactions of keys without a token account, whose nonce is not stored (C65_full_false; C65_deletion_replayed deletes a key twice with one transaction), and for accounts removed in between (C65_reaped). Proved for all others. Mortality of transactions is not modelled; immortal ones exist. Nonces are unbounded in the model."
  },
  {
   "property": "C66",
   "status": "partial",
   "theorems": [
    "Verif.Passkey.C66_full_false",
    "Verif.Passkey.C66_signature_ignored",
    "Verif.Passkey.C66_proof_reusable",
    "Verif.Passkey.C66_authorised_partial",
    "Verif.Passkey.C66_not_replayed_partial"
   ],
   "note": "False of the code: the passkey signature is never verified (C66_full_false, C66_signature_ignored, C66_proof_reusable). Proved: the account signed the public key, only its transfer is executed, the nonce is current and used up. The pallet is not part of the main network."
  },
  {
   "property": "C67",
   "status": "partial",
   "theorems": [
    "Verif.Runtime.C67_any_call_passes",
    "Verif.Runtime.C67_full_false",
    "Verif.Runtime.C67_batch_partial",
    "Verif.Runtime.C67_no_creation_on_mainnet"
   ],
   "note": "False of the code: the filter accepts a batch if any call is allowed, not if all are (C67_full_false). Proved: exactly which batches pass; on the main network no nesting of calls executes a provider or schema creation."
  },
  {
   "property": "C68",
   "status": "partial",
   "theorems": [
    "Verif.Runtime.C68_full_false",
    "Verif.Runtime.C68_superset_partial",
    "Verif.Runtime.C68_all_declared"
   ],
   "note": "False of the code for one pair: NonTransfer is declared a superset of CancelProxy but does not permit reject_announcement (C68_full_false). Proved for all other pairs."
  },
  {
   "property": "C69",
   "status": "proved",
   "theorems": [
    "Verif.Msa.C69_addProvider_injective",
    "Verif.Msa.C69_addKeyData_injective",
    "Verif.Msa.C69_payload_kinds_disjoint"
   ],
   "note": ""
  },
  {
   "property": "C70",
   "status": "partial",
   "theorems": [
    "Verif.Stateful.C70_kinds_apart_partial",
    "Verif.Stateful.C70_kinds_collide",
    "Verif.Stateful.C70_full_false",
    "Verif.Stateful.C70_signed_bytes_determine_payload_partial",
    "Verif.Stateful.C70_delete_bytes_are_upsert_bytes"
   ],
   "note": "False across kinds and versions (C70_full_false): for each pair of different kinds or versions other than deletion/write of one version and deletion of version 2/anything of version 1 there are two payloads with the same bytes (C70_kinds_collide). Proved within one kind and version (C70_signed_bytes_determine_payload_partial) and for the pairs that remain (C70_kinds_apart_partial)."
  },
  {
   "property": "C71",
   "status": "proved",
   "theorems": [
    "Verif.Stateful.C71_never_corrupted"
   ],
   "note": ""
  },
  {
   "property": "C72",
   "status": "partial",
   "theorems": [
    "Verif.Handles.C72_reserved_partial",
    "Verif.Handles.C72_reserved_word_in_disguise"
   ],
   "note": "False of the code: the check looks at the name as written (C72_reserved_word_in_disguise). Proved for names equal to their canonical form."
  },
  {
   "property": "C73",
   "status": "partial",
   "theorems": [
    "Verif.Handles.C73_claim_once_partial",
    "Verif.Handles.C73_replayed_by_change"
   ],
   "note": "False of the code once change_handle is used: C73_replayed_by_change. Proved for histories of claims and direct retirements."
  },
  {
   "property": "C74",
   "status": "partial",
   "theorems": [
    "Verif.TimeRelease.C74_reports_remaining_partial",
    "Verif.TimeRelease.C74_reports_wrong_amount"
   ],
   "note": "False of the code: do_claim returns the amount that stays frozen, and the event reports it as the amount claimed (C74_reports_wrong_amount). Proved: the reported amount is what stays frozen."
  },
  {
   "property": "C75",
   "status": "partial",
   "theorems": [
    "Verif.Runtime.C75_full_false",
    "Verif.Runtime.C75_no_transfer_partial"
   ],
   "note": "False of the code: Multisig::as_multi_threshold_1 is permitted and dispatches without the filter of the proxy, as the multisig account (C75_full_false; dispatch of the multisig pallet modelled from its published behaviour). Proved for call trees without a multisig call."
  },
  {
   "property": "C76",
   "status": "partial",
   "theorems": [
    "Verif.Passkey.C76_length_ignored",
    "Verif.Passkey.C76_fee_paid_partial"
   ],
   "note": "False of the code: the length used is that of the encoded account id, always 32 (C76_length_ignored). Proved: the account can pay the fee for 32 bytes. The pallet is not part of the main network."
  },
  {
   "property": "C77",
   "status": "proved",
   "theorems": [
    "Verif.Msa.C77_no_self_delegation"
   ],
   "note": ""
  },
  {
   "property": "C78",
   "status": "proved",
   "theorems": [
    "Verif.Msa.C78_provider_registration"
   ],
   "note": ""
  },
  {
   "property": "C79",
   "status": "partial",
   "theorems": [
    "Verif.Msa.C79_only_issued_partial",
    "Verif.Msa.C79_full_false"
   ],
   "note": "False of the code for schema id 0, which the validity check accepts although ids start at 1 (C79_full_false, see also C45)."
  },
  {
   "property": "C80",
   "status": "partial",
   "theorems": [
    "Verif.Capacity.C80_full_false",
    "Verif.Capacity.C80_capacity_multiplied",
    "Verif.Capacity.C80_backed_partial"
   ],
   "note": "False of the code: unstaking all tokens while naming one of several targets leaves the capacity of the other targets (C80_full_false), and the same tokens can be used again to multiply it (C80_capacity_multiplied). Proved for histories without such unstakes."
  },
  {
   "property": "C81",
   "status": "proved",
   "theorems": [
    "Verif.Capacity.C81_stake_exact",
    "Verif.Capacity.C81_unstake_exact",
    "Verif.Capacity.C81_withdraw_only",
    "Verif.Capacity.C81_charge_exact"
   ],
   "note": "Perbill::from_rational is left open, so the capacity a target loses on a partial unstake is given only when the whole record is unstaked. What a partial unstake costs with the rounding of the library: C156."
  },
  {
   "property": "C82",
   "status": "partial",
   "theorems": [
    "Verif.NonceRpc.C82_full_false",
    "Verif.NonceRpc.C82_report_exact_partial"
   ],
   "note": "False of the code when two transactions of the account with the same nonce wait (the query counts the nonce forward once per waiting transaction, so it skips a missing nonce): C82_full_false. Proved when the nonces waiting are distinct."
  },
  {
   "property": "C83",
   "status": "partial",
   "theorems": [
    "Verif.Stateful.C83_upsert_exact",
    "Verif.Stateful.C83_delete_exact_partial",
    "Verif.Stateful.C83_full_false",
    "Verif.Stateful.C83_items_exact",
    "Verif.Stateful.C83_items_query",
    "Verif.Stateful.C83_queries_succeed_iff"
   ],
   "note": "False of the code for deletions: the deletion of a page that does not exist succeeds for every target hash (C83_full_false, see C21). Partial: acceptance and effect of deletions with this exception (C83_delete_exact_partial). Writes and item actions are proved in full; the nonce is one higher modulo 65536, as in the code."
  },
  {
   "property": "C84",
   "status": "proved",
   "theorems": [
    "Verif.Messages.C84_onchain_accepted_iff",
    "Verif.Messages.C84_ipfs_accepted_iff",
    "Verif.Messages.C84_onchain_effect",
    "Verif.Messages.C84_ipfs_effect",
    "Verif.Messages.C84_nothing_else"
   ],
   "note": ""
  },
  {
   "property": "C85",
   "status": "proved",
   "theorems": [
    "Verif.Msa.C85_accepted_iff",
    "Verif.Msa.C85_submitted_iff",
    "Verif.Msa.C85_effect"
   ],
   "note": ""
  },
  {
   "property": "C86",
   "status": "partial",
   "theorems": [
    "Verif.Handles.C86_accepted_iff_partial",
    "Verif.Handles.C86_claim_effect_partial",
    "Verif.Handles.C86_change_effect_partial",
    "Verif.Handles.C86_retire_effect_partial",
    "Verif.Handles.C86_full_false",
    "Verif.Handles.C86_suffixes_used_up_by_others"
   ],
   "note": "False of the code for names whose canonical form has more than 32 bytes: they share one storage key, so that a claim redirects the handle of another account (C86_full_false) and uses up the suffixes of other names (C86_suffixes_used_up_by_others); for code points above 16 bits see C37. Proved for all other names: acceptance as an equivalence (C86_accepted_iff_partial) and the exact effect of claim, change and retirement."
  },
  {
   "property": "C87",
   "status": "proved",
   "theorems": [
    "Verif.Schemas.C87_accepted_iff",
    "Verif.Schemas.C87_registration_effect",
    "Verif.Schemas.C87_naming_effect",
    "Verif.Schemas.C87_maximum_effect"
   ],
   "note": ""
  },
  {
   "property": "C88",
   "status": "proved",
   "theorems": [
    "Verif.TimeRelease.C88_accepted_iff",
    "Verif.TimeRelease.C88_effect"
   ],
   "note": "Acceptance as an equivalence in every state reachable from a genesis; the resulting schedules, free balance, reserve, locks, freeze, burned amount and reported amount as functions of the state before. The balances pallet is modelled after its published interface; whether the number of freezes and the reference counters allow a freeze or the closing of an account is an open parameter."
  },
  {
   "property": "C89",
   "status": "proved",
   "theorems": [
    "Verif.Capacity.C89_accepted_iff",
    "Verif.Capacity.C89_unstake_capacity",
    "Verif.Capacity.C89_effect"
   ],
   "note": "Acceptance as an equivalence in every reachable state; with C81 and C54 the effects are exact. The rounding of Perbill::from_rational is left open, products with it are rounded as the library documents. With the rounding of the library: C156."
  },
  {
   "property": "C90",
   "status": "proved",
   "theorems": [
    "Verif.Chain.C90_messages_by_consent"
   ],
   "note": "Model of the chain as a whole (Verif/Chain): six pallets over one state, each seeing the others as the runtime configures it."
  },
  {
   "property": "C91",
   "status": "proved",
   "theorems": [
    "Verif.Chain.C91_storage_by_consent"
   ],
   "note": "Model of the chain as a whole. Assumes the collision freedom of the hashes in CfgOk, as C25 does, for the accounts created so far only (Fits)."
  },
  {
   "property": "C92",
   "status": "proved",
   "theorems": [
    "Verif.Chain.C92_messages",
    "Verif.Chain.C92_accounts",
    "Verif.Chain.C92_capacity",
    "Verif.Chain.C92_storage"
   ],
   "note": "Storage clause under the collision freedom of the hashes in CfgOk, as C25."
  },
  {
   "property": "C93",
   "status": "partial",
   "theorems": [
    "Verif.Chain.C93_retired_is_gone_partial",
    "Verif.Chain.C93_storage_frozen_partial",
    "Verif.Chain.C93_full_false"
   ],
   "note": "False if a wrapped call deleted a key before: delete_msa_public_key lowers the counter of the caller's account, whoever the key belongs to, and the check that the caller owns the key is only in the transaction extension. Then an account with two keys passes the check of retire_msa and its other key still acts. Proved for histories without wrapped key deletions before the retirement; what follows it is unrestricted."
  },
  {
   "property": "C94",
   "status": "partial",
   "theorems": [
    "Verif.Chain.C94_in_use_has_key_partial",
    "Verif.Chain.C94_full_false"
   ],
   "note": "False when retire_msa runs inside another call, where the checks of the transaction extension are not made. Proved for histories without wrapped deletions of keys and wrapped retirements."
  },
  {
   "property": "C95",
   "status": "proved",
   "theorems": [
    "Verif.Chain.C95_capacity_spent_by_own_keys",
    "Verif.Chain.C95_stake_changed_by_owner"
   ],
   "note": "In every state, not only reachable ones."
  },
  {
   "property": "C96",
   "status": "proved",
   "theorems": [
    "Verif.Messages.C96_messages_kept",
    "Verif.Messages.C96_rest_untouched",
    "Verif.Messages.C96_in_order"
   ],
   "note": "The earlier release is not in the repository; that it numbered the messages of a block distinctly is a hypothesis, and an example shows that it is needed."
  },
  {
   "property": "C97",
   "status": "partial",
   "theorems": [
    "Verif.Capacity.C97_active_stakers_partial",
    "Verif.Capacity.C97_nothing_released_partial",
    "Verif.Capacity.C97_rest_untouched",
    "Verif.Capacity.C97_full_false"
   ],
   "note": "False: accounts that have unstaked everything are no longer in StakingAccountLedger, which is what the migration iterates over; their lock stays for good and their unlocking chunks get no freeze. Where set_freeze fails the lock is removed all the same. Proved for accounts with active stake whose freeze is accepted. The earlier release is not in the repository; it is assumed to have kept the same books with locks."
  },
  {
   "property": "C98",
   "status": "partial",
   "theorems": [
    "Verif.TimeRelease.C98_covers_partial",
    "Verif.TimeRelease.C98_later_claim_exact_partial",
    "Verif.TimeRelease.C98_rest_untouched",
    "Verif.TimeRelease.C98_full_false"
   ],
   "note": "False: the migration freezes the whole amounts of the schedules, including what was claimed and released before, until the next claim. Where set_freeze fails the lock is removed all the same. Proved: the freeze is the sum of the whole amounts and covers what has not vested, also in any later history, and the next claim sets it exactly. The earlier release is not in the repository; it is assumed to have kept the same books with locks."
  },
  {
   "property": "C99",
   "status": "proved",
   "theorems": [
    "Verif.Capacity.C99_unlocking_withdrawable",
    "Verif.Capacity.C99_unstake_possible",
    "Verif.Capacity.C99_everything_out"
   ],
   "note": "Histories initialise the blocks 1, 2, 3, ... one after the other. That withdrawing thaws the tokens in the balances pallet is modelled, that the account can pay the fee of its calls is not."
  },
  {
   "property": "C100",
   "status": "proved",
   "theorems": [
    "Verif.TimeRelease.C100_free_at_the_end",
    "Verif.TimeRelease.C100_others_do_no_harm"
   ],
   "note": "Root may still replace the schedules of an account; that is excluded by the hypotheses. Whether a freeze can be set, or an account closed, is arbitrary."
  },
  {
   "property": "C101",
   "status": "partial",
   "theorems": [
    "Verif.Chain.C101_can_retire_partial",
    "Verif.Chain.C101_full_false"
   ],
   "note": "False: delete_msa_public_key dispatched from within another call (utility batch, proxy, multisig) is not seen by the transaction extension, so a key of another account can delete a key of the account without lowering its counter; the counter then never returns to one and the account cannot be retired. Proved for histories without such deletions. The calls of the way out are declared free of charge (Pays::No)."
  },
  {
   "property": "C102",
   "status": "partial",
   "theorems": [
    "Verif.Schemas.C102_known_names",
    "Verif.Schemas.C102_other_names",
    "Verif.Schemas.C102_schemas_kept",
    "Verif.Schemas.C102_elsewhere_and_once",
    "Verif.Schemas.C102_nameable_partial",
    "Verif.Schemas.C102_full_false"
   ],
   "note": "The last clause is false: a schema registered under one of the six names before the upgrade loses it but stays marked as named (has_name), so governance can never name it again. Proved without this clause, and with it if each of the six names listed nothing but its own schema before."
  },
  {
   "property": "C103",
   "status": "partial",
   "theorems": [
    "Verif.Offchain.C103_events_removed_partial",
    "Verif.Offchain.C103_full_false",
    "Verif.Offchain.C103_kept_when_dropped"
   ],
   "note": "False for blocks before the one the initial indexing starts from: their events are covered by the index but never removed. Proved for all blocks that the worker handles itself, with any state of the database before, on a node where offchain_index::clear called by a worker takes effect. Substrate drops what a worker clears this way; there nothing is ever removed (C103_kept_when_dropped)."
  },
  {
   "property": "C104",
   "status": "partial",
   "theorems": [
    "Verif.Chain.C104_claim_deletes_page",
    "Verif.Chain.C104_full_false",
    "Verif.Chain.C104_delegation_is_passkey_proof",
    "Verif.Chain.C104_handle_delegation_partial",
    "Verif.Chain.C104_handle_key_partial",
    "Verif.Chain.C104_handle_passkey_partial",
    "Verif.Chain.C104_lengths_partial",
    "Verif.Chain.C104_handle_storage_partial",
    "Verif.Chain.C104_kinds_apart_partial",
    "Verif.Chain.C104_kinds_collide",
    "Verif.Chain.C104_key_storage_partial",
    "Verif.Chain.C104_delegation_storage_partial"
   ],
   "note": "False: payloads carry no tag. The claim of the handle `tzwam` is byte for byte the request to delete page 29 of schema 5 with a certain hash, and on the chain of the witness (with the real page hash) one signature does both. Any delegation of ten schemas has the length of a passkey and its signature is accepted as the ownership proof of one, which lets anybody transfer the delegator's tokens. Every pair of kinds of different pallets is decided: key additions against claims, passkeys and deletions, and deletions against passkeys never share bytes (C104_kinds_apart_partial); every other pair does for some values (C104_kinds_collide). For values in use: claims and delegations, claims and well-formed passkeys, claims and storage requests unless the schema (or account) number is the length of the name; key additions and delegations against storage requests that expire between blocks 2^16 and 2^24 (C104_key_storage_partial, C104_delegation_storage_partial)."
  },
  {
   "property": "C105",
   "status": "proved",
   "theorems": [
    "Verif.Chain.C105_origins",
    "Verif.Chain.C105_granted_registered",
    "Verif.Chain.C105_storage_schema",
    "Verif.Chain.C105_messages",
    "Verif.Chain.C105_past_messages_fixed",
    "Verif.Chain.C105_handle_kept",
    "Verif.Chain.C105_handle_set",
    "Verif.Chain.C105_blocks"
   ],
   "note": ""
  },
  {
   "property": "C106",
   "status": "partial",
   "theorems": [
    "Verif.Msa.C106_yes_kept_partial",
    "Verif.Msa.C106_no_kept_partial",
    "Verif.Msa.C106_answers",
    "Verif.Msa.C106_all_granted",
    "Verif.Msa.C106_full_false"
   ],
   "note": "False of the code: no start of a delegation is stored, so after a grant in block 4 the node answers yes about block 2 (C106_full_false). Partial: a yes is never taken back (C106_yes_kept_partial); a no becomes a yes only after the delegator has signed for the provider again or has revoked the same schema again (C106_no_kept_partial). The other three sentences are proved (C106_answers, C106_all_granted)."
  },
  {
   "property": "C107",
   "status": "proved",
   "theorems": [
    "Verif.Msa.C107_keys",
    "Verif.Msa.C107_accounts",
    "Verif.Msa.C107_providers",
    "Verif.Msa.C107_delegations",
    "Verif.Msa.C107_change_reported"
   ],
   "note": ""
  },
  {
   "property": "C108",
   "status": "proved",
   "theorems": [
    "Verif.Stateful.C108_followed_hash",
    "Verif.Stateful.C108_unbroken",
    "Verif.Stateful.C108_change_reported"
   ],
   "note": ""
  },
  {
   "property": "C109",
   "status": "partial",
   "theorems": [
    "Verif.Capacity.C109_staker_partial",
    "Verif.Capacity.C109_provider_bound_partial",
    "Verif.Capacity.C109_provider_stake_partial",
    "Verif.Capacity.C109_spent",
    "Verif.Capacity.C109_full_false",
    "Verif.Capacity.C109_rounding"
   ],
   "note": "False of the code for providers: the subtractions of reduce_capacity saturate while the event reports the whole amount. An unstake of 150 from a provider that was staked 100 reports 150 (C109_full_false), and with unstakes within the stake, rounding up makes the reported capacities 5 where 4 were issued (C109_rounding). Partial: sums for accounts, freezes and the epoch length (C109_staker_partial), for providers an inequality (C109_provider_bound_partial) and equality of stake if no unstake takes more than was staked to the target (C109_provider_stake_partial). Spending is proved (C109_spent)."
  },
  {
   "property": "C110",
   "status": "partial",
   "theorems": [
    "Verif.Handles.C110_spaces",
    "Verif.Handles.C110_full_false",
    "Verif.Handles.C110_two_spellings",
    "Verif.Handles.C110_spellings_partial",
    "Verif.Handles.C110_lookup_partial",
    "Verif.Handles.C110_canonical_found_partial"
   ],
   "note": "False of the code for names with a capital L: look-alikes are replaced before letters are lowered, so l becomes 1 and L becomes l. PAUL1.13 and paul1.13 belong to different accounts, and the canonical name reported for the first leads to the second (C110_full_false, C110_two_spellings). Partial: white space (C110_spaces, for all names), spelling of ASCII names without a capital L, where two names have the same canonical form exactly if they are spellings of each other (C110_spellings_partial, C110_lookup_partial), and the canonical name of such accounts (C110_canonical_found_partial)."
  },
  {
   "property": "C111",
   "status": "proved",
   "theorems": [
    "Verif.Runtime.C111_governance_only",
    "Verif.Runtime.C111_governance_all",
    "Verif.Runtime.C111_staking",
    "Verif.Runtime.C111_cancelling"
   ],
   "note": ""
  },
  {
   "property": "C112",
   "status": "proved",
   "theorems": [
    "Verif.TxPayment.C112_tenth_of_cent",
    "Verif.TxPayment.C112_monotone",
    "Verif.TxPayment.C112_estimate",
    "Verif.TxPayment.C112_zero_iff",
    "Verif.TxPayment.C112_split"
   ],
   "note": ""
  },
  {
   "property": "C113",
   "status": "partial",
   "theorems": [
    "Verif.Chain.C113_done_partial",
    "Verif.Chain.C113_taken_partial",
    "Verif.Chain.C113_full_false",
    "Verif.Chain.C113_no_limit"
   ],
   "note": "False of the code: in the block of a revocation the delegation still counts as valid, so the free revocation can be repeated without limit while the block lasts; each is taken into the block, fails and costs nothing (C113_full_false, C113_no_limit). Partial: free transactions whose call succeeds (C113_done_partial, all histories), and all free transactions taken other than revocations of a delegation revoked already, in histories without wrapped deletions of keys (C113_taken_partial, which also shows that such transactions do not fail)."
  },
  {
   "property": "C114",
   "status": "partial",
   "theorems": [
    "Verif.Schemas.C114_avro_partial",
    "Verif.Schemas.C114_parquet_partial",
    "Verif.Schemas.C114_full_false"
   ],
   "note": "False of the code: serde ignores unknown fields of a column without checking that they are UTF-8, so anyone can register a Parquet schema that the RPC can never return (C114_full_false). Partial: all Avro schemas in all histories (C114_avro_partial), and Parquet schemas without unknown fields (C114_parquet_partial)."
  },
  {
   "property": "C115",
   "status": "partial",
   "theorems": [
    "Verif.Parquet.C115_partial",
    "Verif.Parquet.C115_full_false"
   ],
   "note": "False of the code: the variant ZSTD is renamed by SCREAMING_SNAKE_CASE to Z_S_T_D, so that models with the compression ZSTD are refused (C115_full_false). Partial: all lists of columns without this compression (C115_partial). Exactly which models are registered: C163_registered_iff."
  },
  {
   "property": "C116",
   "status": "proved",
   "theorems": [
    "Verif.Schemas.C116_registered_iff",
    "Verif.Schemas.C116_registered",
    "Verif.Schemas.C116_unambiguous"
   ],
   "note": ""
  },
  {
   "property": "C117",
   "status": "proved",
   "theorems": [
    "Verif.Council.C117_providers",
    "Verif.Council.C117_schemas",
    "Verif.Council.C117_members"
   ],
   "note": "The calls are modelled on top of the chain of the six pallets; pallet_collective from its published source. Requests other than single calls of the six pallets (batches, scheduled calls) do nothing in the model."
  },
  {
   "property": "C118",
   "status": "partial",
   "theorems": [
    "Verif.Council.C118_schemas_partial",
    "Verif.Council.C118_providers",
    "Verif.Council.C118_alone",
    "Verif.Council.C118_full_false"
   ],
   "note": "False of the code: the number of votes is fixed when the request is made. When the council has become smaller, a motion that every member has voted for can be closed by anybody as rejected (C118_full_false); when it has grown, a motion can be closed by anybody without effect before a majority has voted (example beside it). Partial: exact outcome of closing as long as the council has as many members as when the request was made; for providers without that condition (C118_providers)."
  },
  {
   "property": "C119",
   "status": "partial",
   "theorems": [
    "Verif.Council.C119_ask_partial",
    "Verif.Council.C119_room_partial",
    "Verif.Council.C119_full_false"
   ],
   "note": "False of the code: asking takes no deposit and no account, so one key can fill all 25 places with requests for schemas, after which also members of the council cannot propose anything (C119_full_false). Partial: acceptance and effect of the four calls as an equivalence (C119_ask_partial), and there are never more motions than places."
  },
  {
   "property": "C120",
   "status": "proved",
   "theorems": [
    "Verif.Council.C120_votes",
    "Verif.Council.C120_motions",
    "Verif.Council.C120_once",
    "Verif.Council.C120_stays"
   ],
   "note": ""
  },
  {
   "property": "C121",
   "status": "proved",
   "theorems": [
    "Verif.Rpc.C121_messages",
    "Verif.Rpc.C121_pages",
    "Verif.Rpc.C121_items",
    "Verif.Rpc.C121_storage_errors",
    "Verif.Rpc.C121_handle",
    "Verif.Rpc.C121_suffixes",
    "Verif.Rpc.C121_schema",
    "Verif.Rpc.C121_versions",
    "Verif.Rpc.C121_grants",
    "Verif.Rpc.C121_events"
   ],
   "note": "Hypotheses: every number is within its type in the code. Writer of serde_json, itoa and impl_serde from their published sources; account identifiers in answers (msa_getKeysByMsaId) are not modelled."
  },
  {
   "property": "C122",
   "status": "proved",
   "theorems": [
    "Verif.Handles.C122_directory",
    "Verif.Handles.C122_query",
    "Verif.Handles.C122_sound",
    "Verif.Handles.C122_step"
   ],
   "note": ""
  },
  {
   "property": "C123",
   "status": "partial",
   "theorems": [
    "Verif.TimeRelease.C123_view_right_partial",
    "Verif.TimeRelease.C123_view_known",
    "Verif.TimeRelease.C123_announced",
    "Verif.TimeRelease.C123_full_false"
   ],
   "note": "False of the code: ReleaseSchedulesUpdated names the account only, not the schedules root gave it, so two different updates are announced alike (C123_full_false). Proved: all that the events tell is right (C123_view_right_partial); it is complete as long as root has not updated the account, and again once a claim for it reports zero (C123_view_known); which calls are announced, and how (C123_announced)."
  },
  {
   "property": "C124",
   "status": "partial",
   "theorems": [
    "Verif.TxPayment.C124_paid_iff",
    "Verif.TxPayment.C124_stake_pays_partial",
    "Verif.TxPayment.C124_least_fee",
    "Verif.TxPayment.C124_greatest_fee",
    "Verif.TxPayment.C124_stakes",
    "Verif.TxPayment.C124_full_false"
   ],
   "note": "The first sentence is false of the code: the minimum stake of 0.01 tokens gives a capacity of 20,000, which pays for no transaction whatever (C124_full_false); less than 0.08890576 tokens never do, and 422 tokens with half a token for every hundred bytes always do (C124_stakes). Proved exactly: which sequences of transactions a stake pays for (C124_stake_pays_partial, C124_paid_iff), and the least and the greatest fee."
  },
  {
   "property": "C125",
   "status": "proved",
   "theorems": [
    "Verif.Tx.C125_included_capacity",
    "Verif.Tx.C125_included_tokens",
    "Verif.Tx.C125_capacity_effect",
    "Verif.Tx.C125_token_effect",
    "Verif.Tx.C125_refused",
    "Verif.Tx.C125_same_effect",
    "Verif.Tx.C125_by_signer",
    "Verif.Tx.C125_total",
    "Verif.Tx.C125_outcome",
    "Verif.Tx.C125_token_outcome",
    "Verif.Tx.C125_batch",
    "Verif.Tx.C125_force_batch",
    "Verif.Tx.C125_batch_all"
   ],
   "note": "The utility batches and both capacity calls are modelled with any nesting; wrappers that change the signer (proxy, multisig, derived accounts) are in C127. Fees in tokens are a yes or no given with the transaction. C125_by_signer carries everything proved of histories of the chain over to transactions. What calls within calls do is stated by rules that use no function of the model but the dispatch of single calls (C125_outcome), and for plain lists of calls once more directly (C125_batch, C125_force_batch, C125_batch_all)."
  },
  {
   "property": "C126",
   "status": "proved",
   "theorems": [
    "Verif.Tx.C126_signed_up",
    "Verif.Tx.C126_not_signed_up"
   ],
   "note": ""
  },
  {
   "property": "C127",
   "status": "proved",
   "theorems": [
    "Verif.Wrapped.C127_log",
    "Verif.Wrapped.C127_circle",
    "Verif.Wrapped.C127_stake",
    "Verif.Wrapped.C127_limited",
    "Verif.Wrapped.C127_limited_stays",
    "Verif.Wrapped.C127_delay",
    "Verif.Wrapped.C127_history"
   ],
   "note": "The proxy, multisig and utility pallets belong to the framework and are modelled from their published behaviour, with the filters and limits of the runtime, on the chain with its tokens; deposits, weights and timepoints are left out, which only adds executions. Assumes that numbers of multisig accounts (hashes of members and threshold) do not collide. Passkey transactions (C66), root and the council (C117) are not part of the histories. On calls without wrappers that change the caller the model agrees with that of C133 (C135_agree), and so with that of C125 (C133_six_pallets)."
  },
  {
   "property": "C128",
   "status": "partial",
   "theorems": [
    "Verif.Wrapped.C128_kept_partial",
    "Verif.Wrapped.C128_full_false"
   ],
   "note": "False of the code in one point: that a key is deleted only by its own account is checked by a transaction extension for the outermost call only (see C03), so anybody with an MSA can delete any key from within a batch (C128_full_false). C128_kept_partial shows everything else, and that a key is lost in no other way. The histories are those of C127, continued from any history of the chain that starts at genesis."
  },
  {
   "property": "C129",
   "status": "partial",
   "theorems": [
    "Verif.Wrapped.C129_own_partial",
    "Verif.Wrapped.C129_full_false"
   ],
   "note": "False of the code in one point, the same as C128: anybody with an MSA can delete any key from within a batch, after which the owner can do nothing with it (C129_full_false). C129_own_partial shows everything else: as long as nobody has a key of the group deleted, no call that would have succeeded before fails afterwards."
  },
  {
   "property": "C130",
   "status": "partial",
   "theorems": [
    "Verif.Chain.C130_applies",
    "Verif.Chain.C130_limits",
    "Verif.Chain.C130_storage",
    "Verif.Chain.C130_keys_partial",
    "Verif.Chain.C130_full_false"
   ],
   "note": "False of the code as for keys: wrapped deletions of keys of others make the counter of the deleting account too small, so that it can get a 26th key and more (C130_full_false, C02). C130_keys_partial has the limit for histories where keys are deleted by direct transactions only. The other limits hold without exception (C130_limits, C130_storage); C130_applies shows that the constants meet the assumptions of other theorems. The documented limit of 65,000 schemas is not enforced (C44). Storage is for account ids on which the hash of the child tries has no collisions, as in C25."
  },
  {
   "property": "C131",
   "status": "partial",
   "theorems": [
    "Verif.Tokens.C131_histories",
    "Verif.Tokens.C131_not_vested",
    "Verif.Tokens.C131_held_back_stays",
    "Verif.Tokens.C131_staked_partial",
    "Verif.Tokens.C131_nothing_moves",
    "Verif.Tokens.C131_conserved",
    "Verif.Tokens.C131_transfer",
    "Verif.Tokens.C131_transfer_all",
    "Verif.Tokens.C131_full_false"
   ],
   "note": "False of the code in the first clause: the capacity pallet takes the free balance, staked or not, for stakable, so that 1000 tokens can be staked as 1800 (C131_full_false; the cause is C58). C131_staked_partial has the clause for histories where each stake is covered by free tokens besides those staked; C131_not_vested has it for schedules without exception. The other clauses hold of all histories. The balances pallet is not in the repository and is modelled from its published interface; governance setting balances and slashing deposits is left out."
  },
  {
   "property": "C132",
   "status": "proved",
   "theorems": [
    "Verif.Tx.C132_capacity",
    "Verif.Tx.C132_charged",
    "Verif.Tx.C132_free",
    "Verif.Tx.C132_tokens",
    "Verif.Tx.C132_more",
    "Verif.Tx.C132_batch",
    "Verif.Tx.C132_price"
   ],
   "note": "The first versions of the storage calls with a signature are payable with capacity as well, and grant_delegation, listed with capacity only, can also be paid with tokens; both are in the proved list. Prices are those of the constants of the runtime; the times of the database are left open. Fees in tokens are a yes or no given with the transaction."
  },
  {
   "property": "C133",
   "status": "proved",
   "theorems": [
    "Verif.Wallet.C133_by_signer",
    "Verif.Wallet.C133_kept",
    "Verif.Wallet.C133_included",
    "Verif.Wallet.C133_refused",
    "Verif.Wallet.C133_cost",
    "Verif.Wallet.C133_transfer",
    "Verif.Wallet.C133_paid",
    "Verif.Wallet.C133_conserved",
    "Verif.Wallet.C133_six_pallets"
   ],
   "note": "The balances pallet is modelled from its published interface. Fees in tokens and what is paid back of them are given with the transaction. Proxies, multisigs and derived accounts are not among the calls here; C135 has them. Slashing and the setting of balances by governance are left out."
  },
  {
   "property": "C134",
   "status": "partial",
   "theorems": [
    "Verif.Wallet.C134_once_partial",
    "Verif.Wallet.C134_others",
    "Verif.Wallet.C134_full_false"
   ],
   "note": "False of the code: the number of an account is stored with the account, and is forgotten when all its tokens are transferred away. When the account gets tokens again its numbers begin at zero, and an old transaction without an end of validity is included once more, C134_full_false. Free calls of accounts without tokens never use up a number. Proved: as long as the account is never without tokens no number is used twice, and nobody but the signer changes the number. The validity period that a signer can give a transaction is not modelled."
  },
  {
   "property": "C135",
   "status": "proved",
   "theorems": [
    "Verif.Wrapped.C135_agree",
    "Verif.Wrapped.C135_kept",
    "Verif.Wrapped.C135_alone"
   ],
   "note": "Balances, proxy, multisig and utility pallets are modelled from their published behaviour. Deposits of proxies, announcements and multisig operations are left out; they are taken from those who act. Governance is not part of these histories (C133 has it). Assumes that numbers of multisig accounts do not collide."
  },
  {
   "property": "C136",
   "status": "partial",
   "theorems": [
    "Verif.Wrapped.C136_limited_partial",
    "Verif.Wrapped.C136_full_false"
   ],
   "note": "False of the code: ProxyType::NonTransfer lets all calls of the multisig pallet pass, and what a multisig account executes does not go through the filter of the proxy. So a proxy that may not transfer can move the tokens of every multisig account in which the account it acts for suffices, C136_full_false, and can approve transfers of the others. Proved: without multisig accounts in the set no tokens are moved, no call that transfers is executed for a member, and nobody changes their proxies, C136_limited_partial. The model is that of C127 and C135."
  },
  {
   "property": "C137",
   "status": "proved",
   "theorems": [
    "Verif.Chain.C137_chain",
    "Verif.Stateful.C137_outcomes",
    "Verif.Stateful.C137_contents"
   ],
   "note": "Assumes that the hashes of the tries of different accounts and kinds differ, as C25 does. Events and weights are not part of the claim."
  },
  {
   "property": "C138",
   "status": "partial",
   "theorems": [
    "Verif.Whole.C138_circle_partial",
    "Verif.Whole.C138_kept_partial",
    "Verif.Whole.C138_alone_partial",
    "Verif.Whole.C138_effect",
    "Verif.Whole.C138_once",
    "Verif.Whole.C138_full_false"
   ],
   "note": "False of the code: the pallet verifies the signature of the account on the public key of the passkey, but never the signature of the passkey. Whoever has seen one passkey transaction of an account can submit further ones and transfer its tokens (`C138_full_false`; the call is not part of the main network). Proved: the tokens stay as long as no passkey transaction comes with a signature of one of the accounts on the public key in it (`C138_kept_partial`, `C138_alone_partial`, `C138_circle_partial`); what a passkey transaction does, exactly (`C138_effect`); that it takes effect once (`C138_once`). Fees are given with the transactions."
  },
  {
   "property": "C139",
   "status": "proved",
   "theorems": [
    "Verif.Whole.C139_starts",
    "Verif.Whole.C139_contents",
    "Verif.Whole.C139_supply"
   ],
   "note": "The balances and treasury pallets are modelled from their published interface. Balances set by root through the balances pallet are left out, as in C131. Fees are burned, runtime/frequency/src/lib.rs 860."
  },
  {
   "property": "C140",
   "status": "partial",
   "theorems": [
    "Verif.Offchain.C140_follows_partial",
    "Verif.Offchain.C140_without_forks_partial",
    "Verif.Offchain.C140_waits",
    "Verif.Offchain.C140_full_false",
    "Verif.Offchain.C140_read_from_fork"
   ],
   "note": "False of the code (C140_full_false): events are stored under the number of the block only, so a competing block imported after the one that becomes final replaces its events, and the list of an account gets the keys of the other chain. Also when the initial indexing reads the keys of a block that does not become final (C140_read_from_fork). Proved: the full claim if for every number the block with key events imported last is on the finalized chain and the block read at the start has no key events of its own; in particular without forks. That Substrate writes the index of every imported block is taken from its documentation; it is not part of the repository."
  },
  {
   "property": "C141",
   "status": "proved",
   "theorems": [
    "Verif.Weights.C141_few",
    "Verif.Weights.C141_retrievable",
    "Verif.Weights.C141_exact"
   ],
   "note": "Weights of messages and the limits of blocks are those of the runtime; weights and classes of all other calls, and what wrapping calls add and give back, are arbitrary. CheckWeight, the weights of batch, proxy and multisig calls and get_dispatch_info belong to the framework and are modelled from their published behaviour, only for the reference time and the class Normal; the other limits only exclude more. dispatch_as and with_weight of root are not part of the histories (they could execute messages without weight). The payload of calls is assumed to be decodable (shorter than 2^32 bytes), as any transaction is."
  },
  {
   "property": "C142",
   "status": "partial",
   "theorems": [
    "Verif.Offchain.C142_after_partial",
    "Verif.Offchain.C142_during_partial",
    "Verif.Offchain.C142_ends_partial",
    "Verif.Offchain.C142_blocks_partial",
    "Verif.Offchain.C142_full_false"
   ],
   "note": "False of the code: both locks expire after some blocks and some seconds (40 and 3 for the initial indexing, 20 and 5 for the blocks), whether or not the run that took them is alive, and a run writes lists that it computed from lists read earlier. A run that is slower than that and resumes after another one has handled later blocks overwrites a list with an old one, and a key that joined meanwhile is missing for good (`C142_full_false`). Proved when no lock expires while the run that took it is going on, for every interleaving and with restarts (except during the initial indexing) for the claims about single runs. No lock expires while no run goes on for more than 20 blocks, however long blocks take (`C142_blocks_partial`). The guards of the two `lock()` calls at 253-258 and 350-357 are bound to `_` and so dropped at once: writes of these two values are not covered by a lock, which is modelled. StorageLock and BlockAndTime belong to the framework and are modelled from their published behaviour; the block number a run compares the deadline with is that of its own block and stays the same. One finalized number per run, on one chain without forks (for forks see C140)."
  },
  {
   "property": "C143",
   "status": "partial",
   "theorems": [
    "Verif.Pool.C143_own_partial",
    "Verif.Pool.C143_tags",
    "Verif.Pool.C143_full_false"
   ],
   "note": "False of the code: the passkey pallet verifies only the account's signature on the public key of the passkey, so anybody who has seen one passkey transaction can displace whatever waits of the account with one of higher priority (C143_full_false; the call is not part of the main network). Proved: submissions change only what waits of their own account, and need a signature of the account on the transaction or on the public key in it; the bytes of the tags are different for different tags. The transaction pool is not part of the repository and modelled from its published behaviour, without limits of its size."
  },
  {
   "property": "C144",
   "status": "partial",
   "theorems": [
    "Verif.Pool.C144_one_partial",
    "Verif.Pool.C144_numbers",
    "Verif.Pool.C144_handles",
    "Verif.Pool.C144_full_false"
   ],
   "note": "False of the code for handles: the extension of the handles pallet names a tag prefix but provides no tag, so whoever can retire a handle can have any number of free transactions ready, without any tokens (C144_handles, C144_full_false). Proved for the other four kinds and for numbers. Transactions that wait for a lower number are not limited by tags."
  },
  {
   "property": "C145",
   "status": "partial",
   "theorems": [
    "Verif.Pool.C145_all_partial",
    "Verif.Pool.C145_full_false"
   ],
   "note": "False of the code: two free transactions of the same kind of the msa pallet share a tag whatever their numbers are, so a provider who revokes two delegations with consecutive numbers has the second one refused, or, with a higher priority, the first one thrown out (C145_full_false and the example after it). Proved for all other transactions."
  },
  {
   "property": "C146",
   "status": "partial",
   "theorems": [
    "Verif.KeyIndex.C146_few",
    "Verif.KeyIndex.C146_index_partial",
    "Verif.KeyIndex.C146_index_direct_partial",
    "Verif.KeyIndex.C146_full_false"
   ],
   "note": "The first sentence is proved in full: at most 1,393 key events per block (C146_few), far below 65,535. The second is false of the code: a deletion within a batch is not checked by the signed extension, so a key can delete a key of another account, and the event names the account of the deleting key; the index then keeps the deleted key for good (C146_full_false). Proved if every deleted key belongs to the account that deletes it, in particular if keys are deleted by transactions of their own (C146_index_partial, C146_index_direct_partial). Interrupted initial indexing: see C17; forks: see C140; overlapping runs: see C142."
  },
  {
   "property": "C147",
   "status": "partial",
   "theorems": [
    "Verif.Schemas.C147_follow_partial",
    "Verif.Schemas.C147_new",
    "Verif.Schemas.C147_full_false"
   ],
   "note": "False across the upgrade to storage version 4, which gives schemas names without the event for names (C147_full_false: the query answers versions of which the observer never heard). Proved from any point for histories without that upgrade (C147_follow_partial), and for all new chains, whatever upgrades run on them, because these start with the current storage version (C147_new)."
  },
  {
   "property": "C148",
   "status": "partial",
   "theorems": [
    "Verif.Pool.C148_listed",
    "Verif.Pool.C148_report_partial",
    "Verif.Pool.C148_full_false"
   ],
   "note": "False of the code for two free transactions of the msa pallet of the same kind and account, such as two revocations: they provide the same tag although their numbers differ, one of them is refused, and its number is reported as missing although it was submitted (C148_full_false; the cause is that of C145). Proved for all other transactions (C148_report_partial), for every order in which the pool may list them; such an order exists (C148_listed). The pool itself is not part of the repository, its behaviour is assumed as described in Pool/Model.lean."
  },
  {
   "property": "C149",
   "status": "partial",
   "theorems": [
    "Verif.Sealing.C149_interval",
    "Verif.Sealing.C149_submitted",
    "Verif.Sealing.C149_final",
    "Verif.Sealing.C149_no_empty",
    "Verif.Sealing.C149_every_tick",
    "Verif.Sealing.C149_manual",
    "Verif.Sealing.C149_answered_partial",
    "Verif.Sealing.C149_instant_room_partial",
    "Verif.Sealing.C149_instant_order_partial",
    "Verif.Sealing.C149_full_false",
    "Verif.Sealing.C149_unanswered"
   ],
   "note": "False of the code in two points. Instant sealing: the pool notifies only of the transaction that was submitted, not of those that become ready with it; if transaction 1 comes before transaction 0 and they do not fit in a block together, transaction 1 stays in the pool until something else is submitted (C149_full_false). Proved if blocks have room for all ready transactions (C149_instant_room_partial), and for any room if no transaction comes before those it requires and there are never 1024 unhandled notifications (C149_instant_order_partial). Commands: engine_createBlock without empty blocks and without ready transactions is skipped and its sender dropped without an answer (C149_unanswered); all others are answered (C149_answered_partial). The rest is proved (C149_interval, C149_no_empty, C149_every_tick, C149_manual, C149_submitted, C149_final). Pool and seal_block are not part of the repository and assumed as described in Sealing/Model.lean."
  },
  {
   "property": "C150",
   "status": "proved",
   "theorems": [
    "Verif.Pool.C150_agree",
    "Verif.Pool.C150_next",
    "Verif.Pool.C150_else"
   ],
   "note": "Proved for all transactions (C150_agree, C150_next, C150_else). The signature of signed transactions, their mortality and the room in the block are not part of the model of the pool."
  },
  {
   "property": "C151",
   "status": "partial",
   "theorems": [
    "Verif.Network.C151_elsewhere_partial",
    "Verif.Network.C151_binds",
    "Verif.Network.C151_passkey",
    "Verif.Network.C151_payload",
    "Verif.Network.C151_full_false"
   ],
   "note": "Proved for signed transactions: no effect with another genesis block, runtime version or block where the period begins (C151_elsewhere_partial); one signature fixes call, number, tip and period (C151_binds). False for passkey transactions (C151_passkey) and for payloads that others submit (C151_payload), since neither names the network: C151_full_false."
  },
  {
   "property": "C152",
   "status": "partial",
   "theorems": [
    "Verif.Network.C152_period",
    "Verif.Network.C152_only",
    "Verif.Network.C152_lasts_partial",
    "Verif.Network.C152_wanted",
    "Verif.Network.C152_codec",
    "Verif.Network.C152_full_false"
   ],
   "note": "Proved: nowhere else (C152_period, C152_only, for any other state of the network and so also with emptied accounts), everywhere in the period if that is at most 4098 blocks (C152_lasts_partial), what wallets get (C152_wanted, C152_codec). Longer periods end early, when the hash of their first block is dropped: C152_full_false."
  },
  {
   "property": "C153",
   "status": "partial",
   "theorems": [
    "Verif.Specs.C153_name_partial",
    "Verif.Specs.C153_file_partial",
    "Verif.Specs.C153_reload_partial",
    "Verif.Specs.C153_apart_partial",
    "Verif.Specs.C153_default",
    "Verif.Specs.C153_relay",
    "Verif.Specs.C153_local_reload",
    "Verif.Specs.C153_panics",
    "Verif.Specs.C153_shared",
    "Verif.Specs.C153_full_false"
   ],
   "note": "Proved for names, defaults and relay chains (C153_name_partial, C153_default, C153_relay), for files with one of five ids (C153_file_partial), for reloading of and separate databases for main and test networks (C153_reload_partial, C153_apart_partial). False otherwise: the local networks and the benchmark one are built without an id and so get the id dev; their files are refused by the node that wrote them (C153_local_reload; scripts/generate_specs.sh does this) and they share a database (C153_shared). Files with another id make the node panic (C153_panics)."
  },
  {
   "property": "C154",
   "status": "partial",
   "theorems": [
    "Verif.Governance.C154_referendum_partial",
    "Verif.Governance.C154_notice",
    "Verif.Governance.C154_full_false"
   ],
   "note": "Proved for all histories: every call executed as root goes back to a referendum that passed, with the periods and origins of the statement (C154_referendum_partial, in numbers C154_notice), and with more votes for it than against it unless the whole council had asked for a referendum that only fails by a majority against it. False in that case (C154_full_false): ten votes for it, fifty against it, low turnout, executed as root two blocks after the council proposed it and the committee set a voting period of one block."
  },
  {
   "property": "C155",
   "status": "partial",
   "theorems": [
    "Verif.Governance.C155_veto_partial",
    "Verif.Governance.C155_veto_named",
    "Verif.Governance.C155_cancelled_partial",
    "Verif.Governance.C155_can",
    "Verif.Governance.C155_once",
    "Verif.Governance.C155_unstoppable",
    "Verif.Governance.C155_full_false",
    "Verif.Governance.C155_veto_overruled"
   ],
   "note": "Proved: during the cool-off period nobody can propose the call again in the ways that a veto binds, and a referendum on it is opened only if more than half of the council, or root, asked again after the veto (C155_veto_partial, for calls not already among the public proposals). A cancelled referendum never passes and is never carried out (C155_cancelled_partial); two thirds of the council can cancel while votes are open (C155_can), once per proposal (C155_once). False otherwise: more than half of the council overrules a veto at once (C155_veto_overruled), and after a referendum passed nobody but root can stop it (C155_unstoppable, C155_full_false), although the comment at lib.rs 760 says that two thirds of the council can. A veto strikes only the proposal it names (C155_veto_named)."
  },
  {
   "property": "C156",
   "status": "partial",
   "theorems": [
    "Verif.Capacity.C156_share_partial",
    "Verif.Capacity.C156_record",
    "Verif.Capacity.C156_free",
    "Verif.Capacity.C156_beyond",
    "Verif.Capacity.C156_full_false"
   ],
   "note": "Proved with the library's Perbill::from_rational: an unstake that does not end the staker's record takes the share up to two billionths of the capacity less, or one billionth and a unit more (C156_share_partial); one that ends the record takes what the record holds (C156_record); one beyond the whole stake takes all (C156_beyond). False otherwise: less than a billionth of the stake can be unstaked without any loss of capacity (C156_free, C156_full_false: 40 units of 50,000,000,000)."
  },
  {
   "property": "C157",
   "status": "partial",
   "theorems": [
    "Verif.Handles.C157_found_partial",
    "Verif.Handles.C157_numerals",
    "Verif.Handles.C157_full_false"
   ],
   "note": "Proved: whatever text is looked up, an account found has a handle with the canonical form of the part before the only dot, and the part after it is a numeral of its suffix (C157_found_partial). False as stated: the library's parser also takes leading zeros and a plus sign, so that PAUL1.+13 and PAUL1.013 lead to the holder of PAUL1.13 (C157_numerals, C157_full_false)."
  },
  {
   "property": "C158",
   "status": "proved",
   "theorems": [
    "Verif.TxPayment.C158_block",
    "Verif.TxPayment.C158_day",
    "Verif.TxPayment.C158_fall",
    "Verif.TxPayment.C158_calm",
    "Verif.TxPayment.C158_busy",
    "Verif.TxPayment.C158_quiet"
   ],
   "note": "The update of the multiplier (SlowAdjustingFeeUpdate) and the composition of the fee are in the Polkadot SDK, not in the repository; they are modelled from their published source with the weights of this runtime. The minimal multiplier of the library is left open."
  },
  {
   "property": "C159",
   "status": "partial",
   "theorems": [
    "Verif.Treasury.C159_approved",
    "Verif.Treasury.C159_rejected",
    "Verif.Treasury.C159_leaves",
    "Verif.Treasury.C159_total",
    "Verif.Treasury.C159_gets_partial",
    "Verif.Treasury.C159_full_false",
    "Verif.Treasury.C159_due",
    "Verif.Treasury.C159_waits",
    "Verif.Treasury.C159_bonds",
    "Verif.Treasury.C159_lasts",
    "Verif.Treasury.C159_room"
   ],
   "note": "False of the code for one kind of award: one of less than the existential deposit to an account that does not exist is announced and the proposal is closed, but the beneficiary gets nothing (C159_full_false); proved for all other awards. pallet_treasury is in the Polkadot SDK, not in the repository; it is modelled from its published source with the configuration of this runtime. Comments in the code speak of a payout every four weeks and of 16 approvals per week; the period of the main network is one week."
  },
  {
   "property": "C160",
   "status": "proved",
   "theorems": [
    "Verif.Network.C160_bytes",
    "Verif.Network.C160_short",
    "Verif.Network.C160_no_transaction",
    "Verif.Network.C160_no_request"
   ],
   "note": "The encoding of calls is a parameter, of which the first two bytes are assumed as the runtime and the SCALE codec give them: the number of the pallet and, in pallet 60, a call number up to 12 (Indexed). That a signature is one of one message (OneMessage) and that no hash reads `<Bytes>...</Bytes>` (NoText) are hypotheses on cryptography."
  },
  {
   "property": "C161",
   "status": "partial",
   "theorems": [
    "Verif.Handles.C161_validate",
    "Verif.Handles.C161_refused",
    "Verif.Handles.C161_suffixes",
    "Verif.Handles.C161_next_partial",
    "Verif.Handles.C161_back_partial",
    "Verif.Handles.C161_too_long",
    "Verif.Handles.C161_found_partial",
    "Verif.Handles.C161_full_false",
    "Verif.Handles.C161_spaces"
   ],
   "note": "Proved: what is accepted as a name, for every text (C161_validate), that refused names cannot be had (C161_refused), which questions are refused and how many suffixes are named (C161_suffixes, C161_too_long), that they are the next ones (C161_next_partial) and that a reported handle leads back to its account (C161_back_partial), both for canonical names of at most 32 bytes, and the texts that lead to an account (C161_found_partial). False as stated: with canonical names of more than 32 bytes the reported handle of one account leads to another (C161_full_false), see C30. Three spaces are accepted as a name and cannot be claimed (C161_spaces), see C36."
  },
  {
   "property": "C162",
   "status": "partial",
   "theorems": [
    "Verif.Deposits.C162_reserved_partial",
    "Verif.Deposits.C162_nothing_left_partial",
    "Verif.Deposits.C162_back_partial",
    "Verif.Deposits.C162_own",
    "Verif.Deposits.C162_amounts",
    "Verif.Deposits.C162_full_false",
    "Verif.Deposits.C162_too_much",
    "Verif.Deposits.C162_removed"
   ],
   "note": "Proved in full: nobody pays for the call of another, never out of frozen tokens, tokens only move between free and reserved (C162_own), the prices (C162_amounts), and who removes what (C162_removed). Proved as long as pure accounts keep the one registration they were created with until they are given up: the sum (C162_reserved_partial), that nothing stays reserved (C162_nothing_left_partial) and that deposits become free in full (C162_back_partial). False otherwise: if a pure account removes its proxies, the deposit of whoever created it stays reserved for ever (C162_full_false); if it adds a proxy and is given up, its creator is given back more than was deposited, out of another deposit (C162_too_much)."
  },
  {
   "property": "C163",
   "status": "partial",
   "theorems": [
    "Verif.Schemas.C163_registered_partial",
    "Verif.Schemas.C163_registered_iff",
    "Verif.Schemas.C163_unambiguous",
    "Verif.Schemas.C163_full_false"
   ],
   "note": "Proved: exactly which models are registered (C163_registered_iff), that every registered one is a list of columns with every field exactly once (C163_registered_partial), and that it has one meaning (C163_unambiguous). False in full: members of a column that are no fields are skipped without being read, so that a registered model need not be JSON nor even text (C163_full_false); ZSTD must be written Z_S_T_D (see C115)."
  },
  {
   "property": "C164",
   "status": "partial",
   "theorems": [
    "Verif.Collators.C164_chosen",
    "Verif.Collators.C164_own",
    "Verif.Collators.C164_named",
    "Verif.Collators.C164_place_partial",
    "Verif.Collators.C164_always",
    "Verif.Collators.C164_once_false",
    "Verif.Collators.C164_some_false",
    "Verif.Collators.C164_chance_false",
    "Verif.Collators.C164_full_false",
    "Verif.Collators.C164_naming",
    "Verif.Collators.C164_unnamed",
    "Verif.Collators.C164_keys",
    "Verif.Collators.C164_maker",
    "Verif.Collators.C164_once_partial",
    "Verif.Collators.C164_some_partial"
   ],
   "note": "Proved: who is chosen at each turn (C164_chosen), how one is named and ceases to be (C164_named, C164_naming, C164_unnamed), that keys are set only by their account and never shared (C164_keys), how one becomes a candidate (C164_own), that recorded makers had been chosen (C164_maker) and that there is always a key that may make blocks (C164_always). False in full: root or council may name an account twice, which then gets two places (C164_once_false; C164_once_partial otherwise); they may name only accounts without keys, which leaves nobody chosen, and raising the bond may drop all candidates (C164_some_false; C164_some_partial otherwise); a candidate beyond the desired number, which is none at the start of the main network, is removed after twelve hours although it was never among the makers (C164_chance_false; C164_place_partial for the rest). When nobody is chosen the keys of the session before go on making blocks."
  },
  {
   "property": "C165",
   "status": "proved",
   "theorems": [
    "Verif.Collators.C165_reserved",
    "Verif.Collators.C165_back",
    "Verif.Collators.C165_register",
    "Verif.Collators.C165_leave",
    "Verif.Collators.C165_update",
    "Verif.Collators.C165_take"
   ],
   "note": "Proved in full, for every history."
  },
  {
   "property": "C166",
   "status": "partial",
   "theorems": [
    "Verif.Capacity.C166_outcomes_partial",
    "Verif.Capacity.C166_contents_partial",
    "Verif.Capacity.C166_all_partial",
    "Verif.Capacity.C166_rounding",
    "Verif.Capacity.C166_payment",
    "Verif.Capacity.C166_full_false",
    "Verif.Chain.C166_chain_partial"
   ],
   "note": "Proved for every list of calls where for each provider there are only stakes, only payments (even several) or a single unstake (C166_all_partial, on the chain C166_chain_partial); if all calls are about different providers then also what fails, and why, does not depend on the order (C166_outcomes_partial, C166_contents_partial). False in full: two accounts that unstake from the same provider leave it with different capacity depending on who comes first, because shares are rounded (C166_rounding), and a payment may need capacity that was staked just before (C166_payment)."
  },
  {
   "property": "C167",
   "status": "partial",
   "theorems": [
    "Verif.Chain.C167_chain",
    "Verif.Handles.C167_all",
    "Verif.Handles.C167_names",
    "Verif.Handles.C167_suffixes_partial",
    "Verif.Handles.C167_full_false"
   ],
   "note": "Proved for every list of calls: success in every order (C167_all), same names (C167_names), both on the chain in C167_chain; the same suffixes for every name whose canonical form fits into 32 bytes (C167_suffixes_partial). False of longer ones, which share one counter: the suffix depends on whether somebody has asked for another such name before (C167_full_false)."
  },
  {
   "property": "C168",
   "status": "partial",
   "theorems": [
    "Verif.Chain.C168_chain_partial",
    "Verif.Msa.C168_all",
    "Verif.Msa.C168_alone_partial",
    "Verif.Msa.C168_contents_partial",
    "Verif.Msa.C168_full_false"
   ],
   "note": "Proved for every list of such calls, as transactions or within other calls: if all succeed in one order they do in every order with the same result (C168_all); each succeeds just when it would alone, and the result is the same, as long as the signature registry has room for the signatures of the list (C168_alone_partial, C168_contents_partial); on the chain, where nothing else changes, in C168_chain_partial. False without room: the registry refuses a signature while it is full of ones that have not expired, so that whoever comes first gets the last place (C168_full_false; the witness lowers the limit to four signatures, the mechanism is the same with 50,000)."
  },
  {
   "property": "C169",
   "status": "partial",
   "theorems": [
    "Verif.TimeRelease.C169_full_false",
    "Verif.TimeRelease.C169_all_partial",
    "Verif.TimeRelease.C169_when_partial"
   ],
   "note": "Proved for every list of such calls in every reachable state, for schedules that have not ended when they are sent, and amounts of at least the existential deposit or for accounts that have it: success and result are the same in every order, also the freeze after a claim, and before it if no schedule sent to the account has begun to pay out (C169_all_partial); when exactly they succeed is in C169_when_partial. False without these conditions (C169_full_false and the examples after it): a transfer freezes all its tokens, also those that its schedule has paid out by now, and the next transfer or claim frees these, so that the freeze depends on which transfer came last; a schedule that is over when it is sent takes one of the 50 places until the next transfer or claim; and, as MinReleaseTransfer is 0, a few tokens can be sent to a new account only after others have been."
  },
  {
   "property": "C170",
   "status": "partial",
   "theorems": [
    "Verif.Messages.C170_alone",
    "Verif.Messages.C170_order_partial",
    "Verif.Messages.C170_full_false"
   ],
   "note": "Proved for the pallet with the others in any state, for histories with at most 65,536 accepted messages in each block (C170_order_partial); that acceptance does not depend on other messages holds without this limit (C170_alone). False of the pallet alone with more messages in a block: the number is not counted beyond 65,535, and the last message replaces the one before (C170_full_false). The weight limit of blocks excludes this: no block has more than 2,093 messages (C141_few)."
  },
  {
   "property": "C171",
   "status": "proved",
   "theorems": [
    "Verif.Chain.C171_order",
    "Verif.Chain.C171_alone"
   ],
   "note": "Proved for all calls modelled in Chain; the condition is needed, as an example shows where the user consents in the same block. The free balances that staking needs are a parameter of each step: that a fee in tokens or a transfer before it can make a stake fail is not counted as an influence of one of the six pallets."
  },
  {
   "property": "C172",
   "status": "proved",
   "theorems": [
    "Verif.Schemas.Codec.C172_read_back",
    "Verif.Schemas.Codec.C172_canonical",
    "Verif.Schemas.Codec.C172_distinct",
    "Verif.Schemas.Codec.C172_releases",
    "Verif.Schemas.Codec.C172_enabled",
    "Verif.Schemas.Codec.C172_registered"
   ],
   "note": "Proved. `BitFlags` and the codec of numbers and enumerations are libraries, modelled from their published behaviour; later releases are taken to declare further settings after the present ones."
  },
  {
   "property": "C173",
   "status": "proved",
   "theorems": [
    "Verif.Tx.C173_exchange",
    "Verif.Tx.C173_content",
    "Verif.Tx.C173_block"
   ],
   "note": "Proved. Of payment with tokens only whether it is accepted is modelled. The two that change places are single calls outside the capacity pallet, for which see C166; those before and after are arbitrary."
  },
  {
   "property": "C174",
   "status": "proved",
   "theorems": [
    "Verif.Tx.C174_fate",
    "Verif.Tx.C174_stored"
   ],
   "note": "Proved. The transactions are single calls, paid for with tokens or with capacity; of payment with tokens only whether it is accepted is modelled."
  }
 ]
}