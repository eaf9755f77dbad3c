{"id": "C01", "title": "Account ids are fresh, consecutive and never reused", "statement": "Whenever an account (MSA) is created, by `create`, by a sponsored creation or any mixture, the id it receives is exactly one more than the highest id ever issued; no id is issued twice, and once an account has lost its last key no key ever resolves to that id again.", "quantifier": "every finite sequence of calls (successful or failing, any callers, any payloads, any block numbers) starting from genesis", "why_tests_cant": "Uniqueness and non-reuse are statements about every possible history, including histories that retire accounts and then create more; tests only replay a few.", "anchors": ["pallets/msa/src/lib.rs: create, create_sponsored_account_with_delegation, create_account, get_next_msa_id, delete_msa_public_key, retire_msa, add_public_key_to_msa"]}
{"id": "C02", "title": "Every key controls at most one account and the key counter is exact", "statement": "At every point, an account key resolves to at most one account; the key count reported for an account equals the number of keys that resolve to it, never exceeds the configured maximum, and is absent exactly when no key resolves to it.", "quantifier": "every finite history of MSA calls from genesis, for every account id", "why_tests_cant": "The counter is maintained incrementally by several calls; agreement with the real number of keys is an invariant over all interleavings of add, delete, create and retire.", "anchors": ["pallets/msa/src/lib.rs: add_key, delete_key_for_msa, PublicKeyToMsaId, PublicKeyCountForMsaId"]}
{"id": "C03", "title": "A key can only be removed from an account by that account", "statement": "A key stops resolving to its account only as the effect of a transaction signed by another key of the same account (key deletion) or by that key itself (retirement).", "quantifier": "every transaction, including ones that wrap calls in utility batches, and every reachable state", "why_tests_cant": "The ownership check lives in a transaction extension and not in the call itself, so it depends on every possible way of nesting the call; tests exercise only the direct call.", "anchors": ["pallets/msa/src/lib.rs: delete_msa_public_key, CheckFreeExtrinsicUse::validate_key_delete", "runtime/frequency/src/lib.rs: BaseCallFilter::is_utility_call_allowed, is_batch_call_allowed"]}
{"id": "C04", "title": "Retirement is only possible for an empty account", "statement": "A directly submitted `retire_msa` that is accepted implies that at that moment the account is not a registered provider, has no handle, has exactly one key and has no delegation active at the current block; and after it executes no key resolves to the account and all its delegations are gone.", "quantifier": "every reachable state and every caller", "why_tests_cant": "The conjunction must hold for all combinations of delegations, handles and providers, which no finite set of fixtures covers.", "anchors": ["pallets/msa/src/lib.rs: retire_msa, CheckFreeExtrinsicUse::ensure_msa_can_retire"]}
{"id": "C05", "title": "Adding a key needs the consent of both the owner and the new key", "statement": "If a call to add a public key to an account succeeds then: the stated owner key resolves to exactly the account named in the payload, the owner key signed that payload, the new key named in the payload signed the same payload, the payload had not expired, and the new key belonged to no account before. Afterwards the new key resolves to that account and every other key is unchanged.", "quantifier": "every state, caller, payload, pair of signatures and verification oracle", "why_tests_cant": "Authorisation must hold for arbitrary adversarial arguments, not the ones in a test table.", "anchors": ["pallets/msa/src/lib.rs: add_public_key_to_msa, ensure_msa_owner, verify_signature, register_signature, add_key"]}
{"id": "C06", "title": "A delegation appears or regains a schema only with the delegator's signature", "statement": "A delegator/provider pair goes from not authorised to authorised for a schema only through a call that carries a valid unexpired signature by a key of that delegator (or by the new account's own key for a sponsored creation) over a payload naming that provider and that schema.", "quantifier": "every call, every state, every pair and schema", "why_tests_cant": "Requires showing that none of the other calls of the pallet can ever create authority, for all inputs.", "anchors": ["pallets/msa/src/lib.rs: grant_delegation, create_sponsored_account_with_delegation, add_provider, upsert_schema_permissions, grant_permissions_for_schemas"]}
{"id": "C07", "title": "Granting sets exactly the requested schema set", "statement": "After a successful grant with a list of schema ids at block b: each listed schema is granted, each other schema that was granted is recorded as revoked at b, schemas already revoked keep their revocation block, the delegation as a whole is not revoked, and no other delegator/provider pair changes.", "quantifier": "every prior delegation state, every list of schemas (with duplicates, any order) and every block number", "why_tests_cant": "The update has three overlapping passes over a map; correctness for every overlap pattern of old and new lists is not reachable by examples.", "anchors": ["pallets/msa/src/lib.rs: upsert_schema_permissions, revoke_permissions_for_schemas, grant_permissions_for_schemas", "pallets/msa/src/types.rs: PermittedDelegationSchemas"]}
{"id": "C08", "title": "Revoked authority is gone from the next block until re-granted", "statement": "Once a delegation (or one schema of it) is revoked in block r, the authorisation check for that provider, delegator and schema at any current block later than r fails, through any further history that contains no new grant or add of that pair signed by the delegator; in block r itself and for queries about blocks up to r it still answers as before.", "quantifier": "every history after the revocation, any length, and every later block", "why_tests_cant": "The statement is about all continuations of the chain.", "anchors": ["pallets/msa/src/lib.rs: revoke_provider, ensure_valid_delegation, ensure_valid_schema_grant"]}
{"id": "C09", "title": "Reported grants agree with the authorisation check", "statement": "For a delegator and provider, the list of schema grants returned by the query API marks a schema as revoked at block r exactly when the authorisation check for that schema accepts all blocks up to r and rejects all later ones, and marks it unrevoked exactly when the check accepts every block up to the current one.", "quantifier": "every delegation state, every schema and every queried block not in the future", "why_tests_cant": "Two independently written functions must agree on all inputs.", "anchors": ["pallets/msa/src/lib.rs: get_granted_schemas_by_msa_id, ensure_valid_schema_grant", "common/primitives/src/msa.rs: SchemaGrant"]}
{"id": "C10", "title": "A signed payload is accepted at most once", "statement": "In any history no off-chain signature that was accepted by a call of the MSA pallet is accepted again by any later call of the pallet, even after the bounded registry has evicted it.", "quantifier": "every history of registrations with non-decreasing block numbers, any registry size of at least two, any number of signatures", "why_tests_cant": "Replay protection must survive arbitrarily long histories with evictions; tests cannot enumerate these.", "anchors": ["pallets/msa/src/lib.rs: register_signature, enqueue_signature, PayloadSignatureRegistryList, PayloadSignatureRegistryPointer"]}
{"id": "C11", "title": "The signature registry is a bounded queue that never corrupts", "statement": "The registry behaves as a first-in first-out queue of at most the configured number of signatures: registration is refused for capacity only when the queue is full and its oldest signature has not expired, and the 'registry corrupted' error is never returned.", "quantifier": "every history of registrations with any capacity of at least two", "why_tests_cant": "The linked-list plus pointer representation has to refine a queue for all operation sequences.", "anchors": ["pallets/msa/src/lib.rs: enqueue_signature", "common/primitives/src/msa.rs: SignatureRegistryPointer"]}
{"id": "C12", "title": "Signature proofs are accepted only inside the mortality window", "statement": "A proof with expiration e is accepted at block n only when n < e < n + window; in particular an expired proof and a proof too far in the future are always refused.", "quantifier": "all blocks, expirations and window sizes", "why_tests_cant": "Boundary behaviour at all values including saturation.", "anchors": ["pallets/msa/src/lib.rs: register_signature, mortality_block_limit"]}
{"id": "C13", "title": "Providers stay registered and are the only delegation targets", "statement": "A provider registration is never removed or changed, an account is registered at most once, and every delegation created names an account that was a registered provider at that time.", "quantifier": "every history of MSA calls", "why_tests_cant": "Invariant over all histories.", "anchors": ["pallets/msa/src/lib.rs: create_provider_for, create_registered_provider, ensure_valid_registered_provider, add_provider"]}
{"id": "C14", "title": "Schema grants per delegation are bounded", "statement": "No delegation ever records more schema permissions than the configured maximum, and a grant that would exceed it fails without changing any state.", "quantifier": "every history of MSA calls and every configured maximum", "why_tests_cant": "Permissions accumulate because revoked schemas stay in the map, so the bound is a property of histories.", "anchors": ["pallets/msa/src/lib.rs: upsert_schema_permissions, grant_permissions_for_schemas", "pallets/msa/src/types.rs"]}
{"id": "C15", "title": "Free calls accepted by the transaction filter do not fail", "statement": "A fee-free revocation, key deletion or retirement that passes the transaction-level validation in a state executes without error in that same state.", "quantifier": "every reachable state, caller and argument", "why_tests_cant": "The validation code and the call are separate implementations of the same precondition.", "anchors": ["pallets/msa/src/lib.rs: CheckFreeExtrinsicUse::validate_delegation_by_delegator, validate_delegation_by_provider, validate_key_delete, ensure_msa_can_retire, revoke_delegation_by_delegator, revoke_delegation_by_provider"]}
{"id": "C16", "title": "A schema revocation block never moves later", "statement": "Once a schema permission is recorded as revoked at block r, further revocation requests for it leave r unchanged.", "quantifier": "every history without a new grant for that pair", "why_tests_cant": "Needs all revocation paths at all later blocks.", "anchors": ["pallets/msa/src/lib.rs: revoke_schema_permissions, revoke_permissions_for_schemas", "pallets/msa/src/types.rs: try_get_mut_schema"]}
{"id": "C17", "title": "The off-chain key index equals the on-chain keys after replay", "statement": "Starting from an index that matches the chain at some block, replaying the recorded key events of the following blocks yields, for every account, exactly the set of keys that resolve to it on chain; reprocessing a block whose processing was interrupted at any point does not change the result.", "quantifier": "every sequence of key events produced by the pallet, every crash point between per-account writes, every account", "why_tests_cant": "Crash points and event interleavings are unbounded.", "anchors": ["pallets/msa/src/offchain_storage.rs: offchain_index_event, reverse_map_msa_keys, process_offchain_events, apply_offchain_events"]}
{"id": "C18", "title": "Off-chain index keys never collide", "statement": "The storage keys used for the n-th event of a block, for the event counter of a block, for an account's key list and for its lock are pairwise distinct for distinct blocks, positions and accounts.", "quantifier": "all block numbers, event positions and account ids", "why_tests_cant": "Key concatenation without separators is only safe by an argument over all lengths and values.", "anchors": ["pallets/msa/src/offchain_storage.rs: offchain_index_event, read_offchain_events", "common/primitives/src/offchain.rs: get_msa_account_storage_key_name, get_msa_account_lock_name"]}
{"id": "C19", "title": "Itemized pages decode to exactly the items that were encoded", "statement": "Parsing the byte page built by appending length-prefixed items yields those items in order, each with its own bytes; a parsed page re-encodes to itself; and malformed bytes produce an error, never a wrong item.", "quantifier": "every list of items whose lengths fit the header and every byte string", "why_tests_cant": "Round-trip over all byte strings.", "anchors": ["pallets/stateful-storage/src/types.rs: ItemizedPage::try_parse, ItemHeader, apply_item_actions"]}
{"id": "C20", "title": "Item actions delete by original position and append in order, all or nothing", "statement": "Applying a list of delete/add actions to an itemized page either fails and changes nothing, or yields the page whose items are the original items with the deleted positions removed, in the original order, followed by the added items in the order given; deletions always refer to positions in the original page; deleting an absent position or the same position twice fails.", "quantifier": "every page, every action list", "why_tests_cant": "All mixtures and orders of actions.", "anchors": ["pallets/stateful-storage/src/types.rs: ItemizedPage::apply_item_actions", "pallets/stateful-storage/src/lib.rs: update_itemized"]}
{"id": "C21", "title": "Optimistic concurrency: writes need the current page hash", "statement": "A write or delete whose target hash differs from the hash of the current stored page (zero when there is none) fails with a stale-state error and changes nothing.", "quantifier": "every state, page, payload and hash function", "why_tests_cant": "Every interleaving of writers.", "anchors": ["pallets/stateful-storage/src/lib.rs: update_itemized, update_paginated, delete_paginated", "pallets/stateful-storage/src/types.rs: Page::get_hash"]}
{"id": "C22", "title": "Append-only schemas never lose items", "statement": "For a schema with the append-only setting, the items stored for any account only ever grow at the end: at any later time the earlier item list is a prefix of the later one.", "quantifier": "every history of stateful-storage calls by any callers", "why_tests_cant": "History property over all callers and all entry points.", "anchors": ["pallets/stateful-storage/src/lib.rs: check_schema_for_write, apply_item_actions, apply_item_actions_with_signature, apply_item_actions_with_signature_v2"]}
{"id": "C23", "title": "Signature-required schemas change only with the owner's authority", "statement": "For a schema with the signature-required setting, the stored content of an account changes only through a call submitted by a key of that account or carrying an unexpired valid signature by a key of that account.", "quantifier": "every call in every state", "why_tests_cant": "Adversarial callers and all entry points.", "anchors": ["pallets/stateful-storage/src/lib.rs: check_schema_for_write, check_msa_and_grants, check_signature"]}
{"id": "C24", "title": "Writes need ownership or an active grant", "statement": "Every call that changes the stored content of an account is submitted by a key of that account, or by a key of a provider holding an active grant for that schema at the current block, or carries a valid signature of a key of that account.", "quantifier": "every call in every state", "why_tests_cant": "Adversarial callers and all entry points.", "anchors": ["pallets/stateful-storage/src/lib.rs: apply_item_actions, upsert_page, delete_page, check_msa_and_grants, check_msa"]}
{"id": "C25", "title": "Storage locations are isolated", "statement": "A call addressed to one account, schema and page never changes what is read for any other account, schema or page, nor the other storage kind of the same schema.", "quantifier": "every call, every pair of distinct locations", "why_tests_cant": "Every pair of keys.", "anchors": ["pallets/stateful-storage/src/lib.rs: update_itemized, update_paginated, delete_paginated", "pallets/stateful-storage/src/stateful_child_tree.rs: StatefulChildTree"]}
{"id": "C26", "title": "Storage keys encode their parts uniquely", "statement": "The key of a page within an account's tree decodes back to the schema id and page id it was built from, keys for different (schema, page) pairs or storage kinds differ, every page of a schema is found by iterating the schema's prefix and no page of another schema is.", "quantifier": "all schema ids and page ids", "why_tests_cant": "Prefix iteration is correct only if no key is a prefix-extension of another schema's prefix, for all ids.", "anchors": ["pallets/stateful-storage/src/stateful_child_tree.rs: MultipartKey, MultipartStorageKeyPart, prefix_iterator, hash_prefix_only"]}
{"id": "C27", "title": "Pages respect their size and id limits", "statement": "No stored page exceeds the configured maximum byte size for its kind and no stored paginated page has an id above the configured maximum.", "quantifier": "every history of stateful-storage calls", "why_tests_cant": "Invariant over histories.", "anchors": ["pallets/stateful-storage/src/lib.rs: upsert_page, update_paginated, update_itemized", "pallets/stateful-storage/src/types.rs: Page"]}
{"id": "C28", "title": "Signed storage payloads are single use", "statement": "A signed payload that changed a page is never accepted a second time.", "quantifier": "every history between the two submissions, ideal (collision-free) page hash", "why_tests_cant": "Replay depends on what other writers did in between.", "anchors": ["pallets/stateful-storage/src/lib.rs: upsert_page_with_signature_v2, delete_page_with_signature_v2, apply_item_actions_with_signature_v2, check_payload_expiration", "pallets/stateful-storage/src/types.rs: Page::get_hash, PageNonce"]}
{"id": "C29", "title": "Signed storage payloads are accepted only inside the mortality window", "statement": "A signed storage payload with expiration e is accepted at block n only when n < e < n + window.", "quantifier": "all blocks, expirations and windows", "why_tests_cant": "Boundary behaviour at all values.", "anchors": ["pallets/stateful-storage/src/lib.rs: check_payload_expiration"]}
{"id": "C30", "title": "Handles and accounts map one to one", "statement": "At any time every account has at most one handle, the account found for the handle of account m is m, and two accounts never have the same display handle.", "quantifier": "every history of claim, change and retire with any names", "why_tests_cant": "Histories and all Unicode inputs.", "anchors": ["pallets/handles/src/lib.rs: do_claim_handle, do_retire_handle, get_handle_for_msa, get_msa_id_for_handle, get_canonical_string_vec"]}
{"id": "C31", "title": "The suffix sequence of a name is a permutation of the suffix range", "statement": "For every name the sequence of suffixes handed out is a duplicate-free enumeration of every value from the configured minimum to the configured maximum.", "quantifier": "every seed, every random generator stream and every range with maximum below 65535", "why_tests_cant": "All seeds; the lazy shuffle is correct only by an argument over its swap map.", "anchors": ["pallets/handles/src/handles-utils/src/suffix.rs: generate_unique_suffixes"]}
{"id": "C32", "title": "A name with its suffix is never assigned twice", "statement": "As long as the configured suffix minimum is unchanged, the pair (canonical name, suffix) assigned by a claim is never assigned again by any later claim, even after the handle is retired.", "quantifier": "every history of claims, changes and retirements by any accounts", "why_tests_cant": "History property.", "anchors": ["pallets/handles/src/lib.rs: get_next_suffix_index_for_canonical_handle, generate_suffix_for_canonical_handle, do_claim_handle, do_retire_handle"]}
{"id": "C33", "title": "Suffix previews are accurate", "statement": "If the next-suffixes query for a base handle answers with suffix s first, then the next successful claim of a handle with the same canonical form is assigned suffix s, and successive claims receive the listed suffixes in order.", "quantifier": "every state and every requested count", "why_tests_cant": "Two separate implementations of the sequence must agree everywhere.", "anchors": ["pallets/handles/src/lib.rs: get_next_suffixes, generate_suffix_for_canonical_handle"]}
{"id": "C34", "title": "Display handles split back into their parts", "statement": "Splitting the display handle built from a base name and a suffix returns exactly that name and suffix, for every base name accepted by validation.", "quantifier": "every accepted base name and every 16-bit suffix", "why_tests_cant": "All names; depends on the delimiter never occurring in an accepted name.", "anchors": ["pallets/handles/src/lib.rs: build_full_display_handle", "pallets/handles/src/handles-utils/src/converter.rs: split_display_name", "pallets/handles/src/handles-utils/src/validator.rs: contains_blocked_characters"]}
{"id": "C35", "title": "Only valid names are ever stored", "statement": "Every stored display handle has a base name of 3 to 20 characters and at most 32 bytes that contains no blocked character, is not a reserved word and whose canonical form has 3 to 20 characters, followed by the delimiter and a suffix inside the configured range.", "quantifier": "every history", "why_tests_cant": "Invariant over histories and all Unicode input.", "anchors": ["pallets/handles/src/lib.rs: validate_base_handle, do_claim_handle, build_full_display_handle"]}
{"id": "C36", "title": "Name validation by query agrees with claiming", "statement": "If the validation query accepts a base handle then claiming it does not fail for a reason that concerns the name itself.", "quantifier": "every byte string", "why_tests_cant": "Two implementations of one rule must agree on all inputs.", "anchors": ["pallets/handles/src/lib.rs: validate_handle, validate_base_handle, do_claim_handle"]}
{"id": "C37", "title": "Only characters of supported scripts are accepted", "statement": "An accepted base handle's canonical form contains only characters whose code point lies in one of the supported Unicode ranges.", "quantifier": "every Unicode string", "why_tests_cant": "All code points including those above 0xFFFF.", "anchors": ["pallets/handles/src/handles-utils/src/validator.rs: consists_of_supported_unicode_character_sets", "pallets/handles/src/handles-utils/constants.rs: ALLOWED_UNICODE_CHARACTER_RANGES"]}
{"id": "C38", "title": "A handle is kept until its own expiration", "statement": "A handle disappears (through a directly submitted retire or change call) only at or after the block stored as its expiration when it was claimed.", "quantifier": "every history and block", "why_tests_cant": "History property.", "anchors": ["pallets/handles/src/handles_signed_extension.rs: HandlesSignedExtension::validate", "pallets/handles/src/lib.rs: retire_handle, change_handle, do_retire_handle"]}
{"id": "C39", "title": "Schema ids are sequential and schemas are immutable", "statement": "Each registered schema gets the next id after the highest one issued, ids are never reused, and the model, model type, payload location and settings returned for an id never change afterwards.", "quantifier": "every history of schema calls", "why_tests_cant": "History property.", "anchors": ["pallets/schemas/src/lib.rs: add_schema, get_next_schema_id, get_schema_by_id, create_schema_for"]}
{"id": "C40", "title": "Version numbers of a schema name are gapless and permanent", "statement": "The versions returned for a schema name are 1..n in registration order with distinct schema ids; a version once assigned always returns the same schema id; at most 254 versions exist.", "quantifier": "every history of schema and name registrations", "why_tests_cant": "History property.", "anchors": ["pallets/schemas/src/lib.rs: get_schema_versions, add_schema, create_schema_name_via_governance", "pallets/schemas/src/types.rs: SchemaVersionId::add, convert_to_response"]}
{"id": "C41", "title": "A schema has at most one name", "statement": "No schema id is ever listed under two different schema names.", "quantifier": "every history of schema and name registrations", "why_tests_cant": "History property; depends on a flag being maintained by every path.", "anchors": ["pallets/schemas/src/lib.rs: create_schema_name_via_governance, parse_and_verify_schema_name, add_schema"]}
{"id": "C42", "title": "Schema names are canonicalised consistently", "statement": "Parsing a name is insensitive to letter case and surrounding white space; the combined name produced from a parsed name parses back to the same namespace and descriptor; a parsed name has a namespace of 3 to 30 and a descriptor of 1 to 28 lower-case letters or hyphens, neither starting nor ending with a hyphen.", "quantifier": "every byte string", "why_tests_cant": "Round trip over all byte strings.", "anchors": ["pallets/schemas/src/types.rs: SchemaName::try_parse, get_combined_name"]}
{"id": "C43", "title": "Every registered schema respects its model and setting rules", "statement": "Every registered schema was accepted by the model validator, its model length was between the configured minimum and the governance maximum at that time (never above the hard limit), and the append-only setting appears only on itemized schemas.", "quantifier": "every history of schema calls", "why_tests_cant": "Invariant over histories.", "anchors": ["pallets/schemas/src/lib.rs: create_schema_for, ensure_valid_model, set_max_schema_model_bytes"]}
{"id": "C44", "title": "The number of schemas respects the configured limit", "statement": "No more schemas than the configured maximum number of registrations can be registered; the attempt fails with a count overflow error.", "quantifier": "every history and every configured limit", "why_tests_cant": "Would need registering 65,000 schemas.", "anchors": ["pallets/schemas/src/lib.rs: get_next_schema_id, MaxSchemaRegistrations"]}
{"id": "C45", "title": "Schema ids accepted for delegation exist", "statement": "The check used before granting schemas accepts a list of ids exactly when every id in it belongs to a registered schema.", "quantifier": "every reachable schema state and every list of ids", "why_tests_cant": "All ids including zero.", "anchors": ["pallets/schemas/src/lib.rs: are_all_schema_ids_valid", "pallets/msa/src/lib.rs: ensure_all_schema_ids_are_valid"]}
{"id": "C46", "title": "Every accepted message stays retrievable, unchanged and in order", "statement": "Each accepted message can be retrieved under its block and schema with its payload, author and provider for ever after, messages of a block are returned in the order in which they were accepted, and no two share an index.", "quantifier": "every history of blocks and messages", "why_tests_cant": "Histories of unbounded length, including blocks with very many messages.", "anchors": ["pallets/messages/src/lib.rs: add_message, on_initialize, get_messages_by_schema_and_block, add_ipfs_message, add_onchain_message"]}
{"id": "C47", "title": "Each block announces its messages exactly once", "statement": "A block emits the messages-in-block event exactly once if at least one message was accepted in it and not at all otherwise.", "quantifier": "every block, every sequence of message calls", "why_tests_cant": "All sequences, including failing calls in between.", "anchors": ["pallets/messages/src/lib.rs: add_message, on_initialize"]}
{"id": "C48", "title": "Message pagination neither loses nor repeats messages", "statement": "Following the continuation returned by the paginated message query from a starting point until it reports no next page yields exactly the messages of the requested block range from the starting index, each once and in order, and every page respects the page size.", "quantifier": "every valid request and every chain content", "why_tests_cant": "All page sizes and block layouts.", "anchors": ["pallets/messages/src/rpc/src/lib.rs: get_messages_by_schema_id", "common/primitives/src/messages.rs: BlockPaginationRequest, BlockPaginationResponse"]}
{"id": "C49", "title": "Messages on behalf of an account need an active grant and the right location", "statement": "An on-chain message attributed to an account other than the sender's own is stored only if that account has an active grant to the sender for that schema at the current block; a message is stored only under a registered schema of the matching payload location and within the size limit.", "quantifier": "every call in every state", "why_tests_cant": "Adversarial callers.", "anchors": ["pallets/messages/src/lib.rs: add_onchain_message, add_ipfs_message"]}
{"id": "C50", "title": "Off-chain payload references survive storage", "statement": "The content identifier bytes and payload length submitted with an IPFS message are recovered exactly when the message is read back.", "quantifier": "every identifier byte string within the size limit and every 32-bit length", "why_tests_cant": "Round trip over all byte strings and lengths, including the variable-length length prefix.", "anchors": ["pallets/messages/src/lib.rs: add_ipfs_message", "pallets/messages/src/types.rs: Message::map_to_response, OffchainPayloadType"]}
{"id": "C51", "title": "Frozen tokens equal active stake plus unlocking stake", "statement": "At every point the amount frozen for staking on an account equals its active stake plus the sum of its unlocking amounts.", "quantifier": "every history of stake, unstake, withdraw and epoch changes, all accounts", "why_tests_cant": "Invariant over histories.", "anchors": ["pallets/capacity/src/lib.rs: stake, unstake, withdraw_unstaked, set_staking_account_and_lock, do_withdraw_unstaked, add_unlock_chunk"]}
{"id": "C52", "title": "Remaining capacity never exceeds issued capacity", "statement": "For every target the remaining capacity is at most the total capacity issued to it.", "quantifier": "every history of stake, unstake, replenish, spend and epoch changes", "why_tests_cant": "Invariant over histories with rounding.", "anchors": ["pallets/capacity/src/types.rs: CapacityDetails", "pallets/capacity/src/lib.rs: reduce_capacity, deduct, replenish_all_for"]}
{"id": "C53", "title": "Stake bookkeeping is consistent across targets", "statement": "The active stake of an account equals the sum of the amounts recorded for its targets, and the staked total of a target equals the sum over its stakers.", "quantifier": "every history of stake and unstake calls", "why_tests_cant": "Invariant over histories with several targets.", "anchors": ["pallets/capacity/src/lib.rs: unstake, decrease_active_staking_balance, reduce_capacity", "pallets/capacity/src/types.rs: StakingDetails::withdraw, StakingTargetDetails::withdraw, CapacityDetails::withdraw"]}
{"id": "C54", "title": "Unstaked tokens stay frozen for the thaw period and are then fully withdrawable", "statement": "Tokens unstaked in epoch e cannot be withdrawn before epoch e plus the thaw period; a withdrawal at epoch n releases exactly the sum of all chunks whose thaw epoch is at most n and keeps every other chunk.", "quantifier": "every history and every epoch", "why_tests_cant": "History property.", "anchors": ["pallets/capacity/src/lib.rs: withdraw_unstaked, do_withdraw_unstaked, add_unlock_chunk", "pallets/capacity/src/types.rs: unlock_chunks_reap_thawed"]}
{"id": "C55", "title": "Stake never rests below the minimum and unlocking chunks are bounded", "statement": "At every point an account's active stake is zero or at least the configured minimum, and it has at most the configured number of unlocking chunks.", "quantifier": "every history", "why_tests_cant": "Invariant over histories.", "anchors": ["pallets/capacity/src/types.rs: StakingDetails::withdraw", "pallets/capacity/src/lib.rs: ensure_can_stake, add_unlock_chunk"]}
{"id": "C56", "title": "Epochs advance by at most one per block and only after a full epoch", "statement": "The epoch number never decreases, advances by at most one per block, and advances only when at least the configured epoch length has passed since the epoch's first block.", "quantifier": "every sequence of blocks and epoch length changes", "why_tests_cant": "History property.", "anchors": ["pallets/capacity/src/lib.rs: start_new_epoch_if_needed, on_initialize, set_epoch_length"]}
{"id": "C57", "title": "Capacity spent in an epoch is covered by issued capacity", "statement": "The total capacity fees charged to an account within one epoch never exceed the capacity available at the start of the epoch (after replenishment) plus the capacity issued to it during the epoch.", "quantifier": "every history of staking and fee charges", "why_tests_cant": "History property.", "anchors": ["pallets/capacity/src/lib.rs: deduct, replenish_all_for, can_replenish, deposit", "pallets/frequency-tx-payment/src/payment.rs: withdraw_fee"]}
{"id": "C58", "title": "The same token is never staked twice", "statement": "An account's active stake plus unlocking stake never exceeds its token balance at the time of staking.", "quantifier": "every sequence of stake calls", "why_tests_cant": "History property.", "anchors": ["pallets/capacity/src/lib.rs: ensure_can_stake, get_stakable_amount_for"]}
{"id": "C59", "title": "Partial replenishment takes effect", "statement": "A successful partial replenishment by an amount increases the remaining capacity of the target by that amount.", "quantifier": "every state and amount", "why_tests_cant": "All states.", "anchors": ["pallets/capacity/src/lib.rs: Replenishable::replenish_by_amount", "pallets/capacity/src/types.rs: CapacityDetails::replenish_by_amount"]}
{"id": "C60", "title": "The vesting curve is monotone and exact at its ends", "statement": "For a valid schedule the frozen amount never increases over time, equals the full amount before the first period ends, is zero from the end block on, and between is the unreleased number of periods times the amount per period.", "quantifier": "every valid schedule and all blocks", "why_tests_cant": "All parameter values including the extremes of the integer types.", "anchors": ["pallets/time-release/src/types.rs: ReleaseSchedule::frozen_amount, end, total_amount"]}
{"id": "C61", "title": "The freeze always covers what has not vested", "statement": "At every point the amount frozen on an account for time release is at least the sum of the unvested amounts of its schedules, it equals that sum right after a claim, no arithmetic in the pallet overflows or panics, and the number of schedules is bounded.", "quantifier": "every history of transfers, claims and updates with non-decreasing block numbers", "why_tests_cant": "History property including absence of panics.", "anchors": ["pallets/time-release/src/lib.rs: do_claim, do_transfer, do_update_release_schedules, prune_schedules_for, prune_and_get_frozen_balance"]}
{"id": "C62", "title": "A vesting transfer moves exactly the schedule total", "statement": "A successful vesting transfer moves exactly the schedule's total amount from sender to receiver and freezes it, taking only tokens that are free and not frozen; a failing one changes nothing; total tokens are conserved by every call.", "quantifier": "every state, schedule, sender and receiver including sender = receiver", "why_tests_cant": "All inputs.", "anchors": ["pallets/time-release/src/lib.rs: transfer, do_transfer"]}
{"id": "C63", "title": "Capacity fees are charged exactly and only for eligible calls", "statement": "A capacity-paid transaction is admitted only if every inner call is on the eligible list and the sender's account holds enough capacity after replenishment; the amount deducted equals base fee plus weight fee plus length fee; otherwise nothing is deducted.", "quantifier": "every transaction and every capacity state", "why_tests_cant": "All batches of calls and states.", "anchors": ["pallets/frequency-tx-payment/src/lib.rs: withdraw_capacity_fee, compute_capacity_fee", "pallets/frequency-tx-payment/src/payment.rs", "runtime/frequency/src/lib.rs: CapacityEligibleCalls"]}
{"id": "C64", "title": "The capacity fee estimate is never below the charge", "statement": "The fee reported by the capacity fee-details query for a capacity-paid transaction is at least the amount charged for it. Asked about a call by itself, the query tells exactly what is charged for a transaction of that length that pays for the call with capacity, and zero if that is impossible.", "quantifier": "every transaction, length and weight, for any monotone weight-to-fee function", "why_tests_cant": "All weights including saturation.", "anchors": ["pallets/frequency-tx-payment/src/lib.rs: compute_capacity_fee_details, compute_capacity_fee"]}
{"id": "C65", "title": "A transaction nonce is consumed once", "statement": "A signed transaction that was executed cannot be executed again from the same account with the same nonce.", "quantifier": "every history of transactions, fee-paying and free, of existing and non-existing token accounts", "why_tests_cant": "History property.", "anchors": ["runtime/common/src/extensions/check_nonce.rs: CheckNonce"]}
{"id": "C66", "title": "Passkey transactions are authorised by the passkey for exactly this call", "statement": "A passkey transaction is executed only if the passkey whose public key the account signed has signed exactly this call and nonce; and only token transfer calls can be executed this way.", "quantifier": "every payload and state", "why_tests_cant": "Adversarial payloads.", "anchors": ["pallets/passkey/src/lib.rs: validate_unsigned, pre_dispatch, validate_signatures, filter_valid_calls, proxy", "runtime/frequency/src/lib.rs: PasskeyCallFilter"]}
{"id": "C67", "title": "Batches cannot smuggle forbidden calls", "statement": "A utility batch that passes the call filter contains no nested batch, no capacity-payment call, no provider or schema creation and no fee-free call.", "quantifier": "every batch of calls", "why_tests_cant": "All call trees.", "anchors": ["runtime/frequency/src/lib.rs: BaseCallFilter"]}
{"id": "C68", "title": "Proxy type ordering is sound", "statement": "If one proxy type is declared a superset of another, every call the latter permits is permitted by the former.", "quantifier": "every pair of proxy types and every call", "why_tests_cant": "All calls.", "anchors": ["runtime/frequency/src/lib.rs: InstanceFilter for ProxyType"]}
{"id": "C69", "title": "Signed payloads of different kinds or contents never share their bytes", "statement": "The bytes an account signs for a delegation determine the provider, the schema list and the expiration; the bytes signed for a key addition determine the account, the expiration and the new key; and no bytes signed for one kind of payload are the bytes of the other, although payloads carry no type tag. A signature given for one request therefore cannot be presented for another.", "quantifier": "every pair of payloads whose fields fit their integer types, any list length", "why_tests_cant": "It is an injectivity and disjointness claim over an infinite set of encodings; a test compares only the payloads it lists.", "anchors": ["pallets/msa/src/types.rs: AddProvider, AddKeyData", "common/primitives/src/utils.rs: wrap_binary_data", "pallets/msa/src/lib.rs: verify_signature"]}
{"id": "C70", "title": "A signature for one storage payload is never valid for another", "statement": "The bytes that are signed for a stateful-storage payload determine the operation, its version and all its fields: no signature given for one payload (itemized actions, page upsert, page delete; with or without account id) verifies for another.", "quantifier": "every pair of storage payloads of any kind and version", "why_tests_cant": "Tests sign and verify a payload of one kind; that no other payload has the same bytes is a statement about all pairs of payloads.", "anchors": ["pallets/stateful-storage/src/types.rs: ItemizedSignaturePayload, PaginatedUpsertSignaturePayload, PaginatedDeleteSignaturePayload and their V2 versions", "pallets/stateful-storage/src/lib.rs: check_signature"]}
{"id": "C71", "title": "Stored pages always decode", "statement": "In every reachable state every stored page decodes, every itemized page parses, and no call or query ever fails with a corrupted-state error.", "quantifier": "every history of stateful-storage calls by any callers", "why_tests_cant": "Tests visit a few states; the claim is an invariant of all of them.", "anchors": ["pallets/stateful-storage/src/lib.rs: update_itemized, update_paginated, get_itemized_storage, get_paginated_storage", "pallets/stateful-storage/src/stateful_child_tree.rs: try_read"]}
{"id": "C72", "title": "Reserved words cannot be claimed in disguise", "statement": "No stored handle has a base name that normalises (case, diacriticals, look-alike characters) to the same canonical form as a reserved word.", "quantifier": "every history and every Unicode name", "why_tests_cant": "Tests try the reserved words themselves; every reserved word has a very large number of look-alikes.", "anchors": ["pallets/handles/src/lib.rs: validate_base_handle", "pallets/handles/src/handles-utils/src/validator.rs: is_reserved_handle"]}
{"id": "C73", "title": "A signed handle payload takes effect at most once", "statement": "After a claim or change with a signed payload succeeded, no later claim or change for the same account succeeds with the same payload.", "quantifier": "every history of claims, changes and retirements within the lifetime of the payload, submitted by anyone holding the signature", "why_tests_cant": "Replay needs particular interleavings with other valid calls; tests repeat a call at most once.", "anchors": ["pallets/handles/src/lib.rs: claim_handle, change_handle, verify_signature_mortality, verify_signed_payload"]}
{"id": "C74", "title": "A claim reports the amount claimed", "statement": "The Claimed event of the time-release pallet carries the amount that the claim made available to the account, as its documentation says.", "quantifier": "every reachable state and every successful claim", "why_tests_cant": "All schedules and all times of claiming; the tests fix a few amounts that the event happens to carry.", "anchors": ["pallets/time-release/src/lib.rs: claim, claim_for, do_claim, Event::Claimed"]}
{"id": "C75", "title": "A non-transfer proxy cannot transfer tokens", "statement": "No call dispatched through a proxy of type NonTransfer leads to the execution of a token transfer.", "quantifier": "every call tree that can be dispatched through the proxy, nested to any depth", "why_tests_cant": "The filter is applied again at each nesting level except where a wrapper creates a new origin, so the claim depends on all ways of nesting calls.", "anchors": ["runtime/frequency/src/lib.rs: InstanceFilter for ProxyType", "runtime/common/src/proxy.rs: ProxyType::NonTransfer"]}
{"id": "C76", "title": "Passkey transactions pay for their length", "statement": "The fee of a passkey transaction is computed for the encoded length of the transaction.", "quantifier": "every payload", "why_tests_cant": "All payloads; the tests use a single payload and do not compare the fee with that of a longer one.", "anchors": ["pallets/passkey/src/lib.rs: ChargeTransactionPayment::pre_dispatch, validate"]}
{"id": "C77", "title": "An account never delegates to itself", "statement": "No sequence of transactions ever produces a delegation in which the delegator and the provider are the same MSA, whether through a grant or through sponsored creation.", "quantifier": "every history of MSA extrinsics, every MSA id", "why_tests_cant": "The grant path compares the two ids, but the sponsored path relies on the fresh id being different from every id in use, which is an invariant of all histories.", "anchors": ["pallets/msa/src/lib.rs::add_provider", "pallets/msa/src/lib.rs::create_sponsored_account_with_delegation", "pallets/msa/src/lib.rs::ensure_valid_registered_provider"]}
{"id": "C78", "title": "Provider registration needs a key of the account or governance", "statement": "An MSA that is not a provider becomes one only through create_provider signed by one of its own current keys, or through create_provider_via_governance from the governance origin naming one of its current keys, and the recorded name is the one given.", "quantifier": "every state, every extrinsic, every MSA id", "why_tests_cant": "Tests try the two calls; they cannot show that none of the other calls, in any state, creates a registry entry.", "anchors": ["pallets/msa/src/lib.rs::create_provider", "pallets/msa/src/lib.rs::create_provider_via_governance", "pallets/msa/src/lib.rs::create_provider_for"]}
{"id": "C79", "title": "Delegations name only schemas that exist", "statement": "A schema newly recorded in a delegation, by a grant or by sponsored creation, is one that has been registered: its id lies between 1 and the highest id issued.", "quantifier": "every state and every extrinsic", "why_tests_cant": "Every call in every state can change a delegation, and the check compares with an upper bound only, so it has to be shown for all ids.", "anchors": ["pallets/msa/src/lib.rs::ensure_all_schema_ids_are_valid", "pallets/schemas/src/lib.rs::are_all_schema_ids_valid"]}
{"id": "C80", "title": "Capacity is backed by stake", "statement": "A target nobody has stake on has no capacity; in particular, when no account has an active stake, no capacity is issued to anybody.", "quantifier": "every history of staking, unstaking, withdrawing, spending and epoch changes", "why_tests_cant": "Needs a relation between all records of all accounts and targets over arbitrary histories.", "anchors": ["pallets/capacity/src/lib.rs: unstake, decrease_active_staking_balance, reduce_capacity", "pallets/capacity/src/types.rs: StakingTargetDetails::withdraw, CapacityDetails::withdraw"]}
{"id": "C81", "title": "Staking and spending have exactly the announced effect", "statement": "A stake adds exactly the amount taken to the active stake, the freeze, the record of the target and its total, and exactly the capacity generated (rate times amount, rounded to nearest) to the capacity issued and remaining; an unstake moves exactly the amount taken from the active stake to one new unlocking chunk; a positive fee is accepted exactly if that much capacity is available in the epoch and lowers it by exactly the fee. No other account, target or epoch is touched.", "quantifier": "every reachable state, every account, target, amount and environment", "why_tests_cant": "Exactness and absence of side effects for all states and amounts, including rounding and saturation.", "anchors": ["pallets/capacity/src/lib.rs: stake, unstake, withdraw_unstaked, increase_stake_and_issue_capacity, deduct, replenish_all_for", "pallets/frequency-tx-payment/src/payment.rs: withdraw_fee"]}
{"id": "C82", "title": "The report of missing nonces is exact", "statement": "`frequency_getMissingNonceValues` for an account returns, in ascending order and without repetition, exactly the nonces that no transaction has and for which a later transaction of the account waits in the pool (the 1000 lowest if there are more).", "quantifier": "every account, every account nonce and every content of the transaction pool", "why_tests_cant": "The pool content is arbitrary: any number of accounts, any interleaving of their transactions, and gaps of any size; tests use a fixed mock pool.", "anchors": ["node/service/src/rpc/frequency_rpc.rs: get_missing_nonces", "runtime/common/src/extensions/check_nonce.rs: validate"]}
{"id": "C83", "title": "Storage calls do exactly what is asked", "statement": "A call that writes or deletes a page or applies item actions succeeds exactly if its data is within the limits, the caller may write (owner, provider with a current grant where no signature is required, or a valid unexpired signature by a key of the account), the schema exists and permits the operation, and the target hash is that of the stored page. After it, exactly the data given is stored (the page, no page, or the earlier items without those deleted followed by those added) with a nonce one higher, and the queries return it. The queries succeed exactly for schemas that exist and are of their kind.", "quantifier": "every reachable state, every call of the pallet, every caller and environment", "why_tests_cant": "Acceptance and effect are characterised completely, for all contents, payloads, settings and grants; tests only try some combinations.", "anchors": ["pallets/stateful-storage/src/lib.rs: apply_item_actions, upsert_page, delete_page, *_with_signature, *_with_signature_v2, update_itemized, update_paginated, delete_paginated, get_itemized_storage, get_paginated_storage", "pallets/stateful-storage/src/types.rs: apply_item_actions"]}
{"id": "C84", "title": "Messages are accepted exactly when admissible, and stored as submitted", "statement": "An on-chain message is accepted exactly if its payload is within the limit, the schema exists and has its payload on chain, the caller's key belongs to an account, and the account named as author, if any, has an active grant to the sender for that schema. An IPFS message is accepted exactly if the identifier is text of more than two characters that is not of version 0 and decodes to a content identifier, identifier and length together fit the limit, the schema exists and has its payload on IPFS, and the caller's key belongs to an account. An accepted message is stored under the current block, its schema and the next index exactly as submitted, and no other message changes; a refused one changes nothing.", "quantifier": "every state of the pallet and of the pallets it consults, every caller, payload, identifier, length, schema and author", "why_tests_cant": "Both directions over all payloads and states; tests try single refusals and cannot show that nothing else is refused, or that no other entry is touched.", "anchors": ["pallets/messages/src/lib.rs: add_ipfs_message, add_onchain_message, add_message, validate_cid, on_initialize"]}
{"id": "C85", "title": "Account calls succeed exactly when their conditions hold, and change exactly what they announce", "statement": "A call of the account pallet succeeds exactly if its stated conditions hold: the signatures verify for the given keys and payload, are unexpired, close enough to their expiration, not remembered, and can be remembered; the keys belong (or do not yet belong) to accounts; the provider is registered; the schemas exist and the recorded ones stay within the limit; the name is short enough and none is registered; the delegation exists and is not revoked; the account has room for another key. The transaction extension lets a free call pass exactly if the delegation is in force, the deleted key is another key of the caller's account, or the retiring account is no provider, has no handle, one key and no delegation in force. After a successful call the account of every key, the key counter and provider name of every account, and the revocation block of every delegation and every schema of it are those announced by the call, and nothing else has changed.", "quantifier": "every reachable state, every call of the pallet, every origin and environment; signature registry of capacity at least two, key limit between 1 and 255", "why_tests_cant": "Both directions over all states and payloads; tests try single refusals and cannot show that nothing else is refused, or that no other entry is touched.", "anchors": ["pallets/msa/src/lib.rs: all extrinsics, CheckFreeExtrinsicUse, register_signature, add_key, add_provider, upsert_schema_permissions, revoke_provider, delete_key_for_msa, create_provider_for", "pallets/msa/src/types.rs: PermittedDelegationSchemas"]}
{"id": "C86", "title": "Handle calls succeed exactly when their conditions hold, and touch only their own handle", "statement": "A claim succeeds exactly if the name is acceptable (at most 32 bytes of valid text, 3 to 20 characters, none blocked, no reserved word, a canonical form of 3 to 20 characters of supported scripts), the key belongs to an account without handle, its signature over the payload is valid, unexpired and not too far from expiring, and fewer suffixes have been given out for the canonical name than the range has; a change likewise, for an account with a handle; a retirement exactly if the account has a handle and, when submitted directly, its expiration has been reached. After a claim the account has the name with the suffix announced next, which was never given out for that name, and the display name leads to the account; after a retirement it leads to nobody. The handle of every other account and what every other display name leads to are unchanged.", "quantifier": "every reachable state under a fixed suffix range, every call, name, payload and environment; every normalisation, confusables table and signature scheme", "why_tests_cant": "Both directions over all names and states; tests try single refusals and cannot show that nothing else is refused, or that no other handle is touched.", "anchors": ["pallets/handles/src/lib.rs: claim_handle, change_handle, retire_handle, do_claim_handle, do_retire_handle, validate_base_handle, get_next_suffixes, get_msa_id_for_handle", "pallets/handles/src/handles_signed_extension.rs"]}
{"id": "C87", "title": "Schema calls succeed exactly when their conditions hold, and change exactly what they announce", "statement": "A registration succeeds exactly if made by an account (or, for the governance calls, by root or council), the model is valid for its type and within the minimum, the current maximum and the hard limit, the settings are not too many and append-only only with itemized storage, fewer than 65535 schemas exist, and the name, if given, spells (up to case and surrounding white space) a name space of 3 to 30 and a descriptor of 1 to 28 letters and inner hyphens that has fewer than 254 versions. After it there is exactly one more schema, with the next number, this content and exactly these settings, which is the next version of that name; every other schema and name is unchanged. A later naming succeeds exactly if made by root or council for a schema registered without a name that is not yet a version of this name, and only adds that version; the maximum is changed only by root, to at most the hard limit.", "quantifier": "every reachable state, every call of the pallet, every origin; every model validation", "why_tests_cant": "Both directions over all models, names and states; tests try single refusals and cannot show that nothing else is refused, or that no other entry is touched.", "anchors": ["pallets/schemas/src/lib.rs: create_schema, create_schema_v2, create_schema_v3, create_schema_via_governance, create_schema_via_governance_v2, create_schema_name_via_governance, set_max_schema_model_bytes, create_schema_for, add_schema, parse_and_verify_schema_name", "pallets/schemas/src/types.rs: try_parse, SchemaVersionId"]}
{"id": "C88", "title": "Time-release calls succeed exactly when their conditions hold, with exactly the announced effect", "statement": "A claim, for oneself or by anybody signed for another, succeeds exactly if nothing is kept back any more or the freeze can be set. A vesting transfer succeeds exactly if the schedule has positive periods ending at an existing block number and a total that is a balance and reaches the minimum, the sender can pay that total without touching what is frozen (keeping the existential deposit or closing an unencumbered account), the recipient can hold it, and the recipient has fewer still running schedules than allowed. A replacement of schedules succeeds exactly if made by root with not too many usable schedules whose sum is covered by the free balance. Afterwards schedules, freezes and balances of every account are exactly determined: a claim drops the finished schedules and freezes what the rest keeps back; a transfer also appends the schedule and moves its total; a replacement stores the list and freezes its sum; no other account, lock or reserve changes, and only the dust of a closed sender is burned.", "quantifier": "every genesis, every reachable state, every call, origin and schedule; whether a freeze can be set or an account be closed as far as other pallets decide it is open", "why_tests_cant": "Both directions over all schedules and states: tests try single refusals and cannot show that nothing else is refused or that no other account is touched.", "anchors": ["pallets/time-release/src/lib.rs: claim, claim_for, transfer, update_release_schedules, do_claim, do_transfer, do_update_release_schedules, ensure_valid_release_schedule"]}
{"id": "C89", "title": "Capacity operations succeed exactly when their conditions hold", "statement": "A stake succeeds exactly if the target is a registered provider, the amount taken (the amount asked for, or what the account holds above the minimum balance) is positive, with it the active stake reaches the minimum, and no balance overflows. An unstake succeeds exactly if the amount is positive and at most the active stake, there is room for one more unlocking chunk, and the account has something staked to this target. A withdrawal succeeds exactly if an unlocking chunk has thawed. A fee is accepted exactly if the account has ever been staked to and has that much capacity available. The epoch length can be set exactly up to its maximum; a block starts a new epoch exactly when the length has elapsed. An unstake takes from the target exactly the capacity of the record if it ends it, else the share of the stake, rounded up.", "quantifier": "every reachable state, every operation, every environment of balances and providers, every rounding of ratios by the library", "why_tests_cant": "Both directions over all states; tests try single refusals and cannot show that nothing else is refused.", "anchors": ["pallets/capacity/src/lib.rs: stake, unstake, withdraw_unstaked, set_epoch_length, on_initialize, ensure_can_stake, decrease_active_staking_balance, add_unlock_chunk, reduce_capacity, do_withdraw_unstaked, deduct, replenish_all_for", "pallets/capacity/src/types.rs", "pallets/frequency-tx-payment/src/payment.rs: withdraw_fee"]}
{"id": "C90", "title": "Messages on behalf of others trace back to the author's signature, across pallets", "statement": "Whatever message a query returns was sent in the block it is returned for, under the schema it is returned for, by a key that at that moment belonged to the account named as provider. If the message names another account as its author, the call named that author and carried exactly this payload; some earlier call on the chain carried a valid, unexpired signature by a key of the author (or by the key for which that call created the author's account) over a payload that names this provider and this schema; and when the message was sent neither the delegation nor the grant of the schema had been revoked in an earlier block.", "quantifier": "every history of blocks and calls of all pallets by any origins, wrapped in any way, from genesis; every query", "why_tests_cant": "The claim connects four pallets over whole histories: keys, delegations and grants, schemas, messages. Unit tests use mocks in place of the other pallets and single scenarios.", "anchors": ["pallets/messages/src/lib.rs: add_onchain_message, add_ipfs_message, get_messages_by_schema_and_block", "pallets/msa/src/lib.rs: grant_delegation, create_sponsored_account_with_delegation, ensure_valid_schema_grant", "runtime/frequency/src/lib.rs: pallet_messages::Config"]}
{"id": "C91", "title": "Nobody's storage changes without their own call, their signature, or a grant they signed, across pallets", "statement": "What is read at any place in the storage of an account (its item list for a schema, a page) changes only by a call of the storage pallet that was sent by a key of that account, or that carries a valid, unexpired signature by a key of that account over its contents, or that was sent by a key of another account. In the last case an earlier call on the chain carried a valid, unexpired signature by a key of the owner over a payload naming that other account and the schema; neither the delegation nor the grant had been revoked in an earlier block; and the schema was not registered as requiring the owner's signature.", "quantifier": "every history of blocks and calls of all pallets by any origins, wrapped in any way, from genesis; every place with ids of 64 and 16 bits", "why_tests_cant": "The claim connects keys, delegations, schemas and storage over whole histories; unit tests use mocks in place of the other pallets.", "anchors": ["pallets/stateful-storage/src/lib.rs: all calls, check_schema_for_write, check_msa_and_grants", "pallets/msa/src/lib.rs: grant_delegation, create_sponsored_account_with_delegation, ensure_valid_schema_grant", "pallets/schemas/src/lib.rs: get_schema_info_by_id", "runtime/frequency/src/lib.rs: pallet_stateful_storage::Config"]}
{"id": "C92", "title": "What one pallet stores about another's objects exists there", "statement": "At any time: the schema of every stored message is registered, with payloads on chain if the message has an author and on IPFS if not; its provider and its author are accounts that were created, and if they differ the provider is a registered provider. Every key and every handle belongs to an account that was created; every delegation goes from such an account to a registered provider; every provider is such an account. Whoever has a capacity record or is the target of a stake is a registered provider. Wherever an item list or a page is stored, its owner is an account that was created and its schema is registered as itemized or as paginated, respectively.", "quantifier": "every history of blocks, calls of all pallets by any origins however wrapped, capacity payments and runtime upgrades, from genesis", "why_tests_cant": "Referential integrity between pallets over whole histories; unit tests use mocks in place of the other pallets.", "anchors": ["pallets/messages/src/lib.rs", "pallets/handles/src/lib.rs", "pallets/stateful-storage/src/lib.rs", "pallets/capacity/src/lib.rs", "pallets/msa/src/lib.rs", "pallets/schemas/src/lib.rs", "runtime/frequency/src/lib.rs: pallet configurations"]}
{"id": "C93", "title": "A retired account is gone for good", "statement": "Once a transaction that retires an account has been accepted, then whatever happens afterwards: no key belongs to the account, it has no handle, it is no provider, it has no capacity and no active delegation, no message in its name is added, neither as provider nor as author, and everything in its storage stays as it is.", "quantifier": "every history before the retirement and every history after it, of calls of all pallets by any origins however wrapped", "why_tests_cant": "The claim quantifies over everything that may happen before and after and over six pallets; unit tests check the immediate effect with mocks.", "anchors": ["pallets/msa/src/lib.rs: retire_msa, ensure_msa_can_retire, validate", "pallets/messages/src/lib.rs", "pallets/stateful-storage/src/lib.rs", "pallets/handles/src/lib.rs", "pallets/capacity/src/lib.rs"]}
{"id": "C94", "title": "An account in use keeps a key", "statement": "An account that has a handle, is a registered provider, or has a delegation that is active now, has at least one key that controls it.", "quantifier": "every history of calls of all pallets by any origins however wrapped, from genesis; every account", "why_tests_cant": "An invariant over histories across the msa and handles pallets; unit tests check single refusals.", "anchors": ["pallets/msa/src/lib.rs: delete_msa_public_key, retire_msa, ensure_msa_can_retire, validate", "pallets/handles/src/lib.rs: claim_handle, change_handle, retire_handle", "runtime/frequency/src/lib.rs: HandleProvider"]}
{"id": "C95", "title": "Capacity is spent only by keys of its owner, stake is moved only by its owner", "statement": "The capacity of an account changes only when a transaction signed with a key that belongs to this account is paid with capacity, when somebody stakes to it (and then it is a registered provider), or when somebody who has a stake to it unstakes. What a token account has staked, unlocking and frozen for staking, and to whom, changes only by calls signed by that token account.", "quantifier": "every state of the chain, every step: calls of all pallets by any origins however wrapped, payments, new blocks, upgrades", "why_tests_cant": "A statement about all operations and states across the msa, capacity and payment pallets; unit tests look at single operations.", "anchors": ["pallets/capacity/src/lib.rs", "pallets/frequency-tx-payment/src/payment.rs", "pallets/msa/src/lib.rs: ensure_valid_msa_key"]}
{"id": "C96", "title": "Upgrading the message storage keeps every message", "statement": "After the upgrade of the message storage to version 2, the query for any block and schema returns exactly the messages that were stored for them before, each with the same index, provider, author and payload, in the order of their indices; nothing else in the state changes, and running the upgrade again changes nothing.", "quantifier": "every storage of version 1 in which the messages of one block and schema have distinct indices and nothing is stored in the new layout; every block and schema", "why_tests_cant": "The unit test of the migration moves a few messages; the claim is about any number of messages under any keys, in any order of the storage.", "anchors": ["pallets/messages/src/migration/v2.rs: migrate_to_v2", "pallets/messages/src/lib.rs: get_messages_by_schema_and_block"]}
{"id": "C97", "title": "Upgrading the capacity storage turns staking locks into freezes", "statement": "The upgrade of the capacity storage to version 3 replaces the staking lock of every account by a freeze of exactly the same amount, namely its active stake together with its unlocking chunks; no lock remains, no staked token becomes spendable, nothing else changes, and running the upgrade again changes nothing.", "quantifier": "every history of staking, unstaking and withdrawing before the upgrade; every account", "why_tests_cant": "The claim is about the accounts of every possible history at once; the unit tests migrate one or two accounts with active stake.", "anchors": ["pallets/capacity/src/migration/v3.rs", "pallets/capacity/src/lib.rs: set_staking_account", "pallets/capacity/src/types.rs: unlock_chunks_total"]}
{"id": "C98", "title": "Upgrading the time-release storage turns vesting locks into freezes", "statement": "The upgrade of the time-release storage to version 2 replaces the vesting lock of every account by a freeze of exactly the same amount; no lock remains, the freeze covers what has not vested, balances and schedules do not change, and running the upgrade again changes nothing.", "quantifier": "every history of transfers, claims and updates before the upgrade, and after it; every account", "why_tests_cant": "The claim is about the accounts of every possible history at once, including those that have claimed part of a schedule; the unit tests migrate accounts that have not claimed.", "anchors": ["pallets/time-release/src/migration/v2.rs", "pallets/time-release/src/types.rs: total_amount, frozen_amount"]}
{"id": "C99", "title": "Staked tokens can always be taken out again", "statement": "Whatever has happened before and whatever other accounts and governance do meanwhile, an account gets all its staked tokens back by its own calls within a bounded number of blocks: every unlocking chunk can be withdrawn after the thaw period counted in epochs of the longest length; the active stake can be unstaked at once by naming one of its targets, unless the account has the largest number of unlocking chunks; and waiting, withdrawing, unstaking, waiting and withdrawing leaves nothing of the account frozen for staking.", "quantifier": "every history of the chain before, every account, every behaviour of the others while the account waits", "why_tests_cant": "It is a claim about what remains possible after every history, and for every behaviour of the others; a test follows one history.", "anchors": ["pallets/capacity/src/lib.rs: unstake, withdraw_unstaked, do_withdraw_unstaked, start_new_epoch_if_needed, set_epoch_length"]}
{"id": "C100", "title": "Vested tokens become free in time, and others cannot take or hold tokens", "statement": "Once the last of an account's release schedules has ended, the account's own claim or a claim by anybody for it succeeds, also where no freeze can be set, removes the freeze and all schedules, and leaves the tokens on the account; nothing that happened meanwhile prevents it. No call signed by somebody else lowers what an account can spend, takes tokens off it or alters its running schedules: at most it adds a schedule together with at least the tokens that the schedule keeps back.", "quantifier": "every genesis and history; every account; every call and signer; every block from the end of the last schedule on", "why_tests_cant": "It is a claim about every history with any number of schedules, overlapping locks and reserved tokens; tests claim from one or two schedules without locks of other origin.", "anchors": ["pallets/time-release/src/lib.rs: claim, claim_for, transfer, do_claim, do_transfer", "pallets/time-release/src/types.rs: frozen_amount"]}
{"id": "C101", "title": "No account is locked in", "statement": "Whatever has happened before, whoever holds a key of an account that is not a registered provider can retire the account by transactions signed with that key alone and by waiting: afterwards no key, handle, delegation or capacity of the account is left.", "quantifier": "every history of calls before, direct or wrapped; every key and account that is no provider", "why_tests_cant": "It is a claim about what remains possible after every history: it must hold for every number of keys, delegations and every handle, and no order of calls may lead to a state from which there is no way out.", "anchors": ["pallets/msa/src/lib.rs: retire_msa, ensure_msa_can_retire, revoke_delegation_by_delegator, delete_msa_public_key", "pallets/handles/src/lib.rs: retire_handle"]}
{"id": "C102", "title": "The schema-name upgrade gives six schemas their names and changes nothing else", "statement": "The upgrade to storage version 4 makes each of the six known schemas of the main net that exists the first and only version of its name. Every other name keeps its versions, no schema changes, other chains keep all names, and the upgrade acts once. Afterwards governance can name every schema that is listed under no name.", "quantifier": "every history of calls before the upgrade", "why_tests_cant": "The upgrade runs once on a state that no test has; what it overwrites depends on all registrations before.", "anchors": ["pallets/schemas/src/migration/v4.rs: migrate_to_v4, get_known_schemas", "pallets/schemas/src/lib.rs: create_schema_name_via_governance, get_schema_versions"]}
{"id": "C103", "title": "Key events are removed from the off-chain database once they are in the index", "statement": "After the worker has handled all blocks up to the finalized one, the off-chain database of the node holds no key event of a block up to this one, wherever earlier runs of the worker stopped.", "quantifier": "every history of transactions, blocks, worker runs and crash points", "why_tests_cant": "Crash points are unbounded; what is never removed shows only as a database that grows.", "anchors": ["pallets/msa/src/offchain_storage.rs: reverse_map_msa_keys, clean_offchain_events, init_last_processed_block"]}
{"id": "C104", "title": "A signature given to one pallet is worth nothing to another", "statement": "Delegations, key additions, handle claims, storage requests (of both versions) and ownership proofs of passkeys are all signed by users for others to submit. The bytes signed for a request to one pallet are never the bytes of a request to another pallet, so that a signature can only be used for what it was given for.", "quantifier": "all well-typed requests, all signers, all states", "why_tests_cant": "Each pallet's tests sign and verify their own payloads; a coincidence of bytes between pallets shows in no test of either.", "anchors": ["common/primitives/src/utils.rs: wrap_binary_data", "pallets/msa/src/lib.rs: verify_signature", "pallets/handles/src/lib.rs: verify_signed_payload", "pallets/stateful-storage/src/lib.rs: check_signature", "pallets/passkey/src/lib.rs: check_account_signature"]}
{"id": "C105", "title": "The rules of the pallets hold of the chain put together", "statement": "On the chain, where each pallet takes its answers from the others: governance calls can be made by those entitled to them only, and by all of those with the same result, and user calls by signers only; every schema in a delegation is registered, apart from the number 0; a storage call is accepted only for a registered schema of its kind, and deletes nothing from an append-only one; an accepted on-chain message can be queried under the current block with the account of its signer as sender, and the messages of past blocks stay as they are; a claim is accepted only for an account without a handle and a change only for one with a handle, both show the name asked for with a suffix until the block named; a transaction cannot retire a handle before that block; blocks are numbered one after the other and epochs begin when the last one has had its length.", "quantifier": "all configurations, histories of the chain, origins and calls", "why_tests_cant": "Each pallet is tested against mocks of the others; the wiring in the runtime is not.", "anchors": ["runtime/frequency/src/lib.rs: impl pallet_*::Config for Runtime", "pallets/schemas/src/lib.rs: SchemaProvider, SchemaValidator", "pallets/msa/src/lib.rs: MsaLookup, SchemaGrantValidator"]}
{"id": "C106", "title": "What the node answers about a past delegation is what held then", "statement": "Asked whether an account had delegated to a provider (in general, or for a schema) in a past block, the node gives the answer that it gave at the end of that block, no matter what has been called since. About future blocks it answers no. Asked about several accounts it gives one answer for each, in order. Asked for all delegations of an account it lists every provider once, with the schemas reported for that provider.", "quantifier": "all histories, blocks, accounts, providers and schemas", "why_tests_cant": "Tests ask in one or two later blocks, after one change; the claim is about every later history.", "anchors": ["runtime/frequency/src/lib.rs: has_delegation, get_all_granted_delegations_by_msa_id", "pallets/msa/src/rpc/src/lib.rs: check_delegations", "pallets/msa/src/lib.rs: ensure_valid_delegation, ensure_valid_schema_grant, get_granted_schemas_by_msa_id"]}
{"id": "C107", "title": "Whoever follows the account events knows keys, providers and delegations", "statement": "A client that sees nothing but the events of the msa pallet, from the first block on, knows at any time: which account each key controls, how many accounts were created, which accounts are providers, and which delegations exist and are not revoked. No delegation and no schema of a delegation changes in a call that deposits no event about that delegator and provider.", "quantifier": "all histories of calls, keys, accounts", "why_tests_cant": "Tests check that single calls deposit the expected event; whether the events of every history determine the state is not checked.", "anchors": ["pallets/msa/src/lib.rs: Event, deposit_event in all calls"]}
{"id": "C108", "title": "Storage events form an unbroken chain of hashes for every page", "statement": "For every page of stateful storage, the hash reported by the last event about the page is the hash of what the node returns for the page; a deletion stands for the hash zero. The previous hash in an event is the current hash of the last event before it about the same page. A call that changes a page deposits an event about it.", "quantifier": "all histories of calls, pages", "why_tests_cant": "Tests check the event of a single write; the claim links events over arbitrary histories of all six writing calls.", "anchors": ["pallets/stateful-storage/src/lib.rs: Event, update_itemized, update_paginated, delete_paginated"]}
{"id": "C109", "title": "Capacity events add up to the stakes and capacities stored", "statement": "At any time: what an account has staked is the sum of its Staked events minus that of its UnStaked events. What is frozen for staking is its Staked events minus its StakeWithdrawn events. What a provider was staked, and the capacity issued to it, are the Staked events for it minus the UnStaked events for it. The capacity a provider has spent is the sum of its CapacityWithdrawn events. The epoch length is that of the last EpochLengthUpdated event.", "quantifier": "all histories of calls, fee payments and blocks, accounts, providers", "why_tests_cant": "Tests check amounts of single events; the sums go wrong only over several stakers, targets and roundings.", "anchors": ["pallets/capacity/src/lib.rs: Event, stake, unstake, withdraw_unstaked, deduct, set_epoch_length, reduce_capacity"]}
{"id": "C110", "title": "Spelling does not matter for finding a handle", "statement": "A handle leads to the same account however its name is spelled: with or without white space, and for ASCII names in upper or lower case and with any of the look-alike characters (0 and o; 1, i, l and |). The canonical name reported for an account, with its suffix, leads to that account.", "quantifier": "all names, suffixes and histories; for white space, all tables of decompositions and look-alikes", "why_tests_cant": "Tests convert a few names; whether two spellings always lead to the same account depends on the order of the conversions, over all strings.", "anchors": ["pallets/handles/README.md 17-28", "pallets/handles/src/handles-utils/src/converter.rs", "pallets/handles/src/lib.rs: get_msa_id_for_handle, get_handle_for_msa"]}
{"id": "C111", "title": "A limited proxy executes only what its type is for", "statement": "Whatever call a proxy dispatches, and however deep calls are nested in it: through a governance proxy only calls of the treasury, democracy, council, technical committee and utility pallets are executed; through a staking proxy exactly stake and set_candidacy_bond; through a proxy for cancelling exactly reject_announcement. Batches of governance calls are executed completely, as the account that appointed the proxy.", "quantifier": "all call trees, accounts, both kinds of networks", "why_tests_cant": "Tests try single calls; a filter must hold for calls nested in batches, derived accounts, multisigs and further proxies to any depth.", "anchors": ["runtime/frequency/src/lib.rs 206-270: InstanceFilter for ProxyType", "runtime/frequency/src/lib.rs: BaseCallFilter"]}
{"id": "C112", "title": "The fee for a weight", "statement": "A transaction pays for its weight a tenth of a cent per base weight (59307000 units of time), in proportion, to within half of the smallest unit of the token and one unit per billion of weight. More weight never costs less, exactly the weights up to 296 cost nothing, and splitting a weight into two changes the sum by at most one unit. So, with this conversion, what the fee query estimates for a call that is paid with capacity is at least what is charged, under the conditions of C64.", "quantifier": "all weights below 2^64 (all weights that occur)", "why_tests_cant": "Tests compare a few weights; the conversion goes through two stages of fixed point arithmetic with different roundings, whose errors depend on the weight.", "anchors": ["runtime/common/src/fee.rs 26-41", "runtime/common/src/constants.rs 45-47", "runtime/common/src/weights/extrinsic_weights.rs 55-56", "pallets/frequency-tx-payment/src/lib.rs: compute_capacity_fee_details"]}
{"id": "C113", "title": "Free transactions are paid for in advance", "statement": "There are never more free transactions in the chain than were made possible by earlier calls: one for each key created or added, each delegation granted, each handle claimed. So nobody can fill blocks with transactions that cost nothing.", "quantifier": "all histories of calls of the six pallets, wrapped or not, all accounts together", "why_tests_cant": "Tests check that single free calls are refused when they would fail; that no history contains more of them than were paid for in advance is a statement about all histories.", "anchors": ["pallets/msa/src/lib.rs 597, 711, 749, 831: Pays::No", "pallets/handles/src/lib.rs 418: Pays::No", "pallets/msa/src/lib.rs 1632-1771, 1845-1865: CheckFreeExtrinsicUse", "pallets/handles/src/handles_signed_extension.rs: HandlesSignedExtension"]}
{"id": "C114", "title": "A registered schema can be queried", "statement": "Whatever schema is registered, the RPC schemas_getBySchemaId answers with exactly the model that was registered.", "quantifier": "all models, all histories of the schemas pallet", "why_tests_cant": "Tests register a few well-formed models; whether the validators on chain accept a text that the RPC cannot turn into a string depends on all texts.", "anchors": ["pallets/schemas/src/lib.rs 746-760: ensure_valid_model", "pallets/schemas/src/serde.rs", "common/primitives/src/parquet.rs", "pallets/schemas/src/rpc/src/lib.rs 100-105", "common/primitives/src/schema.rs: SchemaResponse, as_string"]}
{"id": "C115", "title": "Parquet models mean what they say", "statement": "A JSON text that lists columns with name, column_type, compression and bloom_filter, with fields in any order and any white space, with the types, units and compressions of the Parquet format under their names, is accepted as a Parquet model and denotes exactly these columns.", "quantifier": "all lists of columns, all types with all parameters, all spellings of them in JSON", "why_tests_cant": "Tests parse a few columns; names are derived by macros from the names of variants, and not every variant is tested.", "anchors": ["common/primitives/src/parquet/column.rs", "common/primitives/src/parquet/column_compression_codec.rs", "common/primitives/src/parquet/types.rs", "common/primitives/src/parquet/base.rs, numeric.rs, string.rs, temporal.rs"]}
{"id": "C116", "title": "Avro models are JSON objects", "statement": "An Avro schema is registered exactly if its model is a JSON object by RFC 8259, with white space around it allowed, nested at most 127 deep and with numbers in the range of the reader, when the other conditions on the call hold. A model denotes one JSON value only.", "quantifier": "all byte strings, all states", "why_tests_cant": "Tests try a few malformed texts; that exactly the grammar is accepted concerns all byte strings.", "anchors": ["pallets/schemas/src/serde.rs 11-18: validate_json_model", "pallets/schemas/src/lib.rs 746-760: ensure_valid_model"]}
{"id": "C117", "title": "Providers and schemas have the council behind them", "statement": "On mainnet an account becomes a provider only by root, by a council member themselves, or when a motion that asks for just this account is closed and at least one present member has voted for it. Schemas, their names and the limit on models change only by root or an upgrade, or when a motion for a call of the schemas pallet is closed and more than half of the present members have voted for it, or its time is over, the prime member voted for it and less than half voted against it, or by the member of a council that has only one. Votes are those last cast by members who have been members ever since. Who is a member, and who is the prime member, changes only by root.", "quantifier": "all councils, all histories of calls, votes and changes of the council", "why_tests_cant": "Tests approve one motion with a full council; whether some order of votes, changes of the council and closing lets a request through with less is a question about all histories.", "anchors": ["runtime/frequency/src/lib.rs 101-126: CouncilProposalProvider", "runtime/frequency/src/lib.rs 139-163: BaseCallFilter", "runtime/frequency/src/lib.rs 494-500, 530-537: origins", "runtime/frequency/src/lib.rs 667-679: council", "pallets/msa/src/lib.rs 862-913", "pallets/schemas/src/lib.rs 338-393, 440-488, 593-652"]}
{"id": "C118", "title": "A request with its votes takes effect", "statement": "A request to be a provider that one present council member has voted for, and a request for a schema or a name that more than half of the present members have voted for, is carried out when anybody closes its motion, if it can be carried out at all. While the members may still decide either way and there is time, nobody can close it. What a member proposes with a single vote to it is carried out at once with the vote of that member alone.", "quantifier": "all councils, all histories, whoever closes the motion", "why_tests_cant": "Tests keep the council fixed between proposal and closing; the number of votes needed is stored when a request is made, so changes of the council in between matter.", "anchors": ["runtime/frequency/src/lib.rs 113-120: propose_with_simple_majority", "pallets/msa/src/lib.rs 862-882", "pallets/schemas/src/lib.rs 338-359, 440-463, 593-607"]}
{"id": "C119", "title": "The council can be asked", "statement": "Whoever meets the conditions of a call that asks something of the council, and asks nothing that lies before it already, gets a motion.", "quantifier": "all states, all callers and requests", "why_tests_cant": "Tests make a few requests; that requests of others crowd one out shows only when there are as many as there is room for.", "anchors": ["runtime/frequency/src/lib.rs 101-126: CouncilProposalProvider", "runtime/common/src/constants.rs 155-161", "pallets/schemas/src/lib.rs 338-359, 440-463, 593-607", "pallets/msa/src/lib.rs 862-882"]}
{"id": "C120", "title": "Motions stand as asked and votes as cast", "statement": "A motion before the council was asked for by one step that had its number; its request, the votes it takes and its last block are those of that step, in the name of the one who asked. On it count exactly the last votes of the present members; who has left the council, or came back and did not vote again, does not count, and nobody counts twice. Only closing it, or root's disapproval, takes a motion away. Once closed, whatever came of it, it is never there again, so that nothing is carried out twice on the same votes.", "quantifier": "all councils, all histories", "why_tests_cant": "Tests look at single votes; that lists of votes and the history of votes agree at all times is an invariant over all histories.", "anchors": ["pallets/msa/src/lib.rs 862-882", "pallets/schemas/src/lib.rs 338-359, 440-463, 593-607", "runtime/frequency/src/lib.rs 101-126, 667-679"]}
{"id": "C121", "title": "The text of an RPC answer tells exactly what the runtime returned", "statement": "What the node answers to the queries for messages, stateful storage, handles, suffixes, schemas, versions, grants and events is JSON (RFC 8259), and whoever reads the text has exactly what the runtime returned: every number, every byte of every payload, whether a payload is empty or absent, every name, the order of lists, and of every event the extrinsic and all bytes. Messages, storage, handles and suffixes always get an answer; a schema gets one if its model is UTF-8. An error of the runtime is answered as an error, never as an empty list.", "quantifier": "all states, all requests, all contents", "why_tests_cant": "Tests write and read a few answers without quotation marks, control characters or empty fields; that no content whatsoever breaks the text or is lost is a statement about all byte strings.", "anchors": ["common/primitives/src/utils.rs 36-129", "common/primitives/src/messages.rs 12-92", "common/primitives/src/stateful_storage.rs 19-104", "common/primitives/src/handles.rs 60-95", "common/primitives/src/schema.rs 20-77, 139-149", "common/primitives/src/msa.rs 55-73", "common/primitives/src/rpc.rs 16-52", "pallets/*/src/rpc/src/lib.rs", "node/service/src/rpc/frequency_rpc.rs 67-70"]}
{"id": "C122", "title": "Whoever follows the handle events knows the handle of every account", "statement": "Whoever has followed the HandleClaimed and HandleRetired events from the start knows after every history which accounts have a handle and which display handle it is, as the node answers it. A claim is announced only for an account without handle and a retirement with just the display handle the account had; a change is announced as retirement and claim in this order. The events of a call name the account of the key it is for, a call that fails announces nothing, and no handle changes that is not announced.", "quantifier": "all histories of claims, changes and retirements, whatever happens to the range of suffixes; all names", "why_tests_cant": "Tests look at the last event of single calls; that the events add up to the directory is a statement about all histories.", "anchors": ["pallets/handles/src/lib.rs 191-208: Event", "pallets/handles/src/lib.rs 374-494: claim_handle, retire_handle, change_handle", "pallets/handles/src/lib.rs 507-523: get_handle_for_msa", "pallets/handles/src/lib.rs 605-654, 735-755"]}
{"id": "C123", "title": "Whoever follows the time-release events knows what is held back on every account", "statement": "Whoever knows the state at genesis and has followed the ReleaseScheduleAdded, Claimed and ReleaseSchedulesUpdated events with their blocks knows after every history, for every account, which schedules still hold something back and how much of the balance is frozen, and thus how much will be held back at every later block if nothing further happens. Every call that succeeds announces itself just once with what it was asked for, and a call that fails announces nothing.", "quantifier": "all genesis states, all histories of transfers, claims, updates by root and blocks, all accounts and all later blocks", "why_tests_cant": "Tests look at the event of single calls; that the events add up to the schedules and the freeze is a statement about all histories.", "anchors": ["pallets/time-release/src/lib.rs 136-161: Event", "pallets/time-release/src/lib.rs 245-337: claim, transfer, update_release_schedules, claim_for", "pallets/time-release/src/lib.rs: do_claim, do_transfer, do_update_release_schedules"]}
{"id": "C124", "title": "A stake pays for transactions", "statement": "With the constants of the runtime, whoever stakes an accepted amount to a provider that had no stake enables the provider to pay for some transaction with capacity. More precisely the provider can pay, in this epoch and in every later one if nothing else happens, for just those transactions whose fees add up to no more than a fiftieth of the stake; every transaction paid with capacity costs at least 177,812 and at most 843,248,312, and 10,000 more for every byte.", "quantifier": "all histories, accounts, stakes and epochs; all sequences of transactions of any calls and lengths", "why_tests_cant": "Staking and payment are tested apart, with other constants than those of the runtime; what the minimum stake is worth follows from staking, rounding, weights and fees together, for all transactions.", "anchors": ["runtime/common/src/constants.rs 41, 78-80, 237, 380-399", "runtime/common/src/fee.rs 29-40", "pallets/capacity/src/lib.rs 425-479, 628-631", "pallets/frequency-tx-payment/src/lib.rs 252-260, 372-408", "runtime/common/src/weights, pallets/frequency-tx-payment/src/capacity_stable_weights.rs 34-35"]}
{"id": "C125", "title": "A transaction is counted and charged once, and takes effect as a whole or not at all", "statement": "A signed transaction is included exactly when it has the next number of its signer, can be paid for, and the filters for free calls let it pass; one that is not included changes nothing. One that is included uses up its number, unless it is free and its signer has nothing on the chain. If it is paid with capacity, exactly the fee is taken from the account of the signer, whether or not its calls succeed, and over any sequence of such transactions an account loses exactly the fees of those included for it; the calls take effect one after the other, or none of them does if one fails or there are more than ten; and they do just what the same calls in a batch paid with tokens would do. Whatever a transaction does, it does by calls and payments of its signer.", "quantifier": "all configurations, states of the pallets and accounts, signed transactions with any nesting of batches and capacity payments, and sequences of transactions", "why_tests_cant": "Number, payment, filters, batches and the effect of a call are in five crates and tested apart; what an included transaction does when its call fails, and that payment makes no difference to its effect, is about all calls and states together.", "anchors": ["runtime/frequency/src/lib.rs 290-301, 139-202, 875-911", "runtime/common/src/extensions/check_nonce.rs 80-117", "pallets/frequency-tx-payment/src/lib.rs 194-231, 372-430, 493-503", "pallets/msa/src/lib.rs 1812-1867", "pallets/handles/src/handles_signed_extension.rs"]}
{"id": "C126", "title": "A user is signed up in one transaction or not at all", "statement": "A provider with capacity sends one batch that creates an account for the key of a user with a delegation, and claims a handle for it. If the transaction is included and the request is good (both signatures are those of the key, in time and the first unused, the provider is registered and the one named, the key has no account, the schemas exist and are few enough, the name is acceptable and has a suffix left), then afterwards the key has the next account, alone, the account delegates to the provider just the schemas that were signed, and it has the name with the next suffix; the provider has paid exactly the fee and nothing else on the chain has changed. Otherwise nothing changes but what the provider has paid: there is no account without its delegation and handle.", "quantifier": "all reachable states of the chain, providers, keys, signatures, delegations and handles, for names whose canonical form has at most 32 bytes in the basic plane of Unicode (for others see C86)", "why_tests_cant": "Signing up a user runs through the payment, account, schema and handle pallets in one transaction; unit tests mock the other pallets, so that what the pallets do together is never tested, let alone for all requests and states.", "anchors": ["pallets/frequency-tx-payment/src/lib.rs 194-231, 372-408", "pallets/msa/src/lib.rs 464-505", "pallets/handles/src/lib.rs 374-409, 605-660", "runtime/frequency/src/lib.rs 290-301, 473-510, 1131-1135"]}
{"id": "C127", "title": "Nothing is done in the name of an account that has not agreed to it", "statement": "Consider accounts that nobody outside has power over: their proxies are among them, derived and pure accounts among them belong to accounts among them, a multisig account among them has fewer members outside than its threshold, and they have announced nothing for each other. As long as none of them signs a transaction, no call is executed in the name of any of them, however calls are wrapped (batches, proxies, announced proxies, derived accounts, multisigs, capacity payment, in each other); their proxies, transaction numbers and stakes stay as they are, and the chain changes only by calls and payments of others. If an account has proxies outside, but only of limited types, then what is executed for it without its signature is only what one of these proxies may do by its type, and when there is a delay only what was announced for at least that long; and nobody but the account can change its proxies. If all its proxies have a delay of n blocks and nothing is announced, then for n blocks nothing is executed for it without its signature, whatever the types of its proxies.", "quantifier": "all configurations, states, histories of blocks and signed transactions with any nesting of calls", "why_tests_cant": "Every wrapper is tested with single calls. That no combination of them lets somebody act for somebody else, or a limited proxy widen its power, is a statement about all trees of calls and all sequences of transactions; it depends on the filters of the runtime, which the framework calls at every level.", "anchors": ["runtime/frequency/src/lib.rs 139-202, 206-270, 546-558, 1056-1069", "runtime/common/src/proxy.rs 19-30", "runtime/common/src/constants.rs 273-283", "pallets/frequency-tx-payment/src/lib.rs 194-231, 372-430"]}
{"id": "C128", "title": "Whoever signs nothing keeps what they have", "statement": "Consider accounts that nobody outside has power over (as in C127), and MSAs all of whose control keys are among them and whose delegations in force are only to MSAs of the same kind. As long as none of these accounts signs a transaction and no executed call carries a signature of one of them (for a delegation, a key, a handle or storage), whatever others do, in whatever order and wrapped however: the MSAs keep their control keys and get no others, their delegations and handle stay as they are, no message in their name is added, everything that can be read in their storage stays the same, and their capacity changes only if somebody stakes for them or takes such a stake back.", "quantifier": "all configurations, all such sets of accounts, all histories of blocks and signed transactions with any nesting of calls", "why_tests_cant": "It is a statement about everything that everybody else can do, through all pallets together and all wrappers. Tests try single calls of a stranger against single pallets.", "anchors": ["pallets/msa/src/lib.rs 334-977, 1119-1200", "pallets/handles/src/lib.rs 300-560", "pallets/messages/src/lib.rs 190-300", "pallets/stateful-storage/src/lib.rs 300-620", "pallets/frequency-tx-payment/src/lib.rs 194-430", "runtime/frequency/src/lib.rs 139-202, 206-270"]}
{"id": "C129", "title": "Strangers cannot get in the way", "statement": "With accounts and MSAs as in C128, which sign nothing for a while: whatever such an MSA could do in its own affairs before, it can do after all that others did in between. Its own affairs are writing and deleting in its own storage (with the hash it knew), posting messages for itself, revoking a delegation or taking schemas from it, deleting one of its keys, asking to become a provider, retiring its handle, taking back a stake and withdrawing what has thawed. A call with which a key of the MSA would have succeeded succeeds just as well afterwards, wrapped or not, and as a transaction of its own it still passes the checks of the pallets. (Paying for the transaction is another matter, see C125.)", "quantifier": "all configurations with at least one key per MSA, all such sets of accounts, all histories of others, all calls of the kinds named", "why_tests_cant": "Denial of service by others is a statement about everything they can do, in every order, through every pallet. Tests show that a call succeeds in a state the test has prepared.", "anchors": ["pallets/msa/src/lib.rs 560-620, 680-760, 1119-1200", "pallets/handles/src/lib.rs 440-560", "pallets/messages/src/lib.rs 190-300", "pallets/stateful-storage/src/lib.rs 300-620", "pallets/capacity/src/lib.rs 290-380", "runtime/frequency/src/lib.rs 139-202"]}
{"id": "C130", "title": "Limits of the chain as built", "statement": "With the constants of the runtime, after any history with calls wrapped however: an account has at most 25 keys; a delegation records at most 30 schemas; names of providers have at most 16 bytes; schemas are numbered from 1 to at most 65,535, their models have 8 to 65,500 bytes, and they have at most 2 settings; a message has at most 3,072 bytes; a handle is a name of 3 to 20 characters in at most 32 bytes, a dot and two digits; under a schema an account has items of at most 1,024 bytes each and 10,260 bytes in all, or pages numbered 0 to 32 of at most 1,024 bytes each; a stake is of at least a hundredth of a token and at most 4 amounts of an account are thawing; epochs have at most 7,200 blocks. The constants also meet what other theorems assume of configurations.", "quantifier": "all histories of the chain with the constants of the runtime", "why_tests_cant": "Tests use mock runtimes with other constants, and check that single calls over the limit are refused; that a limit holds however a state was reached is a statement about all histories.", "anchors": ["runtime/common/src/constants.rs 19, 43, 81-147, 268, 326-338, 382-385", "runtime/frequency/src/lib.rs 473-540, 1073-1142"]}
{"id": "C131", "title": "Held-back tokens stay where they are", "statement": "On the chain with its tokens: at any time an account has as many tokens as it has staked or thawing, and as many as its schedules have not vested. Whatever takes tokens from an account - transfers, also of everything, transfers with a schedule, fees - leaves as many as are staked or thawing, not vested, or locked. Staking, unstaking, withdrawing, claiming and whatever else the pallets do, except transfers with a schedule, moves no tokens. All tokens and all that were burned together stay the same. A transfer is made exactly if the sender has the tokens free, what is held back for each reason stays, sender and recipient have the existential deposit or the sender may be closed; transferring everything transfers the most that may leave.", "quantifier": "all histories of the chain with transfers, fees, deposits, locks, stakes and schedules of all accounts in any order", "why_tests_cant": "The pallets are tested apart, against mock balances without each other's freezes; that the freezes of both overlap and always cover what they stand for is a statement about all interleavings.", "anchors": ["pallets/capacity/src/lib.rs 481-493, 558-594", "pallets/time-release/src/lib.rs 333-472", "runtime/frequency/src/lib.rs 494-614, 860"]}
{"id": "C132", "title": "Calls cost what the price list says", "statement": "Each call is paid for as the documentation lists it. The five calls listed as free (revoking a delegation by either side, deleting a key, retiring an account or a handle) are included whether or not the signer has tokens, and take no capacity from anybody. The calls listed with capacity, and no others, can be paid with capacity, by exactly those who hold a hundredth of a token and whose account can spend the price. Everything else is included only if its fee can be paid in tokens. The price in capacity depends on nothing but the calls and the length of the transaction: 177,812, plus 10,000 for every byte, plus the time of each call, which is fixed by its kind and by how many bytes or schemas it writes, at a tenth of a cent for what a transaction that does nothing takes, and never more than for a full block. More calls, more bytes written or a longer transaction never cost less, and calls in one batch cost less than the same calls one by one, by at least the base price less one for every call but the first.", "quantifier": "all states, signed transactions, calls with payloads of any size below 2^32, times of the database, and batches of any length", "why_tests_cant": "Tests compare a few fees with recorded numbers; that the list is exactly this one, that the price follows what is really written, and that no batch is dearer than its calls are statements about all calls and sizes.", "anchors": ["runtime/frequency/src/lib.rs 875-898", "pallets/frequency-tx-payment/src/lib.rs 252-316, 372-503", "pallets/frequency-tx-payment/src/capacity_stable_weights.rs 82-316", "pallets/msa/README.md 34-44", "pallets/stateful-storage/README.md 46-51"]}
{"id": "C133", "title": "Tokens leave a wallet only by its own signature", "statement": "Whatever others sign and whatever governance decides, an account that signs no transaction never has fewer tokens than before, and what it may transfer never gets less unless root replaces its release schedules. A transaction that is not included costs nothing. It is included exactly if it has the next number of its signer, is accepted by the checks for free calls, and is free, or paid with capacity that the signer's account can spend, or paid with tokens that are not held back for staking, schedules or locks and leave the existential deposit. An included transaction without a transfer among its calls, one paid with capacity, and one whose call fails cost the signer exactly the fee less what is paid back, if paid with tokens, and nothing otherwise; nobody else's tokens change. A transfer is made exactly if after the payment the amount may leave the account and arrive, and moves exactly that. All tokens together, with those burned, stay the same.", "quantifier": "all genesis states, histories of transactions by any signers with any nesting of batches, council and root decisions, upgrades and blocks, and all fees", "why_tests_cant": "Tests check single extrinsics from prepared balances; that no sequence of calls by others, in any nesting and with any way of payment, takes tokens from an account is a statement about all histories.", "anchors": ["runtime/frequency/src/lib.rs 290-301, 852-865", "pallets/frequency-tx-payment/src/lib.rs 372-538", "pallets/time-release/src/lib.rs 246-402", "pallets/capacity/src/lib.rs 481-594", "runtime/common/src/extensions/check_nonce.rs 80-117"]}
{"id": "C134", "title": "A signed transaction takes effect at most once", "statement": "A transaction that was included is never included again, so that what was signed once, a transfer for example, happens once. Only the signer can use up their numbers.", "quantifier": "all genesis states, histories and transactions", "why_tests_cant": "Tests submit a transaction twice in a row; whether it can come back after any history in between is a question about all histories.", "anchors": ["runtime/common/src/extensions/check_nonce.rs 49-147", "runtime/frequency/src/lib.rs 290-301, 852-865"]}
{"id": "C135", "title": "Tokens of accounts that act for each other leave only by a signature of one of them", "statement": "Consider accounts that nobody outside has power over: their proxies are among them, derived and pure accounts among them belong to accounts among them, a multisig account among them has fewer members outside than its threshold, and they have announced nothing for each other. As long as none of them signs a transaction, none of them has fewer tokens than before, and none can transfer less than before, whatever others do, however calls are wrapped and whichever way transactions are paid. In particular an account with a key of its own and without proxies loses nothing before it signs the next transaction. Transactions whose calls act for nobody but the signer do to pallets, tokens and numbers exactly what they do without these pallets.", "quantifier": "all genesis states, histories of blocks and signed transactions with any nesting of calls, fees and refunds, and all such sets of accounts", "why_tests_cant": "Every wrapper is tested with single calls and prepared balances. That no combination of proxies, announcements, multisig operations, derived accounts, transfers, schedules and payments takes tokens from an account is a statement about all trees of calls and all sequences of transactions.", "anchors": ["runtime/frequency/src/lib.rs 139-202, 206-270, 290-301, 546-558, 852-865, 1056-1069", "pallets/frequency-tx-payment/src/lib.rs 194-231, 372-538", "pallets/time-release/src/lib.rs 246-402", "runtime/common/src/extensions/check_nonce.rs 80-117"]}
{"id": "C136", "title": "A proxy that may not transfer does not move tokens", "statement": "Consider accounts that nobody outside has power over, except that they may have proxies outside which are not of type Any: proxies that may not transfer, or are for governance, staking or the rejection of announcements only. As long as none of the accounts signs a transaction, none of them has fewer tokens than before.", "quantifier": "all genesis states, histories of blocks and signed transactions with any nesting of calls, and all such sets of accounts with derived, pure and multisig accounts among them", "why_tests_cant": "The filter of a proxy type is tested on single calls. Whether calls that the filter lets pass can be combined so that tokens are moved after all is a question about all trees of calls.", "anchors": ["runtime/frequency/src/lib.rs 206-270, 546-558, 1056-1069", "runtime/common/src/proxy.rs 19-30"]}
{"id": "C137", "title": "Storage calls to different places can come in any order", "statement": "Whatever is stored, if several storage calls write to different places (the items of an account under a schema, or single pages), the order in which they are executed does not matter: each of them succeeds in one order if and only if it succeeds in the other, and fails with the same error otherwise; afterwards the same is read at every place, and nothing outside the storage pallet changes. So an application that keeps its writes apart needs no agreement with others about the order of transactions in a block.", "quantifier": "all stored contents, all finite sets of the nine storage calls by any signers and with any payloads, all orders of them", "why_tests_cant": "Tests execute calls in the order in which they are written. Independence of the order is a statement about all permutations of all sets of calls over all contents.", "anchors": ["pallets/stateful-storage/src/lib.rs 244-597, 805-937", "pallets/stateful-storage/src/stateful_child_tree.rs 66-351"]}
{"id": "C138", "title": "Tokens leave only by a signature of an account or of its passkey", "statement": "On the chain with signed transactions, passkey transactions, nested calls, proxies, multisigs, governance and runtime upgrades: let a set of accounts be given over which nobody outside has power (proxies, derived and joint accounts). As long as none of them signs a transaction, and no passkey that one of them endorsed signs one for it, none of them has fewer tokens than before. A passkey transaction takes effect only if its call is a transfer, its account endorsed its public key, it has the account's next number and the account can pay; it then does what the same transfer signed by the account does, and no transaction with the same or a lower number takes effect again while the account exists.", "quantifier": "all token distributions at genesis, all histories, all sets of accounts, all passkey payloads, all continuations", "why_tests_cant": "The pallet's tests check single payloads against single states, and the pallet alone. That no history of all the other ways of executing calls moves tokens is about the whole runtime, and the tests cannot look for payloads that nobody meant to be accepted.", "anchors": ["pallets/passkey/src/lib.rs 127-143, 149-232, 258-328", "runtime/frequency/src/lib.rs 272-287, 925-935, 1221-1222", "runtime/common/src/extensions/check_nonce.rs 80-117"]}
{"id": "C139", "title": "The chain starts with the tokens and schedules of its genesis, and no tokens appear later", "statement": "Whatever balances and release schedules a chain specification lists: the chain starts exactly if every account listed has the existential deposit, none is listed twice, the supply is a balance, every schedule is usable, no account has more schedules than allowed, and every account has the tokens of its schedules. Then every account has exactly the balance and the schedules listed for it, in their order; exactly what its schedules pay out is frozen; and there are no other tokens (but a deposit of the treasury). After any history of signed transactions, passkey transactions, nested calls, governance and upgrades the tokens on all accounts plus those burned are the tokens of the genesis, and no account has more than there are.", "quantifier": "all lists of balances and schedules of any length, all histories of the chain afterwards", "why_tests_cant": "Tests build a few fixed lists. A list that starts the chain although an account cannot cover its schedules, or a sequence of calls that creates tokens, is found only by looking at all lists and all histories.", "anchors": ["pallets/time-release/src/lib.rs 186-228", "node/service/src/chain_spec/frequency.rs 395-455", "runtime/frequency/src/lib.rs 1165-1223", "resources/frequency.json"]}
{"id": "C140", "title": "The off-chain key index follows the finalized chain, whatever forks the node sees", "statement": "On a node that has done its initial indexing: once the off-chain worker has run to the end with a block finalized that is not older than the block whose keys were read at the start, the keys listed for every account are exactly those the account has in the state of the finalized block. This holds whatever blocks the node imports, on the finalized chain or off it, in any order, and wherever earlier runs of the worker stopped. While the worker cannot find the finalized block among the ancestors of its own block, it changes nothing.", "quantifier": "every tree of blocks with any transactions, every order of imports and finalizations, every interleaving with worker runs, every crash point, every account and key", "why_tests_cant": "Unit tests run one chain without forks. A wrong list needs two blocks with the same number, a certain order of imports, and a worker run later.", "anchors": ["pallets/msa/src/offchain_storage.rs 72-188, 253-347, 440-482", "pallets/msa/src/lib.rs 400-411"]}
{"id": "C141", "title": "Every message accepted by the chain can be read back, for ever", "statement": "On the chain with its limit on the weight of blocks: no block accepts more than 2,093 messages, however transactions, passkey transactions, batches, proxies and multisigs wrap them and whatever other calls weigh, far below the 65,536 that the messages pallet can number within a block. So every message that was ever accepted from genesis on is shown by the query for its block and schema, at its own index, with the payload, author and provider it was sent with, and the query shows nothing else, each message once, in the order in which they were accepted.", "quantifier": "all prices of other calls, all configurations, all histories from genesis of blocks, transactions with any nesting of calls, passkey transactions, council and root decisions and upgrades", "why_tests_cant": "Whether the index of a message can overflow depends on how many calls fit in a block over all ways to nest calls and to get weight back after the dispatch; tests send a handful of messages.", "anchors": ["pallets/messages/src/lib.rs 198-330", "pallets/messages/src/weights.rs 52-77", "runtime/frequency/src/lib.rs 290-301, 395-415, 456", "runtime/common/src/constants.rs 64-69", "runtime/common/src/weights/extrinsic_weights.rs 55-56", "pallets/frequency-tx-payment/src/lib.rs 190-240", "pallets/passkey/src/lib.rs 121-143"]}
{"id": "C142", "title": "Overlapping runs of the off-chain worker do not spoil the key index", "statement": "The node starts a run of the off-chain worker for every imported block, and runs may overlap in any way. On a node that is not stopped, when all runs are over, the keys listed for each account are exactly the keys the account had at the end of the last processed block. In particular no run undoes or repeats what another one has done. Whenever a run notes a block as processed, the lists are already those of this block, even if other runs are still going on; and a run that got the lock ends only when all blocks up to the one finalized for it are processed.", "quantifier": "all histories of transactions and blocks, all numbers of runs, all interleavings of their single reads and writes, all clocks, all times at which runs are started", "why_tests_cant": "The interleavings of several runs over many reads and writes and the two deadlines of each lock cannot be enumerated; the tests of the pallet call the worker once, alone, and with a lock that is free.", "anchors": ["pallets/msa/src/offchain_storage.rs 33-54, 72-188, 253-267, 269-383", "pallets/msa/src/lib.rs 396-412"]}
{"id": "C143", "title": "A waiting transaction is displaced only by its own account", "statement": "A transaction that waits in the transaction pool of a node stays there, and stays ready if it was, whatever is submitted to the node, unless the submission was sent by the same account, that is, signed by it or by a passkey that it endorsed. The tags by which the pool recognises competing transactions never coincide for different accounts, numbers or kinds of calls.", "quantifier": "all pools that any sequence of submissions and departures leads to, all states of the chain at each submission, all submissions, all accounts", "why_tests_cant": "Which transactions compete depends on the encodings of tags over all accounts and numbers and on everything that was submitted before; the tests look at single validity results.", "anchors": ["pallets/msa/src/lib.rs 1626-1772, 1849-1870", "runtime/common/src/extensions/check_nonce.rs 119-146", "pallets/handles/src/handles_signed_extension.rs 38-60, 118-131", "pallets/passkey/src/lib.rs 145-256, 290-328", "pallets/frequency-tx-payment/src/lib.rs 473-490", "runtime/frequency/src/lib.rs 289-301"]}
{"id": "C144", "title": "Free transactions of an account cannot fill the pool", "statement": "For every account, at most one free transaction of each kind (revoking a delegation as delegator or as provider, deleting a key, retiring an account, retiring a handle) is ready to be put in a block at any time, and at most one transaction with any number.", "quantifier": "all pools that any sequence of submissions and departures leads to, all states of the chain at each submission, all accounts, all kinds of free calls", "why_tests_cant": "The limit has to hold for any number and order of submissions; the tests validate single transactions.", "anchors": ["pallets/msa/src/lib.rs 1626-1772, 1849-1870", "runtime/common/src/extensions/check_nonce.rs 119-146", "pallets/handles/src/handles_signed_extension.rs 38-60, 118-131", "pallets/passkey/src/lib.rs 145-256, 290-328", "pallets/frequency-tx-payment/src/lib.rs 473-490", "runtime/frequency/src/lib.rs 289-301"]}
{"id": "C145", "title": "Transactions with different numbers can be submitted together", "statement": "Valid transactions with different numbers can be submitted to a node one after the other, in any order and for several accounts, without waiting for a block: all of them are kept, and those are ready for which transactions with all lower numbers have been submitted.", "quantifier": "all states of the chain, all lists of valid transactions of any accounts with different numbers, in any order", "why_tests_cant": "The result depends on the order of submissions and on tags shared by transactions; the tests validate single transactions.", "anchors": ["pallets/msa/src/lib.rs 1626-1772, 1849-1870", "runtime/common/src/extensions/check_nonce.rs 119-146", "pallets/handles/src/handles_signed_extension.rs 38-60, 118-131", "pallets/passkey/src/lib.rs 145-256, 290-328", "pallets/frequency-tx-payment/src/lib.rs 473-490", "runtime/frequency/src/lib.rs 289-301"]}
{"id": "C146", "title": "The index of keys follows the whole chain, and no block has too many key events for it", "statement": "Whatever is submitted, alone or within batches, proxy calls, multisig operations, payments with capacity or passkey transactions, no block has more key events (accounts created, keys added and deleted) than the off-chain index can number, so none is lost. After a run of the off-chain worker for a finalized block, a node shows for every account exactly the keys that it had on chain at the end of this block.", "quantifier": "all chains from genesis with all histories of events, all prices of calls of other pallets, all points at which the worker runs or is interrupted after the initial indexing, all accounts and keys", "why_tests_cant": "How many key events fit in a block depends on the weights of all calls and on how they are nested, and the agreement of index and chain on the whole history; the tests index single events.", "anchors": ["pallets/msa/src/offchain_storage.rs 85-105, 220-330", "pallets/msa/src/lib.rs 400-404, 712-735, 1259-1276", "pallets/msa/src/weights.rs 59-251", "runtime/common/src/constants.rs", "runtime/frequency/src/lib.rs 160-200, 289-301"]}
{"id": "C147", "title": "Whoever follows the schema events knows the schemas and the versions of every name", "statement": "An observer who knows, at some point, the registered schemas, the versions of every schema name and the limit on the size of models, and from then on only follows the events of the schemas pallet (schema created, schema name created, limit changed), knows at any later point exactly what the chain answers to queries: which schemas exist, how many, for every name its versions in their order, and the limit. On a new chain it is enough to follow from the start.", "quantifier": "all configurations, all states that the observer may start from, all histories of calls by any origin with any result and of runtime upgrades, all names and schema ids", "why_tests_cant": "The claim is about every way in which the storage can change over a whole history, including runtime upgrades; the tests compare single events with single calls.", "anchors": ["pallets/schemas/src/lib.rs 106-129, 282-652, 827-840", "pallets/schemas/src/migration/v4.rs 94-169"]}
{"id": "C148", "title": "The node tells which numbers are missing, and with these submitted everything can go into a block", "statement": "After valid transactions with different numbers have been submitted to a node, in any order and by any accounts, the query for missing nonces answers for every account exactly the numbers that are missing: those from its next number on, below the highest number submitted, that were not submitted, ascending, all of them or the thousand lowest. When transactions with the reported numbers (fewer than a thousand) are then submitted too, all transactions of the account are ready, whatever their order, and the query answers that nothing is missing.", "quantifier": "all states of the chain, all accounts, all lists of valid signed and passkey transactions with different numbers in any order, all orders in which the pool can list its ready transactions, all lists of transactions that fill the gaps", "why_tests_cant": "The answer depends on the tags of all transactions in the pool and on the order in which they became ready; there are infinitely many pools, and the query has no tests with a real pool.", "anchors": ["node/service/src/rpc/frequency_rpc.rs 27, 83-140", "runtime/common/src/extensions/check_nonce.rs 119-146", "pallets/msa/src/lib.rs 1640-1770, 1856-1868", "pallets/passkey/src/lib.rs 152-169, 248-256"]}
{"id": "C149", "title": "A development node makes blocks when its mode promises them", "statement": "On a development node without relay chain: with instant sealing, once all notifications of the pool are handled no ready transaction is left out of blocks. With interval sealing, as many ticks as there are ready transactions are enough to get them all into blocks (or removed as invalid); there are no empty blocks unless wanted, and if they are wanted every tick makes one, which is final at once. With manual sealing there are just the blocks that were reported to senders of commands. In all modes every command for a block is answered, with the block or the reason why there is none, blocks contain only submitted transactions, and what is final stays final.", "quantifier": "all three modes, all sequences of submissions, notifications, ticks and RPC commands in any interleaving, all choices of the proposer about which ready transactions fit in a block or are invalid, as long as it makes progress", "why_tests_cant": "What is left in the pool depends on the interleaving of submissions, notifications and blocks and on which transactions fit; the repository has no tests of the sealing loop.", "anchors": ["node/service/src/block_sealing.rs 110-180, 221-284", "node/cli-opt/src/lib.rs 4-13", "node/cli/src/cli.rs 92-107"]}
{"id": "C150", "title": "A node takes a transaction in its pool just when a block would take it", "statement": "A transaction with the next number of its account is taken by the pool of a node just when a block, made in the same state, takes it: nobody's valid transaction is refused, and the pool holds none that would be refused later for a reason that is known already. A transaction with a later number is taken just when a block would take it in the present state if its number had come. A block takes no other numbers, and what it does not take leaves no trace.", "quantifier": "all states of the chain, all signed transactions with all calls (also nested) and ways of payment, all passkey transactions, all numbers", "why_tests_cant": "The checks of the pool and those of blocks are written twice, for four extensions and the passkey pallet; that they agree is a claim about all states and transactions.", "anchors": ["runtime/common/src/extensions/check_nonce.rs 80-146", "pallets/frequency-tx-payment/src/lib.rs 400-520", "pallets/msa/src/lib.rs 1640-1900", "pallets/handles/src/handles_signed_extension.rs 40-120", "pallets/passkey/src/lib.rs 146-310", "runtime/frequency/src/lib.rs 289-301"]}
{"id": "C151", "title": "A signature for one network is worth nothing on another", "statement": "Whatever somebody signs for one network (the main network, a test network, a branch with another genesis block) has no effect on any other: not a transaction, not a transaction of a passkey, not a payload that a provider or delegate submits. A signed transaction counts only with just the call, the number, the tip and the period that were signed, and only while the runtime has the versions for which it was signed.", "quantifier": "all pairs of networks with different genesis blocks and all their histories, all signed transactions with all calls, tips, numbers and periods, all passkey transactions, all signed payloads", "why_tests_cant": "Each test has one network. That signed bytes differ for all networks, calls, numbers, tips and periods is a claim about encodings of any length.", "anchors": ["runtime/frequency/src/lib.rs 289-300", "runtime/frequency/src/lib.rs 356-379", "runtime/common/src/extensions/check_nonce.rs 45", "pallets/frequency-tx-payment/src/lib.rs 343", "pallets/passkey/src/types.rs 30-63", "pallets/msa/src/types.rs 21-60"]}
{"id": "C152", "title": "A transaction is valid for the period that was signed", "statement": "A transaction signed with a period, once acceptable, is accepted in every later block of the period (if its number has not been used and its fee can be paid, and the runtime is not upgraded), and in no block before or after the period, nor on a branch of the chain without the block where the period begins. So when the period is over it can never be used again, even if the account was emptied and its numbers begin again. A wallet that asks for a period gets one at least as long and less than twice as long (or 4), which contains the current block and begins at most 15 blocks before it.", "quantifier": "all networks and histories, all transactions, all periods and phases, all blocks", "why_tests_cant": "Blocks at the end of a period of thousands of blocks, other branches, and emptied accounts are not in any unit test; the arithmetic of periods is for all numbers.", "anchors": ["runtime/frequency/src/lib.rs 289-300", "runtime/frequency/src/lib.rs 444", "runtime/common/src/extensions/check_nonce.rs 94-146"]}
{"id": "C153", "title": "A node runs the network it is asked for", "statement": "A node started with the name of a network runs this network if it was built for it, and otherwise refuses; it never runs another one. A specification in a file is run as it is or refused with an error. The specification of a network that the node itself writes to a file can be used again by the same node. Different networks that a node can run do not share a database. Without an argument a node runs a network it was built for, the main network if possible, and it follows the relay chain of its network.", "quantifier": "all builds (sets of features), all arguments, all files with specifications, all networks", "why_tests_cant": "The code is a table with conditional compilation; each test binary has one set of features, and no test starts a node from a file.", "anchors": ["node/cli/src/command.rs 18-180", "node/cli/src/command.rs 256-268", "node/cli/src/cli.rs 122-137", "node/service/src/chain_spec/frequency_rococo.rs 34-50", "node/service/src/chain_spec/frequency_paseo.rs 88-104", "node/service/src/chain_spec/frequency.rs 120-134", "scripts/generate_specs.sh 22-25"]}
{"id": "C154", "title": "Root acts only by referendum, with notice and consent", "statement": "On the main network nothing is executed with root authority unless a referendum on it, or on a call that scheduled it, was held and more votes were for it than against it. Votes were open for at least seven days and eight more days passed until it was executed, unless at least two thirds of the technical committee shortened this for a proposal of more than half of the council; then votes were open for at least three hours, or less if the whole technical committee agreed (root, by an earlier referendum, can do what council and committee can).", "quantifier": "all histories from genesis: calls with any origin but root, votes, and blocks in any order, any number of proposals and referenda", "why_tests_cant": "The effect of twelve configured origins and five periods shows only in long histories with several proposals; runtime tests check none of them.", "anchors": ["runtime/frequency/src/lib.rs 623-640", "runtime/frequency/src/lib.rs 707-778", "runtime/common/src/constants.rs 176-182"]}
{"id": "C155", "title": "Vetoes and cancellations hold", "statement": "A proposal that a member of the technical committee vetoed does not come to a referendum within the cool-off period of seven days. A referendum that two thirds of the council cancel has no effect, and two thirds of the council can cancel it until it takes effect, whether votes are still open or it has passed.", "quantifier": "all histories from genesis, all proposals, all sizes of council and committee", "why_tests_cant": "Whether a veto or a cancellation holds depends on everything that happens after it.", "anchors": ["runtime/frequency/src/lib.rs 707-778", "runtime/common/src/constants.rs 182", "runtime/frequency/src/lib.rs 623-640"]}
{"id": "C156", "title": "Unstaking costs capacity in proportion", "statement": "Unstaking a part of what is staked to a provider costs the provider the same part of its capacity, rounded up to a whole unit: never less than the share of the stake, and never a whole unit more.", "quantifier": "all histories of staking, unstaking, spending and epochs, all amounts", "why_tests_cant": "The fraction is computed in billionths after both numbers were scaled down; tests use small numbers, for which no scaling happens.", "anchors": ["pallets/capacity/src/lib.rs 597-626", "pallets/capacity/src/lib.rs 633-639"]}
{"id": "C157", "title": "An account is found only under its handle", "statement": "Looking up a text finds an account only if the text consists of a name with the canonical form of the account's name, one dot, and the account's suffix as it is reported. Texts with another number of dots, without a number or with another number lead to nobody.", "quantifier": "every text, valid or not; all histories under a fixed suffix range; every normalisation and table of look-alikes", "why_tests_cant": "The texts that users may type in are infinitely many; tests look up a few handles that exist.", "anchors": ["pallets/handles/src/handles-utils/src/converter.rs 83-94", "pallets/handles/src/lib.rs 584-591"]}
{"id": "C158", "title": "Fees follow demand slowly", "statement": "Whatever is put into blocks, the token fee of a transaction rises by at most 57 in a million from one block to the next and by at most one half within a day (7,200 blocks), up to a unit or two, and it falls by at most 19 in a million per block. No fee rises while normal transactions use at most a quarter of their room in time and in proof size; a block that is at least half full raises the multiplier of the fee for weights; and after 37,000 blocks (about five days) without normal transactions the multiplier has halved, unless it has reached its minimum.", "quantifier": "all sequences of blocks since genesis with any use of time and proof size, all transactions, every minimal multiplier from one thousand millionth to one", "why_tests_cant": "The multiplier is the result of all earlier blocks in fixed point arithmetic with rounding; a test follows it for a few blocks.", "anchors": ["runtime/frequency/src/lib.rs 858-865", "runtime/frequency/src/lib.rs 398-414", "runtime/common/src/constants.rs 27-36", "runtime/common/src/constants.rs 60-69", "runtime/common/src/constants.rs 234-237"]}
{"id": "C159", "title": "The treasury pays only what the council approved", "statement": "Whatever happens on the chain, each award of the treasury is that of a proposal which somebody made with this value and beneficiary, under a bond of five percent of the value (at least 100, at most 1,000 tokens), and which root or three fifths of the council approved while it was open; no proposal is paid twice, and one that root or more than half of the council rejected is never paid. The treasury pays only in the first block of a period, at most the awards of that block, and these are at most what it has besides the existential deposit; no token is made or burnt by it. Every beneficiary gets just what is awarded to it, and the proposers have their bonds back; a bond is lost only by a rejection. An approved proposal is paid in the first block of the next period if the treasury can pay it and the approved ones before it, and otherwise stays open and approved. An approval lasts until the proposal is paid or rejected, or root or more than half of the council take it back; up to 64 approved proposals can wait, and later ones wait behind earlier ones.", "quantifier": "all initial balances, all histories of proposals, approvals, rejections, removals of approvals, blocks and other changes of balances, all periods, all accounts", "why_tests_cant": "What is paid depends on the order of all approvals, rejections and balances since genesis; a test sees a proposal or two.", "anchors": ["runtime/frequency/src/lib.rs 780-855", "runtime/common/src/constants.rs 192-193", "runtime/common/src/constants.rs 205-230"]}
{"id": "C160", "title": "What is signed for others to submit is no transaction", "statement": "Users sign requests for others to submit (delegations, key additions, handle claims, storage requests, proofs of passkeys) and transactions of their own with the same keys. What is signed for one is never what is signed for the other: a request begins with the text `<Bytes>`, which as a transaction would be a call that the runtime does not have. So nobody who holds a signature for a request can send a transaction of the user with it, on any network, and nobody who sees a transaction of the user can have a request executed with its signature. Of a transaction of more than 256 bytes only the hash is signed; no hash is known to read `<Bytes>...</Bytes>`, and additions of keys, proofs of passkeys, delegations of other than two schemas and claims of names of other than twelve bytes do not have the length of a hash.", "quantifier": "all requests, all transactions with all calls, however wrapped, all networks and states, all callers", "why_tests_cant": "The space of transactions and requests is unbounded, and a test that signs one cannot show that no other message has these bytes.", "anchors": ["common/primitives/src/utils.rs 136-141", "pallets/msa/src/lib.rs 1102-1114", "pallets/handles/src/lib.rs 282-300", "pallets/stateful-storage/src/lib.rs 687-698", "pallets/passkey/src/lib.rs 218-232", "runtime/frequency/src/lib.rs 1166-1223", "runtime/frequency/src/lib.rs 290-301"]}
{"id": "C161", "title": "A node answers every question about handles", "statement": "Whatever text a node is asked about: whether it may be a name is always answered, never for more than 32 bytes with yes, and a name refused there can neither be claimed nor changed to. The question for free suffixes is refused just for texts of more than 32 bytes; it names as many as are asked for, one if no number is given, never more than 100, and they are the next to be assigned, in order. The question for the account of a handle is refused just for texts of more than 38 bytes; every handle the node reports for an account is answered, written as name, dot and number, with this account, and no other kind of text leads to it.", "quantifier": "all texts, all requested counts, all histories of claims, changes and retirements with a fixed suffix range, all normalisations and tables of look-alikes", "why_tests_cant": "Texts and histories are unbounded; the tests of the RPC use a mocked runtime that always gives the same answer.", "anchors": ["pallets/handles/src/rpc/src/lib.rs 33-131", "pallets/handles/src/lib.rs 507-591", "pallets/handles/src/lib.rs 761-775", "common/primitives/src/handles.rs 10-35", "runtime/frequency/src/lib.rs 1490-1505"]}
{"id": "C162", "title": "Deposits come back", "statement": "Registering proxies, announcing calls for a proxy, creating pure accounts and opening multisig operations takes a deposit from the free tokens of the account that does it, and of no other, at the published price; it comes neither from frozen tokens nor from the existential deposit. At every time what is reserved of an account is the sum of its deposits for things that are still there. Whatever is removed, rejected, executed, cancelled or given up, by whomever, its deposit is free again, in full and for whoever made it; an account with nothing left has nothing reserved. Registrations are removed only by the account that made them or the pure account itself, announcements only by the announcer or the account they are for or when carried out after their delay, and operations only by whoever opened them or when executed with the approvals needed.", "quantifier": "all histories of calls by all accounts, in any order and interleaved with anything else that happens to the accounts; all hashes that make accounts", "why_tests_cant": "Deposits are changed by increments in ten calls of two pallets, for the caller or somebody else; that they add up is a property of all histories.", "anchors": ["runtime/frequency/src/lib.rs 542-558", "runtime/frequency/src/lib.rs 1055-1070", "runtime/common/src/constants.rs 40-56", "runtime/common/src/constants.rs 272-284"]}
{"id": "C163", "title": "Nothing but Parquet columns is registered as a Parquet schema", "statement": "If a schema with a Parquet model is registered, by whatever call, its model is a JSON text that lists columns, each with its name, type, compression and bloom filter, every one of them exactly once and under the names of the Parquet format; so whoever reads the schema can tell from it, in one way only, which columns there are. A model that lacks a field, gives one twice, names an unknown type, unit or compression, has a number that is no byte, or has anything before or behind the list is refused; everything else that is a list of columns and neither too short nor too long is registered.", "quantifier": "all models (all sequences of bytes), all histories of the chain, all calls that register schemas", "why_tests_cant": "Tests try a few wrong models; which texts are accepted is decided by derived deserialisers and a parser that skips what it does not know.", "anchors": ["pallets/schemas/src/lib.rs 746-760", "common/primitives/src/parquet.rs", "common/primitives/src/parquet/column.rs"]}
{"id": "C164", "title": "Blocks are made by those who were chosen", "statement": "Every six hours the makers of blocks for the session after next are chosen: the accounts that root or council have named, and of the candidates the desired number with the highest bonds. Nobody is chosen twice, and somebody is always chosen. An account is named only by root or council and stays so until they take it off or leave it out. No two accounts have the same session key, and keys are set and given up only by their account. An account becomes a candidate only by its own call, with session keys and the bond put up. A candidate loses its place only by its own call, to somebody who puts up more, when the bond asked for rises above its own, when it is named, or if for six hours it was among the makers and made no block. Whoever is recorded as maker of a block had been chosen, with the key that the slot is for, and there is always a key that may make the next block.", "quantifier": "all histories of blocks, slots, calls of accounts, root and council and other movements of tokens, on main and test networks", "why_tests_cant": "Tests set the pallets up one by one with a few accounts; how long lists, turns and calls of many hours play together is not covered by them, nor is the configuration of the runtime.", "anchors": ["runtime/frequency/src/lib.rs 592-595", "runtime/frequency/src/lib.rs 982-1052", "runtime/frequency/src/lib.rs 1196-1201", "runtime/common/src/constants.rs 244-270", "node/service/src/chain_spec/frequency.rs 417-440"]}
{"id": "C165", "title": "Bonds of candidates come back", "statement": "What an account has put up to become a maker of blocks is reserved of its tokens, exactly that and as long as it is a candidate. When it ceases to be one, for whatever reason, or lowers its bond, the difference is free again at once and in full. Nobody else's tokens are touched. An account may become a candidate, leave, change its bond or take the place of another exactly under the stated conditions.", "quantifier": "all histories of blocks, slots, calls of accounts, root and council and other movements of tokens, on main and test networks", "why_tests_cant": "The bond passes through six calls and the turns of sessions; a leak shows only in certain orders of them.", "anchors": ["runtime/frequency/src/lib.rs 592-595", "runtime/frequency/src/lib.rs 982-1052", "runtime/frequency/src/lib.rs 1196-1201", "runtime/common/src/constants.rs 244-270", "node/service/src/chain_spec/frequency.rs 417-440"]}
{"id": "C166", "title": "Stakes of different accounts can come in any order", "statement": "In whatever order stakes, unstakes and withdrawals of different accounts and payments of different providers come within a block: if all of them succeed in one order then they do in every order, and every account and every provider ends up with the same.", "quantifier": "all states, all lists of such calls and payments, all their orders", "why_tests_cant": "There are as many orders as permutations of a block; tests run one of them.", "anchors": ["pallets/capacity/src/lib.rs 320-416", "pallets/capacity/src/lib.rs 429-656", "pallets/frequency-tx-payment/src/payment.rs 34-59"]}
{"id": "C167", "title": "Who comes first matters only for the suffix of a handle", "statement": "In whatever order claims, changes and retirements of handles of different accounts come within a block: if all of them succeed in one order then they do in every order. Every account then has a handle with the same name and the same time until which it is kept, or has none, and for every name the same suffixes have been given out in the same order, so that only those who asked for the same name may get each other's suffix.", "quantifier": "all states, all lists of such calls, all their orders, all suffix ranges", "why_tests_cant": "There are as many orders as permutations of a block; tests run one of them.", "anchors": ["pallets/handles/src/lib.rs 227-248", "pallets/handles/src/lib.rs 374-494", "pallets/handles/src/lib.rs 605-755", "pallets/handles/src/handles_signed_extension.rs 39-60"]}
{"id": "C168", "title": "Consents and withdrawals of different users can come in any order", "statement": "In whatever order grants, revocations by users and by providers, withdrawals of schemas, additions and deletions of keys and registrations of providers come within a block, none of which changes the keys, the delegation or the registration that another one is about, and whose signatures differ and are not remembered from before: each of them succeeds just when it would succeed alone, and afterwards keys, delegations and providers are the same in every order. What one user consents to or withdraws cannot be undone or refused because of where a block producer puts the calls of others.", "quantifier": "all histories, all lists of such calls, all their orders, all limits", "why_tests_cant": "There are as many orders as permutations of a block; tests run one of them, with one or two users.", "anchors": ["pallets/msa/src/lib.rs 522-536", "pallets/msa/src/lib.rs 554-680", "pallets/msa/src/lib.rs 712-810", "pallets/msa/src/lib.rs 1120-1150", "pallets/msa/src/lib.rs 1284-1300", "pallets/msa/src/lib.rs 1380-1470"]}
{"id": "C169", "title": "Vested transfers and claims of different accounts can come in any order", "statement": "In whatever order transfers with release schedules and claims come within a block, where nobody who pays in one of them pays, is paid or claims in another: if all succeed in one order, they succeed in every order, and afterwards every account has the same tokens, the same schedules up to their order, and the same freeze. Where a block producer puts the calls of others can neither cost anybody tokens nor keep them locked for longer.", "quantifier": "all histories, all lists of such calls, all their orders, all limits", "why_tests_cant": "There are as many orders as permutations of a block; tests run one of them, with one or two schedules for an account.", "anchors": ["pallets/time-release/src/lib.rs 246-336", "pallets/time-release/src/lib.rs 342-443", "pallets/time-release/src/lib.rs 460-472"]}
{"id": "C170", "title": "Where a message stands in its block changes only its number", "statement": "In whatever order the messages of a block come: a message is accepted just when it would be accepted alone, and whoever asks later gets the same messages for every schema and block. Only their numbers can differ, and, among messages of the same schema and block, their order, which is that of the calls; if the messages of a schema keep their order among each other, the answers for it have the same order, wherever messages of other schemas come between. Other blocks are not affected, and the block is announced once. A block producer can neither keep out nor replace a message by placing others before or after it.", "quantifier": "all histories before and after, all lists of messages, all their orders, all schemas, any state of the other pallets", "why_tests_cant": "There are as many orders as permutations of a block; tests submit a few messages in one order.", "anchors": ["pallets/messages/src/lib.rs 169-174", "pallets/messages/src/lib.rs 199-234", "pallets/messages/src/lib.rs 251-330", "pallets/messages/src/lib.rs 349-368"]}
{"id": "C171", "title": "Calls to different pallets can come in any order", "statement": "Take the calls, transactions and payments with capacity of a block to the six pallets, where none changes what a call to another pallet is about: whose account a key it acts for is, the delegation between that account and the one it acts on behalf of, whether the target of a stake is a provider, the schema that messages or data are stored under, whether the schemas exist that grants are given for, whether an account that is given up has a handle. In whatever way the calls to different pallets are mixed, as long as those to each pallet keep their order, the block ends in the same state, and each pallet is left as if only its own calls had been made. There is no other way in which one pallet influences another.", "quantifier": "all states, all lists of calls, transactions and payments, all ways to mix them", "why_tests_cant": "The ways to mix the calls of a block are too many to try, and a hidden dependence between pallets shows for particular calls only; the tests of each pallet run with mocks of the others.", "anchors": ["runtime/frequency/src/lib.rs 485-487", "runtime/frequency/src/lib.rs 509-509", "runtime/frequency/src/lib.rs 1077-1081", "runtime/frequency/src/lib.rs 1106-1110", "runtime/frequency/src/lib.rs 1131-1131", "pallets/msa/src/lib.rs 1502-1507"]}
{"id": "C172", "title": "The settings of a schema survive storage and later releases", "statement": "What is stored of a schema beside its model takes five bytes and is read back as it was written; nothing else is read. Whatever happens to the chain after a registration, every release from this one on, with up to sixteen settings, reads the schema from these bytes with exactly the settings asked for, in whatever order and however often they were named. A release that does not know a setting which is enabled does not read the schema at all: it never takes an append-only or signature-required schema for one that is not.", "quantifier": "all model types, locations and settings, all bytes, all numbers of declared settings up to sixteen, all histories after the registration", "why_tests_cant": "The tests look at two flags in memory and encode none; what bytes written by one release mean to another cannot be seen by running one of them.", "anchors": ["common/primitives/src/schema.rs 44-60", "common/primitives/src/schema.rs 112-134", "common/primitives/src/macros.rs 39-60", "pallets/schemas/src/types.rs 40-52", "pallets/schemas/src/lib.rs 673-694"]}
{"id": "C173", "title": "Neighbouring transactions of different accounts can change places", "statement": "Two transactions that come one after the other, signed with different keys, with calls of different pallets other than capacity, paid for with tokens or with the capacity of different accounts, neither of which changes what the other is about (whose key its signer is, the delegation it uses, its schema, the schemas it gives grants for, the handle of an account given up), can change places. In both orders each of them is taken into the block or in none, its call succeeds in both or in none, and whatever follows, in this block and in later ones (transactions of any kind, calls of root and the council, runtime upgrades), the same is stored: by every pallet, about the stake and the capacity of everyone, and about the number of the next transaction of every key; every further transaction is taken in, and its call succeeds, in both cases or in none. Messages, calls about handles and calls about stored data never change what those of another of these kinds are about: however many of them a block has, they can come in any order in which those of each key, those to each pallet and those paid with the capacity of each account keep theirs: each of them is taken in, and its call succeeds, in both orders or in none, and everything after them is the same.", "quantifier": "all configurations of the runtime, all states, all transactions before and after, all pairs of transactions", "why_tests_cant": "Who makes the block chooses the order. The tests run calls of one pallet at a time in one order, without the extensions that check the number, the payment and the call.", "anchors": ["pallets/frequency-tx-payment/src/lib.rs 372-430", "runtime/common/src/extensions/check_nonce.rs 66-125", "pallets/handles/src/handles_signed_extension.rs 60-110", "runtime/frequency/src/lib.rs 137-200"]}
{"id": "C174", "title": "Leaving out transactions does not affect those that have nothing in common with them", "statement": "Whoever makes a block may leave out any of the messages, calls about handles and calls about stored data that were sent in. If those left out and those taken have no key, no pallet and no account paying with capacity in common, every one that is not left out is taken in, and its call succeeds, exactly as if none had been left out. Afterwards the same is stored as if none had been left out, except in the pallets that those left out call, about the numbers of their keys and about the capacity of the accounts that would have paid for them; accounts, schemas, stakes and the epoch are the same.", "quantifier": "all configurations of the runtime, all states, all lists of such transactions, all choices of those left out", "why_tests_cant": "The tests run a few calls in one block and compare no two blocks; which transactions a maker of blocks leaves out is not under the control of a test.", "anchors": ["pallets/frequency-tx-payment/src/lib.rs 372-430", "runtime/common/src/extensions/check_nonce.rs 66-125", "pallets/messages/src/lib.rs 199-300", "pallets/handles/src/lib.rs 374-500", "runtime/frequency/src/lib.rs 137-200"]}
