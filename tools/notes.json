{
 "C02": {
  "note": "False of the code for wrapped calls (C02_full_false): a deletion dispatched without the transaction extension decrements the counter of the wrong account. Proved for every history of directly submitted transactions."
 },
 "C03": {
  "note": "False of the code for wrapped calls (C03_full_false): a batch with one allowed call passes the filter, and the ownership check is only in the transaction extension, which does not see nested calls. Proved: the full claim for directly submitted transactions; for every call tree, that only a deletion of this key or its own retirement removes it (C03_wrapped_partial)."
 },
 "C06": {
  "note": "False of the code for the block of the call itself: a second revocation of a schema authorises the provider again for the rest of that block (C06_revocation_authorises, C06_full_false), and so does a new grant that does not list the schema (C06_same_block_regrant). Proved for every later block."
 },
 "C15": {
  "status": "partial",
  "note": "Proved for deletions and retirements, and for revocations outside the block of an earlier revocation. C15_revocation_can_fail is the counterexample inside it."
 },
 "C16": {
  "status": "partial",
  "note": "False of the code: C16_revocation_moves_later. C16_stays_revoked_partial is what holds instead."
 },
 "C17": {
  "note": "Partial: proved for key additions and deletions submitted directly and for interrupted later runs; false for an interrupted initial index (witness C17_interrupted_initial_index_stale). Forks: see C140. Wrapped calls, and why no block has more than 65535 events: see C146. Proved whether or not the clearing of events by the worker reaches the database."
 },
 "C28": {
  "note": "False in general: replay after deletion, with empty payload, after the key moved, and after 65,535 further updates (the 16-bit nonce wraps; that many fit into the window of 14,400 blocks). All with witness theorems. Proved while the page keeps content and fewer than 65535 updates, with a collision-free page hash; the bound is sharp."
 },
 "C70": {
  "note": "False across kinds and versions (C70_full_false): for each pair of different kinds or versions other than deletion/write of one version and deletion of version 2/anything of version 1 there are two payloads with the same bytes (C70_kinds_collide). Proved within one kind and version (C70_signed_bytes_determine_payload_partial) and for the pairs that remain (C70_kinds_apart_partial)."
 },
 "C26": {
  "note": "Key hash assumed collision-free on two-byte inputs, Blake2-128 on the prefixes of the accounts considered (HashOk, KeyInj; the bound `accounts` on their ids is arbitrary)."
 },
 "C53": {
  "status": "partial",
  "note": "False of the code: C53_unstake_from_wrong_target. Proved: the records bound the totals in every history, and equality when no unstake exceeds the stake recorded for the target named."
 },
 "C58": {
  "status": "partial",
  "note": "False of the code: C58_same_tokens_staked_twice. Proved for one stake: the increase is at most the balance less the minimum balance."
 },
 "C59": {
  "status": "partial",
  "note": "False of the code in every state: C59_partial_replenish_no_effect proves that a successful partial replenishment changes nothing. The function is not called by the runtime."
 },
 "C57": {
  "note": "Operations of the runtime only; the trait functions replenish and deduct called from outside the fee payment are excluded (RuntimeOp)."
 },
 "C30": {
  "status": "partial",
  "note": "False of the code: names whose canonical form has more than 32 bytes share one key (C30_korean_names_collide). Proved for shorter canonical forms; uniqueness of display handles proved in full while the suffix range is unchanged."
 },
 "C32": {
  "status": "partial",
  "note": "Proved while the whole suffix range is unchanged. False when only the maximum changes: C32_new_maximum_assigns_again."
 },
 "C33": {
  "status": "partial",
  "note": "Proved for canonical forms of at most 32 bytes; false for longer ones: C33_korean_preview_wrong."
 },
 "C36": {
  "status": "partial",
  "note": "False of the code: the query ignores the byte length and the canonical length (C36_query_too_lenient). Proved for names meeting both. A node never asks the runtime about more than 32 bytes (C161), so the longer of these names are not reached through it."
 },
 "C37": {
  "status": "partial",
  "note": "False of the code for code points from U+10000 on, which are truncated to 16 bits (C37_truncated_code_points). Proved below U+10000."
 },
 "C38": {
  "status": "partial",
  "note": "Proved for claims and direct retirements; false for change_handle: C38_change_before_expiration."
 },
 "C72": {
  "status": "partial",
  "note": "False of the code: the check looks at the name as written (C72_reserved_word_in_disguise). Proved for names equal to their canonical form."
 },
 "C73": {
  "status": "partial",
  "note": "False of the code once change_handle is used: C73_replayed_by_change. Proved for histories of claims and direct retirements."
 },
 "C35": {
  "note": "Character normalisation (NFKD, marks, confusable table) is a parameter of the model: proved for every such table."
 },
 "C41": {
  "status": "partial",
  "note": "False of the code: governance naming does not set has_name (C41_governance_names_twice). Proved for schemas registered together with a name, and that every name of a schema that has two was given by governance (C41_two_names_by_governance_partial)."
 },
 "C44": {
  "status": "partial",
  "note": "False of the code: MaxSchemaRegistrations is never read (C44_limit_not_enforced, for every limit below 65535). Proved: the hard limit of 65535."
 },
 "C45": {
  "status": "partial",
  "note": "False of the code for id 0 (C45_zero_accepted). Proved for all lists without 0."
 },
 "C43": {
  "note": "The JSON parsers behind ensure_valid_model are a parameter of the model."
 },
 "C46": {
  "status": "partial",
  "note": "False of the pallet alone, without a bound on the messages of one block: the index saturates at 65535 (C46_full_block_loses_messages). Proved for every history with at most 65536 accepted messages per block. C141 shows in full that on the chain the limit on the weight of blocks excludes all other histories of transactions."
 },
 "C48": {
  "note": "The chain content is fixed while the client follows the pages; C46_past_blocks_fixed shows that finished blocks do not change."
 },
 "C50": {
  "note": "The multibase decoder and the CID parser are parameters; Base32 is modelled and proved to be inverted by its decoder."
 },
 "C74": {
  "status": "partial",
  "note": "False of the code: do_claim returns the amount that stays frozen, and the event reports it as the amount claimed (C74_reports_wrong_amount). Proved: the reported amount is what stays frozen."
 },
 "C61": {
  "note": "For every genesis and every history; other pallets change balances arbitrarily as long as they respect the freeze. The balances pallet is modelled from its published interface, it is not in the repository."
 },
 "C62": {
  "note": "False in its last clause: remainders below the existential deposit are burned (C62_full_false). Proved: the exact effect of a transfer including that case, and conservation counting burned remainders. The balances pallet (transfer, set_freeze, closing of accounts) is modelled from its published interface, it is not in the repository."
 },
 "C67": {
  "status": "partial",
  "note": "False of the code: the filter accepts a batch if any call is allowed, not if all are (C67_full_false). Proved: exactly which batches pass; on the main network no nesting of calls executes a provider or schema creation."
 },
 "C68": {
  "status": "partial",
  "note": "False of the code for one pair: NonTransfer is declared a superset of CancelProxy but does not permit reject_announcement (C68_full_false). Proved for all other pairs."
 },
 "C75": {
  "status": "partial",
  "note": "False of the code: Multisig::as_multi_threshold_1 is permitted and dispatches without the filter of the proxy, as the multisig account (C75_full_false; dispatch of the multisig pallet modelled from its published behaviour). Proved for call trees without a multisig call."
 },
 "C63": {
  "note": "For every key state, capacity state and conversion of weights to fees. The fee is capped by the largest balance and the weight by a full block; the length is taken modulo 2^32 as in the code. Payment with tokens is not modelled."
 },
 "C64": {
  "status": "partial",
  "note": "False of the code for a batch without calls: nothing is reported, base and length fee are charged (C64_full_false). Proved for transactions with at least one call whose weights do not overflow."
 },
 "C65": {
  "status": "partial",
  "note": "False of the code for free transactions of keys without a token account, whose nonce is not stored (C65_full_false; C65_deletion_replayed deletes a key twice with one transaction), and for accounts removed in between (C65_reaped). Proved for all others. Mortality of transactions is not modelled; immortal ones exist. Nonces are unbounded in the model."
 },
 "C66": {
  "status": "partial",
  "note": "False of the code: the passkey signature is never verified (C66_full_false, C66_signature_ignored, C66_proof_reusable). Proved: the account signed the public key, only its transfer is executed, the nonce is current and used up. The pallet is not part of the main network."
 },
 "C76": {
  "status": "partial",
  "note": "False of the code: the length used is that of the encoded account id, always 32 (C76_length_ignored). Proved: the account can pay the fee for 32 bytes. The pallet is not part of the main network."
 },
 "C04": {
  "note": "False of the code in its last clause (C04_full_false): records of delegations revoked earlier stay in storage. Proved: everything else, and that no delegation check accepts these records for the block of the retirement or a later one."
 },
 "C08": {
  "note": "False of the code: a second revocation of a schema in a later block makes the check about that block accept (C08_full_false). Proved: in full for whole delegations and later blocks; for single schemas about blocks later than all calls; answers yes about past blocks are never lost (C08_past_kept_partial)."
 },
 "C21": {
  "note": "False of the code for the deletion of a page that does not exist, which succeeds for every hash (C21_full_false). Proved: everything else, and that a stale call changes nothing without exception."
 },
 "C54": {
  "note": "On chain histories: calls happen inside blocks, block numbers grow and are 32-bit like epoch numbers (Chronological). C54_unstaked_stays_frozen_until needs no such assumption and gives the minimum with the last epoch number."
 },
 "C10": {
  "note": "C10_signature_accepted_once assumes of the signature scheme that no signature verifies for two different byte strings; C10_proof_accepted_once needs no such assumption but speaks of pairs of signature and expiration block."
 },
 "C31": {
  "note": "C31_any_stream covers every stream of draws; the generator of the code is an instance (C31_is_shuffle). The rejection loop of the generator is modelled with a bound of 64 rounds."
 },
 "C79": {
  "note": "False of the code for schema id 0, which the validity check accepts although ids start at 1 (C79_full_false, see also C45)."
 },
 "C80": {
  "note": "False of the code: unstaking all tokens while naming one of several targets leaves the capacity of the other targets (C80_full_false), and the same tokens can be used again to multiply it (C80_capacity_multiplied). Proved for histories without such unstakes."
 },
 "C81": {
  "note": "Perbill::from_rational is left open, so the capacity a target loses on a partial unstake is given only when the whole record is unstaked. What a partial unstake costs with the rounding of the library: C156."
 },
 "C82": {
  "note": "False of the code when two transactions of the account with the same nonce wait (the query counts the nonce forward once per waiting transaction, so it skips a missing nonce): C82_full_false. Proved when the nonces waiting are distinct."
 },
 "C83": {
  "note": "False of the code for deletions: the deletion of a page that does not exist succeeds for every target hash (C83_full_false, see C21). Partial: acceptance and effect of deletions with this exception (C83_delete_exact_partial). Writes and item actions are proved in full; the nonce is one higher modulo 65536, as in the code."
 },
 "C86": {
  "note": "False of the code for names whose canonical form has more than 32 bytes: they share one storage key, so that a claim redirects the handle of another account (C86_full_false) and uses up the suffixes of other names (C86_suffixes_used_up_by_others); for code points above 16 bits see C37. Proved for all other names: acceptance as an equivalence (C86_accepted_iff_partial) and the exact effect of claim, change and retirement."
 },
 "C88": {
  "note": "Acceptance as an equivalence in every state reachable from a genesis; the resulting schedules, free balance, reserve, locks, freeze, burned amount and reported amount as functions of the state before. The balances pallet is modelled after its published interface; whether the number of freezes and the reference counters allow a freeze or the closing of an account is an open parameter."
 },
 "C89": {
  "note": "Acceptance as an equivalence in every reachable state; with C81 and C54 the effects are exact. The rounding of Perbill::from_rational is left open, products with it are rounded as the library documents. With the rounding of the library: C156."
 },
 "C90": {
  "note": "Model of the chain as a whole (Verif/Chain): six pallets over one state, each seeing the others as the runtime configures it."
 },
 "C91": {
  "note": "Model of the chain as a whole. Assumes the collision freedom of the hashes in CfgOk, as C25 does, for the accounts created so far only (Fits)."
 },
 "C92": {
  "note": "Storage clause under the collision freedom of the hashes in CfgOk, as C25."
 },
 "C93": {
  "note": "False if a wrapped call deleted a key before: delete_msa_public_key lowers the counter of the caller's account, whoever the key belongs to, and the check that the caller owns the key is only in the transaction extension. Then an account with two keys passes the check of retire_msa and its other key still acts. Proved for histories without wrapped key deletions before the retirement; what follows it is unrestricted."
 },
 "C94": {
  "note": "False when retire_msa runs inside another call, where the checks of the transaction extension are not made. Proved for histories without wrapped deletions of keys and wrapped retirements."
 },
 "C95": {
  "note": "In every state, not only reachable ones."
 },
 "C96": {
  "note": "The earlier release is not in the repository; that it numbered the messages of a block distinctly is a hypothesis, and an example shows that it is needed."
 },
 "C97": {
  "note": "False: accounts that have unstaked everything are no longer in StakingAccountLedger, which is what the migration iterates over; their lock stays for good and their unlocking chunks get no freeze. Where set_freeze fails the lock is removed all the same. Proved for accounts with active stake whose freeze is accepted. The earlier release is not in the repository; it is assumed to have kept the same books with locks."
 },
 "C98": {
  "note": "False: the migration freezes the whole amounts of the schedules, including what was claimed and released before, until the next claim. Where set_freeze fails the lock is removed all the same. Proved: the freeze is the sum of the whole amounts and covers what has not vested, also in any later history, and the next claim sets it exactly. The earlier release is not in the repository; it is assumed to have kept the same books with locks."
 },
 "C99": {
  "note": "Histories initialise the blocks 1, 2, 3, ... one after the other. That withdrawing thaws the tokens in the balances pallet is modelled, that the account can pay the fee of its calls is not."
 },
 "C100": {
  "note": "Root may still replace the schedules of an account; that is excluded by the hypotheses. Whether a freeze can be set, or an account closed, is arbitrary."
 },
 "C101": {
  "note": "False: delete_msa_public_key dispatched from within another call (utility batch, proxy, multisig) is not seen by the transaction extension, so a key of another account can delete a key of the account without lowering its counter; the counter then never returns to one and the account cannot be retired. Proved for histories without such deletions. The calls of the way out are declared free of charge (Pays::No)."
 },
 "C102": {
  "note": "The last clause is false: a schema registered under one of the six names before the upgrade loses it but stays marked as named (has_name), so governance can never name it again. Proved without this clause, and with it if each of the six names listed nothing but its own schema before."
 },
 "C103": {
  "note": "False for blocks before the one the initial indexing starts from: their events are covered by the index but never removed. Proved for all blocks that the worker handles itself, with any state of the database before, on a node where offchain_index::clear called by a worker takes effect. Substrate drops what a worker clears this way; there nothing is ever removed (C103_kept_when_dropped)."
 },
 "C104": {
  "note": "False: payloads carry no tag. The claim of the handle `tzwam` is byte for byte the request to delete page 29 of schema 5 with a certain hash, and on the chain of the witness (with the real page hash) one signature does both. Any delegation of ten schemas has the length of a passkey and its signature is accepted as the ownership proof of one, which lets anybody transfer the delegator's tokens. Every pair of kinds of different pallets is decided: key additions against claims, passkeys and deletions, and deletions against passkeys never share bytes (C104_kinds_apart_partial); every other pair does for some values (C104_kinds_collide). For values in use: claims and delegations, claims and well-formed passkeys, claims and storage requests unless the schema (or account) number is the length of the name; key additions and delegations against storage requests that expire between blocks 2^16 and 2^24 (C104_key_storage_partial, C104_delegation_storage_partial)."
 },
 "C106": {
  "note": "False of the code: no start of a delegation is stored, so after a grant in block 4 the node answers yes about block 2 (C106_full_false). Partial: a yes is never taken back (C106_yes_kept_partial); a no becomes a yes only after the delegator has signed for the provider again or has revoked the same schema again (C106_no_kept_partial). The other three sentences are proved (C106_answers, C106_all_granted)."
 },
 "C109": {
  "note": "False of the code for providers: the subtractions of reduce_capacity saturate while the event reports the whole amount. An unstake of 150 from a provider that was staked 100 reports 150 (C109_full_false), and with unstakes within the stake, rounding up makes the reported capacities 5 where 4 were issued (C109_rounding). Partial: sums for accounts, freezes and the epoch length (C109_staker_partial), for providers an inequality (C109_provider_bound_partial) and equality of stake if no unstake takes more than was staked to the target (C109_provider_stake_partial). Spending is proved (C109_spent)."
 },
 "C110": {
  "note": "False of the code for names with a capital L: look-alikes are replaced before letters are lowered, so l becomes 1 and L becomes l. PAUL1.13 and paul1.13 belong to different accounts, and the canonical name reported for the first leads to the second (C110_full_false, C110_two_spellings). Partial: white space (C110_spaces, for all names), spelling of ASCII names without a capital L, where two names have the same canonical form exactly if they are spellings of each other (C110_spellings_partial, C110_lookup_partial), and the canonical name of such accounts (C110_canonical_found_partial)."
 },
 "C113": {
  "note": "False of the code: in the block of a revocation the delegation still counts as valid, so the free revocation can be repeated without limit while the block lasts; each is taken into the block, fails and costs nothing (C113_full_false, C113_no_limit). Partial: free transactions whose call succeeds (C113_done_partial, all histories), and all free transactions taken other than revocations of a delegation revoked already, in histories without wrapped deletions of keys (C113_taken_partial, which also shows that such transactions do not fail)."
 },
 "C114": {
  "note": "False of the code: serde ignores unknown fields of a column without checking that they are UTF-8, so anyone can register a Parquet schema that the RPC can never return (C114_full_false). Partial: all Avro schemas in all histories (C114_avro_partial), and Parquet schemas without unknown fields (C114_parquet_partial)."
 },
 "C115": {
  "note": "False of the code: the variant ZSTD is renamed by SCREAMING_SNAKE_CASE to Z_S_T_D, so that models with the compression ZSTD are refused (C115_full_false). Partial: all lists of columns without this compression (C115_partial). Exactly which models are registered: C163_registered_iff."
 },
 "C117": {
  "note": "The calls are modelled on top of the chain of the six pallets; pallet_collective from its published source. Requests other than single calls of the six pallets (batches, scheduled calls) do nothing in the model."
 },
 "C118": {
  "note": "False of the code: the number of votes is fixed when the request is made. When the council has become smaller, a motion that every member has voted for can be closed by anybody as rejected (C118_full_false); when it has grown, a motion can be closed by anybody without effect before a majority has voted (example beside it). Partial: exact outcome of closing as long as the council has as many members as when the request was made; for providers without that condition (C118_providers)."
 },
 "C119": {
  "note": "False of the code: asking takes no deposit and no account, so one key can fill all 25 places with requests for schemas, after which also members of the council cannot propose anything (C119_full_false). Partial: acceptance and effect of the four calls as an equivalence (C119_ask_partial), and there are never more motions than places."
 },
 "C121": {
  "note": "Hypotheses: every number is within its type in the code. Writer of serde_json, itoa and impl_serde from their published sources; account identifiers in answers (msa_getKeysByMsaId) are not modelled."
 },
 "C09": {
  "note": "False of the code in the block of a revocation: the query lists the schema as revoked at once, but the check accepts the current block until the next one (C09_full_false). Partial: both equivalences for all other blocks (C09_marks_iff_partial); at any time what is listed tells the answer of the check for every block (C09_report_agrees_with_check)."
 },
 "C123": {
  "note": "False of the code: ReleaseSchedulesUpdated names the account only, not the schedules root gave it, so two different updates are announced alike (C123_full_false). Proved: all that the events tell is right (C123_view_right_partial); it is complete as long as root has not updated the account, and again once a claim for it reports zero (C123_view_known); which calls are announced, and how (C123_announced)."
 },
 "C124": {
  "note": "The first sentence is false of the code: the minimum stake of 0.01 tokens gives a capacity of 20,000, which pays for no transaction whatever (C124_full_false); less than 0.08890576 tokens never do, and 422 tokens with half a token for every hundred bytes always do (C124_stakes). Proved exactly: which sequences of transactions a stake pays for (C124_stake_pays_partial, C124_paid_iff), and the least and the greatest fee."
 },
 "C125": {
  "note": "The utility batches and both capacity calls are modelled with any nesting; wrappers that change the signer (proxy, multisig, derived accounts) are in C127. Fees in tokens are a yes or no given with the transaction. C125_by_signer carries everything proved of histories of the chain over to transactions. What calls within calls do is stated by rules that use no function of the model but the dispatch of single calls (C125_outcome), and for plain lists of calls once more directly (C125_batch, C125_force_batch, C125_batch_all)."
 },
 "C127": {
  "note": "The proxy, multisig and utility pallets belong to the framework and are modelled from their published behaviour, with the filters and limits of the runtime, on the chain with its tokens; deposits, weights and timepoints are left out, which only adds executions. Assumes that numbers of multisig accounts (hashes of members and threshold) do not collide. Passkey transactions (C66), root and the council (C117) are not part of the histories. On calls without wrappers that change the caller the model agrees with that of C133 (C135_agree), and so with that of C125 (C133_six_pallets)."
 },
 "C128": {
  "note": "False of the code in one point: that a key is deleted only by its own account is checked by a transaction extension for the outermost call only (see C03), so anybody with an MSA can delete any key from within a batch (C128_full_false). C128_kept_partial shows everything else, and that a key is lost in no other way. The histories are those of C127, continued from any history of the chain that starts at genesis."
 },
 "C129": {
  "note": "False of the code in one point, the same as C128: anybody with an MSA can delete any key from within a batch, after which the owner can do nothing with it (C129_full_false). C129_own_partial shows everything else: as long as nobody has a key of the group deleted, no call that would have succeeded before fails afterwards."
 },
 "C130": {
  "note": "False of the code as for keys: wrapped deletions of keys of others make the counter of the deleting account too small, so that it can get a 26th key and more (C130_full_false, C02). C130_keys_partial has the limit for histories where keys are deleted by direct transactions only. The other limits hold without exception (C130_limits, C130_storage); C130_applies shows that the constants meet the assumptions of other theorems. The documented limit of 65,000 schemas is not enforced (C44). Storage is for account ids on which the hash of the child tries has no collisions, as in C25."
 },
 "C131": {
  "note": "False of the code in the first clause: the capacity pallet takes the free balance, staked or not, for stakable, so that 1000 tokens can be staked as 1800 (C131_full_false; the cause is C58). C131_staked_partial has the clause for histories where each stake is covered by free tokens besides those staked; C131_not_vested has it for schedules without exception. The other clauses hold of all histories. The balances pallet is not in the repository and is modelled from its published interface; governance setting balances and slashing deposits is left out."
 },
 "C132": {
  "note": "The first versions of the storage calls with a signature are payable with capacity as well, and grant_delegation, listed with capacity only, can also be paid with tokens; both are in the proved list. Prices are those of the constants of the runtime; the times of the database are left open. Fees in tokens are a yes or no given with the transaction."
 },
 "C133": {
  "note": "The balances pallet is modelled from its published interface. Fees in tokens and what is paid back of them are given with the transaction. Proxies, multisigs and derived accounts are not among the calls here; C135 has them. Slashing and the setting of balances by governance are left out."
 },
 "C134": {
  "note": "False of the code: the number of an account is stored with the account, and is forgotten when all its tokens are transferred away. When the account gets tokens again its numbers begin at zero, and an old transaction without an end of validity is included once more, C134_full_false. Free calls of accounts without tokens never use up a number. Proved: as long as the account is never without tokens no number is used twice, and nobody but the signer changes the number. The validity period that a signer can give a transaction is not modelled."
 },
 "C135": {
  "note": "Balances, proxy, multisig and utility pallets are modelled from their published behaviour. Deposits of proxies, announcements and multisig operations are left out; they are taken from those who act. Governance is not part of these histories (C133 has it). Assumes that numbers of multisig accounts do not collide."
 },
 "C136": {
  "note": "False of the code: ProxyType::NonTransfer lets all calls of the multisig pallet pass, and what a multisig account executes does not go through the filter of the proxy. So a proxy that may not transfer can move the tokens of every multisig account in which the account it acts for suffices, C136_full_false, and can approve transfers of the others. Proved: without multisig accounts in the set no tokens are moved, no call that transfers is executed for a member, and nobody changes their proxies, C136_limited_partial. The model is that of C127 and C135."
 },
 "C137": {
  "note": "Assumes that the hashes of the tries of different accounts and kinds differ, as C25 does. Events and weights are not part of the claim."
 },
 "C138": {
  "note": "False of the code: the pallet verifies the signature of the account on the public key of the passkey, but never the signature of the passkey. Whoever has seen one passkey transaction of an account can submit further ones and transfer its tokens (`C138_full_false`; the call is not part of the main network). Proved: the tokens stay as long as no passkey transaction comes with a signature of one of the accounts on the public key in it (`C138_kept_partial`, `C138_alone_partial`, `C138_circle_partial`); what a passkey transaction does, exactly (`C138_effect`); that it takes effect once (`C138_once`). Fees are given with the transactions."
 },
 "C139": {
  "note": "The balances and treasury pallets are modelled from their published interface. Balances set by root through the balances pallet are left out, as in C131. Fees are burned, runtime/frequency/src/lib.rs 860."
 },
 "C140": {
  "note": "False of the code (C140_full_false): events are stored under the number of the block only, so a competing block imported after the one that becomes final replaces its events, and the list of an account gets the keys of the other chain. Also when the initial indexing reads the keys of a block that does not become final (C140_read_from_fork). Proved: the full claim if for every number the block with key events imported last is on the finalized chain and the block read at the start has no key events of its own; in particular without forks. That Substrate writes the index of every imported block is taken from its documentation; it is not part of the repository."
 },
 "C141": {
  "note": "Weights of messages and the limits of blocks are those of the runtime; weights and classes of all other calls, and what wrapping calls add and give back, are arbitrary. CheckWeight, the weights of batch, proxy and multisig calls and get_dispatch_info belong to the framework and are modelled from their published behaviour, only for the reference time and the class Normal; the other limits only exclude more. dispatch_as and with_weight of root are not part of the histories (they could execute messages without weight). The payload of calls is assumed to be decodable (shorter than 2^32 bytes), as any transaction is."
 },
 "C142": {
  "note": "False of the code: both locks expire after some blocks and some seconds (40 and 3 for the initial indexing, 20 and 5 for the blocks), whether or not the run that took them is alive, and a run writes lists that it computed from lists read earlier. A run that is slower than that and resumes after another one has handled later blocks overwrites a list with an old one, and a key that joined meanwhile is missing for good (`C142_full_false`). Proved when no lock expires while the run that took it is going on, for every interleaving and with restarts (except during the initial indexing) for the claims about single runs. No lock expires while no run goes on for more than 20 blocks, however long blocks take (`C142_blocks_partial`). The guards of the two `lock()` calls at 253-258 and 350-357 are bound to `_` and so dropped at once: writes of these two values are not covered by a lock, which is modelled. StorageLock and BlockAndTime belong to the framework and are modelled from their published behaviour; the block number a run compares the deadline with is that of its own block and stays the same. One finalized number per run, on one chain without forks (for forks see C140)."
 },
 "C143": {
  "note": "False of the code: the passkey pallet verifies only the account's signature on the public key of the passkey, so anybody who has seen one passkey transaction can displace whatever waits of the account with one of higher priority (C143_full_false; the call is not part of the main network). Proved: submissions change only what waits of their own account, and need a signature of the account on the transaction or on the public key in it; the bytes of the tags are different for different tags. The transaction pool is not part of the repository and modelled from its published behaviour, without limits of its size."
 },
 "C144": {
  "note": "False of the code for handles: the extension of the handles pallet names a tag prefix but provides no tag, so whoever can retire a handle can have any number of free transactions ready, without any tokens (C144_handles, C144_full_false). Proved for the other four kinds and for numbers. Transactions that wait for a lower number are not limited by tags."
 },
 "C145": {
  "note": "False of the code: two free transactions of the same kind of the msa pallet share a tag whatever their numbers are, so a provider who revokes two delegations with consecutive numbers has the second one refused, or, with a higher priority, the first one thrown out (C145_full_false and the example after it). Proved for all other transactions."
 },
 "C146": {
  "note": "The first sentence is proved in full: at most 1,393 key events per block (C146_few), far below 65,535. The second is false of the code: a deletion within a batch is not checked by the signed extension, so a key can delete a key of another account, and the event names the account of the deleting key; the index then keeps the deleted key for good (C146_full_false). Proved if every deleted key belongs to the account that deletes it, in particular if keys are deleted by transactions of their own (C146_index_partial, C146_index_direct_partial). Interrupted initial indexing: see C17; forks: see C140; overlapping runs: see C142."
 },
 "C147": {
  "note": "False across the upgrade to storage version 4, which gives schemas names without the event for names (C147_full_false: the query answers versions of which the observer never heard). Proved from any point for histories without that upgrade (C147_follow_partial), and for all new chains, whatever upgrades run on them, because these start with the current storage version (C147_new)."
 },
 "C148": {
  "note": "False of the code for two free transactions of the msa pallet of the same kind and account, such as two revocations: they provide the same tag although their numbers differ, one of them is refused, and its number is reported as missing although it was submitted (C148_full_false; the cause is that of C145). Proved for all other transactions (C148_report_partial), for every order in which the pool may list them; such an order exists (C148_listed). The pool itself is not part of the repository, its behaviour is assumed as described in Pool/Model.lean."
 },
 "C149": {
  "note": "False of the code in two points. Instant sealing: the pool notifies only of the transaction that was submitted, not of those that become ready with it; if transaction 1 comes before transaction 0 and they do not fit in a block together, transaction 1 stays in the pool until something else is submitted (C149_full_false). Proved if blocks have room for all ready transactions (C149_instant_room_partial), and for any room if no transaction comes before those it requires and there are never 1024 unhandled notifications (C149_instant_order_partial). Commands: engine_createBlock without empty blocks and without ready transactions is skipped and its sender dropped without an answer (C149_unanswered); all others are answered (C149_answered_partial). The rest is proved (C149_interval, C149_no_empty, C149_every_tick, C149_manual, C149_submitted, C149_final). Pool and seal_block are not part of the repository and assumed as described in Sealing/Model.lean."
 },
 "C150": {
  "note": "Proved for all transactions (C150_agree, C150_next, C150_else). The signature of signed transactions, their mortality and the room in the block are not part of the model of the pool."
 },
 "C151": {
  "note": "Proved for signed transactions: no effect with another genesis block, runtime version or block where the period begins (C151_elsewhere_partial); one signature fixes call, number, tip and period (C151_binds). False for passkey transactions (C151_passkey) and for payloads that others submit (C151_payload), since neither names the network: C151_full_false."
 },
 "C152": {
  "note": "Proved: nowhere else (C152_period, C152_only, for any other state of the network and so also with emptied accounts), everywhere in the period if that is at most 4098 blocks (C152_lasts_partial), what wallets get (C152_wanted, C152_codec). Longer periods end early, when the hash of their first block is dropped: C152_full_false."
 },
 "C153": {
  "note": "Proved for names, defaults and relay chains (C153_name_partial, C153_default, C153_relay), for files with one of five ids (C153_file_partial), for reloading of and separate databases for main and test networks (C153_reload_partial, C153_apart_partial). False otherwise: the local networks and the benchmark one are built without an id and so get the id dev; their files are refused by the node that wrote them (C153_local_reload; scripts/generate_specs.sh does this) and they share a database (C153_shared). Files with another id make the node panic (C153_panics)."
 },
 "C154": {
  "note": "Proved for all histories: every call executed as root goes back to a referendum that passed, with the periods and origins of the statement (C154_referendum_partial, in numbers C154_notice), and with more votes for it than against it unless the whole council had asked for a referendum that only fails by a majority against it. False in that case (C154_full_false): ten votes for it, fifty against it, low turnout, executed as root two blocks after the council proposed it and the committee set a voting period of one block."
 },
 "C155": {
  "note": "Proved: during the cool-off period nobody can propose the call again in the ways that a veto binds, and a referendum on it is opened only if more than half of the council, or root, asked again after the veto (C155_veto_partial, for calls not already among the public proposals). A cancelled referendum never passes and is never carried out (C155_cancelled_partial); two thirds of the council can cancel while votes are open (C155_can), once per proposal (C155_once). False otherwise: more than half of the council overrules a veto at once (C155_veto_overruled), and after a referendum passed nobody but root can stop it (C155_unstoppable, C155_full_false), although the comment at lib.rs 760 says that two thirds of the council can. A veto strikes only the proposal it names (C155_veto_named)."
 },
 "C156": {
  "note": "Proved with the library's Perbill::from_rational: an unstake that does not end the staker's record takes the share up to two billionths of the capacity less, or one billionth and a unit more (C156_share_partial); one that ends the record takes what the record holds (C156_record); one beyond the whole stake takes all (C156_beyond). False otherwise: less than a billionth of the stake can be unstaked without any loss of capacity (C156_free, C156_full_false: 40 units of 50,000,000,000)."
 },
 "C157": {
  "note": "Proved: whatever text is looked up, an account found has a handle with the canonical form of the part before the only dot, and the part after it is a numeral of its suffix (C157_found_partial). False as stated: the library's parser also takes leading zeros and a plus sign, so that PAUL1.+13 and PAUL1.013 lead to the holder of PAUL1.13 (C157_numerals, C157_full_false)."
 },
 "C158": {
  "note": "The update of the multiplier (SlowAdjustingFeeUpdate) and the composition of the fee are in the Polkadot SDK, not in the repository; they are modelled from their published source with the weights of this runtime. The minimal multiplier of the library is left open."
 },
 "C159": {
  "note": "False of the code for one kind of award: one of less than the existential deposit to an account that does not exist is announced and the proposal is closed, but the beneficiary gets nothing (C159_full_false); proved for all other awards. pallet_treasury is in the Polkadot SDK, not in the repository; it is modelled from its published source with the configuration of this runtime. Comments in the code speak of a payout every four weeks and of 16 approvals per week; the period of the main network is one week."
 },
 "C160": {
  "note": "The encoding of calls is a parameter, of which the first two bytes are assumed as the runtime and the SCALE codec give them: the number of the pallet and, in pallet 60, a call number up to 12 (Indexed). That a signature is one of one message (OneMessage) and that no hash reads `<Bytes>...</Bytes>` (NoText) are hypotheses on cryptography."
 },
 "C161": {
  "note": "Proved: what is accepted as a name, for every text (C161_validate), that refused names cannot be had (C161_refused), which questions are refused and how many suffixes are named (C161_suffixes, C161_too_long), that they are the next ones (C161_next_partial) and that a reported handle leads back to its account (C161_back_partial), both for canonical names of at most 32 bytes, and the texts that lead to an account (C161_found_partial). False as stated: with canonical names of more than 32 bytes the reported handle of one account leads to another (C161_full_false), see C30. Three spaces are accepted as a name and cannot be claimed (C161_spaces), see C36."
 },
 "C162": {
  "note": "Proved in full: nobody pays for the call of another, never out of frozen tokens, tokens only move between free and reserved (C162_own), the prices (C162_amounts), and who removes what (C162_removed). Proved as long as pure accounts keep the one registration they were created with until they are given up: the sum (C162_reserved_partial), that nothing stays reserved (C162_nothing_left_partial) and that deposits become free in full (C162_back_partial). False otherwise: if a pure account removes its proxies, the deposit of whoever created it stays reserved for ever (C162_full_false); if it adds a proxy and is given up, its creator is given back more than was deposited, out of another deposit (C162_too_much)."
 },
 "C163": {
  "note": "Proved: exactly which models are registered (C163_registered_iff), that every registered one is a list of columns with every field exactly once (C163_registered_partial), and that it has one meaning (C163_unambiguous). False in full: members of a column that are no fields are skipped without being read, so that a registered model need not be JSON nor even text (C163_full_false); ZSTD must be written Z_S_T_D (see C115)."
 },
 "C164": {
  "note": "Proved: who is chosen at each turn (C164_chosen), how one is named and ceases to be (C164_named, C164_naming, C164_unnamed), that keys are set only by their account and never shared (C164_keys), how one becomes a candidate (C164_own), that recorded makers had been chosen (C164_maker) and that there is always a key that may make blocks (C164_always). False in full: root or council may name an account twice, which then gets two places (C164_once_false; C164_once_partial otherwise); they may name only accounts without keys, which leaves nobody chosen, and raising the bond may drop all candidates (C164_some_false; C164_some_partial otherwise); a candidate beyond the desired number, which is none at the start of the main network, is removed after twelve hours although it was never among the makers (C164_chance_false; C164_place_partial for the rest). When nobody is chosen the keys of the session before go on making blocks."
 },
 "C165": {
  "note": "Proved in full, for every history."
 },
 "C166": {
  "note": "Proved for every list of calls where for each provider there are only stakes, only payments (even several) or a single unstake (C166_all_partial, on the chain C166_chain_partial); if all calls are about different providers then also what fails, and why, does not depend on the order (C166_outcomes_partial, C166_contents_partial). False in full: two accounts that unstake from the same provider leave it with different capacity depending on who comes first, because shares are rounded (C166_rounding), and a payment may need capacity that was staked just before (C166_payment)."
 },
 "C167": {
  "note": "Proved for every list of calls: success in every order (C167_all), same names (C167_names), both on the chain in C167_chain; the same suffixes for every name whose canonical form fits into 32 bytes (C167_suffixes_partial). False of longer ones, which share one counter: the suffix depends on whether somebody has asked for another such name before (C167_full_false)."
 },
 "C168": {
  "note": "Proved for every list of such calls, as transactions or within other calls: if all succeed in one order they do in every order with the same result (C168_all); each succeeds just when it would alone, and the result is the same, as long as the signature registry has room for the signatures of the list (C168_alone_partial, C168_contents_partial); on the chain, where nothing else changes, in C168_chain_partial. False without room: the registry refuses a signature while it is full of ones that have not expired, so that whoever comes first gets the last place (C168_full_false; the witness lowers the limit to four signatures, the mechanism is the same with 50,000)."
 },
 "C169": {
  "note": "Proved for every list of such calls in every reachable state, for schedules that have not ended when they are sent, and amounts of at least the existential deposit or for accounts that have it: success and result are the same in every order, also the freeze after a claim, and before it if no schedule sent to the account has begun to pay out (C169_all_partial); when exactly they succeed is in C169_when_partial. False without these conditions (C169_full_false and the examples after it): a transfer freezes all its tokens, also those that its schedule has paid out by now, and the next transfer or claim frees these, so that the freeze depends on which transfer came last; a schedule that is over when it is sent takes one of the 50 places until the next transfer or claim; and, as MinReleaseTransfer is 0, a few tokens can be sent to a new account only after others have been."
 },
 "C170": {
  "note": "Proved for the pallet with the others in any state, for histories with at most 65,536 accepted messages in each block (C170_order_partial); that acceptance does not depend on other messages holds without this limit (C170_alone). False of the pallet alone with more messages in a block: the number is not counted beyond 65,535, and the last message replaces the one before (C170_full_false). The weight limit of blocks excludes this: no block has more than 2,093 messages (C141_few)."
 },
 "C171": {
  "note": "Proved for all calls modelled in Chain; the condition is needed, as an example shows where the user consents in the same block. The free balances that staking needs are a parameter of each step: that a fee in tokens or a transfer before it can make a stake fail is not counted as an influence of one of the six pallets."
 },
 "C172": {
  "note": "Proved. `BitFlags` and the codec of numbers and enumerations are libraries, modelled from their published behaviour; later releases are taken to declare further settings after the present ones."
 },
 "C173": {
  "note": "Proved. Of payment with tokens only whether it is accepted is modelled. The two that change places are single calls outside the capacity pallet, for which see C166; those before and after are arbitrary."
 },
 "C174": {
  "note": "Proved. The transactions are single calls, paid for with tokens or with capacity; of payment with tokens only whether it is accepted is modelled."
 }
}