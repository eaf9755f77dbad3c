# Design of the formal model of Frequency

The model covers the Frequency parachain pallets under `/repo/pallets` and the parts of
`/repo/runtime` and `/repo/common/primitives` they rely on. Everything is in Lean 4 (4.33.0)
under `lean/Verif`. Storage is modelled as finite maps, calls as total executable functions
`State → Call → Except Error State`, transactions as "apply, and on error keep the old state"
(FRAME calls are transactional), and chain histories as lists of such steps. Theorems speak
of all states or of all histories; nothing is bounded.

## How the model is organised

| Module | Code modelled |
| --- | --- |
| `Prelude`, `Scale`, `Utf8` | finite storage maps; SCALE encodings; UTF-8 |
| `Hash/XxHash64` | XxHash64, from the published algorithm, checked against values of the repository's tests |
| `SigRegistry` | signature registry of the MSA pallet (`register_signature`, `enqueue_signature`) |
| `Msa` | MSA pallet: calls, delegation checks, validation of free transactions, signed payloads |
| `Pool` | tags and requirements of transactions, waiting transactions |
| `KeyIndex` | a node with the whole chain of `Weights` and the key index of `Offchain` |
| `Offchain` | off-chain index of account keys: events, replay, locks, storage keys, forks, overlapping runs of the worker |
| `Stateful` | stateful-storage pallet: pages, actions, authorisation, child-tree keys, signed payloads |
| `Handles` | handles pallet and `handles-utils`: canonical forms, suffixes (with the generator) |
| `Schemas` | schemas pallet, names and versions, migration |
| `Messages` | messages pallet, the pagination of the RPC, migration |
| `Capacity` | capacity pallet: staking, unstaking, epochs, spending, Perbill arithmetic, migration |
| `TimeRelease` | time-release pallet over a small model of balances and freezes, migration |
| `TxPayment` | frequency-tx-payment: eligibility, capacity fee, estimate |
| `Nonce` | the `CheckNonce` transaction extension of the runtime |
| `NonceRpc` | the query of the node for missing nonces |
| `Passkey` | passkey pallet, unsigned validation and dispatch |
| `Whole` | signed transactions, passkey transactions and governance on the chain with its tokens, proxies and multisigs |
| `Runtime` | call filters, proxy types, batches, nested dispatch |
| `Json` | JSON: grammar, reader and writer of `serde_json` |
| `Rpc` | the answers of the RPC methods as JSON |
| `Council` | council motions over `Chain` |
| `Treasury` | proposals to the treasury, their approval and payout |
| `Deposits` | deposits for proxies, announcements, pure accounts and multisig operations |
| `Collators` | candidates and named makers of blocks, sessions, their keys, bonds |
| `Chain` | msa, schemas, messages, handles, stateful-storage and capacity over one state, wired as in the runtime |
| `Tx` | signed transactions over `Chain`: nonce, payment, extensions, batches, dispatch |
| `Wrapped` | proxies, multisigs and derived accounts over `Wallet`, that is on the chain with its tokens |
| `Tokens` | `Chain` and `TimeRelease` over the same balances, with transfers, fees, deposits and locks |
| `Wallet` | signed transactions on `Tokens`: numbers, payment in tokens or capacity, nested calls with transfers, refunds |

Per module: `Model.lean` (code; every definition cites file and lines), `Lemmas.lean` and
`Invariant.lean` (helper lemmas), `Props*.lean` (specification vocabulary and the property
theorems `Cnn_…`, each with a concrete case beside it).

Most pallets use the same proof pattern: an inductive relation `Eff` lists the possible
effects of one call with the conditions under which they happen; `apply_eff` shows that every
call has one of these effects; invariants are proved for each effect and lifted to histories.
The property theorems never mention `Eff`; they are about `dispatch`, `apply`, `run` and the
queries of the pallet.

## Conventions for properties that do not hold

If a property as a user would state it is false of the code, `Cnn_full` (or a theorem saying
what happens instead) states it in full, `Cnn_full_false` refutes it with a concrete history,
and the part that does hold is a `_partial` theorem that says what is missing. The wording of
such a property in `properties.jsonl` is left as first written. Six properties (C02, C04, C06,
C08, C21, C62) had at one time been narrowed to what the code does; they have been set back to
their first wording and are refuted. C35 was first written with a limit of 26 bytes; this was
a misreading of the constant `HANDLE_BYTES_MAX` (32) and has been corrected, and the property
was strengthened by the length of the canonical form.

## Plan per property

P: proved in full. F: false of the code; refuted, and proved in part.

### Accounts, keys and delegations (`Msa`, `SigRegistry`, `Runtime`)

* C01 P: invariant over histories (ids announced so far are `1..n`, every resolvable id is one
  of them); exact effect of a creation.
* C02 F, C03 F: proved for direct transactions by invariants; false for wrapped calls, since
  the base call filter uses `any` on batches and the transaction extension that holds the
  ownership check sees only the outermost call.
* C04 F in its last clause: retirement leaves records of revoked delegations behind.
* C05 P: postcondition of `add_public_key_to_msa`, for all states.
* C06 F, C08 F, C16 F: `revoke_schema_permissions` overwrites an existing revocation block, so
  a second revocation authorises for the rest of its own block. Proved about later blocks, by
  case analysis over all calls and history induction.
* C07 P: pointwise postcondition of the permission map.
* C09 F in the block of a revocation; otherwise equivalence of report and check, in terms of "valid through block r".
* C10 P: refinement of the registry to a queue, chronological histories. For signatures alone
  under the assumption that no signature verifies for two byte strings.
* C11 P: refinement to a queue for capacity at least 2; capacities 0 and 1 corrupt (witnesses).
* C12 P, C13 P, C14 P, C77 P, C78 P: decision logic and invariants.
* C15 F: a second revocation in the same block passes validation and fails.
* C69 P: injectivity and disjointness of the signed encodings.
* C79 F for schema id 0 only.
* C85 P: acceptance of every call as an equivalence (with the queue of remembered signatures), the
  checks of the extension as an equivalence, exact effect on keys, counters, providers, delegations.

### Off-chain index (`Offchain`)

* C17 F for an interrupted initial index; proved: replay equals chain, recovery of later runs, completeness of a
  repeated initial indexing. C103 F for blocks before the initial indexing; proved for the blocks handled.
  Whether `offchain_index::clear` reaches the database when the worker calls it is up to the node, not to this
  repository, so it is a parameter (`Db.clears`). C17 is proved for both cases. C103 needs a node that carries the
  clearing out; `C103_kept_when_dropped` shows that otherwise nothing is ever removed.
* C18 P: injectivity of the key encodings.

### Stateful storage (`Stateful`)

* C19 P round trip, C20 P refinement of the action loop to positions.
* C21 F for the deletion of an absent page. C22 to C25, C27, C29, C71 P: invariants over
  histories of raw child-trie contents. C26 P: injectivity of the multipart keys.
* C83 F for the deletion of an absent page (any target hash is accepted); acceptance and effect of every call, as an
  equivalence.
* C28 F: deleting a page resets its nonce; the 16-bit nonce wraps after 65,536 updates, which fit into the mortality window (`C28_replay_after_wrap`, proved by induction over the updates). C70 F across payload kinds and versions; every pair of kinds decided (`Stateful/PropsKinds.lean`).

### Handles (`Handles`)

* C30 F, C33 F: canonical forms above 32 bytes collapse to the empty key. C31 P, for every
  stream of draws. C32 F when only the maximum changes. C34 P, C35 P.
* C36 F, C37 F, C38 F, C72 F, C73 F: witnesses and partial theorems.
* C86 F for canonical forms above 32 bytes; otherwise acceptance as an equivalence, exact effect.

### Schemas and messages (`Schemas`, `Messages`)

* C39 P, C40 P, C42 P, C43 P; C41 F, C44 F, C45 F. C87 P: acceptance as an equivalence, with the
  spelling of names characterised without the parser; exact effect.
* C46 F beyond 65536 messages in one block; C47 to C50 P. C84 P: acceptance and effect, as an
  equivalence. C96 P: the upgrade to version 2 (`Messages/Migration.lean`), through the query.

### Capacity and time release (`Capacity`, `TimeRelease`)

* C51 P, C52 P, C54 P, C55 P, C56 P, C57 P: invariants. C54 is about histories with growing 32-bit
  block numbers; there the saturation of the epoch number is unreachable.
* C53 F, C58 F, C59 F: witnesses and partial theorems.
* C80 F: unstaking everything through one of several targets leaves the capacity of the others; proved
  for histories without such unstakes.
* C81 P: exact effect of the calls. C88 P, C89 P: acceptance of every call as an equivalence in reachable
  states, and the remaining effects.
* C60 P, C61 P; C62 F (dust is burned), C74 F (wrong amount in the event).
* C97 F, C98 F: the upgrades from locks to freezes (`Migration.lean`), over all histories of the release before,
  read as histories of the model with locks in place of freezes. C97: accounts with unlocking chunks only are
  passed over. C98: what was released is frozen again until the next claim.
* C99 P, C100 P: what stays possible (`PropsExit.lean`). C99: an invariant bounds the thaw epoch of every chunk
  by the current epoch and the blocks that pass; C100 follows from C88 and the invariant of C61.

### Runtime and fees (`TxPayment`, `Nonce`, `Passkey`, `Runtime`)

* C63 P against an independent table of weights; C64 F for the empty batch.
* C65 F for free transactions of keys without token account; C66 F, C76 F (passkey).
* C82 F when two transactions with one nonce wait; proved otherwise, for any pool content.
* C67 F (`any` instead of `all`), C68 F for one pair, C75 F through multisig.

### The pallets together (`Chain`)

* C90 P, C91 P: every stored message and every change of storage is traced back through the history to the
  call that caused it and to the signed grant that allowed it, by induction over histories of the whole chain;
  a history of the chain is shown to be a history of each pallet.
* C92 P: referential integrity, from the origin of each record and the permanence of accounts, providers
  and schemas.
* C93 F, C94 F for wrapped deletions of keys and wrapped retirements, which skip the checks of the
  transaction extension; proved without them. C95 P: case analysis over all steps, in any state.
* C101 F for accounts whose key counter was spoiled by a wrapped deletion (an invariant shows that no own
  transaction helps); proved without such deletions by giving the transactions.
* C102 F for a schema that loses one of the six names to the upgrade (`Schemas/Migration.lean`, with the table of
  the main net); the other clauses are proved for any state below version 4.
* C104 F: signed payloads carry no tag (`Chain/PropsSigned.lean`). One witness runs on the chain with the real page
  hash (a claim of a handle deletes a page), the other is a theorem about all delegations of ten schemas (they prove
  a passkey). Every pair of kinds is decided (`Chain/PropsSignedKinds.lean`); more are kept apart for values in use.
* C105 P: the rules of the pallets restated with the answers of the other pallets put in (`Chain/PropsWiring.lean`),
  so that a mistake in the wiring (`*Env`, `Origin.*`, `extensions`, `newBlock` of `Chain/Model.lean`) falsifies one.
* C106 F: the start of a delegation is not stored (`Msa/Queries.lean`, `Msa/PropsQueries.lean`); proved: a yes about a
  past block is never taken back, and what turns a no into a yes.
* C107, C108 P: events of successful calls as functions of the state before (`*/Events.lean`); a follower that sees
  only events is compared with the state by induction over the history. C109 F for the sums of providers, because
  subtractions saturate and the event does not; the other sums are proved.
* C110 F for a capital `L`, which is lowered after the look-alikes of `l` were replaced (`Handles/PropsVariants.lean`);
  proved: white space for all names, and ASCII names without that letter, by the canonical form of single characters.
* C111 P: induction over call trees with the filter of the proxy, as for C68 (`Runtime/Props.lean`).
* C112 P: the polynomial of the runtime and `Perbill` of the framework as functions of numbers
  (`TxPayment/WeightFee.lean`); linear arithmetic after evaluating the constant (`TxPayment/PropsWeightFee.lean`).
* C113 F for revocations repeated in the block of the first (`Chain/PropsFree.lean`); partial by a potential: keys,
  delegations in force and handles, of which a successful free call takes one and no call adds more than it prepares.
* C114 F for Parquet models with unknown fields (`Schemas/PropsModel.lean`); partial: what the reader consumes is
  UTF-8, by induction over its recursion (`Json/Lemmas.lean`).
* C115 F for `ZSTD` (`Schemas/PropsParquet.lean`); partial: completeness of the reader for the grammar of columns, the
  order of fields by commutation of the steps.
* C116 P: the reader accepts exactly the grammar of RFC 8259 (`Json/Grammar.lean`), soundness and completeness by
  induction over its fuel (`Json/Parser.lean`, `Json/Exact.lean`).
* C117 P, C120 P: the council on top of the chain (`Council/Model.lean`); invariant that the lists of votes agree with the
  ballots computed from the history, then case analysis of the steps that change the registries (`Council/Props.lean`).
* C118 F when the council has changed its size; partial: exact outcome of closing at the same size. C119 F when the 25
  places are taken; partial: acceptance and effect as an equivalence.
* C121 P: the writer's output is derived in the grammar of `Json/Grammar.lean`; uniqueness of the reading from the exact
  reader of C116; then the derived readers invert the derived writers field by field (`Rpc/Props.lean`).
* C122 P: invariant that the directory computed from the events is the stored one (`Handles/PropsEvents.lean`).
* C123 F: what a follower of the events concludes is an invariant (`TimeRelease/PropsEvents.lean`); false after an
  update by root, whose event does not tell the new schedules.
* C124 F for the minimum stake; partial: exact condition for sequences of transactions, by induction from the acceptance
  of a single one (C63) with the constants of the runtime (`TxPayment/PropsStake.lean`).
* C125 P: signed transactions (`Tx/Model.lean`, the extensions of the repository in their order, nested batches and
  capacity payment over the state of all pallets): inclusion iff, exact effect for both ways of payment, the sum of the
  fees over any sequence, same effect however paid, and authorship, which carries the theorems on histories of the chain
  over to transactions (`Tx/Props.lean`).
* C126 P: the sign-up batch of a provider (sponsored account with delegation, handle) on all reachable states: succeeds
  iff the request is good, exact effect, nothing otherwise (`Tx/PropsSignUp.lean`). For names on which C86 holds.
* C127 P: transactions with the wrappers that change the caller (`Wrapped/Model.lean`: proxies, announcements, pure
  proxies, multisigs, derived accounts, modelled from the published behaviour of the framework, with the filters of the
  runtime). One induction over call trees (`Guarded.exec`) carries the log of executed calls, circles of accounts,
  limited proxies and delays (`Wrapped/Props.lean`).
* C128 F: the same histories; a set of keys that sign nothing and the MSAs they control (`Chain/PropsQuiet.lean`,
  `Wrapped/PropsQuiet.lean`). One-step invariant `Group` over the effects of all pallets, then `C127_circle` and
  `C127_history`. False only because of wrapped `delete_msa_public_key`; everything else is proved.
* C129 F: `Chain/PropsOwn.lean` lifts C128 from what an account has to what it can do: the exact conditions of acceptance of each pallet
  (C83-C86, C89) depend only on what strangers cannot change or only improve (schemas are added, epochs and blocks pass);
  `Wrapped/PropsOwn.lean` carries this over to wrapped calls. Wrapped deletions of keys make it false in full.
* C130 F: `Chain/PropsBuilt.lean`, the limits of the pallets (C14, C27, C35, C43, C55, C56 and new ones) on the chain with the
  constants of the runtime, and that these constants meet the assumptions of other theorems. The limit of 25 keys is not kept.
* C131 F: `Tokens/`: the chain and the time-release pallet over the same balances. Every history projects to one of `Chain` and one
  of `TimeRelease` (`Good`), so their invariants (C51, C61, C88) hold together; then one step at a time. Tokens staked twice make
  the first clause false.
* C132 P: `Tx/PropsPrice.lean`. The price list is written down a second time over the calls with their payloads (`listed`, `units`, `Free`), from the READMEs and the weight table, without the function that maps calls to sizes; the fee of C63 with the constants of the runtime is shown to be that price, and the acceptance and charge theorems of C125 are restated with it. Order and batches follow from the arithmetic of rounding. `Tx/PropsOutcome.lean` adds to C125 rules for the outcome of nested calls, independent of filters and dispatch of the model, and proves them complete and deterministic.
* C133 P: `Wallet/`: signed transactions on the state of `Tokens/`, with fees taken from the balances. Every transaction is a run of steps of `Tokens/`, all by its signer (`C133_by_signer`), by induction on the nesting of its calls; then what each step by somebody else can do to an account (`C133_kept`), and exact balances after payment, call and refund (`C133_paid`, `C133_cost`, `C133_transfer`). `C133_six_pallets` ties the model to that of C125: on calls of the six pallets both agree, with the balances that are on the chain.
* C134 F: same model. The number of an account is forgotten with the account; witness: an account that is emptied, filled again, and has an old transfer repeated. Proved for accounts never without tokens (`C134_once_partial`).
* C135 P: `Wrapped/Ledger.lean` and `Wrapped/PropsTokens.lean`: every transaction is a run of steps of `Tokens/`, the payment of the signer, the calls in the log, each in the name of the account there, and the refund (`C127_log`). In a circle no step is in the name of a member (`C127_circle`), and steps of others take no tokens. `Wrapped/PropsAgree.lean`: on calls that act for nobody else all histories agree with those of `Wallet/`.
* C136 F: same model. Guard on the filter of the origin: calls for a member always go through the filter of a limited type; only the multisig pallet replaces the filter. Witness: a joint account with threshold 1. Proved without multisig accounts in the set (`C136_limited_partial`).
* C137 P: `Stateful/PropsOrder.lean`: each call is a function of what is read at its place (`dispatch_local`, from the code of the update functions without any invariant), places have different keys (C25); a call in a list of calls to different places then meets what was read there before all of them. On the chain the environment of a storage call does not change by storage calls, `Chain/PropsOrder.lean`.
* C138 F: `Whole`: signed transactions of `Wrapped`, passkey transactions, council, root and upgrades in one history. The effect of the filter of the pallet is that a passkey transaction is a payment and a transfer by its account (`passkey_steps`), so that C127's circles and `Wallet.steps_kept` apply. Witness: a second transfer with the endorsement of the first, which the passkey did not sign.
* C139 P: `Whole/Genesis.lean` builds balances, the treasury's deposit and the schedules; `genesis_iff` is the exact condition for the fold over the items, `Tokens.everything` is conserved by every step of `Whole`. The lists of `resources/frequency.json` are an example: 1,000,000,000 tokens.
* C140 F: `Offchain/Fork.lean` has the tree of blocks a node imports (a block is everything up to it), finalization, the search for the finalized number and the worker. `NodeInv`: for every block `f` the node was not misled about, the index plus the stored events up to `f` give the keys of `f`. Two witnesses: a competing block imported after the final one, and an initial index read from a block that does not become final.
* C141 P: `Weights` is `Whole` with `CheckWeight`. What a call can send is at most what its declared and its spent weight pay for (`carried_weight`, `exec_adds`), whatever wraps it, so the weight of a block bounds its messages; `Kept` then ties the log of executed calls to the history of the messages pallet, to which the theorem behind C46 applies.
* C142 F: `Offchain/Threads.lean` makes every read, write and lock operation of a worker's run a step of its own; any number of runs interleave with transactions and blocks. `NetInv` says that the database is one that the sequential model of C17 reaches, plus the writes made so far for the block that one run is handling; `step_inv` follows every step. Witness: a run that pauses for 20 blocks between reading a list and writing it back.
* C143 F, C144 F, C145 F: `Pool/Model.lean` has the tags that the `validate` functions give the pool and the pool's import: ready or waiting, displacement by priority, removal of dependents, promotion. `Ok`: tags belong to the account, ready transactions share no tag, no waiting one is due. C145 follows from the exact content of the pool when no tags are shared.
* C146 F: `KeyIndex/Model.lean` puts the chain of `Weights` (wrapped calls, passkeys, governance, weights) under the database of `Offchain`. `Weights/Lemmas.lean` counts marked calls among those executed against the weight declared and spent; for key calls (least weight 269,128,000, `retire_msa`) this gives at most 1,393 events per block (`C146_few`) and replaces the bound that C17 assumes. `Follows`: key events of any execution are the changes of the key map; `Owned`: the event of a deletion names the account that the key had. Owned events keep the index exact (`C146_index_partial`); transactions without nested deletions emit owned events (`C146_index_direct_partial`). Not owned: a nested deletion of a foreign key (`C146_full_false`).
* C147 F: `Schemas/PropsEvents.lean`. `Book` is what an observer writes down from the events; `Book.Right` compares it with the answers of the queries (schemas, their number, versions by name, limit). Every effect of a call (`Eff`) changes storage as its events tell; induction over histories (`C147_follow_partial`, `C147_new`). The upgrade to version 4 names schemas silently (`C147_full_false`).
* C148 F: `Pool/PropsMissing.lean` asks the query of `NonceRpc` about the pool of `Pool`. Without common tags the pool keeps all transactions and the ready ones of an account have consecutive numbers in every order in which each comes after what it requires (`numbers_range`), so the hypotheses of C82 hold and its report is exact; C145 then gives that filled gaps make everything ready. Refuted with the witness of C145 and a third transaction.
* C149 F: `Sealing/Model.lean` models the command streams and the loop of `block_sealing.rs` over the pool of `Pool`; what fits in a block is left to a proposer that makes progress (`Works`). Invariants: a ready transaction has an unhandled notification (blocks with room), ready transactions are no more than notifications (submission in order), every attempt removes a ready transaction (ticks). Refuted: promotion without notification (`C149_full_false`), dropped sender (`C149_unanswered`).
* C150: `Pool/PropsAgree.lean` compares `check` (the `validate` functions) with what a block does with the transaction (`Whole.apply`), observed as one more transaction in the block. Execution does not change the number of transactions (`exec_extrinsic`, by `Guarded`), payment and extensions do not look at numbers.

**C151 Networks.** `Network/Model.lean` puts the chain of `Whole` on a list of block hashes with the versions of the
runtime, and models the bytes that a signed transaction signs. Proved for two arbitrary networks by comparing the signed
bytes from their end (versions, genesis hash, hash of the first block of the period have fixed lengths) and then from their
start (call, era, compact number, compact tip can each be read back). Passkey transactions and the payloads of the msa
pallet have no such additions; two networks where the same bytes take effect on both are the witnesses against the full
claim.

**C152 Periods.** Same model. The first block of a period is computed from the current block; proved that it is the same
for all blocks of the period, that its hash is part of what is signed, and that block hashes are kept for 4096 blocks, so
that periods up to that length work to their end. A period of 8192 blocks that ends early is the witness against the full
claim, in a history of 4099 blocks.

**C153 Which network a node runs.** `Specs/Model.lean` has `load_spec` of the node and of its relay chain, over all sets of
features, arguments and files. Proved by cases. That `ChainSpec::builder` sets the id `dev`, how `--dev` is read, and where
databases are, is from outside the repository; of a specification only ids and relay chain are looked at.

**C154 Root by referendum.** `Governance/Model.lean` has `pallet_democracy` and the scheduler with the origins and periods of
the runtime; mainnet has no other way to root. The invariant (`Governance/Props.lean`) ties each task and each executed call
of root to a referendum, its tally, its periods and the calls that led to them; `compare_iff` shows that the SDK's comparison
of rationals is the comparison of rationals. Consent is false for referenda that the whole council asks for.

**C155 Vetoes and cancellations.** `Governance/PropsStop.lean`: `Closed` lists what a property of states has to be kept by;
vetoes, cancellations and the origin of tasks are such properties. False in two ways: the council overrules a veto, and
nobody but root cancels what has passed.

**C156 Cost of unstaking.** `Capacity/PropsShare.lean` gives the configuration parameter `fromRational` its meaning in
`sp-arithmetic` (both numbers divided by one factor until the denominator is at most a billion, then rounded down) and bounds the
loss on both sides by C89's exact effect. False of the code as stated: the scaling makes small parts of large stakes free.

**C157 Texts that lead to an account.** `Handles/PropsFound.lean`: inversion of `split_display_name` for every text, valid or
not; numerals are specified apart from the model's parser. Not as stated: `str::parse` takes leading zeros and a plus sign.

**C158 Fees follow demand.** `TxPayment/Multiplier.lean` has the update of the fee multiplier in fixed point arithmetic with the
block weights of the runtime, and the fee in tokens. Proofs bound the rates of one block and multiply them up; the two
numerical facts (a day of maximal rises, 37,000 maximal falls) are inequalities between powers that the kernel computes.

**C159 The treasury.** `Treasury/Model.lean` has proposals, approvals, rejections and the payout of `pallet_treasury` with the
origins, bonds and period of the runtime; anything else may change balances between the steps. The proofs go by one invariant
over histories (each open proposal was made, each approval was given, awarded and rejected proposals are closed, what is reserved
is the bonds) and one of the payout loop. False of the code for an award below the existential deposit to a new account
(`C159_full_false`).

**C160 Requests are no transactions.** `Network/PropsSigning.lean` states it over the signed bytes of `Network` and the requests of
C104, with the numbers of the pallets. `<` is the number of the pallet of accounts and `B` no call of it; that is the proof. The
effects follow for every call that carries signatures and for passkeys.

**C161 Questions about handles.** `Handles/Rpc.lean` models the four questions of the node with their limits on texts and counts;
`Handles/PropsRpc.lean` states the answers over texts and histories, with the theorems of C30, C33 and C157. Asking for a reported
handle is never refused, since the limit of 38 bytes covers every name with every suffix. False for long canonical names, as C30.

**C162 Deposits.** `Deposits/Model.lean` models the reserve of the balances pallet and the calls of the proxy and multisig pallets that
take and return deposits, with the prices of the runtime. The invariant is that the reserve of every account is the sum of what the
two pallets and the others have recorded for it. It fails for pure accounts that change their own registrations, with two witnesses.
`PropsRemoved.lean` says who can remove a registration, an announcement or an open operation.

**C163 What a Parquet model is.** `Json/Skip.lean` is the grammar of what `ignore_value` skips, and proves that it skips exactly that;
`Schemas/PropsOnly.lean` is the grammar of what is accepted as a Parquet model, proved to be exactly what the parser of
`Schemas/Parquet.lean` accepts and to give the columns it returns. It is the converse of C115, which says that what the format allows is
accepted. Not every model that is accepted is JSON.

**C164, C165 Makers of blocks.** `Collators/Model.lean` models collator selection, sessions, Aura's list of keys and authorship as the
runtime configures them. These pallets belong to the Polkadot SDK, whose source is not in /repo: the model follows the published
version from knowledge, so its faithfulness rests on that; the configuration (`Config`, the constants, the origins) is that of the
repository. `PropsBonds.lean` proves C165 from an invariant (the list is sorted, without repetition and backed by what is reserved).
`Props.lean`, `PropsSession.lean` and `PropsNamed.lean` prove C164 except for the clauses that `PropsFalse.lean` refutes.

**C166 Order of stakes and payments.** `Capacity/PropsOrder.lean` shows what each call reads and writes (`Agree`, `Frame`), that calls
about different accounts and providers commute whatever their outcome, and that stakes to the same provider commute, as do payments
of the same provider, if they succeed; permutations then follow by swaps. `Chain/PropsStakes.lean` carries this to signed
transactions. Unstakes from the same provider do not commute (`C166_rounding`), nor does a payment with the stake it needs.

**C167 Order of handle calls.** `Handles/PropsOrder.lean` reduces a state to names without suffixes and counters (`View`), and calls to
retirements and claims of one account (`Atom`). Success depends on the view only, and atoms of different accounts commute on it, also
if they share a counter. `Chain/PropsHandleOrder.lean` carries this to transactions.

**C168 Order of consents.** `Msa/PropsOrder.lean` says what a call is about (`Item.uses`, `changes`, `account`, `delegation`, `registers`,
`grantee`, `signatures`) and when two calls are `Apart`. It shows each call to be a static check, changes of single places of the
storage (`Cell`) and entries into the signature registry. Changes of different places commute. The registry is followed through its
queue (`Rep`). False without room in the registry (`C168_full_false`). `Chain/PropsConsents.lean` carries this to transactions.

**C169 Order of vested transfers.** `TimeRelease/PropsOrder.lean` says when two calls are `Apart`. What one call does to every account
is in `Done`, from C88 (when exactly a call succeeds and what it leaves). All calls of a list succeed just when `Fits` holds of the state
before, and what they leave is in `Left`; both speak of sums and of lists up to their order. False for schedules that have begun to pay
out, have ended, or pay less than the existential deposit to a new account (`C169_full_false`).

**C170 Order of messages.** `Messages/PropsOrder.lean`: acceptance depends on the block only (`takes_congr`), so that the list of accepted
messages is permuted with the calls; C46 says what a query answers for such a list. False of the pallet alone for blocks with more than
65,536 messages (`C170_full_false`), which C141 excludes.

**C171 Order of calls to different pallets.** `Chain/PropsPallets.lean`: `Undisturbed` says what a call to one pallet reads of the others,
call by call. A step changes its own part only (`apply_frame`) and what it does to it depends on this part and on what it reads
(`apply_part`), so that each part is as if only its own calls had been made (`run_parts`). Complete; free balances are a parameter.

**C172 Stored settings.** `Schemas/Codec.lean` models the stored bytes and the flags, with the number of declared settings as a parameter;
`Schemas/PropsCodec.lean` proves that reading and writing are inverse, compares releases, and follows a registration through the history
with C39. Complete.

**C173 Exchange of transactions.** `Tx/PropsExchange.lean` lifts C171 to whole transactions, with number, payment, extensions and call
filter. It gives a normal form of a transaction with one call, proves what such a transaction reads (`submit_alike`) and leaves alone
(`submit_frame`), and combines the two. States are compared by what is stored about each account, because the map used here remembers
the order of insertion. Whatever follows, in this block or later, then fares alike
(`Alike.takeIn`, `exec_near`, `step_near`). For messages, handles and stored data nothing need be assumed about the state (`C173_content`), and
`C173_block` goes from neighbours to whole lists. Complete.

**C174 Transactions left out.** `Tx/PropsLeftOut.lean` runs a block with and without the transactions left out and keeps a relation
between the two states (`AgreeOn`: the pallets, keys and payers of those left out excepted). A transaction in both keeps it by
`submit_alike` of C173, one in the first only by `submit_frame`. Complete.

Details and the exact theorem names are in `MANIFEST.json`.

## Trusted base

* Lean's kernel and the standard axioms `propext`, `Classical.choice`, `Quot.sound`; every
  theorem depends on a subset of these three (`#print axioms`). No axioms of our own, no
  unproved statements, no use of the compiler in proofs.
* That the definitions in the `Model` files transcribe the Rust code. Each cites its source.
* Code outside the repository, modelled from its published behaviour: FRAME storage and
  rollback of failing calls, `pallet_balances` (transfers, freezes, existential deposit, dust),
  `pallet_utility`, `pallet_proxy`, `pallet_multisig` (dispatch of the nested call and its
  origin filter), the transaction pool (order of the ready transactions of an
  account; the nonce check's tag comes first; import of transactions), `oorandom::Rand32`, XxHash64, Base32, `Perbill`, SCALE,
  `serde` and `serde_json` 1.0.117 (`from_slice`, `to_string`, derived readers and writers, renaming of variants), `itoa`, `impl_serde`,
  `pallet_collective`
  (votes, closing, the prime member's vote, change of members), `StorageLock` and `BlockAndTime` of the off-chain
  storage, `CheckWeight`, `seal_block` of `sc-consensus-manual-seal` and the import notifications of the pool.
* Parameters, over which the theorems quantify: signature verification (any predicate), hash
  functions (any function; collision freedom only where a theorem says so: `HashOk`, `KeyInj`,
  `IdealHash`; that of Blake2-128 for account ids below an arbitrary bound only, since among all 2^64 of them
  a collision is not unlikely), Unicode decomposition, mark and confusable tables, JSON validators of models (a
  parameter of `Schemas`, replaced by the model of `serde_json` for C114 to C116; which numbers it takes to be in range
  stays a parameter),
  multibase and CID parsers, conversion of weight to fee, the limits in the pallet configs.

## What is simplified

* `Msa`, `Stateful`, `Handles` and `Messages` see other pallets through an environment that
  may change arbitrarily from step to step (block number, schema count, handles, keys, grants).
  `Chain` replaces these environments by the states of the other pallets; token balances stay arbitrary there;
  `Tokens` has the balances too, without governance setting balances or slashing deposits.
* `Runtime.exec` over-approximates: proxies and multisig memberships needed by a nested call
  are taken to exist. Calls inside root-only wrappers are opaque. Nested `pay_with_capacity`
  executes its call without charging. `Tx` charges, but leaves out the wrappers that change the signer.
* Numbers are naturals. Overflow checks of the code are modelled where the code has them;
  the nonce is unbounded, and block number plus mortality window is taken not to exceed u32.
* `Rand32.range`: the rejection loop is bounded by 64 rounds.
* The order in which child tries and double maps are iterated is not modelled.
* `Governance`: `pallet_democracy` and `pallet_scheduler` are modelled from their published behaviour (SDK
  release-polkadot-v1.6.0). Proposals are named by the call, not by its hash; deposits, preimages and the votes behind a
  tally are left out, and a tally may change in any way while votes are open; tasks are carried out in their block; the
  bounds on proposals, vetoes and tasks are taken not to be reached. Batches and other wrappers of calls are opaque.
* `TxPayment/Multiplier.lean`: refunds of unused weight, tips and the factor for operational calls are left out of the fee; the
  multiplier is updated at the end of each block from the weight of its normal transactions, whatever they are.
* `Treasury`: of all reserves only the bonds of proposals are modelled; the account of the treasury signs nothing (it has no
  key) and other parts of the chain only add to it; the new-style `spend` calls, which no origin may make, are left out.
* `Deposits` takes everything else that happens to an account (transfers, fees, freezes, reserves of other pallets) as an arbitrary
  event; calls executed in the name of others are events of their own. Accounts below the existential deposit are not removed.
* `Collators`: balances and block numbers have no upper bound; origins are given; seals of blocks are not checked; rewards, which are
  paid from an account without tokens, are left out; the pallets are modelled from their published source, not from /repo.
* `Network` models signatures, versions and mortality (era) of signed transactions on top of `Whole`; other modules take
  the signature as checked and transactions as immortal. From outside the repository, modelled from their published
  behaviour: `CheckSpecVersion`, `CheckTxVersion`, `CheckGenesis`, `CheckEra`, the block hashes kept by `frame_system`,
  `Era` and `UncheckedExtrinsic::check`. The encoding of calls is a parameter; C151_binds takes it to be prefix-free.
  Signatures are taken to fit one message, and the hash of messages above 256 bytes not to collide for the messages
  compared.
* `Council`: motions are single calls of the six pallets; batches and scheduled calls in motions do nothing; bounds given
  by whoever closes a motion are sufficient; acts of the technical committee and of referenda are steps of root.
* Not modelled: weights (except those that capacity fees are computed from, and the weight of blocks
  as far as C141 needs it), benchmarks, events
  (except where a property mentions them), genesis of other pallets than balances, time-release and schemas, XCM,
  consensus code (except `Collators`), node service (except the queries above and block sealing), WASM host, RPC transport.

## Testing the theorems

`seeded/LOG.jsonl` records edits of the model as a realistic bug would make them, made in a
scratch copy, with the theorems that failed. Where a pallet has an `Eff` relation, the edit is
made in the model and in the relation, and the linking lemma is left unproved in the scratch
copy, so that the failures are those of the property theorems themselves. A failing proof alone
does not show that its statement became false; `outcome` gives the verdict on the claim.
