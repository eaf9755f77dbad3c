import Verif.Stateful.Page
/-!
# Model of the stateful-storage pallet

Source: `pallets/stateful-storage/src/{lib,stateful_child_tree}.rs`.

Storage is modelled at the level of the child tries: raw keys to raw encoded values. The other pallets
are seen through an environment (keys of accounts, schema grants, schema information). Weights and
events are not modelled.
-/

namespace Verif.Stateful

/-- Errors, lib.rs 148-190. `undecodable` stands for an extrinsic whose arguments exceed the bounds of
their `BoundedVec` types: it cannot be decoded and never runs. -/
inductive Err
  | pageIdExceedsMaxAllowed
  | schemaPayloadLocationMismatch
  | invalidSchemaId
  | unsupportedOperationForSchema
  | invalidMessageSourceAccount
  | unauthorizedDelegate
  | corruptedState
  | invalidItemAction
  | stalePageState
  | proofHasExpired
  | proofNotYetValid
  | invalidSignature
  | badOrigin
  | undecodable
deriving DecidableEq

/-- `PayloadLocation`, common/primitives/src/schema.rs. -/
inductive Location
  | onChain | ipfs | itemized | paginated
deriving DecidableEq

/-- `SchemaSetting`, common/primitives/src/schema.rs. -/
inductive Setting
  | appendOnly | signatureRequired
deriving DecidableEq

/-- The parts of `SchemaInfoResponse` that the pallet uses. -/
structure SchemaInfo where
  location : Location
  settings : List Setting
deriving DecidableEq

/-- Configuration, lib.rs 60-110, plus the hash functions and the signature scheme. -/
structure Config where
  maxItemizedPage : Nat
  maxBlob : Nat
  maxActions : Nat
  maxPaginatedPage : Nat
  maxPageId : Nat
  window : Nat
  /-- upper 32 bits of XxHash64 with seed 0 -/
  hash : Bytes → Nat
  /-- `T::KeyHasher::hash`, 16 bytes -/
  keyHasher : Bytes → Bytes
  /-- `Blake2_128::hash` -/
  blake : Bytes → Bytes
  /-- `twox_64` -/
  twox64 : Bytes → Bytes
  /-- `MultiSignature::verify` -/
  verify : Signature → AccountId → Bytes → Bool
  /-- Not in the code and used by no function: the account ids below this bound are those of which the hash
  assumption is made, and which histories are about. -/
  accounts : Nat

/-- What the pallet sees of the rest of the chain in one block. -/
structure Env where
  block : BlockNumber
  msaOf : AccountId → Option MsaId
  /-- `ensure_valid_schema_grant(provider, delegator, schema, current block)` succeeds -/
  granted : MsaId → MsaId → SchemaId → Bool
  schema : SchemaId → Option SchemaInfo

/-! ## Child tries -/

/-- The two storage kinds, types.rs 24-27. -/
inductive Kind
  | itemized | paginated
deriving DecidableEq

/-- `PALLET_STORAGE_PREFIX`, types.rs 23: `stateful-storage`. -/
def palletPrefix : Bytes := [115, 116, 97, 116, 101, 102, 117, 108, 45, 115, 116, 111, 114, 97, 103, 101]

/-- `ITEMIZED_STORAGE_PREFIX` (`itemized`) and `PAGINATED_STORAGE_PREFIX` (`paginated`), types.rs
25-27. -/
def Kind.prefix : Kind → Bytes
  | .itemized => [105, 116, 101, 109, 105, 122, 101, 100]
  | .paginated => [112, 97, 103, 105, 110, 97, 116, 101, 100]

/-- `get_tree_prefix`, stateful_child_tree.rs 397-400: the id followed by `::`. -/
def treePrefix (m : MsaId) : Bytes := Scale.u64 m ++ [58, 58]

/-- `get_child_tree_for_storage`, stateful_child_tree.rs 380-394. -/
def childTree (cfg : Config) (m : MsaId) (k : Kind) : Bytes :=
  cfg.blake (treePrefix m) ++ cfg.twox64 palletPrefix ++ cfg.twox64 k.prefix

/-- `MultipartKey::hash` for `(SchemaId,)`, stateful_child_tree.rs 99-107. -/
def itemKey (cfg : Config) (s : SchemaId) : Bytes := cfg.keyHasher (Scale.u16 s) ++ Scale.u16 s

/-- `MultipartKey::hash` for `(SchemaId, PageId)`, stateful_child_tree.rs 124-134. -/
def pageKey (cfg : Config) (s : SchemaId) (p : Nat) : Bytes :=
  cfg.keyHasher (Scale.u16 s) ++ cfg.keyHasher (Scale.u16 p) ++ (Scale.u16 s ++ Scale.u16 p)

/-- `hash_prefix_only` for `(SchemaId,)`, stateful_child_tree.rs 109-116. -/
def prefixKey (cfg : Config) (s : SchemaId) : Bytes := cfg.keyHasher (Scale.u16 s)

/-- `MultipartKeyStorageHasher::reverse` for 16-byte hashes, stateful_child_tree.rs 18-26. -/
def reverse (x : Bytes) (parts : Nat) : Bytes := if x.length < 16 * parts then [] else x.drop (16 * parts)

/-- `decode` for `(SchemaId, PageId)`: two little-endian `u16`. -/
def decodePair (bs : Bytes) : Option (SchemaId × Nat) :=
  match Scale.decLe 2 bs with
  | none => none
  | some (s, rest) =>
    match Scale.decLe 2 rest with
    | none => none
    | some (p, _) => some (s, p)

/-- `MultipartKey::decode` for `(SchemaId, PageId)`, stateful_child_tree.rs 63-66. -/
def decodePageKey (bs : Bytes) : Option (SchemaId × Nat) := decodePair (reverse bs 2)

/-- `MultipartKey::decode_without_prefix` with a prefix of one part, stateful_child_tree.rs 68-78. -/
def decodeWithoutPrefix (bs : Bytes) : Option (SchemaId × Nat) := decodePair (reverse bs 1)

/-- Contents of all child tries: (child info, key) to encoded value. -/
abbrev Store := SMap (Bytes × Bytes) Bytes

/-- `try_read`, stateful_child_tree.rs 307-319, for pages of at most `maxSize` bytes. -/
def tryRead (cfg : Config) (maxSize : Nat) (st : Store) (m : MsaId) (k : Kind) (key : Bytes) :
    Except Err (Option Page) :=
  match st.get (childTree cfg m k, key) with
  | none => .ok none
  | some v =>
    match decodePage maxSize v with
    | some p => .ok (some p)
    | none => .error .corruptedState

/-- `write`, stateful_child_tree.rs 354-364. -/
def write (cfg : Config) (st : Store) (m : MsaId) (k : Kind) (key : Bytes) (p : Page) : Store :=
  st.insert (childTree cfg m k, key) p.encode

/-- `kill`, stateful_child_tree.rs 367-376. -/
def kill (cfg : Config) (st : Store) (m : MsaId) (k : Kind) (key : Bytes) : Store :=
  st.erase (childTree cfg m k, key)

/-- `get_itemized_page_for`, lib.rs 957-970. -/
def getItemizedPage (cfg : Config) (st : Store) (m : MsaId) (s : SchemaId) : Except Err (Option Page) :=
  tryRead cfg cfg.maxItemizedPage st m .itemized (itemKey cfg s)

/-- `get_paginated_page_for`, lib.rs 940-954. -/
def getPaginatedPage (cfg : Config) (st : Store) (m : MsaId) (s : SchemaId) (p : Nat) :
    Except Err (Option Page) :=
  tryRead cfg cfg.maxPaginatedPage st m .paginated (pageKey cfg s p)

/-! ## Checks -/

/-- `check_payload_expiration`, lib.rs 670-679. -/
def checkPayloadExpiration (cfg : Config) (block expiration : BlockNumber) : Except Err Unit := do
  ensure (block < expiration) .proofHasExpired
  ensure (expiration < block + cfg.window) .proofNotYetValid

/-- `wrap_binary_data`: `<Bytes>` payload `</Bytes>`. -/
def wrap (data : Bytes) : Bytes :=
  [60, 66, 121, 116, 101, 115, 62] ++ data ++ [60, 47, 66, 121, 116, 101, 115, 62]

/-- `check_signature`, lib.rs 687-698. -/
def checkSignature (cfg : Config) (sig : Signature) (signer : AccountId) (payload : Bytes) :
    Except Err Unit :=
  ensure (cfg.verify sig signer (wrap payload) = true) .invalidSignature

/-- `check_schema_for_read`, lib.rs 712-726. -/
def checkSchemaForRead (env : Env) (s : SchemaId) (l : Location) : Except Err SchemaInfo := do
  let info ← okOr (env.schema s) .invalidSchemaId
  ensure (info.location = l) .schemaPayloadLocationMismatch
  pure info

/-- `check_schema_for_write`, lib.rs 735-757. -/
def checkSchemaForWrite (env : Env) (s : SchemaId) (l : Location) (isSigned isDeleting : Bool) :
    Except Err Unit := do
  let info ← checkSchemaForRead env s l
  ensure (Setting.signatureRequired ∈ info.settings → isSigned = true) .unsupportedOperationForSchema
  ensure (Setting.appendOnly ∈ info.settings → isDeleting = false) .unsupportedOperationForSchema

/-- `check_msa_and_grants`, lib.rs 764-786. -/
def checkMsaAndGrants (env : Env) (key : AccountId) (owner : MsaId) (s : SchemaId) : Except Err MsaId := do
  let caller ← okOr (env.msaOf key) .invalidMessageSourceAccount
  ensure (caller ≠ owner → env.granted caller owner s = true) .unauthorizedDelegate
  pure caller

/-- `check_msa`, lib.rs 792-797, for the first payload versions (which name the account); the second
versions take the account of the key (e.g. lib.rs 502-503). -/
def ownerOf (env : Env) (key : AccountId) (expected : Option MsaId) : Except Err MsaId := do
  let m ← okOr (env.msaOf key) .invalidMessageSourceAccount
  ensure (∀ e ∈ expected, m = e) .invalidMessageSourceAccount
  pure m

/-! ## Updates -/

/-- `update_itemized`, lib.rs 805-866. -/
def updateItemized (cfg : Config) (st : Store) (m : MsaId) (s : SchemaId) (targetHash : Nat)
    (actions : List ItemAction) : Except Err Store := do
  let existing := (← getItemizedPage cfg st m s).getD .default
  ensure (targetHash = existing.getHash cfg.hash) .stalePageState
  match applyItemActions cfg.maxItemizedPage existing actions with
  | .error .errorParsing => .error .corruptedState
  | .error _ => .error .invalidItemAction
  | .ok p =>
    let p : Page := ⟨(existing.nonce + 1) % 65536, p.data⟩
    if p.isEmpty then pure (kill cfg st m .itemized (itemKey cfg s))
    else pure (write cfg st m .itemized (itemKey cfg s) p)

/-- `update_paginated`, lib.rs 873-905. -/
def updatePaginated (cfg : Config) (st : Store) (m : MsaId) (s : SchemaId) (pageId targetHash : Nat)
    (payload : Bytes) : Except Err Store := do
  let existing := (← getPaginatedPage cfg st m s pageId).getD .default
  ensure (targetHash = existing.getHash cfg.hash) .stalePageState
  pure (write cfg st m .paginated (pageKey cfg s pageId) ⟨(existing.nonce + 1) % 65536, payload⟩)

/-- `delete_paginated`, lib.rs 912-937. -/
def deletePaginated (cfg : Config) (st : Store) (m : MsaId) (s : SchemaId) (pageId targetHash : Nat) :
    Except Err Store := do
  match ← getPaginatedPage cfg st m s pageId with
  | some existing => do
    ensure (targetHash = existing.getHash cfg.hash) .stalePageState
    pure (kill cfg st m .paginated (pageKey cfg s pageId))
  | none => pure st

/-! ## Calls -/

/-- Derived `Encode` of `ItemAction`, types.rs 52-66. -/
def ItemAction.encode : ItemAction → Bytes
  | .add d => 0 :: Scale.vecU8 d
  | .delete i => 1 :: Scale.u16 i

/-- `ItemizedSignaturePayload` (types.rs 94-115, `msaId = some _`) and `ItemizedSignaturePayloadV2`
(120-137, `msaId = none`). -/
structure ItemizedPayload where
  msaId : Option MsaId
  schemaId : SchemaId
  targetHash : Nat
  expiration : BlockNumber
  actions : List ItemAction

/-- `PaginatedUpsertSignaturePayload` (types.rs 144-166) and its second version (171-190). -/
structure UpsertPayload where
  msaId : Option MsaId
  schemaId : SchemaId
  pageId : Nat
  targetHash : Nat
  expiration : BlockNumber
  payload : Bytes

/-- `PaginatedDeleteSignaturePayload` (types.rs 197-216) and its second version (221-235). -/
structure DeletePayload where
  msaId : Option MsaId
  schemaId : SchemaId
  pageId : Nat
  targetHash : Nat
  expiration : BlockNumber

/-- The optional leading compact account id of the first versions. -/
def encodeMsa : Option MsaId → Bytes
  | some m => Scale.compact64 m
  | none => []

/-- Derived `Encode` of the itemized payloads. -/
def ItemizedPayload.encode (p : ItemizedPayload) : Bytes :=
  encodeMsa p.msaId ++ (Scale.compact p.schemaId ++ (Scale.compact p.targetHash ++
    (Scale.u32 p.expiration ++ Scale.vecOf ItemAction.encode p.actions)))

/-- Derived `Encode` of the upsert payloads. -/
def UpsertPayload.encode (p : UpsertPayload) : Bytes :=
  encodeMsa p.msaId ++ (Scale.compact p.schemaId ++ (Scale.compact p.pageId ++
    (Scale.compact p.targetHash ++ (Scale.u32 p.expiration ++ Scale.vecU8 p.payload))))

/-- Derived `Encode` of the delete payloads. -/
def DeletePayload.encode (p : DeletePayload) : Bytes :=
  encodeMsa p.msaId ++ (Scale.compact p.schemaId ++ (Scale.compact p.pageId ++
    (Scale.compact p.targetHash ++ Scale.u32 p.expiration)))

/-- The calls of the pallet, lib.rs 244-597. A signed call whose payload has an account id is the first
version, otherwise the second. -/
inductive Call
  | applyItemActions (owner : MsaId) (schema : SchemaId) (targetHash : Nat) (actions : List ItemAction)
  | upsertPage (owner : MsaId) (schema : SchemaId) (pageId targetHash : Nat) (payload : Bytes)
  | deletePage (owner : MsaId) (schema : SchemaId) (pageId targetHash : Nat)
  | applyItemActionsWithSignature (key : AccountId) (proof : Signature) (p : ItemizedPayload)
  | upsertPageWithSignature (key : AccountId) (proof : Signature) (p : UpsertPayload)
  | deletePageWithSignature (key : AccountId) (proof : Signature) (p : DeletePayload)

/-- Bounds of `BoundedVec<ItemAction<MaxItemizedBlobSizeBytes>, MaxItemizedActionsCount>`. -/
def actionsFit (cfg : Config) (actions : List ItemAction) : Bool :=
  decide (actions.length ≤ cfg.maxActions) &&
    actions.all (fun a => match a with
      | .add d => decide (d.length ≤ cfg.maxBlob)
      | .delete i => decide (i < 65536))

/-- `matches!(a, ItemAction::Delete { .. })` for some action, e.g. lib.rs 255. -/
def isPruning (actions : List ItemAction) : Bool :=
  actions.any (fun a => match a with
    | .delete _ => true
    | .add _ => false)

/-- The six (nine) dispatchables; `who` is the signer of the transaction, `none` any other origin. -/
def dispatch (cfg : Config) (env : Env) (st : Store) (who : Option AccountId) :
    Call → Except Err Store
  -- lib.rs 244-266
  | .applyItemActions owner schema targetHash actions => do
    ensure (actionsFit cfg actions = true) .undecodable
    let key ← okOr who .badOrigin
    let caller ← checkMsaAndGrants env key owner schema
    checkSchemaForWrite env schema .itemized (decide (caller = owner)) (isPruning actions)
    updateItemized cfg st owner schema targetHash actions
  -- lib.rs 280-307
  | .upsertPage owner schema pageId targetHash payload => do
    ensure (payload.length ≤ cfg.maxPaginatedPage) .undecodable
    let key ← okOr who .badOrigin
    ensure (pageId ≤ cfg.maxPageId) .pageIdExceedsMaxAllowed
    let caller ← checkMsaAndGrants env key owner schema
    checkSchemaForWrite env schema .paginated (decide (caller = owner)) false
    updatePaginated cfg st owner schema pageId targetHash payload
  -- lib.rs 321-341
  | .deletePage owner schema pageId targetHash => do
    let key ← okOr who .badOrigin
    ensure (pageId ≤ cfg.maxPageId) .pageIdExceedsMaxAllowed
    let caller ← checkMsaAndGrants env key owner schema
    checkSchemaForWrite env schema .paginated (decide (caller = owner)) true
    deletePaginated cfg st owner schema pageId targetHash
  -- lib.rs 358-387 and 486-514
  | .applyItemActionsWithSignature key proof p => do
    ensure (actionsFit cfg p.actions = true) .undecodable
    let _ ← okOr who .badOrigin
    checkPayloadExpiration cfg env.block p.expiration
    checkSignature cfg proof key p.encode
    let owner ← ownerOf env key p.msaId
    checkSchemaForWrite env p.schemaId .itemized true (isPruning p.actions)
    updateItemized cfg st owner p.schemaId p.targetHash p.actions
  -- lib.rs 398-430 and 525-557
  | .upsertPageWithSignature key proof p => do
    ensure (p.payload.length ≤ cfg.maxPaginatedPage) .undecodable
    let _ ← okOr who .badOrigin
    ensure (p.pageId ≤ cfg.maxPageId) .pageIdExceedsMaxAllowed
    checkPayloadExpiration cfg env.block p.expiration
    checkSignature cfg proof key p.encode
    let owner ← ownerOf env key p.msaId
    checkSchemaForWrite env p.schemaId .paginated true false
    updatePaginated cfg st owner p.schemaId p.pageId p.targetHash p.payload
  -- lib.rs 441-471 and 567-597
  | .deletePageWithSignature key proof p => do
    let _ ← okOr who .badOrigin
    ensure (p.pageId ≤ cfg.maxPageId) .pageIdExceedsMaxAllowed
    checkPayloadExpiration cfg env.block p.expiration
    checkSignature cfg proof key p.encode
    let owner ← ownerOf env key p.msaId
    checkSchemaForWrite env p.schemaId .paginated true true
    deletePaginated cfg st owner p.schemaId p.pageId p.targetHash

/-! ## Queries -/

/-- `ItemizedStorageResponse` list with page hash and nonce. -/
structure ItemizedResponse where
  hash : Nat
  nonce : Nat
  items : List (Nat × Bytes)

/-- `get_itemized_storage`, lib.rs 649-662. -/
def getItemizedStorage (cfg : Config) (env : Env) (st : Store) (m : MsaId) (s : SchemaId) :
    Except Err ItemizedResponse := do
  let _ ← checkSchemaForRead env s .itemized
  let page := (← getItemizedPage cfg st m s).getD .default
  match tryParse page false with
  | .error _ => .error .corruptedState
  | .ok items => pure ⟨page.getHash cfg.hash, page.nonce, items⟩

/-- `get_paginated_storage`, lib.rs 622-646, with `prefix_iterator` (stateful_child_tree.rs 325-351):
all entries of the child trie whose key starts with the prefix of the schema; entries that do not
decode are skipped. `ChildTriePrefixIterator` hands over the key without the prefix. The order (trie
order in the code) is not modelled. -/
def getPaginatedStorage (cfg : Config) (env : Env) (st : Store) (m : MsaId) (s : SchemaId) :
    Except Err (List (Nat × Page)) := do
  let _ ← checkSchemaForRead env s .paginated
  pure (st.entries.filterMap (fun e =>
    if e.1.1 = childTree cfg m .paginated ∧ (prefixKey cfg s).isPrefixOf e.1.2 then
      match decodeWithoutPrefix (e.1.2.drop (prefixKey cfg s).length),
        decodePage cfg.maxPaginatedPage e.2 with
      | some (_, p), some page => some (p, page)
      | _, _ => none
    else none))

/-! ## Histories -/

/-- One call in its environment. -/
structure Step where
  env : Env
  who : Option AccountId
  call : Call

/-- A failing call is rolled back. -/
def apply (cfg : Config) (st : Store) (x : Step) : Store :=
  match dispatch cfg x.env st x.who x.call with
  | .ok st' => st'
  | .error _ => st

/-- State after a history. -/
def run (cfg : Config) (st : Store) (h : List Step) : Store := h.foldl (apply cfg) st

end Verif.Stateful
