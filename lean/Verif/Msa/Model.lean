import Verif.Scale
import Verif.SigRegistry.Model
/-!
# Model of the MSA pallet

Source: `pallets/msa/src/lib.rs`, `pallets/msa/src/types.rs`, `common/primitives/src/msa.rs`.
Weights and chain events are not modelled, except the events that are written to the
off-chain index.
-/

namespace Verif.Msa

open SigRegistry (Registry RegError)

/-- `Error<T>` of the pallet (lib.rs 296-388) plus `ArithmeticError::Overflow`, `BadOrigin` and an
explicit value for an arithmetic panic. -/
inductive Err
  | keyAlreadyRegistered | msaIdOverflow | arithmeticOverflow | keyLimitExceeded
  | invalidSignature | addProviderSignatureVerificationFailed
  | msaOwnershipInvalidSignature | newKeyOwnershipInvalidSignature
  | noKeyExists | unauthorizedProvider | unauthorizedDelegator | providerNotRegistered
  | invalidSelfProvider | notMsaOwner | duplicateProvider | delegationNotFound
  | delegationRevoked | schemaNotGranted | exceedsMaxSchemaGrantsPerDelegation
  | invalidSchemaId | exceedsMaxProviderNameSize | duplicateProviderRegistryEntry
  | cannotPredictValidityPastCurrentBlock | badOrigin | panic
  | registry (e : RegError)
  deriving DecidableEq, Repr

/-- `Delegation`, common/primitives/src/msa.rs 103-114. -/
structure Delegation where
  revokedAt : BlockNumber
  perms : SMap SchemaId BlockNumber

/-- `Delegation::default`, common/primitives/src/msa.rs 127-145. -/
def Delegation.default : Delegation := ⟨0, ∅⟩

/-- Events written to the off-chain index: offchain_storage.rs 225-250. -/
inductive KeyEvent
  | created (msa : MsaId) (key : AccountId)
  | added (msa : MsaId) (key : AccountId)
  | deleted (msa : MsaId) (key : AccountId)
  deriving DecidableEq, Repr

/-- Pallet storage, lib.rs 146-240. `events` are the off-chain index events of the current block in
order (their number is `OffchainIndexEventCount`). -/
structure State where
  /-- `CurrentMsaIdentifierMaximum` -/
  maxMsaId : MsaId
  /-- `PublicKeyToMsaId` -/
  keyToMsa : SMap AccountId MsaId
  /-- `PublicKeyCountForMsaId` -/
  keyCount : SMap MsaId Nat
  /-- `DelegatorAndProviderToDelegation`, keyed (delegator, provider) -/
  delegations : SMap (MsaId × MsaId) Delegation
  /-- `ProviderToRegistryEntry` -/
  providers : SMap MsaId Bytes
  /-- `PayloadSignatureRegistryList` and `PayloadSignatureRegistryPointer` -/
  registry : Registry
  events : List KeyEvent

/-- Empty storage at genesis. -/
def State.init : State := ⟨0, ∅, ∅, ∅, ∅, Registry.init, []⟩

/-- `pallet_msa::Config` constants (lib.rs 84-137) and the signature verification oracle
(`MultiSignature::verify`, outside the repository). -/
structure Config where
  maxKeys : Nat
  maxGrants : Nat
  maxNameSize : Nat
  window : Nat
  maxSignatures : Nat
  verify : Signature → AccountId → Bytes → Bool

/-- What a call sees of the rest of the chain: the block number (`frame_system`), the highest
schema id (`T::SchemaValidator`, schemas pallet) and the handle lookup (`T::HandleProvider`). -/
structure Env where
  block : BlockNumber
  latestSchema : SchemaId
  hasHandle : MsaId → Bool

/-- `AddProvider`, types.rs 35-44. -/
structure AddProvider where
  authorizedMsaId : MsaId
  schemaIds : List SchemaId
  expiration : BlockNumber
  deriving DecidableEq, Repr

/-- `AddKeyData`, types.rs 21-32. -/
structure AddKeyData where
  msaId : MsaId
  expiration : BlockNumber
  newPublicKey : AccountId
  deriving DecidableEq, Repr

/-- SCALE encoding of `AddProvider` (derived, fields in order). -/
def AddProvider.encode (p : AddProvider) : Bytes :=
  Scale.u64 p.authorizedMsaId ++ (Scale.vecOf Scale.u16 p.schemaIds ++ Scale.u32 p.expiration)

/-- SCALE encoding of `AddKeyData` (derived, fields in order; account ids are 32 bytes). -/
def AddKeyData.encode (p : AddKeyData) : Bytes :=
  Scale.u64 p.msaId ++ (Scale.u32 p.expiration ++ Scale.leBytes 32 p.newPublicKey)

/-- `wrap_binary_data`, common/primitives/src/utils.rs 136-141: `<Bytes>` ++ data ++ `</Bytes>`. -/
def wrap (data : Bytes) : Bytes :=
  [60, 66, 121, 116, 101, 115, 62] ++ (data ++ [60, 47, 66, 121, 116, 101, 115, 62])

/-- `verify_signature`, lib.rs 1102-1114. -/
def verifySignature (cfg : Config) (sig : Signature) (signer : AccountId) (payload : Bytes) (e : Err) :
    Except Err Unit :=
  ensure (cfg.verify sig signer (wrap payload) = true) e

/-- `register_signature`, lib.rs 1380-1397, on the pallet state. -/
def registerSignature (cfg : Config) (env : Env) (s : State) (sig : Signature) (exp : BlockNumber) :
    Except Err State :=
  match SigRegistry.register cfg.window cfg.maxSignatures s.registry env.block sig exp with
  | .ok r => .ok { s with registry := r }
  | .error e => .error (.registry e)

/-- `ensure_valid_msa_key`, lib.rs 1310-1313. -/
def ensureValidMsaKey (s : State) (key : AccountId) : Except Err MsaId :=
  okOr (s.keyToMsa.get key) .noKeyExists

/-- `is_registered_provider`, lib.rs 1054-1056. -/
def isRegisteredProvider (s : State) (m : MsaId) : Bool := s.providers.contains m

/-- `get_next_msa_id`, lib.rs 938-944. The id is a `u64`. -/
def getNextMsaId (s : State) : Except Err MsaId := do
  ensure (s.maxMsaId + 1 < 2 ^ 64) .msaIdOverflow
  pure (s.maxMsaId + 1)

/-- `add_key`, lib.rs 1009-1032, without the `on_success` callback (the callers run it next). The
count is a `u8`, a `ValueQuery` (default 0). -/
def addKey (cfg : Config) (s : State) (msa : MsaId) (key : AccountId) : Except Err State := do
  ensure (s.keyToMsa.get key = none) .keyAlreadyRegistered
  let count := (s.keyCount.get msa).getD 0
  ensure (count + 1 < 256) .arithmeticOverflow
  ensure (count + 1 ≤ cfg.maxKeys) .keyLimitExceeded
  pure { s with keyToMsa := s.keyToMsa.insert key msa, keyCount := s.keyCount.insert msa (count + 1) }

/-- `delete_key_for_msa`, lib.rs 1259-1276. A stored count of zero would make `*count - 1u8`
underflow: modelled as an explicit panic. -/
def deleteKeyForMsa (s : State) (msa : MsaId) (key : AccountId) : Except Err State := do
  ensure ((s.keyToMsa.get key).isSome = true) .noKeyExists
  let s1 := { s with keyToMsa := s.keyToMsa.erase key }
  match s.keyCount.get msa with
  | some 1 => pure { s1 with keyCount := s.keyCount.erase msa }
  | some 0 => throw .panic
  | some (c + 1) => pure { s1 with keyCount := s.keyCount.insert msa c }
  | none => pure s1

/-- `are_all_schema_ids_valid`, pallets/schemas/src/lib.rs 881-885: every id is at most the latest
registered id. -/
def areAllSchemaIdsValid (env : Env) (ids : List SchemaId) : Bool :=
  ids.all (fun id => decide (id ≤ env.latestSchema))

/-- `ensure_all_schema_ids_are_valid`, lib.rs 1040-1051. -/
def ensureAllSchemaIdsAreValid (cfg : Config) (env : Env) (ids : List SchemaId) :
    Except Err Unit := do
  ensure (ids.length ≤ cfg.maxGrants) .exceedsMaxSchemaGrantsPerDelegation
  ensure (areAllSchemaIdsValid env ids = true) .invalidSchemaId

/-- `try_insert_schema`, types.rs 98-103: `BoundedBTreeMap::try_insert` accepts a new key only below
the bound and always accepts an existing key; the stored value is the default block 0. -/
def tryInsertSchema (cfg : Config) (d : Delegation) (id : SchemaId) : Except Err Delegation := do
  ensure (d.perms.size < cfg.maxGrants ∨ d.perms.contains id = true)
    .exceedsMaxSchemaGrantsPerDelegation
  pure { d with perms := d.perms.insert id 0 }

/-- `try_insert_schemas`, types.rs 65-71. -/
def tryInsertSchemas (cfg : Config) : Delegation → List SchemaId → Except Err Delegation
  | d, [] => pure d
  | d, id :: ids => do
    let d' ← tryInsertSchema cfg d id
    tryInsertSchemas cfg d' ids

/-- `try_get_mut_schema`, types.rs 106-119. -/
def tryGetMutSchema (d : Delegation) (id : SchemaId) (block : BlockNumber) :
    Except Err Delegation := do
  ensure (d.perms.contains id = true) .schemaNotGranted
  pure { d with perms := d.perms.insert id block }

/-- `try_get_mut_schemas`, types.rs 74-83. -/
def tryGetMutSchemas : Delegation → List SchemaId → BlockNumber → Except Err Delegation
  | d, [], _ => pure d
  | d, id :: ids, block => do
    let d' ← tryGetMutSchema d id block
    tryGetMutSchemas d' ids block

/-- `add_provider`, lib.rs 1120-1133 (via `try_mutate_delegation` 1231-1252). -/
def addProvider (cfg : Config) (env : Env) (s : State) (provider delegator : MsaId)
    (ids : List SchemaId) : Except Err State := do
  ensure (s.delegations.get (delegator, provider)).isNone .duplicateProvider
  ensureAllSchemaIdsAreValid cfg env ids
  let d ← tryInsertSchemas cfg .default ids
  pure { s with delegations := s.delegations.insert (delegator, provider) d }

/-- Body of the closure of `upsert_schema_permissions`, lib.rs 1139-1194. -/
def upsertDelegation (cfg : Config) (env : Env) (d : Delegation) (ids : List SchemaId) :
    Except Err Delegation := do
  ensureAllSchemaIdsAreValid cfg env ids
  let revokeIds := d.perms.keys.filter (fun k => !(ids.contains k) && d.perms.get k == some 0)
  let insertIds := ids.filter (fun k => !(d.perms.contains k))
  let updateIds := ids.filter (fun k => d.perms.contains k)
  let d1 ← tryGetMutSchemas d revokeIds env.block
  let d2 ← tryGetMutSchemas d1 updateIds 0
  let d3 ← tryInsertSchemas cfg d2 insertIds
  pure { d3 with revokedAt := 0 }

/-- `upsert_schema_permissions`, lib.rs 1139-1194. -/
def upsertSchemaPermissions (cfg : Config) (env : Env) (s : State) (provider delegator : MsaId)
    (ids : List SchemaId) : Except Err State := do
  let d ← upsertDelegation cfg env ((s.delegations.get (delegator, provider)).getD .default) ids
  pure { s with delegations := s.delegations.insert (delegator, provider) d }

/-- `revoke_permissions_for_schemas`, lib.rs 982-1001. -/
def revokePermissionsForSchemas (cfg : Config) (env : Env) (s : State) (delegator provider : MsaId)
    (ids : List SchemaId) : Except Err State := do
  let d ← okOr (s.delegations.get (delegator, provider)) .delegationNotFound
  ensureAllSchemaIdsAreValid cfg env ids
  let d' ← tryGetMutSchemas d ids env.block
  pure { s with delegations := s.delegations.insert (delegator, provider) d' }

/-- `revoke_provider`, lib.rs 1284-1303. -/
def revokeProvider (env : Env) (s : State) (provider delegator : MsaId) : Except Err State := do
  let d ← okOr (s.delegations.get (delegator, provider)) .delegationNotFound
  ensure (d.revokedAt = 0) .delegationRevoked
  pure { s with delegations :=
    s.delegations.insert (delegator, provider) { d with revokedAt := env.block } }

/-- `create_provider_for`, lib.rs 1207-1226. -/
def createProviderFor (cfg : Config) (s : State) (m : MsaId) (name : Bytes) : Except Err State := do
  ensure (name.length ≤ cfg.maxNameSize) .exceedsMaxProviderNameSize
  ensure (s.providers.get m = none) .duplicateProviderRegistryEntry
  pure { s with providers := s.providers.insert m name }

/-- `ensure_valid_registered_provider`, lib.rs 1067-1082. Returns (provider, delegator). -/
def ensureValidRegisteredProvider (s : State) (delegatorKey providerKey : AccountId) :
    Except Err (MsaId × MsaId) := do
  let provider ← ensureValidMsaKey s providerKey
  let delegator ← ensureValidMsaKey s delegatorKey
  ensure (delegator ≠ provider) .invalidSelfProvider
  ensure (isRegisteredProvider s provider = true) .providerNotRegistered
  pure (provider, delegator)

/-- Origin of a call. `governance` is any origin accepted by `CreateProviderViaGovernanceOrigin`. -/
inductive Origin
  | signed (who : AccountId)
  | governance
  deriving DecidableEq, Repr

/-- `ensure_signed`. -/
def ensureSigned : Origin → Except Err AccountId
  | .signed who => .ok who
  | .governance => .error .badOrigin

/-- The dispatchables of the pallet, lib.rs 415-905. -/
inductive Call
  | create
  | createSponsoredAccountWithDelegation (delegatorKey : AccountId) (proof : Signature) (p : AddProvider)
  | createProvider (name : Bytes)
  | grantDelegation (delegatorKey : AccountId) (proof : Signature) (p : AddProvider)
  | revokeDelegationByDelegator (provider : MsaId)
  | addPublicKeyToMsa (ownerKey : AccountId) (ownerProof newKeyProof : Signature) (p : AddKeyData)
  | deleteMsaPublicKey (key : AccountId)
  | revokeDelegationByProvider (delegator : MsaId)
  | revokeSchemaPermissions (provider : MsaId) (ids : List SchemaId)
  | retireMsa
  | proposeToBeProvider (name : Bytes)
  | createProviderViaGovernance (key : AccountId) (name : Bytes)
  deriving DecidableEq, Repr

/-- `create`, lib.rs 427-437 (with `create_account` 919-931). -/
def create (cfg : Config) (s : State) (who : AccountId) : Except Err State := do
  let id ← getNextMsaId s
  let s1 ← addKey cfg s id who
  pure { s1 with maxMsaId := id, events := s1.events ++ [.created id who] }

/-- `create_sponsored_account_with_delegation`, lib.rs 464-509. -/
def createSponsored (cfg : Config) (env : Env) (s : State) (providerKey delegatorKey : AccountId)
    (proof : Signature) (p : AddProvider) : Except Err State := do
  verifySignature cfg proof delegatorKey p.encode .invalidSignature
  let s1 ← registerSignature cfg env s proof p.expiration
  let provider ← ensureValidMsaKey s1 providerKey
  ensure (p.authorizedMsaId = provider) .unauthorizedProvider
  ensure (isRegisteredProvider s1 provider = true) .providerNotRegistered
  let id ← getNextMsaId s1
  let s2 ← addKey cfg s1 id delegatorKey
  let s3 ← addProvider cfg env s2 provider id p.schemaIds
  pure { s3 with maxMsaId := id, events := s3.events ++ [.created id delegatorKey] }

/-- `create_provider`, lib.rs 522-530. -/
def createProvider (cfg : Config) (s : State) (who : AccountId) (name : Bytes) :
    Except Err State := do
  let m ← ensureValidMsaKey s who
  createProviderFor cfg s m name

/-- `grant_delegation`, lib.rs 554-584. -/
def grantDelegation (cfg : Config) (env : Env) (s : State) (providerKey delegatorKey : AccountId)
    (proof : Signature) (p : AddProvider) : Except Err State := do
  verifySignature cfg proof delegatorKey p.encode .addProviderSignatureVerificationFailed
  let s1 ← registerSignature cfg env s proof p.expiration
  let (provider, delegator) ← ensureValidRegisteredProvider s1 delegatorKey providerKey
  ensure (p.authorizedMsaId = provider) .unauthorizedDelegator
  upsertSchemaPermissions cfg env s1 provider delegator p.schemaIds

/-- `revoke_delegation_by_delegator`, lib.rs 598-620: without an MSA it only logs. -/
def revokeDelegationByDelegator (env : Env) (s : State) (who : AccountId) (provider : MsaId) :
    Except Err State :=
  match s.keyToMsa.get who with
  | some delegator => revokeProvider env s provider delegator
  | none => .ok s

/-- `revoke_delegation_by_provider`, lib.rs 750-777: without an MSA it only logs. -/
def revokeDelegationByProvider (env : Env) (s : State) (who : AccountId) (delegator : MsaId) :
    Except Err State :=
  match s.keyToMsa.get who with
  | some provider => revokeProvider env s provider delegator
  | none => .ok s

/-- `add_public_key_to_msa`, lib.rs 649-697. -/
def addPublicKeyToMsa (cfg : Config) (env : Env) (s : State) (ownerKey : AccountId)
    (ownerProof newKeyProof : Signature) (p : AddKeyData) : Except Err State := do
  verifySignature cfg ownerProof ownerKey p.encode .msaOwnershipInvalidSignature
  verifySignature cfg newKeyProof p.newPublicKey p.encode .newKeyOwnershipInvalidSignature
  let s1 ← registerSignature cfg env s ownerProof p.expiration
  let s2 ← registerSignature cfg env s1 newKeyProof p.expiration
  let owner ← ensureValidMsaKey s2 ownerKey
  ensure (owner = p.msaId) .notMsaOwner
  let s3 ← addKey cfg s2 p.msaId p.newPublicKey
  pure { s3 with events := s3.events ++ [.added p.msaId p.newPublicKey] }

/-- `delete_msa_public_key`, lib.rs 712-736. The dispatchable itself does not check that the key
belongs to the caller's MSA: that check is in the transaction extension (`validateKeyDelete`). -/
def deleteMsaPublicKey (s : State) (who key : AccountId) : Except Err State :=
  match s.keyToMsa.get who with
  | some m => do
    let s1 ← deleteKeyForMsa s m key
    pure { s1 with events := s1.events ++ [.deleted m key] }
  | none => .ok s

/-- `revoke_schema_permissions`, lib.rs 796-811. -/
def revokeSchemaPermissions (cfg : Config) (env : Env) (s : State) (who : AccountId)
    (provider : MsaId) (ids : List SchemaId) : Except Err State := do
  let delegator ← ensureValidMsaKey s who
  revokePermissionsForSchemas cfg env s delegator provider ids

/-- `retire_msa`, lib.rs 832-855. Its preconditions live in the transaction extension
(`ensureMsaCanRetire`). -/
def retireMsa (s : State) (who : AccountId) : Except Err State :=
  match s.keyToMsa.get who with
  | some m => do
    let s1 ← deleteKeyForMsa s m who
    pure { s1 with events := s1.events ++ [.deleted m who] }
  | none => .ok s

/-- `propose_to_be_provider`, lib.rs 862-884. The proposal itself is stored by the council pallet,
outside this model, so the MSA storage is unchanged. -/
def proposeToBeProvider (cfg : Config) (s : State) (who : AccountId) (name : Bytes) :
    Except Err State := do
  ensure (name.length ≤ cfg.maxNameSize) .exceedsMaxProviderNameSize
  let _ ← ensureValidMsaKey s who
  pure s

/-- `create_provider_via_governance`, lib.rs 895-907. -/
def createProviderViaGovernance (cfg : Config) (s : State) (key : AccountId) (name : Bytes) :
    Except Err State := do
  let m ← ensureValidMsaKey s key
  createProviderFor cfg s m name

/-- Dispatch of a call (the `#[pallet::call]` block, lib.rs 414-908). -/
def dispatch (cfg : Config) (env : Env) (s : State) (o : Origin) : Call → Except Err State
  | .create => do let who ← ensureSigned o; create cfg s who
  | .createSponsoredAccountWithDelegation dk proof p => do
    let who ← ensureSigned o; createSponsored cfg env s who dk proof p
  | .createProvider name => do let who ← ensureSigned o; createProvider cfg s who name
  | .grantDelegation dk proof p => do
    let who ← ensureSigned o; grantDelegation cfg env s who dk proof p
  | .revokeDelegationByDelegator provider => do
    let who ← ensureSigned o; revokeDelegationByDelegator env s who provider
  | .addPublicKeyToMsa ok op np p => do
    let _ ← ensureSigned o; addPublicKeyToMsa cfg env s ok op np p
  | .deleteMsaPublicKey key => do let who ← ensureSigned o; deleteMsaPublicKey s who key
  | .revokeDelegationByProvider delegator => do
    let who ← ensureSigned o; revokeDelegationByProvider env s who delegator
  | .revokeSchemaPermissions provider ids => do
    let who ← ensureSigned o; revokeSchemaPermissions cfg env s who provider ids
  | .retireMsa => do let who ← ensureSigned o; retireMsa s who
  | .proposeToBeProvider name => do
    let who ← ensureSigned o; proposeToBeProvider cfg s who name
  | .createProviderViaGovernance key name =>
    match o with
    | .governance => createProviderViaGovernance cfg s key name
    | .signed _ => .error .badOrigin

/-! ## Read API -/

/-- `ensure_valid_delegation`, lib.rs 1545-1573. -/
def ensureValidDelegation (env : Env) (s : State) (provider delegator : MsaId)
    (block : Option BlockNumber) : Except Err Delegation := do
  let info ← okOr (s.delegations.get (delegator, provider)) .delegationNotFound
  let requested ← match block with
    | some b =>
      if env.block ≥ b then (.ok b : Except Err Nat)
      else .error .cannotPredictValidityPastCurrentBlock
    | none => .ok env.block
  if info.revokedAt = 0 then pure info
  else do
    ensure (info.revokedAt ≥ requested) .delegationRevoked
    pure info

/-- `ensure_valid_schema_grant`, lib.rs 1591-1615. -/
def ensureValidSchemaGrant (env : Env) (s : State) (provider delegator : MsaId) (schema : SchemaId)
    (block : BlockNumber) : Except Err Unit := do
  let info ← ensureValidDelegation env s provider delegator (some block)
  let revoked ← okOr (info.perms.get schema) .schemaNotGranted
  if revoked = 0 then pure ()
  else ensure (block ≤ revoked) .schemaNotGranted

/-- One entry of the grants query (`SchemaGrant`): the loop body of
`get_granted_schemas_by_msa_id`, lib.rs 1345-1358. -/
def reportGrant (d : Delegation) (revokedAt : BlockNumber) : BlockNumber :=
  if d.revokedAt > 0 ∧ (revokedAt > d.revokedAt ∨ revokedAt = 0) then d.revokedAt else revokedAt

/-- `get_granted_schemas_by_msa_id` for one provider, lib.rs 1323-1364. -/
def getGrantedSchemas (s : State) (delegator provider : MsaId) :
    Except Err (List (SchemaId × BlockNumber)) := do
  let d ← okOr (s.delegations.get (delegator, provider)) .delegationNotFound
  ensure (d.perms.entries ≠ []) .schemaNotGranted
  pure (d.perms.entries.map (fun e => (e.1, reportGrant d e.2)))

/-! ## The transaction extension `CheckFreeExtrinsicUse`, lib.rs 1617-1866 -/

/-- `ValidityError`, lib.rs 1775-1792. -/
inductive Invalid
  | invalidDelegation | invalidMsaKey | invalidRegisteredProviderCannotBeRetired
  | invalidMoreThanOneKeyExists | invalidSelfRemoval | notKeyOwner
  | invalidNonZeroProviderDelegations | handleNotRetired
  deriving DecidableEq, Repr

/-- `.map_err(|_| e)`. -/
def mapErr {α : Type} (x : Except Err α) (e : Invalid) : Except Invalid α :=
  match x with
  | .ok a => .ok a
  | .error _ => .error e

/-- `validate_delegation_by_delegator`, lib.rs 1632-1647. -/
def validateDelegationByDelegator (env : Env) (s : State) (who : AccountId) (provider : MsaId) :
    Except Invalid Unit := do
  let delegator ← mapErr (ensureValidMsaKey s who) .invalidMsaKey
  let _ ← mapErr (ensureValidDelegation env s provider delegator none) .invalidDelegation
  pure ()

/-- `validate_delegation_by_provider`, lib.rs 1659-1675. -/
def validateDelegationByProvider (env : Env) (s : State) (who : AccountId) (delegator : MsaId) :
    Except Invalid Unit := do
  let provider ← mapErr (ensureValidMsaKey s who) .invalidMsaKey
  let _ ← mapErr (ensureValidDelegation env s provider delegator none) .invalidDelegation
  pure ()

/-- `validate_key_delete`, lib.rs 1689-1717. -/
def validateKeyDelete (s : State) (who key : AccountId) : Except Invalid Unit := do
  ensure (who ≠ key) .invalidSelfRemoval
  let owner ← mapErr (ensureValidMsaKey s who) .invalidMsaKey
  let keyMsa ← mapErr (ensureValidMsaKey s key) .invalidMsaKey
  ensure (owner = keyMsa) .notKeyOwner

/-- `ensure_msa_can_retire`, lib.rs 1732-1771. -/
def ensureMsaCanRetire (env : Env) (s : State) (who : AccountId) : Except Invalid Unit := do
  let m ← mapErr (ensureValidMsaKey s who) .invalidMsaKey
  ensure (isRegisteredProvider s m = false) .invalidRegisteredProviderCannotBeRetired
  ensure (env.hasHandle m = false) .handleNotRetired
  ensure ((s.keyCount.get m).getD 0 = 1) .invalidMoreThanOneKeyExists
  let hasActive := (s.delegations.keys.filter (fun k => k.1 == m)).any (fun k =>
    match ensureValidDelegation env s k.2 m none with
    | .ok _ => true
    | .error _ => false)
  ensure (hasActive = false) .invalidNonZeroProviderDelegations

/-- `CheckFreeExtrinsicUse::validate`, lib.rs 1845-1865 (`pre_dispatch` is the same check). -/
def validate (env : Env) (s : State) (who : AccountId) : Call → Except Invalid Unit
  | .revokeDelegationByProvider delegator => validateDelegationByProvider env s who delegator
  | .revokeDelegationByDelegator provider => validateDelegationByDelegator env s who provider
  | .deleteMsaPublicKey key => validateKeyDelete s who key
  | .retireMsa => ensureMsaCanRetire env s who
  | _ => .ok ()

/-! ## Histories -/

/-- One step of a history: a call from some origin seen in some environment. -/
structure Step where
  env : Env
  origin : Origin
  call : Call

/-- Effect of a call dispatched without the transaction extension (how wrapped calls run): a
failing call is rolled back. -/
def apply (cfg : Config) (s : State) (st : Step) : State :=
  match dispatch cfg st.env s st.origin st.call with
  | .ok s' => s'
  | .error _ => s

/-- Effect of a directly submitted transaction: the extension validates signed calls first, and an
invalid transaction is not included. -/
def applyTx (cfg : Config) (s : State) (st : Step) : State :=
  match st.origin with
  | .signed who =>
    match validate st.env s who st.call with
    | .ok _ => apply cfg s st
    | .error _ => s
  | .governance => apply cfg s st

/-- State after a history of dispatched calls. -/
def run (cfg : Config) (s : State) (h : List Step) : State := h.foldl (apply cfg) s

/-- State after a history of directly submitted transactions. -/
def runTx (cfg : Config) (s : State) (h : List Step) : State := h.foldl (applyTx cfg) s

/-- `on_initialize`, lib.rs 400-404: the off-chain event counter restarts with every block. -/
def onInitialize (s : State) : State := { s with events := [] }

end Verif.Msa
