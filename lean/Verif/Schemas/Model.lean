import Verif.Prelude
/-!
# Model of the schemas pallet

pallets/schemas/src/lib.rs, types.rs, serde.rs, migration/v4.rs and common/primitives/src/schema.rs.

Simplifications: the JSON parsers behind `ensure_valid_model` are a parameter (`validModel`) here and are modelled in
Json/Model.lean and Schemas/Parquet.lean. Council proposals (`propose_*`, lib.rs 338, 440, 593) do not touch the storage
of this pallet and are left out; the calls that the council then makes are modelled. Weights are left out.
-/

namespace Verif.Schemas

/-- `Error`, lib.rs 132-178, and: the caller is refused (`BadOrigin`); an argument exceeds its bound, so
that the transaction does not decode. -/
inductive Err where
  | invalidSchema | exceedsMaxSchemaModelBytes | lessThanMinSchemaModelBytes | schemaCountOverflow
  | invalidSetting | invalidNameEncoding | invalidNameCharacters | invalidNameStructure
  | invalidNamespaceLength | invalidDescriptorLength | exceedsMaxNumberOfVersions | idAlreadyExists
  | idDoesNotExist | idAlreadyHasName | badOrigin | undecodable
  deriving DecidableEq, Repr

/-- `ModelType`, common/primitives/src/schema.rs 20-27. -/
inductive ModelType where
  | avroBinary | parquet
  deriving DecidableEq, Repr

/-- `PayloadLocation`, common/primitives/src/schema.rs 30-41. -/
inductive Location where
  | onChain | ipfs | itemized | paginated
  deriving DecidableEq, Repr

/-- `SchemaSetting`, common/primitives/src/schema.rs 44-55. -/
inductive Setting where
  | appendOnly | signatureRequired
  deriving DecidableEq, Repr

/-- `SchemaSettings`, common/primitives/src/schema.rs 58-59: one bit per setting. -/
structure Settings where
  appendOnly : Bool
  signatureRequired : Bool
  deriving DecidableEq, Repr

/-- `all_disabled`, common/primitives/src/schema.rs 114-116. -/
def Settings.none : Settings := ⟨false, false⟩

/-- `set`, common/primitives/src/schema.rs 126-128. -/
def Settings.set (s : Settings) : Setting → Settings
  | .appendOnly => { s with appendOnly := true }
  | .signatureRequired => { s with signatureRequired := true }

/-- Iteration over the enabled bits (`BitFlags::iter`). -/
def Settings.toList (s : Settings) : List Setting :=
  (if s.appendOnly then [.appendOnly] else []) ++ (if s.signatureRequired then [.signatureRequired] else [])

/-- `SchemaInfo`, types.rs 42-52. -/
structure Info where
  modelType : ModelType
  location : Location
  settings : Settings
  hasName : Bool
  deriving DecidableEq, Repr

/-- `SchemaName`, types.rs 54-61. -/
structure Name where
  namespace_ : Bytes
  descriptor : Bytes
  deriving DecidableEq, Repr

/-- Configuration, lib.rs 71-104; `validModel` is `ensure_valid_model`, lib.rs 746-760. -/
structure Config where
  minModelBytes : Nat
  modelLimit : Nat
  maxRegistrations : Nat
  maxSettings : Nat
  validModel : ModelType → Bytes → Bool

/-- `Event`, lib.rs 106-129. -/
inductive Event where
  | created (key : AccountId) (id : SchemaId)
  | maxSizeChanged (n : Nat)
  | nameCreated (id : SchemaId) (name : Bytes)
  deriving DecidableEq, Repr

/-- Storage, lib.rs 184-235, the storage version, and all events deposited so far. The double map
`SchemaNameToIds` has default value the empty list, which is never stored: every write adds an id. -/
structure State where
  maxBytes : Nat
  lastId : SchemaId
  infos : SMap SchemaId Info
  payloads : SMap SchemaId Bytes
  names : SMap Name (List SchemaId)
  version : Nat
  events : List Event

/-- Genesis, lib.rs 237-256: a new chain starts with the current storage version (types.rs 17). -/
def State.init (maxBytes : Nat) : State := ⟨maxBytes, 0, ∅, ∅, ∅, 4, []⟩

/-! ## Names -/

/-- ASCII `to_lowercase`, types.rs 83. -/
def lower (b : UInt8) : UInt8 := if 65 ≤ b.toNat ∧ b.toNat ≤ 90 then b + 32 else b

/-- White space among ASCII characters, for `trim`, types.rs 83. -/
def isSpace (b : UInt8) : Bool := (9 ≤ b.toNat && b.toNat ≤ 13) || b.toNat == 32

/-- `trim`, types.rs 83. -/
def trim (b : Bytes) : Bytes := ((b.dropWhile isSpace).reverse.dropWhile isSpace).reverse

/-- The separator `.`, types.rs 36. -/
def dot : UInt8 := 46

/-- The hyphen. -/
def hyphen : UInt8 := 45

/-- Letter, hyphen or separator, types.rs 86-89. -/
def nameChar (b : UInt8) : Bool :=
  (97 ≤ b.toNat && b.toNat ≤ 122) || (65 ≤ b.toNat && b.toNat ≤ 90) || b == hyphen || b == dot

/-- `split(SEPARATOR_CHAR)`, types.rs 92. -/
def splitDot : Bytes → List Bytes
  | [] => [[]]
  | c :: s =>
    if c = dot then [] :: splitDot s
    else match splitDot s with
      | p :: ps => (c :: p) :: ps
      | [] => [[c]]

/-- Starts or ends with a hyphen, types.rs 103, 118. -/
def hyphenated (b : Bytes) : Bool := b.head? == some hyphen || b.getLast? == some hyphen

/-- The namespace, types.rs 98-106: at most 30 bytes (`NAMESPACE_MAX`), at least 3. -/
def checkNamespace (b : Bytes) : Except Err Unit := do
  ensure (b.length ≤ 30) .invalidNamespaceLength
  ensure (3 ≤ b.length) .invalidNamespaceLength
  ensure (hyphenated b = false) .invalidNameStructure

/-- The descriptor, types.rs 110-122: at most 28 bytes (`DESCRIPTOR_MAX`), at least 1. -/
def checkDescriptor (b : Bytes) : Except Err Unit := do
  ensure (b.length ≤ 28) .invalidDescriptorLength
  ensure (1 ≤ b.length) .invalidDescriptorLength
  ensure (hyphenated b = false) .invalidNameStructure

/-- From the list of chunks to the name, types.rs 92-126. -/
def nameOfChunks (strict : Bool) : List Bytes → Except Err Name
  | [ns] => do
    ensure (strict = false) .invalidNameStructure
    checkNamespace ns
    pure ⟨ns, []⟩
  | [ns, d] => do
    checkNamespace ns
    checkDescriptor d
    pure ⟨ns, d⟩
  | _ => .error .invalidNameStructure

/-- `SchemaName::try_parse`, types.rs 73-128. Bytes above 127 are refused whether or not they are UTF-8, so
the decoding step is the ASCII check. -/
def tryParse (b : Bytes) (strict : Bool) : Except Err Name := do
  ensure (∀ c ∈ b, c.toNat < 128) .invalidNameEncoding
  let str := trim (b.map lower)
  ensure (∀ c ∈ str, nameChar c = true) .invalidNameCharacters
  nameOfChunks strict (splitDot str)

/-- `get_combined_name`, types.rs 131-138. -/
def Name.combined (n : Name) : Bytes := n.namespace_ ++ [dot] ++ n.descriptor

/-! ## Registration -/

/-- `SchemaNameToIds::get`, a map with default value. -/
def State.ids (s : State) (n : Name) : List SchemaId := (s.names.get n).getD []

/-- `SchemaVersionId::add`, types.rs 153-161; `MAX_NUMBER_OF_VERSIONS` is 254, types.rs 39. -/
def addVersion (ids : List SchemaId) (id : SchemaId) : Except Err (List SchemaId) := do
  ensure (id ∉ ids) .idAlreadyExists
  ensure (ids.length < 254) .exceedsMaxNumberOfVersions
  pure (ids ++ [id])

/-- Add a version in storage (`try_mutate`), lib.rs 681-689 and 641-651. -/
def addName (s : State) (n : Name) (id : SchemaId) : Except Err State := do
  let ids ← addVersion (s.ids n) id
  pure { s with names := s.names.insert n ids }

/-- The optional name, lib.rs 680-690. -/
def addNameOpt (s : State) (n : Option Name) (id : SchemaId) : Except Err State :=
  match n with
  | none => .ok s
  | some n => addName s n id

/-- `get_next_schema_id`, lib.rs 766-772: `checked_add` on `u16`. -/
def nextId (s : State) : Except Err SchemaId := do
  ensure (s.lastId + 1 ≤ 65535) .schemaCountOverflow
  pure (s.lastId + 1)

/-- `add_schema`, lib.rs 664-698. -/
def addSchema (s : State) (model : Bytes) (mt : ModelType) (loc : Location) (settings : List Setting)
    (name : Option Name) : Except Err (State × SchemaId) := do
  let id ← nextId s
  let s1 ← addNameOpt s name id
  let info : Info := ⟨mt, loc, settings.foldl Settings.set .none, name.isSome⟩
  pure ({ s1 with lastId := id, infos := s1.infos.insert id info, payloads := s1.payloads.insert id model }, id)

/-- The optional name payload, lib.rs 808-814. -/
def parseOpt : Option Bytes → Except Err (Option Name)
  | none => .ok none
  | some b => do
    let n ← tryParse b true
    pure (some n)

/-- `create_schema_for`, lib.rs 786-823. -/
def createSchemaFor (cfg : Config) (s : State) (model : Bytes) (mt : ModelType) (loc : Location)
    (settings : List Setting) (name : Option Bytes) : Except Err (State × SchemaId × Option Name) := do
  ensure (cfg.validModel mt model = true) .invalidSchema
  ensure (cfg.minModelBytes ≤ model.length) .lessThanMinSchemaModelBytes
  ensure (model.length ≤ s.maxBytes) .exceedsMaxSchemaModelBytes
  ensure (.appendOnly ∉ settings ∨ loc = .itemized) .invalidSetting
  let n ← parseOpt name
  let (s1, id) ← addSchema s model mt loc settings n
  pure (s1, id, n)

/-- Events of the create calls, lib.rs 509-515, 568-574. -/
def createdEvents (key : AccountId) (id : SchemaId) : Option Name → List Event
  | none => [.created key id]
  | some n => [.created key id, .nameCreated id n.combined]

/-- The create calls: `create_schema` 282-299, `create_schema_via_governance` 377-393, `create_schema_v2`
415-429, `create_schema_via_governance_v2` 491-517, `create_schema_v3` 550-576. They differ in which
arguments they have. Arguments above their bounds do not decode. -/
def create (cfg : Config) (s : State) (key : AccountId) (model : Bytes) (mt : ModelType) (loc : Location)
    (settings : List Setting) (name : Option Bytes) : Except Err State := do
  ensure (model.length ≤ cfg.modelLimit ∧ settings.length ≤ cfg.maxSettings ∧ ∀ b ∈ name, b.length ≤ 32)
    .undecodable
  let (s1, id, n) ← createSchemaFor cfg s model mt loc settings name
  pure { s1 with events := s1.events ++ createdEvents key id n }

/-- `set_max_schema_model_bytes`, lib.rs 316-331. -/
def setMaxBytes (cfg : Config) (s : State) (n : Nat) : Except Err State := do
  ensure (n ≤ cfg.modelLimit) .exceedsMaxSchemaModelBytes
  pure { s with maxBytes := n, events := s.events ++ [.maxSizeChanged n] }

/-- `parse_and_verify_schema_name`, lib.rs 843-854. -/
def parseAndVerify (s : State) (id : SchemaId) (name : Bytes) : Except Err Name := do
  let info ← okOr (s.infos.get id) .idDoesNotExist
  ensure (info.hasName = false) .idAlreadyHasName
  tryParse name true

/-- `create_schema_name_via_governance`, lib.rs 631-652. -/
def createName (s : State) (id : SchemaId) (name : Bytes) : Except Err State := do
  ensure (name.length ≤ 32) .undecodable
  let n ← parseAndVerify s id name
  let s1 ← addName s n id
  pure { s1 with events := s1.events ++ [.nameCreated id n.combined] }

/-- Who calls. `CreateSchemaViaGovernanceOrigin` is root or more than half of the council, runtime/frequency/src/lib.rs
534-537. -/
inductive Origin where
  | signed (key : AccountId)
  | root
  | council
  deriving DecidableEq, Repr

/-- `ensure_signed`. -/
def ensureSigned : Origin → Except Err AccountId
  | .signed k => .ok k
  | _ => .error .badOrigin

/-- `ensure_root`. -/
def ensureRoot : Origin → Except Err Unit
  | .root => .ok ()
  | _ => .error .badOrigin

/-- `CreateSchemaViaGovernanceOrigin::ensure_origin`. -/
def ensureGovernance : Origin → Except Err Unit
  | .signed _ => .error .badOrigin
  | _ => .ok ()

/-! ## Migration -/

/-- One entry of the table of known names, migration/v4.rs 107-144. -/
def migrateOne (s : State) (e : SchemaId × Bytes) : State :=
  match s.infos.get e.1 with
  | none => s
  | some info =>
    if e.2.length ≤ 32 then
      match tryParse e.2 true with
      | .error _ => s
      | .ok n => { s with names := s.names.insert n [e.1], infos := s.infos.insert e.1 { info with hasName := true } }
    else s

/-- `migrate_to_v4`, migration/v4.rs 94-169, with the table of the chain. -/
def migrate (s : State) (known : List (SchemaId × Bytes)) : State :=
  if s.version < 4 then { known.foldl migrateOne s with version := 4 } else s

/-! ## Calls -/

/-- The calls. -/
inductive Call where
  | createSchema (model : Bytes) (mt : ModelType) (loc : Location)
  | createSchemaV2 (model : Bytes) (mt : ModelType) (loc : Location) (settings : List Setting)
  | createSchemaV3 (model : Bytes) (mt : ModelType) (loc : Location) (settings : List Setting)
      (name : Option Bytes)
  | createViaGovernance (key : AccountId) (model : Bytes) (mt : ModelType) (loc : Location)
      (settings : List Setting)
  | createViaGovernanceV2 (key : AccountId) (model : Bytes) (mt : ModelType) (loc : Location)
      (settings : List Setting) (name : Option Bytes)
  | setMaxBytes (n : Nat)
  | createName (id : SchemaId) (name : Bytes)
  deriving DecidableEq, Repr

/-- Dispatch of a call. -/
def dispatch (cfg : Config) (s : State) (o : Origin) : Call → Except Err State
  | .createSchema model mt loc => do
    let k ← ensureSigned o; create cfg s k model mt loc [] none
  | .createSchemaV2 model mt loc settings => do
    let k ← ensureSigned o; create cfg s k model mt loc settings none
  | .createSchemaV3 model mt loc settings name => do
    let k ← ensureSigned o; create cfg s k model mt loc settings name
  | .createViaGovernance k model mt loc settings => do
    ensureGovernance o; create cfg s k model mt loc settings none
  | .createViaGovernanceV2 k model mt loc settings name => do
    ensureGovernance o; create cfg s k model mt loc settings name
  | .setMaxBytes n => do
    ensureRoot o; setMaxBytes cfg s n
  | .createName id name => do
    ensureGovernance o; createName s id name

/-- A step of the chain: a call or a runtime upgrade that runs the migration. -/
inductive Step where
  | call (o : Origin) (c : Call)
  | upgrade (known : List (SchemaId × Bytes))

/-- A call that fails changes nothing. -/
def apply (cfg : Config) (s : State) : Step → State
  | .call o c => match dispatch cfg s o c with
    | .ok s' => s'
    | .error _ => s
  | .upgrade known => migrate s known

/-- A history. -/
def run (cfg : Config) (s : State) (hist : List Step) : State := hist.foldl (apply cfg) s

/-! ## Queries -/

/-- `SchemaResponse`, common/primitives/src/schema.rs 62-77. -/
structure Response where
  id : SchemaId
  model : Bytes
  modelType : ModelType
  location : Location
  settings : List Setting
  deriving DecidableEq, Repr

/-- `get_schema_by_id`, lib.rs 701-722. -/
def getSchemaById (s : State) (id : SchemaId) : Option Response :=
  match s.infos.get id, s.payloads.get id with
  | some info, some p => some ⟨id, p, info.modelType, info.location, info.settings.toList⟩
  | _, _ => none

/-- `get_schema_info_by_id`, lib.rs 725-738, as far as it differs from the other query. -/
def getSchemaInfoById (s : State) (id : SchemaId) : Option (ModelType × Location × List Setting) :=
  (s.infos.get id).map (fun info => (info.modelType, info.location, info.settings.toList))

/-- `SchemaVersionResponse`, common/primitives/src/schema.rs 139-149. -/
structure VersionResponse where
  name : Bytes
  version : Nat
  id : SchemaId
  deriving DecidableEq, Repr

/-- The enumeration in `convert_to_response`, types.rs 164-174: `(index + 1) as u8`. -/
def versionsFrom (name : Bytes) (i : Nat) : List SchemaId → List VersionResponse
  | [] => []
  | id :: rest => ⟨name, (i + 1) % 256, id⟩ :: versionsFrom name (i + 1) rest

/-- `convert_to_response`, types.rs 164-174. -/
def toResponse (n : Name) (ids : List SchemaId) : List VersionResponse := versionsFrom n.combined 0 ids

/-- `get_schema_versions`, lib.rs 827-840. -/
def getSchemaVersions (s : State) (b : Bytes) : Option (List VersionResponse) :=
  if b.length ≤ 32 then
    match tryParse b false with
    | .error _ => none
    | .ok n =>
      if n.descriptor ≠ [] then some (toResponse n (s.ids n))
      else some ((s.names.keys.filter (fun m => m.namespace_ = n.namespace_)).flatMap
        (fun m => toResponse m (s.ids m)))
  else none

/-- `are_all_schema_ids_valid`, lib.rs 881-885. -/
def areAllSchemaIdsValid (s : State) (ids : List SchemaId) : Bool :=
  ids.all (fun id => decide (id ≤ s.lastId))

end Verif.Schemas
