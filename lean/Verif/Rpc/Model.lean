import Verif.Json.Write
import Verif.Messages.Model
import Verif.Stateful.Model
import Verif.Handles.Model
import Verif.Schemas.Model
import Verif.Msa.Model
/-!
# The answers of the RPC methods as JSON

What `serde` derives for the types of the answers (common/primitives/src/{messages,stateful_storage,handles,schema,msa,
rpc}.rs) and the functions of common/primitives/src/utils.rs 36-129 that these types name: how an answer is written as
JSON, and how a client with the same types reads it. The derived readers also accept lists in place of objects, and
`impl_serde` accepts hexadecimal text without prefix, of odd length or with white space; these are not modelled (nothing
written has that form). `AccountId`s are not modelled here (`KeyInfoResponse`).
-/

namespace Verif.Rpc

open Verif.Json

/-! ## Parts -/

/-- The name of a field as bytes. -/
def key (s : String) : Bytes := utf8Encode s.toList

/-- A value in a field of the given name. -/
abbrev Fields := List (String × Value)

/-- `serialize_struct` and `serialize_field`. -/
def object (l : Fields) : Value := .obj (l.map (fun p => (key p.1, p.2)))

/-- `skip_serializing_if = "Option::is_none"`. -/
def skipNone (k : String) : Option Value → Fields
  | none => []
  | some v => [(k, v)]

/-- Unsigned integers. -/
def writeNat (n : Nat) : Value := .num (decimal n)

/-- Unsigned integers: decimal digits, within the type. -/
def readNat (bound : Nat) : Value → Option Nat
  | .num t => if t.all isDigit = true ∧ digitsValue t < bound then some (digitsValue t) else none
  | _ => none

/-- `impl_serde::serialize::to_hex`, two small digits for each byte. -/
def hexText (b : Bytes) : Bytes := b.flatMap (fun x => [hexDigit (x.toNat / 16), hexDigit (x.toNat % 16)])

/-- `from_hex_raw` of `impl_serde`. -/
def unhex : Bytes → Option Bytes
  | [] => some []
  | [_] => none
  | a :: b :: r => do
    let a ← hexVal a
    let b ← hexVal b
    let r ← unhex r
    some (UInt8.ofNat (a * 16 + b) :: r)

/-- `as_hex::serialize`, utils.rs 42-47. The bytes of `0x` are 48, 120. -/
def writeHex (b : Bytes) : Value := .str (48 :: 120 :: hexText b)

/-- `as_hex::deserialize`, utils.rs 50-52. -/
def readHex : Value → Option Bytes
  | .str (48 :: 120 :: t) => unhex t
  | _ => none

/-- `as_string::serialize`, utils.rs 87-91: an error unless the bytes are UTF-8. -/
def writeText (b : Bytes) : Option Value := (utf8Decode b).map (fun s => .str (utf8Encode s))

/-- `as_string::deserialize`, utils.rs 94-96. -/
def readText : Value → Option Bytes
  | .str s => some s
  | _ => none

/-- `as_string_option::serialize`, utils.rs 105-118, for a field that is left out if there is nothing. -/
def writeTextOption : Option Bytes → Option (Option Value)
  | none => some none
  | some b => (writeText b).map some

/-- `as_string_option::deserialize`, utils.rs 121-129: the empty text stands for nothing. -/
def readTextOption : Value → Option (Option Bytes)
  | .str s => some (if s.length = 0 then none else some s)
  | _ => none

/-- Truth values. -/
def readBool : Value → Option Bool
  | .bool b => some b
  | _ => none

/-- Lists. -/
def readList {α : Type} (read : Value → Option α) : Value → Option (List α)
  | .arr l => l.mapM read
  | _ => none

/-- `Option<T>`: `null` for `None`. -/
def writeOption {α : Type} (write : α → Value) : Option α → Value
  | none => .null
  | some a => write a

/-- `Option<T>`. -/
def readOption {α : Type} (read : Value → Option α) : Value → Option (Option α)
  | .null => some none
  | v => (read v).map some

/-- The members of an object. -/
def members : Value → Option (List (Bytes × Value))
  | .obj l => some l
  | _ => none

/-- A field in the derived `visit_map`: a field that occurs twice is an error. -/
def lookup (l : List (Bytes × Value)) (k : String) : Option (Option Value) :=
  match l.filter (fun p => decide (p.1 = key k)) with
  | [] => some none
  | [p] => some (some p.2)
  | _ => none

/-- A field that must be there. -/
def field {α : Type} (l : List (Bytes × Value)) (k : String) (read : Value → Option α) : Option α := do
  let v ← lookup l k
  let v ← v
  read v

/-- A field with a default. -/
def fieldOr {α : Type} (l : List (Bytes × Value)) (k : String) (dflt : α) (read : Value → Option α) : Option α := do
  match ← lookup l k with
  | none => some dflt
  | some v => read v

/-! ## Messages -/

/-- `Serialize for MessageResponse`, messages.rs 15-47. -/
def writeMessage (r : Messages.Response) : Option Value := do
  let cid ← writeTextOption r.cid
  some (object ([("provider_msa_id", writeNat r.provider), ("index", writeNat r.index), ("block_number", writeNat r.block)] ++
    skipNone "msa_id" (r.author.map writeNat) ++ skipNone "payload" (r.payload.map writeHex) ++ skipNone "cid" cid ++
    skipNone "payload_length" (r.length.map writeNat)))

/-- `Deserialize for MessageResponse`, messages.rs 15-47. -/
def readMessage (v : Value) : Option Messages.Response := do
  let l ← members v
  let provider ← field l "provider_msa_id" (readNat (2 ^ 64))
  let index ← field l "index" (readNat (2 ^ 16))
  let block ← field l "block_number" (readNat (2 ^ 32))
  let author ← fieldOr l "msa_id" none (readOption (readNat (2 ^ 64)))
  let payload ← fieldOr l "payload" none (fun v => (readHex v).map some)
  let cid ← fieldOr l "cid" none readTextOption
  let length ← fieldOr l "payload_length" none (readOption (readNat (2 ^ 32)))
  some ⟨provider, index, block, author, payload, cid, length⟩

/-- `Serialize for BlockPaginationResponse`, messages.rs 78-92. -/
def writePage (p : Messages.Page Messages.Response) : Option Value := do
  let content ← p.content.mapM writeMessage
  some (object ([("content", .arr content), ("has_next", .bool p.hasNext)] ++
    skipNone "next_block" (p.next.map (fun n => writeNat n.1)) ++
    skipNone "next_index" (p.next.map (fun n => writeNat n.2))))

/-- `Deserialize for BlockPaginationResponse`, messages.rs 78-92. The model has one option for both numbers. -/
def readPage (v : Value) : Option (Messages.Page Messages.Response) := do
  let l ← members v
  let content ← field l "content" (readList readMessage)
  let hasNext ← field l "has_next" readBool
  let block ← fieldOr l "next_block" none (readOption (readNat (2 ^ 32)))
  let index ← fieldOr l "next_index" none (readOption (readNat (2 ^ 32)))
  some ⟨content, hasNext, do some (← block, ← index)⟩

/-- `messages_getBySchemaId`, pallets/messages/src/rpc/src/lib.rs 77-130: the text of the answer. -/
def messagesBySchemaId (s : Messages.State) (schema : SchemaId) (loc : Schemas.Location) (r : Messages.Request) :
    Option Bytes := do
  let p ← Messages.getPage (Messages.getMessages s schema loc) r
  let v ← writePage p
  some (print v)

/-! ## Stateful storage -/

/-- `PaginatedStorageResponse`, stateful_storage.rs 22-36. -/
structure PaginatedResponse where
  pageId : Nat
  msa : MsaId
  schema : SchemaId
  hash : Nat
  nonce : Nat
  payload : Bytes
  deriving DecidableEq

/-- `Serialize for PaginatedStorageResponse`. -/
def writePaginated (r : PaginatedResponse) : Value :=
  object [("page_id", writeNat r.pageId), ("msa_id", writeNat r.msa), ("schema_id", writeNat r.schema),
    ("content_hash", writeNat r.hash), ("nonce", writeNat r.nonce), ("payload", writeHex r.payload)]

/-- `Deserialize for PaginatedStorageResponse`. -/
def readPaginated (v : Value) : Option PaginatedResponse := do
  let l ← members v
  some ⟨← field l "page_id" (readNat (2 ^ 16)), ← field l "msa_id" (readNat (2 ^ 64)),
    ← field l "schema_id" (readNat (2 ^ 16)), ← field l "content_hash" (readNat (2 ^ 32)),
    ← field l "nonce" (readNat (2 ^ 16)), ← fieldOr l "payload" [] readHex⟩

/-- `ItemizedStoragePageResponse` and `ItemizedStorageResponse`, stateful_storage.rs 41-63. -/
structure ItemizedResponse where
  msa : MsaId
  schema : SchemaId
  hash : Nat
  nonce : Nat
  items : List (Nat × Bytes)
  deriving DecidableEq

/-- `Serialize for ItemizedStorageResponse`. -/
def writeItem (i : Nat × Bytes) : Value := object [("index", writeNat i.1), ("payload", writeHex i.2)]

/-- `Deserialize for ItemizedStorageResponse`. -/
def readItem (v : Value) : Option (Nat × Bytes) := do
  let l ← members v
  some (← field l "index" (readNat (2 ^ 16)), ← fieldOr l "payload" [] readHex)

/-- `Serialize for ItemizedStoragePageResponse`. -/
def writeItemized (r : ItemizedResponse) : Value :=
  object [("msa_id", writeNat r.msa), ("schema_id", writeNat r.schema), ("content_hash", writeNat r.hash),
    ("nonce", writeNat r.nonce), ("items", .arr (r.items.map writeItem))]

/-- `Deserialize for ItemizedStoragePageResponse`. -/
def readItemized (v : Value) : Option ItemizedResponse := do
  let l ← members v
  some ⟨← field l "msa_id" (readNat (2 ^ 64)), ← field l "schema_id" (readNat (2 ^ 16)),
    ← field l "content_hash" (readNat (2 ^ 32)), ← field l "nonce" (readNat (2 ^ 16)),
    ← field l "items" (readList readItem)⟩

/-- `statefulStorage_getPaginatedStorage`, pallets/stateful-storage/src/rpc/src/lib.rs 72-81 and
pallets/stateful-storage/src/lib.rs 633-645. -/
def paginatedStorage (cfg : Stateful.Config) (env : Stateful.Env) (st : Stateful.Store) (m : MsaId) (s : SchemaId) :
    Option Bytes :=
  match Stateful.getPaginatedStorage cfg env st m s with
  | .error _ => none
  | .ok l => some (print (.arr (l.map (fun p =>
      writePaginated ⟨p.1, m, s, p.2.getHash cfg.hash, p.2.nonce, p.2.data⟩))))

/-- `statefulStorage_getItemizedStorage`, pallets/stateful-storage/src/rpc/src/lib.rs 83-92. -/
def itemizedStorage (cfg : Stateful.Config) (env : Stateful.Env) (st : Stateful.Store) (m : MsaId) (s : SchemaId) :
    Option Bytes :=
  match Stateful.getItemizedStorage cfg env st m s with
  | .error _ => none
  | .ok r => some (print (writeItemized ⟨m, s, r.hash, r.nonce, r.items⟩))

/-! ## Handles -/

/-- `Serialize for HandleResponse`, handles.rs 62-72. -/
def writeHandle (r : Bytes × Bytes × Nat) : Option Value := do
  some (object [("base_handle", ← writeText r.1), ("canonical_base", ← writeText r.2.1), ("suffix", writeNat r.2.2)])

/-- `Deserialize for HandleResponse`, handles.rs 62-72. -/
def readHandle (v : Value) : Option (Bytes × Bytes × Nat) := do
  let l ← members v
  some (← field l "base_handle" readText, ← field l "canonical_base" readText, ← field l "suffix" (readNat (2 ^ 16)))

/-- `Serialize for PresumptiveSuffixesResponse`, handles.rs 89-95. -/
def writeSuffixes (r : Bytes × List Nat) : Option Value := do
  some (object [("base_handle", ← writeText r.1), ("suffixes", .arr (r.2.map writeNat))])

/-- `Deserialize for PresumptiveSuffixesResponse`, handles.rs 89-95. -/
def readSuffixes (v : Value) : Option (Bytes × List Nat) := do
  let l ← members v
  some (← field l "base_handle" readText, ← field l "suffixes" (readList (readNat (2 ^ 16))))

/-- `handles_getHandleForMsa`, pallets/handles/src/rpc/src/lib.rs 89-94. -/
def handleForMsa (cfg : Handles.Config) (s : Handles.State) (m : MsaId) : Option Bytes :=
  match Handles.handleForMsa cfg s m with
  | none => some (print .null)
  | some r => (writeHandle r).map print

/-- `handles_getNextSuffixes`, pallets/handles/src/rpc/src/lib.rs 96-111: one suffix unless a number is given, and at
most 100. `HANDLE_BYTES_MAX` is 32. -/
def nextSuffixes (cfg : Handles.Config) (env : Handles.Env) (s : Handles.State) (base : Str) (count : Option Nat) :
    Option Bytes :=
  if (utf8Encode base).length ≤ 32 then
    (writeSuffixes (utf8Encode base,
      Handles.nextSuffixes cfg env s (utf8Encode base) (min (count.getD 1) 100))).map print
  else none

/-! ## Schemas -/

/-- `Serialize for ModelType`, schema.rs 20-28. -/
def writeModelType : Schemas.ModelType → Value
  | .avroBinary => .str (key "AvroBinary")
  | .parquet => .str (key "Parquet")

/-- `Deserialize for ModelType`. -/
def readModelType : Value → Option Schemas.ModelType
  | .str s => if s = key "AvroBinary" then some .avroBinary else if s = key "Parquet" then some .parquet else none
  | _ => none

/-- `Serialize for PayloadLocation`, schema.rs 30-41. -/
def writeLocation : Schemas.Location → Value
  | .onChain => .str (key "OnChain")
  | .ipfs => .str (key "IPFS")
  | .itemized => .str (key "Itemized")
  | .paginated => .str (key "Paginated")

/-- `Deserialize for PayloadLocation`. -/
def readLocation : Value → Option Schemas.Location
  | .str s =>
    if s = key "OnChain" then some .onChain else if s = key "IPFS" then some .ipfs
    else if s = key "Itemized" then some .itemized else if s = key "Paginated" then some .paginated else none
  | _ => none

/-- `Serialize for SchemaSetting`, schema.rs 44-55. -/
def writeSetting : Schemas.Setting → Value
  | .appendOnly => .str (key "AppendOnly")
  | .signatureRequired => .str (key "SignatureRequired")

/-- `Deserialize for SchemaSetting`. -/
def readSetting : Value → Option Schemas.Setting
  | .str s =>
    if s = key "AppendOnly" then some .appendOnly
    else if s = key "SignatureRequired" then some .signatureRequired else none
  | _ => none

/-- `Serialize for SchemaResponse`, schema.rs 62-77. -/
def writeSchema (r : Schemas.Response) : Option Value := do
  some (object [("schema_id", writeNat r.id), ("model", ← writeText r.model), ("model_type", writeModelType r.modelType),
    ("payload_location", writeLocation r.location), ("settings", .arr (r.settings.map writeSetting))])

/-- `Deserialize for SchemaResponse`, schema.rs 62-77. -/
def readSchema (v : Value) : Option Schemas.Response := do
  let l ← members v
  some ⟨← field l "schema_id" (readNat (2 ^ 16)), ← field l "model" readText, ← field l "model_type" readModelType,
    ← field l "payload_location" readLocation, ← field l "settings" (readList readSetting)⟩

/-- `Serialize for SchemaVersionResponse`, schema.rs 139-149. -/
def writeVersion (r : Schemas.VersionResponse) : Option Value := do
  some (object [("schema_name", ← writeText r.name), ("schema_version", writeNat r.version), ("schema_id", writeNat r.id)])

/-- `Deserialize for SchemaVersionResponse`, schema.rs 139-149. -/
def readVersion (v : Value) : Option Schemas.VersionResponse := do
  let l ← members v
  some ⟨← field l "schema_name" readText, ← field l "schema_version" (readNat (2 ^ 8)),
    ← field l "schema_id" (readNat (2 ^ 16))⟩

/-- `schemas_getBySchemaId`, pallets/schemas/src/rpc/src/lib.rs 100-105. -/
def schemaById (s : Schemas.State) (id : SchemaId) : Option Bytes :=
  match Schemas.getSchemaById s id with
  | none => some (print .null)
  | some r => (writeSchema r).map print

/-- `schemas_getVersions`, pallets/schemas/src/rpc/src/lib.rs 107-112. -/
def schemaVersions (s : Schemas.State) (name : Str) : Option Bytes :=
  match Schemas.getSchemaVersions s (utf8Encode name) with
  | none => some (print .null)
  | some l => (l.mapM writeVersion).map (fun l => print (.arr l))

/-! ## Delegations -/

/-- `Serialize for SchemaGrant`, msa.rs 66-73. -/
def writeGrant (g : SchemaId × BlockNumber) : Value :=
  object [("schema_id", writeNat g.1), ("revoked_at", writeNat g.2)]

/-- `Deserialize for SchemaGrant`, msa.rs 66-73. -/
def readGrant (v : Value) : Option (SchemaId × BlockNumber) := do
  let l ← members v
  some (← field l "schema_id" (readNat (2 ^ 16)), ← field l "revoked_at" (readNat (2 ^ 32)))

/-- `msa_grantedSchemaIdsByMsaId`, pallets/msa/src/rpc/src/lib.rs 155-165, and `get_granted_schemas_by_msa_id` of
runtime/frequency/src/lib.rs 1462-1470: a failure of the query is answered with `null`. -/
def grantedSchemas (s : Msa.State) (delegator provider : MsaId) : Bytes :=
  match Msa.getGrantedSchemas s delegator provider with
  | .error _ => print .null
  | .ok l => print (.arr (l.map writeGrant))

/-! ## Events -/

/-- `RpcEvent`, rpc.rs 16-30. -/
structure Event where
  phase : Option Nat
  pallet : Nat
  event : Nat
  data : Bytes
  deriving DecidableEq

/-- `frame_system::Phase`. -/
inductive Phase
  | applyExtrinsic (i : Nat) | finalization | initialization
  deriving DecidableEq

/-- `From<EventRecord> for RpcEvent`, rpc.rs 32-52; `none` if the event has less than two bytes (a panic in the code). -/
def ofRecord (phase : Phase) (encoded : Bytes) : Option Event :=
  match encoded with
  | p :: e :: data => some ⟨match phase with | .applyExtrinsic i => some i | _ => none, p.toNat, e.toNat, data⟩
  | _ => none

/-- `Serialize for RpcEvent`. -/
def writeEvent (e : Event) : Value :=
  object [("phase", writeOption writeNat e.phase), ("pallet", writeNat e.pallet), ("event", writeNat e.event),
    ("data", writeHex e.data)]

/-- `Deserialize for RpcEvent`. -/
def readEvent (v : Value) : Option Event := do
  let l ← members v
  some ⟨← fieldOr l "phase" none (readOption (readNat (2 ^ 32))), ← field l "pallet" (readNat (2 ^ 8)),
    ← field l "event" (readNat (2 ^ 8)), ← field l "data" readHex⟩

/-- `frequency_getEvents`, node/service/src/rpc/frequency_rpc.rs 67-70, and `get_events` of runtime/frequency/src/lib.rs 1449-1451:
the records of the block in order. -/
def events (records : List (Phase × Bytes)) : Option Bytes :=
  (records.mapM (fun r => ofRecord r.1 r.2)).map (fun l => print (.arr (l.map writeEvent)))

end Verif.Rpc
