import Verif.Schemas.Model
import Verif.Scale
import Verif.Utf8
import Verif.Base32
/-!
# Model of the messages pallet

pallets/messages/src/lib.rs, types.rs, rpc/src/lib.rs and common/primitives/src/messages.rs.

Simplifications: `multibase::decode` and `Cid::read_bytes` are parameters; the other pallets are seen through
an environment. Weights are left out; in particular nothing limits the number of messages in a block.
-/

namespace Verif.Messages

open Verif.Schemas (Location)

/-- `Error`, lib.rs 119-146, as far as it is used. -/
inductive Err where
  | exceedsMaxPayload | invalidMessageSourceAccount | invalidSchemaId | unAuthorizedDelegate
  | invalidPayloadLocation | unsupportedCidVersion | invalidCid
  deriving DecidableEq, Repr

/-- Configuration, lib.rs 67-96, and the parsers of content identifiers. -/
structure Config where
  maxPayload : Nat
  multibase : Bytes → Option Bytes
  cidOk : Bytes → Bool

/-- The other pallets: account of a key, whether a schema grant is valid in a block, location of a schema. -/
structure Env where
  msaOf : AccountId → Option MsaId
  grant : MsaId → MsaId → SchemaId → BlockNumber → Bool
  location : SchemaId → Option Location

/-- `Message`, types.rs 16-32. -/
structure Msg where
  payload : Bytes
  provider : MsaId
  author : Option MsaId
  deriving DecidableEq, Repr

/-- Storage, lib.rs 102-117, with the current block and the blocks in which `MessagesInBlock` was emitted. -/
structure State where
  block : BlockNumber
  index : Nat
  msgs : SMap (BlockNumber × SchemaId × Nat) Msg
  events : List BlockNumber

/-- Genesis. -/
def State.init : State := ⟨0, 0, ∅, []⟩

/-- `on_initialize`, lib.rs 169-174, at the start of the next block. -/
def onInitialize (s : State) : State := { s with block := s.block + 1, index := 0 }

/-- `validate_cid`, lib.rs 376-390. The bytes of `Qm` are 81, 109. -/
def validateCid (cfg : Config) (cid : Bytes) : Except Err Bytes := do
  let _ ← okOr (utf8Decode cid) .invalidCid
  ensure (2 < cid.length) .invalidCid
  ensure (cid.take 2 ≠ [81, 109]) .unsupportedCidVersion
  let b ← okOr (cfg.multibase cid) .invalidCid
  ensure (cfg.cidOk b = true) .invalidCid
  pure b

/-- `OffchainPayloadType::encode`, types.rs 11. -/
def encodeOffchain (cid : Bytes) (len : Nat) : Bytes := Scale.vecU8 cid ++ Scale.u32 len

/-- `OffchainPayloadType::decode(..).unwrap_or_default()`, types.rs 57-58. -/
def decodeOffchain (b : Bytes) : Bytes × Nat :=
  match Scale.decVecU8 b with
  | none => ([], 0)
  | some (cid, rest) => match Scale.decLe 4 rest with
    | none => ([], 0)
    | some (len, _) => (cid, len)

/-- `add_message`, lib.rs 312-330, and the event of its callers: `saturating_add` on `u16`. -/
def addMessage (s : State) (provider : MsaId) (author : Option MsaId) (payload : Bytes) (schema : SchemaId) :
    State :=
  { s with
    msgs := s.msgs.insert (s.block, schema, s.index) ⟨payload, provider, author⟩
    index := min (s.index + 1) 65535
    events := if s.index = 0 then s.events ++ [s.block] else s.events }

/-- `add_ipfs_message`, lib.rs 199-234. -/
def addIpfs (cfg : Config) (env : Env) (s : State) (key : AccountId) (schema : SchemaId) (cid : Bytes) (len : Nat) :
    Except Err State := do
  let bin ← validateCid cfg cid
  ensure ((encodeOffchain bin len).length ≤ cfg.maxPayload) .exceedsMaxPayload
  let loc ← okOr (env.location schema) .invalidSchemaId
  ensure (loc = .ipfs) .invalidPayloadLocation
  let provider ← okOr (env.msaOf key) .invalidMessageSourceAccount
  pure (addMessage s provider none (encodeOffchain bin len) schema)

/-- The author of an on-chain message, lib.rs 275-289. -/
def authorOf (env : Env) (s : State) (provider : MsaId) (schema : SchemaId) : Option MsaId → Except Err MsaId
  | none => .ok provider
  | some d => do
    ensure (env.grant provider d schema s.block = true) .unAuthorizedDelegate
    pure d

/-- `add_onchain_message`, lib.rs 251-302. -/
def addOnchain (cfg : Config) (env : Env) (s : State) (key : AccountId) (onBehalfOf : Option MsaId)
    (schema : SchemaId) (payload : Bytes) : Except Err State := do
  ensure (payload.length ≤ cfg.maxPayload) .exceedsMaxPayload
  let loc ← okOr (env.location schema) .invalidSchemaId
  ensure (loc = .onChain) .invalidPayloadLocation
  let provider ← okOr (env.msaOf key) .invalidMessageSourceAccount
  let author ← authorOf env s provider schema onBehalfOf
  pure (addMessage s provider (some author) payload schema)

/-- The calls. -/
inductive Call where
  | ipfs (schema : SchemaId) (cid : Bytes) (len : Nat)
  | onchain (onBehalfOf : Option MsaId) (schema : SchemaId) (payload : Bytes)
  deriving DecidableEq, Repr

/-- Dispatch of a signed call. -/
def dispatch (cfg : Config) (env : Env) (s : State) (key : AccountId) : Call → Except Err State
  | .ipfs schema cid len => addIpfs cfg env s key schema cid len
  | .onchain onBehalfOf schema payload => addOnchain cfg env s key onBehalfOf schema payload

/-- A step: the start of the next block, or a call with the other pallets in some state. -/
inductive Step where
  | newBlock
  | call (env : Env) (key : AccountId) (c : Call)

/-- A call that fails changes nothing. -/
def apply (cfg : Config) (s : State) : Step → State
  | .newBlock => onInitialize s
  | .call env key c => match dispatch cfg env s key c with
    | .ok s' => s'
    | .error _ => s

/-- A history. -/
def run (cfg : Config) (s : State) (hist : List Step) : State := hist.foldl (apply cfg) s

/-! ## Queries -/

/-- `MessageResponse`, common/primitives/src/messages.rs 15-46. -/
structure Response where
  provider : MsaId
  index : Nat
  block : BlockNumber
  author : Option MsaId
  payload : Option Bytes
  cid : Option Bytes
  length : Option Nat
  deriving DecidableEq, Repr

/-- `map_to_response`, types.rs 39-78. -/
def toResponse (m : Msg) (block : BlockNumber) (loc : Location) (index : Nat) : Response :=
  match loc with
  | .onChain => ⟨m.provider, index, block, m.author, some m.payload, none, none⟩
  | .ipfs => ⟨m.provider, index, block, none, none, some (Base32.encode (decodeOffchain m.payload).1),
      some (decodeOffchain m.payload).2⟩
  | _ => ⟨m.provider, index, block, none, none, none, none⟩

/-- `get_messages_by_schema_and_block`, lib.rs 349-368: all entries with the prefix, in the order of the
storage (which depends on hashes; here the order of the map), then sorted by index. -/
def getMessages (s : State) (schema : SchemaId) (loc : Location) (block : BlockNumber) : List Response :=
  match loc with
  | .itemized | .paginated => []
  | _ => ((s.msgs.entries.filter (fun e => e.1.1 = block ∧ e.1.2.1 = schema)).map
      (fun e => toResponse e.2 block loc e.1.2.2)).mergeSort (fun a b => decide (a.index ≤ b.index))

/-! ## Pagination -/

/-- `BlockPaginationRequest`, common/primitives/src/messages.rs 48-60. -/
structure Request where
  fromBlock : BlockNumber
  fromIndex : Nat
  toBlock : BlockNumber
  pageSize : Nat
  deriving DecidableEq, Repr

/-- `validate`, common/primitives/src/messages.rs 70-75. -/
def Request.valid (r : Request) : Bool :=
  decide (0 < r.pageSize ∧ r.pageSize ≤ 10000 ∧ r.fromBlock < r.toBlock ∧ r.toBlock - r.fromBlock ≤ 50000)

/-- `BlockPaginationResponse`, common/primitives/src/messages.rs 78-92. -/
structure Page (α : Type) where
  content : List α
  hasNext : Bool
  next : Option (BlockNumber × Nat)
  deriving DecidableEq, Repr

/-- `check_end_condition_and_set_next_pagination`, common/primitives/src/messages.rs 107-133. `none` stands
for `false`. -/
def checkEnd {α : Type} (r : Request) (content : List α) (block i size : Nat) : Option (Page α) :=
  if content.length = r.pageSize then
    let next := if i + 1 = size then (block + 1, 0) else (block, i + 1)
    if next.1 < r.toBlock then some ⟨content, true, some next⟩ else some ⟨content, false, none⟩
  else none

/-- The inner loop, rpc/src/lib.rs 112-123, over `i` in `from_index..list_size`; `todo` are the messages from
index `i` on. Left: the final page; right: the content so far. -/
def inner {α : Type} (r : Request) (block size : Nat) : List α → Nat → List α → Page α ⊕ List α
  | [], _, acc => .inr acc
  | m :: rest, i, acc =>
    match checkEnd r (acc ++ [m]) block i size with
    | some p => .inl p
    | none => inner r block size rest (i + 1) (acc ++ [m])

/-- The outer loop, rpc/src/lib.rs 99-127, over `count` blocks from `block` on. -/
def outer {α : Type} (r : Request) (chain : BlockNumber → List α) : Nat → BlockNumber → Nat → List α → Page α
  | 0, _, _, acc => ⟨acc, false, none⟩
  | count + 1, block, fromIndex, acc =>
    match inner r block (chain block).length ((chain block).drop fromIndex) fromIndex acc with
    | .inl p => p
    | .inr acc' => outer r chain count (block + 1) 0 acc'

/-- `get_messages_by_schema_id`, rpc/src/lib.rs 77-130, on the lists that the runtime query returns for the
blocks. `none` is the error for an invalid request. -/
def getPage {α : Type} (chain : BlockNumber → List α) (r : Request) : Option (Page α) :=
  if r.valid = true then some (outer r chain (r.toBlock - r.fromBlock) r.fromBlock r.fromIndex []) else none

end Verif.Messages
