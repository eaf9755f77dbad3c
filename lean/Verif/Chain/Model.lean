import Verif.Msa.Model
import Verif.Schemas.Model
import Verif.Messages.Model
import Verif.Handles.Model
import Verif.Stateful.Model
import Verif.Capacity.Model
/-!
# The pallets together

`runtime/frequency/src/lib.rs`: the state of the msa, schemas, messages, handles, stateful-storage and capacity
pallets in one, each pallet seeing the others as the configuration of the runtime says. What the models of
the single pallets take as an environment is computed from the state here.

Simplifications: token balances are given with every step (transfers, fees in tokens and time release are
left out); nested calls are flattened into the calls they dispatch, so that a history may contain any call
of any origin outside the transaction extensions; call filters are left out, which only adds histories. The
off-chain index events of the msa pallet are kept as a log instead of being dropped every block.
-/

namespace Verif.Chain

/-- Configurations of the pallets, lib.rs 473-560 and 1073-1135; `lo` and `hi` are the range of the handle
suffixes, lib.rs 1133-1135. -/
structure Config where
  msa : Msa.Config
  schemas : Schemas.Config
  messages : Messages.Config
  handles : Handles.Config
  storage : Stateful.Config
  capacity : Capacity.Config
  lo : Nat
  hi : Nat

/-- State of the six pallets and the block number. -/
structure State where
  block : BlockNumber
  msa : Msa.State
  schemas : Schemas.State
  messages : Messages.State
  handles : Handles.State
  storage : Stateful.Store
  capacity : Capacity.State

/-- Genesis. -/
def State.init (maxBytes : Nat) : State :=
  ⟨0, .init, .init maxBytes, .init, .init, ∅, .init⟩

/-! ## How the pallets see each other -/

/-- `MsaLookup::get_msa_id`, pallets/msa/src/lib.rs 1502-1507. -/
def msaOf (s : State) (key : AccountId) : Option MsaId := s.msa.keyToMsa.get key

/-- The msa pallet: `SchemaValidator = Schemas` and `HandleProvider = Handles`, lib.rs 485-487; used in
pallets/msa/src/lib.rs 1046 and 1745. -/
def msaEnv (cfg : Config) (s : State) : Msa.Env where
  block := s.block
  latestSchema := s.schemas.lastId
  hasHandle m := (Handles.handleForMsa cfg.handles s.handles m).isSome

/-- `SchemaGrantValidator::ensure_valid_schema_grant` succeeds. -/
def grant (cfg : Config) (s : State) (provider delegator : MsaId) (schema : SchemaId) (b : BlockNumber) : Bool :=
  (Msa.ensureValidSchemaGrant (msaEnv cfg s) s.msa provider delegator schema b).isOk

/-- The messages pallet, lib.rs 1076-1081; used in pallets/messages/src/lib.rs 213, 262, 276, 339. -/
def messagesEnv (cfg : Config) (s : State) : Messages.Env where
  msaOf := msaOf s
  grant := grant cfg s
  location k := (Schemas.getSchemaInfoById s.schemas k).map (fun i => i.2.1)

/-- The same type in two models. -/
def location : Schemas.Location → Stateful.Location
  | .onChain => .onChain
  | .ipfs => .ipfs
  | .itemized => .itemized
  | .paginated => .paginated

/-- The same type in two models. -/
def setting : Schemas.Setting → Stateful.Setting
  | .appendOnly => .appendOnly
  | .signatureRequired => .signatureRequired

/-- The stateful-storage pallet, lib.rs 1103-1108; used in pallets/stateful-storage/src/lib.rs 500, 541, 583, 716,
769, 775, 793. -/
def storageEnv (cfg : Config) (s : State) : Stateful.Env where
  block := s.block
  msaOf := msaOf s
  granted p d k := grant cfg s p d k s.block
  schema k := (Schemas.getSchemaInfoById s.schemas k).map (fun i => ⟨location i.2.1, i.2.2.map setting⟩)

/-- The handles pallet, lib.rs 1131-1135; used in pallets/handles/src/lib.rs 386, 423, 472. -/
def handlesEnv (cfg : Config) (s : State) : Handles.Env := ⟨s.block, msaOf s, cfg.lo, cfg.hi⟩

/-- The capacity pallet: `TargetValidator = Msa`, lib.rs 509, `validate` in pallets/msa/src/lib.rs 1576-1580; used
in pallets/capacity/src/lib.rs 435. -/
def capacityEnv (bal : AccountId → Balance) (s : State) : Capacity.Env := ⟨bal, Msa.isRegisteredProvider s.msa⟩

/-! ## Calls -/

/-- Origins: a signed account, root, more than half of the council, at least one council member. -/
inductive Origin where
  | signed (key : AccountId)
  | root
  | council
  | member
  deriving DecidableEq

/-- For the msa pallet: `CreateProviderViaGovernanceOrigin` is root or at least one member, lib.rs 497-500. -/
def Origin.msa : Origin → Msa.Origin
  | .signed k => .signed k
  | _ => .governance

/-- For the schemas pallet: `CreateSchemaViaGovernanceOrigin` is root or more than half, lib.rs 534-537. No call
of the pallet accepts the last. -/
def Origin.schemas : Origin → Option Schemas.Origin
  | .signed k => some (.signed k)
  | .root => some .root
  | .council => some .council
  | .member => none

/-- The signer. -/
def Origin.signer : Origin → Option AccountId
  | .signed k => some k
  | _ => none

/-- Calls of the handles pallet, pallets/handles/src/lib.rs 374-494. -/
inductive HandleCall where
  | claim (owner : AccountId) (sig : Signature) (p : Handles.Payload)
  | change (owner : AccountId) (sig : Signature) (p : Handles.Payload)
  | retire

/-- Calls of the capacity pallet, pallets/capacity/src/lib.rs 320-416. -/
inductive CapacityCall where
  | stake (target : MsaId) (amount : Balance)
  | unstake (target : MsaId) (amount : Balance)
  | withdrawUnstaked
  | setEpochLength (length : BlockNumber)

/-- Calls of the six pallets. -/
inductive Call where
  | msa (c : Msa.Call)
  | schemas (c : Schemas.Call)
  | messages (c : Messages.Call)
  | handles (c : HandleCall)
  | storage (c : Stateful.Call)
  | capacity (c : CapacityCall)

/-- The operation of a call of the handles pallet by a signed caller. -/
def HandleCall.op (key : AccountId) : HandleCall → Handles.Op
  | .claim owner sig p => .claim owner sig p
  | .change owner sig p => .change owner sig p
  | .retire => .retireWrapped key

/-- The operation of a call of the capacity pallet, if the origin is right: signed accounts stake, root sets the
length of the epochs. -/
def CapacityCall.op : Origin → CapacityCall → Option Capacity.Op
  | .signed k, .stake t a => some (.stake k t a)
  | .signed k, .unstake t a => some (.unstake k t a)
  | .signed k, .withdrawUnstaked => some (.withdrawUnstaked k)
  | .root, .setEpochLength n => some (.setEpochLength n)
  | _, _ => none

/-- Dispatch of a call: the new state, if it succeeds. -/
def dispatch (cfg : Config) (bal : AccountId → Balance) (s : State) (o : Origin) : Call → Option State
  | .msa c => (Msa.dispatch cfg.msa (msaEnv cfg s) s.msa o.msa c).toOption.map (fun t => { s with msa := t })
  | .schemas c => do
    let o ← o.schemas
    let t ← (Schemas.dispatch cfg.schemas s.schemas o c).toOption
    some { s with schemas := t }
  | .messages c => do
    let key ← o.signer
    let t ← (Messages.dispatch cfg.messages (messagesEnv cfg s) s.messages key c).toOption
    some { s with messages := t }
  | .handles c => do
    let key ← o.signer
    let t ← (Handles.dispatch cfg.handles s.handles ⟨handlesEnv cfg s, c.op key⟩).toOption
    some { s with handles := t }
  | .storage c => do
    let t ← (Stateful.dispatch cfg.storage (storageEnv cfg s) s.storage o.signer c).toOption
    some { s with storage := t }
  | .capacity c => do
    let op ← c.op o
    let t ← (Capacity.dispatch cfg.capacity s.capacity ⟨capacityEnv bal s, op⟩).toOption
    some { s with capacity := t }

/-- The two extensions of the repository that look at the call, lib.rs 299-300. -/
def extensions (cfg : Config) (s : State) (who : AccountId) : Call → Bool
  | .msa c => (Msa.validate (msaEnv cfg s) s.msa who c).isOk
  | .handles .retire => (Handles.validateRetire (handlesEnv cfg s) s.handles who).isOk
  | _ => true

/-! ## Histories -/

/-- What happens to the chain. -/
inductive Step where
  /-- the next block begins -/
  | newBlock
  /-- a call is dispatched, however it was wrapped; `bal` are the token balances -/
  | call (bal : AccountId → Balance) (o : Origin) (c : Call)
  /-- a signed transaction with this call -/
  | submit (bal : AccountId → Balance) (who : AccountId) (c : Call)
  /-- a transaction signed with `key` is paid with capacity -/
  | charge (key : AccountId) (fee : Balance)
  /-- a runtime upgrade runs the migration of the schemas pallet, lib.rs 322 -/
  | upgrade (known : List (SchemaId × Bytes))

/-- The beginning of a block, `on_initialize` of the messages and the capacity pallet. -/
def newBlock (cfg : Config) (s : State) : State :=
  { s with
    block := s.block + 1
    messages := Messages.onInitialize s.messages
    capacity := Capacity.startNewEpochIfNeeded cfg.capacity s.capacity (s.block + 1) }

/-- Payment with capacity, pallets/frequency-tx-payment/src/payment.rs 34-59: by the account of the signer. -/
def charge (s : State) (key : AccountId) (fee : Balance) : Option State := do
  let m ← msaOf s key
  let t ← (Capacity.withdrawFee s.capacity m fee).toOption
  some { s with capacity := t }

/-- A step. What fails changes nothing. -/
def apply (cfg : Config) (s : State) : Step → State
  | .newBlock => newBlock cfg s
  | .call bal o c => (dispatch cfg bal s o c).getD s
  | .submit bal who c => if extensions cfg s who c then (dispatch cfg bal s (.signed who) c).getD s else s
  | .charge key fee => (charge s key fee).getD s
  | .upgrade known => { s with schemas := Schemas.migrate s.schemas known }

/-- A history. -/
def run (cfg : Config) (s : State) (h : List Step) : State := h.foldl (apply cfg) s

end Verif.Chain
