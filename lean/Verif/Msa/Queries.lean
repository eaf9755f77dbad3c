import Verif.Msa.Model
/-!
# The queries about delegations that clients use

The runtime API of the msa pallet and the RPC method on top of it.
-/

namespace Verif.Msa

/-- `has_delegation` of the runtime API, runtime/frequency/src/lib.rs 1455-1460. -/
def hasDelegation (env : Env) (s : State) (delegator provider : MsaId) (block : BlockNumber)
    (schema : Option SchemaId) : Bool :=
  match schema with
  | some k => (ensureValidSchemaGrant env s provider delegator k block).isOk
  | none => (ensureValidDelegation env s provider delegator (some block)).isOk

/-- `msa_checkDelegations`, pallets/msa/src/rpc/src/lib.rs 122-153: one answer for each delegator asked for. The
best block is `env`. -/
def checkDelegations (env : Env) (s : State) (delegators : List MsaId) (provider : MsaId) (block : BlockNumber)
    (schema : Option SchemaId) : List (MsaId × Bool) :=
  delegators.map (fun d => (d, hasDelegation env s d provider block schema))

/-- `get_granted_schemas_by_msa_id` of the runtime API, runtime/frequency/src/lib.rs 1462-1470. -/
def grantedSchemas (s : State) (delegator provider : MsaId) : Option (List (SchemaId × BlockNumber)) :=
  (getGrantedSchemas s delegator provider).toOption

/-- `get_all_granted_delegations_by_msa_id`, runtime/frequency/src/lib.rs 1472-1477 and
`get_granted_schemas_by_msa_id` without a provider, pallets/msa/src/lib.rs 1323-1361: every delegation of the
delegator, in the order of the storage (which depends on hashes; here the order of the map). -/
def allGranted (s : State) (delegator : MsaId) : List (MsaId × List (SchemaId × BlockNumber)) :=
  (s.delegations.entries.filter (fun e => e.1.1 = delegator)).map
    (fun e => (e.1.2, e.2.perms.entries.map (fun g => (g.1, reportGrant e.2 g.2))))

end Verif.Msa
