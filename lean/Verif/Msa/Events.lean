import Verif.Msa.Model
/-!
# Events of the MSA pallet

`pallets/msa/src/lib.rs`, `enum Event` (244-301) and the `deposit_event` calls of the dispatchables. (The field
`events` of the state holds what `offchain_index_event` records; these here are the events of the block.)
-/

namespace Verif.Msa

/-- `Event`, lib.rs 244-301. -/
inductive Notice
  | msaCreated (m : MsaId) (key : AccountId)
  | keyAdded (m : MsaId) (key : AccountId)
  | keyDeleted (key : AccountId)
  | delegationGranted (provider delegator : MsaId)
  | providerCreated (provider : MsaId)
  | delegationRevoked (provider delegator : MsaId)
  | msaRetired (m : MsaId)
  | delegationUpdated (provider delegator : MsaId)
  deriving DecidableEq, Repr

/-- Events deposited by a call that succeeds in state `s`: lib.rs 433-435, 498-505, 526-528, 580, 609, 682-688,
723-725, 764, 807, 841-844, 903-905. `propose_to_be_provider` deposits none. -/
def deposited (s : State) : Origin → Call → List Notice
  | .signed who, .create => [.msaCreated (s.maxMsaId + 1) who]
  | .signed who, .createSponsoredAccountWithDelegation dk _ _ =>
    match s.keyToMsa.get who with
    | some provider => [.msaCreated (s.maxMsaId + 1) dk, .delegationGranted provider (s.maxMsaId + 1)]
    | none => []
  | .signed who, .createProvider _ =>
    match s.keyToMsa.get who with
    | some m => [.providerCreated m]
    | none => []
  | .signed who, .grantDelegation dk _ _ =>
    match s.keyToMsa.get who, s.keyToMsa.get dk with
    | some provider, some delegator => [.delegationGranted provider delegator]
    | _, _ => []
  | .signed who, .revokeDelegationByDelegator provider =>
    match s.keyToMsa.get who with
    | some delegator => [.delegationRevoked provider delegator]
    | none => []
  | .signed who, .revokeDelegationByProvider delegator =>
    match s.keyToMsa.get who with
    | some provider => [.delegationRevoked provider delegator]
    | none => []
  | .signed _, .addPublicKeyToMsa _ _ _ p => [.keyAdded p.msaId p.newPublicKey]
  | .signed who, .deleteMsaPublicKey key =>
    match s.keyToMsa.get who with
    | some _ => [.keyDeleted key]
    | none => []
  | .signed who, .revokeSchemaPermissions provider _ =>
    match s.keyToMsa.get who with
    | some delegator => [.delegationUpdated provider delegator]
    | none => []
  | .signed who, .retireMsa =>
    match s.keyToMsa.get who with
    | some m => [.keyDeleted who, .msaRetired m]
    | none => []
  | .governance, .createProviderViaGovernance key _ =>
    match s.keyToMsa.get key with
    | some m => [.providerCreated m]
    | none => []
  | _, _ => []

/-- Events a step leaves in its block: those of a failing call are rolled back with it. -/
def noticesOf (cfg : Config) (s : State) (st : Step) : List Notice :=
  match dispatch cfg st.env s st.origin st.call with
  | .ok _ => deposited s st.origin st.call
  | .error _ => []

/-- Events of a history, in order. -/
def noticesFrom (cfg : Config) : State → List Step → List Notice
  | _, [] => []
  | s, st :: rest => noticesOf cfg s st ++ noticesFrom cfg (apply cfg s st) rest

end Verif.Msa
