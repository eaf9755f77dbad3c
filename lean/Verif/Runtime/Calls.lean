import Verif.Msa.Model
/-!
# Calls of the runtime, call filters and nested dispatch

`runtime/frequency/src/lib.rs`. Calls of the msa pallet are those of its model; calls of other pallets
appear by name, as far as a filter distinguishes them, with the size that determines their weight. Calls
that dispatch other calls for a signed caller (utility, capacity payment, proxy, multisig) are trees. Calls
that need another origin than a signed account (sudo, scheduler, collectives, `dispatch_as`) are leaves.

Dispatch is that of the framework: a call is refused with an error if the filter of the origin refuses it;
the filter of a signed origin is `BaseCallFilter`. The dispatching calls of utility, proxy and multisig are
not part of the repository and are modelled from their published behaviour.
-/

namespace Verif.Runtime

/-- Pallets without named calls below, `construct_runtime!`, lib.rs 1165-1224. -/
inductive Pallet where
  | system | parachainSystem | timestamp | preimage | democracy | scheduler | council | technicalCommittee
  | treasury | session | sudo | passkey | msa | messages | schemas | statefulStorage | capacity | handles
  | balances | collatorSelection | timeRelease | proxy | multisig | utility
  deriving DecidableEq, Repr

/-- Calls of pallets other than msa, by name. -/
inductive Fn where
  | remark
  | transferKeepAlive | transferAllowDeath | transferAll
  | createSchema | createSchemaV2 | createSchemaV3
  | addIpfsMessage | addOnchainMessage
  | applyItemActions | upsertPage | deletePage
  | applyItemActionsWithSignature | upsertPageWithSignature | deletePageWithSignature
  | applyItemActionsWithSignatureV2 | upsertPageWithSignatureV2 | deletePageWithSignatureV2
  | claimHandle | changeHandle | retireHandle
  | stake | setCandidacyBond
  | timeReleaseClaim | timeReleaseClaimFor | timeReleaseTransfer | timeReleaseUpdate
  | rejectAnnouncement
  /-- any other call of a pallet, and whether it is `Pays::No` -/
  | other (p : Pallet) (free : Bool)
  deriving DecidableEq, Repr

/-- The pallet of a call. -/
def Fn.pallet : Fn → Pallet
  | .remark => .system
  | .transferKeepAlive | .transferAllowDeath | .transferAll => .balances
  | .createSchema | .createSchemaV2 | .createSchemaV3 => .schemas
  | .addIpfsMessage | .addOnchainMessage => .messages
  | .applyItemActions | .upsertPage | .deletePage | .applyItemActionsWithSignature | .upsertPageWithSignature
  | .deletePageWithSignature | .applyItemActionsWithSignatureV2 | .upsertPageWithSignatureV2
  | .deletePageWithSignatureV2 => .statefulStorage
  | .claimHandle | .changeHandle | .retireHandle => .handles
  | .stake => .capacity
  | .setCandidacyBond => .collatorSelection
  | .timeReleaseClaim | .timeReleaseClaimFor | .timeReleaseTransfer | .timeReleaseUpdate => .timeRelease
  | .rejectAnnouncement => .proxy
  | .other p _ => p

/-- The three batch calls of the utility pallet. -/
inductive BatchKind where
  | batch | batchAll | forceBatch
  deriving DecidableEq, Repr

/-- `ProxyType`, runtime/common/src/proxy.rs 19-30. -/
inductive ProxyType where
  | any | nonTransfer | governance | staking | cancelProxy
  deriving DecidableEq, Repr

/-- `RuntimeCall`. Accounts derived from hashes (`as_derivative`, multisig) are given. -/
inductive Call where
  | msa (c : Msa.Call)
  | fn (f : Fn) (size : Nat)
  | batch (k : BatchKind) (calls : List Call)
  | asDerivative (account : AccountId) (c : Call)
  | payWithCapacity (c : Call)
  | payWithCapacityBatchAll (calls : List Call)
  /-- `proxy` of account `real` with a registration of the given type -/
  | proxy (ty : ProxyType) (real : AccountId) (c : Call)
  /-- `as_multi_threshold_1`, executed as the multisig account -/
  | multiThreshold1 (account : AccountId) (c : Call)

/-- `is_pays_no_call`, lib.rs 200-202, from the weights of the calls: msa lib.rs 597, 711, 749, 831, handles
lib.rs 418. The wrappers pay. -/
def paysNo : Call → Bool
  | .msa (.revokeDelegationByDelegator _) | .msa (.deleteMsaPublicKey _) | .msa (.revokeDelegationByProvider _)
  | .msa .retireMsa => true
  | .fn .retireHandle _ => true
  | .fn (.other _ free) _ => free
  | _ => false

/-- `is_batch_call_allowed`, lib.rs 176-198. -/
def isBatchCallAllowed : Call → Bool
  | .batch _ _ => false
  | .payWithCapacity _ | .payWithCapacityBatchAll _ => false
  | .msa (.createProvider _) => false
  | .fn .createSchema _ | .fn .createSchemaV2 _ | .fn .createSchemaV3 _ => false
  | c => !paysNo c

/-- `is_utility_call_allowed`, lib.rs 167-174; the other calls of the pallet are allowed. -/
def isUtilityCallAllowed (calls : List Call) : Bool := calls.any isBatchCallAllowed

/-- `BaseCallFilter::contains`, lib.rs 139-163; `mainnet` is the feature `frequency`. -/
def contains (mainnet : Bool) : Call → Bool
  | .batch _ calls => isUtilityCallAllowed calls
  | .msa (.createProvider _) => !mainnet
  | .fn .createSchema _ | .fn .createSchemaV2 _ | .fn .createSchemaV3 _ => !mainnet
  | _ => true

/-- `InstanceFilter::filter` for `ProxyType`, lib.rs 206-260. -/
def ProxyType.filter : ProxyType → Call → Bool
  | .any, _ => true
  | .nonTransfer, c => match c with
    | .msa _ | .payWithCapacity _ | .payWithCapacityBatchAll _ | .multiThreshold1 _ _ | .batch _ _ | .asDerivative _ _ => true
    | .proxy _ _ _ => false
    | .fn f _ => match f with
      | .timeReleaseClaim | .timeReleaseClaimFor => true
      | f => match f.pallet with
        | .capacity | .collatorSelection | .council | .democracy | .handles | .messages | .msa | .multisig
        | .preimage | .scheduler | .schemas | .session | .statefulStorage | .technicalCommittee | .treasury
        | .utility => true
        | _ => false
  | .governance, c => match c with
    | .batch _ _ | .asDerivative _ _ => true
    | .fn f _ => match f.pallet with
      | .treasury | .democracy | .technicalCommittee | .council | .utility => true
      | _ => false
    | _ => false
  | .staking, c => match c with
    | .fn .stake _ | .fn .setCandidacyBond _ => true
    | _ => false
  | .cancelProxy, c => match c with
    | .fn .rejectAnnouncement _ => true
    | _ => false

/-- `InstanceFilter::is_superset` for `ProxyType`, lib.rs 261-269. -/
def ProxyType.isSuperset (a b : ProxyType) : Bool :=
  if a = b then true else match a, b with
    | .any, _ => true
    | _, .any => false
    | .nonTransfer, _ => true
    | _, _ => false

/-- `PasskeyCallFilter::contains`, lib.rs 275-287, without the benchmark feature. -/
def passkeyContains : Call → Bool
  | .fn .transferKeepAlive _ | .fn .transferAllowDeath _ | .fn .transferAll _ => true
  | _ => false

/-! ## Nested dispatch -/

/-- A filter of an origin. -/
abbrev Filter := Call → Bool

/-- The filter that `batch_all` adds to the origin: no nested `batch_all`. -/
def noBatchAll : Call → Bool
  | .batch .batchAll _ => false
  | _ => true

/-- The filter of the origin of a batched call. -/
def BatchKind.filter (k : BatchKind) (flt : Filter) : Filter :=
  if k = .batchAll then fun c => flt c && noBatchAll c else flt

/-- `MaximumCapacityBatchLength`, runtime/common/src/constants.rs 241, checked in
pallets/frequency-tx-payment/src/lib.rs 223-226. -/
def maxCapacityBatch : Nat := 10

/-- The filter of a proxied call: a new origin with the filter of the proxy type. -/
def proxied (base : Filter) (ty : ProxyType) : Filter := fun c => base c && ty.filter c

mutual
/-- All calls that can be executed when a call is dispatched from an account with a filter: the call itself
if the filter lets it pass, and what it dispatches. -/
def executed (base flt : Filter) (who : AccountId) (c : Call) : List (AccountId × Call) :=
  if flt c then
    (who, c) :: match c with
      | .msa _ | .fn _ _ => []
      | .batch k calls => executedL base (k.filter flt) who calls
      | .asDerivative account c => executed base flt account c
      | .payWithCapacity c => executed base flt who c
      | .payWithCapacityBatchAll calls => executedL base (BatchKind.batchAll.filter flt) who calls
      | .proxy ty real c => executed base (proxied base ty) real c
      | .multiThreshold1 account c => executed base base account c
  else []
/-- The same for a list of calls. -/
def executedL (base flt : Filter) (who : AccountId) (calls : List Call) : List (AccountId × Call) :=
  match calls with
  | [] => []
  | c :: cs => executed base flt who c ++ executedL base flt who cs
end

mutual
/-- Effect of a dispatched call on the state of the msa pallet; `none` is an error. Simplified: every proxy
registration and multisig membership named by a call is taken to exist, and the capacity charge of
`pay_with_capacity` (made by a transaction extension) is not part of it. So more calls succeed here than on
the chain, and a statement about what a call can do holds on the chain as well; the counterexamples use
neither proxies, multisigs nor capacity payment. -/
def exec (cfg : Msa.Config) (env : Msa.Env) (base flt : Filter) (who : AccountId) (c : Call) (s : Msa.State) : Option Msa.State :=
  if flt c then
    match c with
      | .msa c => (Msa.dispatch cfg env s (.signed who) c).toOption
      | .fn _ _ => some s
      | .batch k calls => execL cfg env base k (k.filter flt) who calls s
      | .asDerivative account c => exec cfg env base flt account c s
      | .payWithCapacity c => exec cfg env base flt who c s
      | .payWithCapacityBatchAll calls =>
        if calls.length ≤ maxCapacityBatch then
          execL cfg env base .batchAll (BatchKind.batchAll.filter flt) who calls s
        else none
      | .proxy ty real c => some ((exec cfg env base (proxied base ty) real c s).getD s)
      | .multiThreshold1 account c => exec cfg env base base account c s
  else none
/-- Effect of a list of calls: `batch` stops at the first error and keeps what was done, `force_batch` skips
calls with errors, `batch_all` fails with the first error. -/
def execL (cfg : Msa.Config) (env : Msa.Env) (base : Filter) (k : BatchKind) (flt : Filter) (who : AccountId)
    (calls : List Call) (s : Msa.State) : Option Msa.State :=
  match calls with
  | [] => some s
  | c :: cs => match exec cfg env base flt who c s with
    | some s' => execL cfg env base k flt who cs s'
    | none => match k with
      | .batch => some s
      | .batchAll => none
      | .forceBatch => execL cfg env base k flt who cs s
end

/-- `CheckFreeExtrinsicUse` as a transaction extension of the runtime, lib.rs 290-301: it sees the outermost
call only. -/
def extension (env : Msa.Env) (s : Msa.State) (who : AccountId) : Call → Bool
  | .msa c => (Msa.validate env s who c).isOk
  | _ => true

/-- A signed transaction: the extension must accept it, then it is dispatched. -/
def submit (mainnet : Bool) (cfg : Msa.Config) (env : Msa.Env) (who : AccountId) (c : Call) (s : Msa.State) : Msa.State :=
  if extension env s who c then (exec cfg env (contains mainnet) (contains mainnet) who c s).getD s else s

end Verif.Runtime
