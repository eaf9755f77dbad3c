import Verif.Chain.Model
import Verif.Nonce.Model
import Verif.TxPayment.Model
/-!
# Signed transactions

What happens to a signed transaction in a block: the extensions of `SignedExtra`, runtime/frequency/src/lib.rs 290-301,
in their order, and then the dispatch of the call. Modelled are `CheckNonce`, `ChargeFrqTransactionPayment`,
`CheckFreeExtrinsicUse` and `HandlesSignedExtension`, those of the repository; the others (sender, versions, genesis,
era, weight of the block) are part of the framework and left out, which only adds transactions.

Simplifications: whether the signer can pay a fee in tokens is given with the transaction, and so are the token
balances; there are no tips. The wrappers that change the signer (proxy, multisig, derived accounts) are in
`Wrapped/Model.lean`. A call that would not decode, because a bounded list is too long, is dispatched here and fails.
-/

namespace Verif.Tx

/-- Calls: those of the six pallets, the batches of the utility pallet, and the two calls of the payment pallet. -/
inductive Call where
  | leaf (c : Chain.Call)
  | batch (k : Runtime.BatchKind) (calls : List Call)
  | payWithCapacity (c : Call)
  | payWithCapacityBatchAll (calls : List Call)

/-- `sum_add_actions_bytes`, pallets/stateful-storage/src/lib.rs 604-616; the sum of at most `MaxItemizedActionsCount` lengths
does not saturate. -/
def addedBytes (actions : List Stateful.ItemAction) : Nat :=
  (actions.map (fun a => match a with
    | .add d => d.length
    | .delete _ => 0)).sum

/-- The call with what filters and weights look at; the sizes are those of runtime/frequency/src/lib.rs 875-898. -/
def view : Chain.Call → Runtime.Call
  | .msa c => .msa c
  | .schemas (.createSchema ..) => .fn .createSchema 0
  | .schemas (.createSchemaV2 ..) => .fn .createSchemaV2 0
  | .schemas (.createSchemaV3 ..) => .fn .createSchemaV3 0
  | .schemas _ => .fn (.other .schemas false) 0
  | .messages (.ipfs ..) => .fn .addIpfsMessage 0
  | .messages (.onchain _ _ payload) => .fn .addOnchainMessage payload.length
  | .handles (.claim _ _ p) => .fn .claimHandle p.baseHandle.length
  | .handles (.change _ _ p) => .fn .changeHandle p.baseHandle.length
  | .handles .retire => .fn .retireHandle 0
  | .storage (.applyItemActions _ _ _ actions) => .fn .applyItemActions (addedBytes actions)
  | .storage (.upsertPage _ _ _ _ payload) => .fn .upsertPage payload.length
  | .storage (.deletePage ..) => .fn .deletePage 0
  | .storage (.applyItemActionsWithSignature _ _ p) => .fn .applyItemActionsWithSignature (addedBytes p.actions)
  | .storage (.upsertPageWithSignature _ _ p) => .fn .upsertPageWithSignature p.payload.length
  | .storage (.deletePageWithSignature ..) => .fn .deletePageWithSignature 0
  | .capacity (.stake ..) => .fn .stake 0
  | .capacity _ => .fn (.other .capacity false) 0

mutual
/-- The same for all calls. -/
def Call.view : Call → Runtime.Call
  | .leaf c => Tx.view c
  | .batch k calls => .batch k (viewL calls)
  | .payWithCapacity c => .payWithCapacity c.view
  | .payWithCapacityBatchAll calls => .payWithCapacityBatchAll (viewL calls)
/-- The same for lists of calls. -/
def viewL : List Call → List Runtime.Call
  | [] => []
  | c :: cs => c.view :: viewL cs
end

mutual
/-- Dispatch of a call by a signer through the filter of the origin; `none` is an error. `pay_with_capacity` and
`pay_with_capacity_batch_all`, pallets/frequency-tx-payment/src/lib.rs 194-231, only pass their calls on: the charge is
made by the extension. -/
def exec (cfg : Chain.Config) (bal : AccountId → Balance) (flt : Runtime.Filter) (who : AccountId) (c : Call)
    (s : Chain.State) : Option Chain.State :=
  if flt c.view then
    match c with
      | .leaf c => Chain.dispatch cfg bal s (.signed who) c
      | .batch k calls => execL cfg bal k (k.filter flt) who calls s
      | .payWithCapacity c => exec cfg bal flt who c s
      | .payWithCapacityBatchAll calls =>
        if calls.length ≤ Runtime.maxCapacityBatch then
          execL cfg bal .batchAll (Runtime.BatchKind.batchAll.filter flt) who calls s
        else none
  else none
/-- A list of calls: `batch` stops at the first error and keeps what was done, `force_batch` skips calls with errors,
`batch_all` fails with the first error. -/
def execL (cfg : Chain.Config) (bal : AccountId → Balance) (k : Runtime.BatchKind) (flt : Runtime.Filter)
    (who : AccountId) (calls : List Call) (s : Chain.State) : Option Chain.State :=
  match calls with
  | [] => some s
  | c :: cs => match exec cfg bal flt who c s with
    | some s' => execL cfg bal k flt who cs s'
    | none => match k with
      | .batch => some s
      | .batchAll => none
      | .forceBatch => execL cfg bal k flt who cs s
end

/-- A signed transaction: signer, number, call, encoded length; the token balances, and whether the signer can pay the
fee in tokens. -/
structure Signed where
  who : AccountId
  nonce : Nat
  call : Call
  len : Nat
  bal : AccountId → Balance
  tokens : Bool

/-- The pallets, and the accounts of `frame_system`. -/
structure State where
  chain : Chain.State
  accounts : Nonce.Accounts

/-- Configuration of the runtime; `mainnet` is the feature `frequency`. -/
structure Config where
  chain : Chain.Config
  payment : TxPayment.Config
  mainnet : Bool

/-- `ChargeFrqTransactionPayment::pre_dispatch`, pallets/frequency-tx-payment/src/lib.rs 372-430 and 493-503: with capacity if the
outermost call says so, otherwise with tokens unless the call is free. -/
def pay (cfg : Config) (s : Chain.State) (t : Signed) : Option Chain.State :=
  match TxPayment.charge cfg.payment s.msa (t.bal t.who) s.capacity t.who t.len t.call.view with
  | some r => r.toOption.map (fun c => { s with capacity := c })
  | none => if Runtime.paysNo t.call.view || t.tokens then some s else none

/-- `CheckFreeExtrinsicUse` and `HandlesSignedExtension` look at the outermost call only. -/
def extensions (cfg : Config) (s : Chain.State) (who : AccountId) : Call → Bool
  | .leaf c => Chain.extensions cfg.chain s who c
  | _ => true

/-- The extensions in their order, lib.rs 296-300: the state in which the call is dispatched, if the transaction is
included. -/
def takeIn (cfg : Config) (s : State) (t : Signed) : Option State := do
  let accounts ← (Nonce.preDispatch s.accounts t.who t.nonce (!Runtime.paysNo t.call.view)).toOption
  let chain ← pay cfg s.chain t
  if extensions cfg chain t.who t.call then some ⟨chain, accounts⟩ else none

/-- Whether the call of an included transaction succeeds. -/
def succeeds (cfg : Config) (s : State) (t : Signed) : Bool :=
  (exec cfg.chain t.bal (Runtime.contains cfg.mainnet) t.who t.call s.chain).isSome

/-- A transaction: if it is included its call is dispatched, and what fails is undone except for number and payment. -/
def submit (cfg : Config) (s : State) (t : Signed) : State :=
  match takeIn cfg s t with
  | none => s
  | some s1 => { s1 with chain := (exec cfg.chain t.bal (Runtime.contains cfg.mainnet) t.who t.call s1.chain).getD s1.chain }

end Verif.Tx
