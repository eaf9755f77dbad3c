import Verif.Runtime.Calls
import Verif.Capacity.Model
/-!
# Payment of transactions with capacity

`pallets/frequency-tx-payment/src/lib.rs`, `payment.rs`, `capacity_stable_weights.rs`, and the list of
eligible calls and the fee query of `runtime/frequency/src/lib.rs`. The charge is made by a transaction
extension; a transaction it refuses is not included and changes nothing. Payment with tokens is that of
`pallet_transaction_payment`, outside the repository, and not modelled.
-/

namespace Verif.TxPayment
open Runtime (Call)

/-- Largest `u64`. -/
def maxU64 : Nat := 2 ^ 64 - 1

/-- `x as u32`. -/
def u32 (n : Nat) : Nat := n % 2 ^ 32

/-- `sp_weights::Weight`. -/
structure Weight where
  refTime : Nat
  proof : Nat
  deriving DecidableEq, Repr

/-- `Weight::zero`. -/
def Weight.zero : Weight := ⟨0, 0⟩

/-- `Weight::saturating_add`. -/
def Weight.satAdd (a b : Weight) : Weight :=
  ⟨min maxU64 (a.refTime + b.refTime), min maxU64 (a.proof + b.proof)⟩

/-- `Weight::checked_add`. -/
def Weight.checkedAdd (a b : Weight) : Option Weight :=
  if a.refTime + b.refTime ≤ maxU64 ∧ a.proof + b.proof ≤ maxU64 then
    some ⟨a.refTime + b.refTime, a.proof + b.proof⟩
  else none

/-- `Weight::min`. -/
def Weight.min (a b : Weight) : Weight := ⟨Nat.min a.refTime b.refTime, Nat.min a.proof b.proof⟩

/-- Constants of the runtime. The conversion of weights (`WeightToFee`, runtime/common/src/fee.rs, evaluated
by the framework) is left open here; the one of the runtime is in `WeightFee.lean`. -/
structure Config where
  /-- `DbWeight::read` -/
  read : Nat
  /-- `DbWeight::write` -/
  write : Nat
  /-- `BlockWeights::max_block` -/
  maxBlock : Weight
  weightToFee : Weight → Balance
  /-- `TransactionByteFee`, runtime/common/src/constants.rs 237 -/
  byteFee : Balance
  /-- `Currency::minimum_balance` -/
  minBalance : Balance
  /-- largest value of the balance type (`u128`) -/
  maxBalance : Nat

/-- A weight of capacity_stable_weights.rs: base, per unit, reads and writes of the database. -/
def stable (cfg : Config) (base proof perUnit units reads writes : Nat) : Weight :=
  (((Weight.mk base proof).satAdd ⟨Nat.min maxU64 (perUnit * units), 0⟩).satAdd
    ⟨Nat.min maxU64 (cfg.read * reads), 0⟩).satAdd ⟨Nat.min maxU64 (cfg.write * writes), 0⟩

/-- `CapacityEligibleCalls::get_stable_weight`, runtime/frequency/src/lib.rs 875-898, with the weights of
capacity_stable_weights.rs 82-316. The size of a call is the length that its weight depends on. -/
def stableWeight (cfg : Config) : Call → Option Weight
  | .msa (.addPublicKeyToMsa ..) => some (stable cfg 177629000 18396 0 0 8 7)
  | .msa (.createSponsoredAccountWithDelegation _ _ p) =>
    some (stable cfg 123084817 14946 138668 (u32 p.schemaIds.length) 10 7)
  | .msa (.grantDelegation _ _ p) => some (stable cfg 115947313 14946 192710 (u32 p.schemaIds.length) 8 4)
  | .fn .addIpfsMessage _ => some (stable cfg 159242000 48664 0 0 3 1)
  | .fn .addOnchainMessage n => some (stable cfg 174064230 59148 1527 (u32 n) 4 1)
  | .fn .applyItemActions n => some (stable cfg 104137090 45745 7325 (u32 n) 4 1)
  | .fn .upsertPage n => some (stable cfg 32297181 12791 594 (u32 n) 4 1)
  | .fn .deletePage _ => some (stable cfg 37792000 13950 0 0 4 1)
  | .fn .applyItemActionsWithSignature n | .fn .applyItemActionsWithSignatureV2 n =>
    some (stable cfg 158947612 45752 13664 (u32 n) 3 1)
  | .fn .upsertPageWithSignature n | .fn .upsertPageWithSignatureV2 n =>
    some (stable cfg 87768259 12724 6648 (u32 n) 3 1)
  | .fn .deletePageWithSignature _ | .fn .deletePageWithSignatureV2 _ =>
    some (stable cfg 90631000 13883 0 0 3 1)
  | .fn .claimHandle n => some (stable cfg 85480476 12434 107272 (u32 n) 3 3)
  | .fn .changeHandle n => some (stable cfg 95748064 12434 212118 (u32 n) 3 4)
  | _ => none

/-- `get_inner_calls`, runtime/frequency/src/lib.rs 900-911. -/
def innerCalls : Call → List Call
  | .payWithCapacity c => [c]
  | .payWithCapacityBatchAll calls => calls
  | c => [c]

/-- `CAPACITY_EXTRINSIC_BASE_WEIGHT`, capacity_stable_weights.rs 34-35. -/
def extrinsicBase : Weight := ⟨1000 * 105455, 0⟩

/-- `saturating_add` of balances. -/
def satAdd (cfg : Config) (a b : Balance) : Balance := min cfg.maxBalance (a + b)

/-- `weight_to_fee`, lib.rs 311-316. -/
def weightToFee (cfg : Config) (w : Weight) : Balance := cfg.weightToFee (w.min cfg.maxBlock)

/-- `length_to_fee`, lib.rs 305-307, with `ConstantMultiplier`, runtime/frequency/src/lib.rs 862. -/
def lengthToFee (cfg : Config) (len : Nat) : Balance := min cfg.maxBalance (len * cfg.byteFee)

/-- `compute_capacity_fee`, lib.rs 252-260. -/
def computeCapacityFee (cfg : Config) (len : Nat) (w : Weight) : Balance :=
  satAdd cfg (satAdd cfg (weightToFee cfg extrinsicBase) (weightToFee cfg w)) (lengthToFee cfg len)

/-- Why a charge is refused, lib.rs 320-329 and payment.rs. -/
inductive Err where
  | callIsNotCapacityEligible | invalidMsaKey | payment
  deriving DecidableEq, Repr

/-- The loop of `withdraw_capacity_fee`, lib.rs 397-401. -/
def sumWeights (cfg : Config) : List Call → Weight → Except Err Weight
  | [], acc => .ok acc
  | c :: cs, acc => do
    let w ← okOr (stableWeight cfg c) .callIsNotCapacityEligible
    sumWeights cfg cs (acc.satAdd w)

/-- An error of the capacity pallet becomes a payment error. -/
def toPayment {α : Type} (x : Except Capacity.Err α) : Except Err α :=
  match x with
  | .ok a => .ok a
  | .error _ => .error .payment

/-- `CapacityAdapter::withdraw_fee`, payment.rs 34-59; `balance` is the total token balance of the key. -/
def withdrawFee (cfg : Config) (keys : Msa.State) (balance : Balance) (s : Capacity.State) (key : AccountId)
    (fee : Balance) : Except Err Capacity.State := do
  ensure (cfg.minBalance ≤ balance) .payment
  let m ← okOr (keys.keyToMsa.get key) .invalidMsaKey
  toPayment (Capacity.withdrawFee s m fee)

/-- `withdraw_capacity_fee`, lib.rs 389-408. -/
def withdrawCapacityFee (cfg : Config) (keys : Msa.State) (balance : Balance) (s : Capacity.State)
    (key : AccountId) (calls : List Call) (len : Nat) : Except Err Capacity.State := do
  let w ← sumWeights cfg calls Weight.zero
  withdrawFee cfg keys balance s key (computeCapacityFee cfg (u32 len) w)

/-- The two capacity branches of `withdraw_fee`, lib.rs 372-386; `none` if the transaction is paid with
tokens. Only the outermost call decides. -/
def charge (cfg : Config) (keys : Msa.State) (balance : Balance) (s : Capacity.State) (key : AccountId)
    (len : Nat) : Call → Option (Except Err Capacity.State)
  | .payWithCapacity c => some (withdrawCapacityFee cfg keys balance s key [c] len)
  | .payWithCapacityBatchAll calls => some (withdrawCapacityFee cfg keys balance s key calls len)
  | _ => none

/-- The loop of `compute_capacity_fee_details`, lib.rs 279-282: a call that is not eligible counts zero. -/
def sumWeightsOrZero (cfg : Config) : List Call → Weight → Weight
  | [], acc => acc
  | c :: cs, acc => sumWeightsOrZero cfg cs (acc.satAdd ((stableWeight cfg c).getD Weight.zero))

/-- `compute_capacity_fee_details`, lib.rs 270-303: the total of the reported fee (`FeeDetails::final_fee`),
zero without inclusion fee; the tip is zero. -/
def feeDetails (cfg : Config) (c : Call) (dispatchWeight : Weight) (len : Nat) : Balance :=
  let sum := sumWeightsOrZero cfg (innerCalls c) Weight.zero
  if sum = Weight.zero then 0 else
    match sum.checkedAdd dispatchWeight with
    | some w => satAdd cfg (satAdd cfg (weightToFee cfg extrinsicBase) (lengthToFee cfg len)) (weightToFee cfg w)
    | none => 0

/-- The runtime API `compute_capacity_fee`, runtime/frequency/src/lib.rs 1399-1416; `dispatchWeight` is the
weight of the whole transaction. -/
def estimate (cfg : Config) (c : Call) (dispatchWeight : Weight) (len : Nat) : Balance :=
  match c with
  | .payWithCapacity _ | .payWithCapacityBatchAll _ => feeDetails cfg c dispatchWeight len
  | c => feeDetails cfg c Weight.zero len

end Verif.TxPayment
