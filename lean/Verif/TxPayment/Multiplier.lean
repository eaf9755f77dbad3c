import Verif.TxPayment.PropsWeightFee
import Verif.Capacity.PropsShare
/-!
# The fee in tokens and the multiplier that follows demand

`pallet_transaction_payment` with `SlowAdjustingFeeUpdate` of `polkadot_runtime_common`, runtime/frequency/src/lib.rs 858-865.
Neither is part of the repository; their published source is followed. Fixed point numbers have 18 decimals and 128 bits.
-/

namespace Verif.TxPayment

/-- One, as a fixed point number. -/
def fixOne : Nat := 1000000000000000000

/-- The largest fixed point number, also the maximal multiplier. -/
def fixMax : Nat := 2 ^ 128 - 1

/-- `saturating_mul`, rounding down. -/
def fixMul (a b : Nat) : Nat := min fixMax (a * b / fixOne)

/-- `saturating_from_rational`, rounding down. -/
def fixRatio (n d : Nat) : Nat := min fixMax (n * fixOne / d)

/-- `max_total` of the normal class: `NORMAL_DISPATCH_RATIO * MAXIMUM_BLOCK_WEIGHT`, runtime/frequency/src/lib.rs 398-414 and
runtime/common/src/constants.rs 64-69: three quarters of half a second and of five mebibytes. -/
def normalMax : Weight := ⟨375000000000, 3932160⟩

/-- `Perquintill::from_percent(25) * x` (`TargetBlockFullness`), rounded to nearest, halves down. -/
def quarterOf (x : Nat) : Nat := (x * 250000000000000000 + (fixOne / 2 - 1)) / fixOne

/-- `AdjustmentVariable`: 75 millionths. -/
def adjustment : Nat := fixRatio 75 1000000

/-- The dimension that limits the block: its use, at most the maximum, and its maximum. -/
def limiting (used : Weight) : Nat × Nat :=
  let u : Weight := ⟨min used.refTime normalMax.refTime, min used.proof normalMax.proof⟩
  if Capacity.fromRational u.refTime (max normalMax.refTime 1) < Capacity.fromRational u.proof (max normalMax.proof 1)
  then (u.proof, normalMax.proof) else (u.refTime, normalMax.refTime)

/-- `TargetedFeeAdjustment::convert`. `least` is `MinimumMultiplier`, left open; `used` the weight of the normal
transactions of the block. -/
def nextMultiplier (least : Nat) (used : Weight) (previous : Nat) : Nat :=
  let previous := max previous least
  let (weight, most) := limiting used
  let target := quarterOf most
  let diff := fixRatio (max weight target - min weight target) (max most 1)
  let first := fixMul adjustment diff
  let second := fixMul (fixMul adjustment adjustment * fixOne / (2 * fixOne)) (fixMul diff diff)
  if target ≤ weight then
    max least (min fixMax (min fixMax (previous + fixMul (min fixMax (first + second)) previous)))
  else
    max least (min fixMax (previous - fixMul (first - second) previous))

/-- `NextFeeMultiplier` after blocks with these weights, updated at the end of each; `m` before them. -/
def multiplier (least : Nat) (m : Nat) (blocks : List Weight) : Nat :=
  blocks.foldl (fun m w => nextMultiplier least w m) m

/-- `MAXIMUM_BLOCK_WEIGHT`, runtime/common/src/constants.rs 67-69. -/
def blockMax : Weight := ⟨500000000000, 5242880⟩

/-- `compute_fee_raw` of a transaction that is paid for in tokens, without tip, at a multiplier: base fee, length fee
(`TransactionByteFee`, constants.rs 237), and the fee for its weight times the multiplier. -/
def tokenFee (m : Nat) (w : Weight) (len : Nat) : Nat :=
  let base := runtimeWeightToFee ⟨baseTime, 0⟩
  let weightFee := runtimeWeightToFee (w.min blockMax)
  min fixMax (min fixMax (base + min fixMax (len * 10000)) + min fixMax (m * weightFee / fixOne))

end Verif.TxPayment
