import Verif.TxPayment.Model
/-!
# Weight to fee

`runtime/common/src/fee.rs` 26-41, with `Perbill` and `WeightToFeePolynomial` of the SDK (sp-arithmetic, sp-weights),
which are not part of the repository and modelled from their published source.
-/

namespace Verif.TxPayment

/-- Parts of `Perbill::one`. -/
def billion : Nat := 1000000000

/-- `div_rounded` up. -/
def divUp (a b : Nat) : Nat := a / b + if a % b = 0 then 0 else 1

/-- `Perbill::from_rational`: parts per billion of `p / q`, rounded down; both are first divided by the same factor so
that they fit into the type. One for `q = 0` or `p > q`. -/
def fromRational (p q : Nat) : Nat :=
  if q = 0 ∨ q < p then billion else
    let factor := max 1 (divUp q billion)
    (p / factor) * billion / (q / factor)

/-- `Perbill * x`: to the nearest, halves down (`overflow_prune_mul`, `rational_mul_correction`). -/
def perbillMul (part x : Nat) : Nat :=
  x / billion * part + ((x % billion) * part / billion + if billion / 2 < (x % billion) * part % billion then 1 else 0)

/-- `CENTS`, runtime/common/src/constants.rs 45-47. -/
def cents : Balance := 10 ^ 8 / 100

/-- Time of `ExtrinsicBaseWeight`, runtime/common/src/weights/extrinsic_weights.rs 55-56. -/
def baseTime : Nat := 59307 * 1000

/-- `WeightToFee::weight_to_fee`: the polynomial of fee.rs 29-40 has one term, of degree one, with an integral and a
fractional coefficient. The sum saturates at the largest balance. -/
def runtimeWeightToFee (w : Weight) : Balance :=
  let p := cents
  let q := 10 * baseTime
  min (2 ^ 128 - 1) (min (2 ^ 128 - 1) (perbillMul (fromRational (p % q) q) w.refTime) +
    min (2 ^ 128 - 1) (p / q * w.refTime))

end Verif.TxPayment
