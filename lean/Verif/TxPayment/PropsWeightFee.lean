import Verif.TxPayment.WeightFee
import Verif.TxPayment.Props
import Mathlib.Tactic.Ring
/-!
# C112: the fee for a weight
-/

namespace Verif.TxPayment

theorem fraction_eq : fromRational (cents % (10 * baseTime)) (10 * baseTime) = 1686141 := by decide

theorem perbillMul_eq (part x : Nat) :
    perbillMul part x = x * part / 1000000000 + if 500000000 < x * part % 1000000000 then 1 else 0 := by
  unfold perbillMul billion
  have h : x * part = (x % 1000000000) * part + 1000000000 * (x / 1000000000 * part) := by
    conv => lhs; rw [← Nat.mod_add_div x 1000000000]
    rw [Nat.add_mul, Nat.mul_assoc]
  rw [h, Nat.add_mul_div_left _ _ (by decide), Nat.add_mul_mod_self_left]
  rw [show 1000000000 / 2 = 500000000 from rfl]
  generalize x / 1000000000 * part = a
  omega

theorem runtimeWeightToFee_eq (w : Weight) (h : w.refTime < 2 ^ 64) :
    runtimeWeightToFee w =
      w.refTime * 1686141 / 1000000000 + if 500000000 < w.refTime * 1686141 % 1000000000 then 1 else 0 := by
  unfold runtimeWeightToFee
  dsimp only
  rw [fraction_eq, perbillMul_eq, show cents / (10 * baseTime) = 0 from by decide, Nat.zero_mul]
  generalize w.refTime = n at *
  split <;> omega

/-- C112, proportion: a tenth of a cent for every 59,307,000 of time, which is what a transaction that does nothing
takes, but for half a unit and one unit in a billion of time. Weights are 64 bit numbers. -/
theorem C112_tenth_of_cent (w : Weight) (h : w.refTime < 2 ^ 64) :
    2 * 59307000 * runtimeWeightToFee w ≤ 2 * 100000 * w.refTime + 59307000 ∧
    2 * 100000 * w.refTime * 1000000000 ≤
      2 * 59307000 * (runtimeWeightToFee w * 1000000000 + w.refTime) + 59307000 * 1000000000 := by
  rw [runtimeWeightToFee_eq w h]
  generalize w.refTime = n
  split <;> constructor <;> omega

/-- C112, order: more weight never costs less. -/
theorem C112_monotone (a b : Weight) (h : a.refTime ≤ b.refTime) : runtimeWeightToFee a ≤ runtimeWeightToFee b := by
  unfold runtimeWeightToFee
  dsimp only
  rw [fraction_eq, perbillMul_eq, perbillMul_eq, show cents / (10 * baseTime) = 0 from by decide, Nat.zero_mul, Nat.zero_mul]
  generalize a.refTime = n at *
  generalize b.refTime = m at *
  split <;> split <;> omega

/-- So C64 holds of the runtime's conversion: with it the estimate is at least the charge. -/
theorem C112_estimate (cfg : Config) (hcfg : cfg.weightToFee = runtimeWeightToFee) (keys : Msa.State)
    (balance : Balance) (s s' : Capacity.State) (key : AccountId) (len : Nat) (c : Runtime.Call) (calls : List Runtime.Call)
    (dw : Weight) (hp : Paid c calls) (hlen : len < 2 ^ 32)
    (h : charge cfg keys balance s key len c = some (.ok s')) (hne : calls ≠ [])
    (hr : totalRef cfg calls + dw.refTime < 2 ^ 64) (hq : totalProof calls + dw.proof < 2 ^ 64) :
    fee cfg calls len ≤ estimate cfg c dw len :=
  C64_estimate_covers_partial cfg (fun a b hab _ => by rw [hcfg]; exact C112_monotone a b hab) keys balance s s' key len
    c calls dw hp hlen h hne hr hq

/-- Hypotheses met. -/
example : ((charge { exCfg with weightToFee := runtimeWeightToFee } exKeys 10
      { exCap with capacity := (∅ : SMap MsaId Capacity.CapacityDetails).insert 1 ⟨5, 2000000000, 1000000000, 2⟩ }
      100 150 exTx).bind
      Except.toOption).isSome = true ∧
    fee { exCfg with weightToFee := runtimeWeightToFee } [.fn .addIpfsMessage 0, .fn .addOnchainMessage 100] 150 <
      estimate { exCfg with weightToFee := runtimeWeightToFee } exTx ⟨400000000, 0⟩ 150 := by decide +kernel

/-- C112, nothing for free: the weights that cost nothing are those of time at most 296, a part in 200,000 of what a
transaction that does nothing takes. -/
theorem C112_zero_iff (w : Weight) (h : w.refTime < 2 ^ 64) : runtimeWeightToFee w = 0 ↔ w.refTime ≤ 296 := by
  rw [runtimeWeightToFee_eq w h]
  generalize w.refTime = n
  split <;> omega

/-- C112, sums: splitting or joining weights changes the fee by at most one unit. -/
theorem C112_split (a b : Weight) (h : a.refTime + b.refTime < 2 ^ 64) :
    runtimeWeightToFee ⟨a.refTime + b.refTime, a.proof + b.proof⟩ ≤ runtimeWeightToFee a + runtimeWeightToFee b + 1 ∧
    runtimeWeightToFee a + runtimeWeightToFee b ≤ runtimeWeightToFee ⟨a.refTime + b.refTime, a.proof + b.proof⟩ + 1 := by
  rw [runtimeWeightToFee_eq a (by omega), runtimeWeightToFee_eq b (by omega), runtimeWeightToFee_eq _ h]
  dsimp only
  generalize a.refTime = n
  generalize b.refTime = m
  constructor <;> (repeat' split) <;> omega

/-- The transaction that does nothing; half a second. -/
example : runtimeWeightToFee ⟨59307000, 0⟩ = 100000 ∧ runtimeWeightToFee ⟨500000000000, 5242880⟩ = 843070500 ∧
    runtimeWeightToFee ⟨296, 0⟩ = 0 ∧ runtimeWeightToFee ⟨297, 0⟩ = 1 ∧
    runtimeWeightToFee ⟨1, 0⟩ + runtimeWeightToFee ⟨296, 0⟩ + 1 = runtimeWeightToFee ⟨297, 0⟩ := by decide

end Verif.TxPayment
