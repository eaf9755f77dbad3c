import Verif.Capacity.PropsAccept
import Mathlib.Tactic.Ring
/-!
# C156: what unstaking costs a target

`Perbill::from_rational` is a parameter elsewhere; here it is the function of the library.
-/

namespace Verif.Capacity

/-- `Perbill::from_rational` of `sp-arithmetic` (per_things.rs, release-polkadot-v1.6.0, not part of the repository), in
billionths, used by `calculate_capacity_reduction`, pallets/capacity/src/lib.rs 633-639: both numbers are divided by a
factor so that they are at most a billion, rounding down; one if the fraction is above one or has no value. -/
def fromRational (p q : Nat) : Nat :=
  if q = 0 ∨ q < p then billion
  else
    let f := max ((q + (billion - 1)) / billion) 1
    p / f * billion / (q / f)

/-! ## Specification -/

/-- What the target loses by an unstake of `n`: capacity issued before and after. -/
def lost (cfg : Config) (hist : List Step) (env : Env) (who : AccountId) (t : MsaId) (a : Balance) : Balance :=
  (capOf (run cfg .init hist) t).issued - (capOf (run cfg .init (hist ++ [⟨env, .unstake who t a⟩])) t).issued

/-- C156 in full: the share of the capacity, rounded up. -/
def C156_full : Prop :=
  ∀ (cfg : Config), cfg.fromRational = fromRational → ∀ (hist : List Step) (env : Env) (who : AccountId) (t : MsaId) (a : Balance),
    let s := run cfg .init hist
    (dispatch cfg s ⟨env, .unstake who t a⟩).isOk = true → released cfg s who a ≤ (capOf s t).staked →
    released cfg s who a * (capOf s t).issued ≤ (capOf s t).staked * lost cfg hist env who t a ∧
    (capOf s t).staked * lost cfg hist env who t a < released cfg s who a * (capOf s t).issued + (capOf s t).staked

/-! ## The fraction -/

theorem billion_pos : 0 < billion := by decide

theorem factor_bounds (q : Nat) (hq : 0 < q) :
    1 ≤ max ((q + (billion - 1)) / billion) 1 ∧ (max ((q + (billion - 1)) / billion) 1 - 1) * billion < q := by
  refine ⟨Nat.le_max_right _ _, ?_⟩
  have h := Nat.div_mul_le_self (q + (billion - 1)) billion
  have h0 := billion_pos
  rcases Nat.le_total ((q + (billion - 1)) / billion) 1 with h1 | h1
  · rw [Nat.max_eq_right h1]; simpa using hq
  · rw [Nat.max_eq_left h1, Nat.sub_mul]
    omega

theorem fraction_bounds (p q : Nat) (hp : p ≤ q) (hq : 0 < q) :
    p * billion ≤ (fromRational p q + 2) * q ∧ fromRational p q * q ≤ p * billion + q ∧ fromRational p q ≤ billion := by
  unfold fromRational
  rw [if_neg (by omega)]
  obtain ⟨hf1, hf2⟩ := factor_bounds q hq
  simp only
  generalize max ((q + (billion - 1)) / billion) 1 = f at hf1 hf2
  have hB := billion_pos
  generalize billion = B at hf2 hB
  have hq1 : q / f * f ≤ q := Nat.div_mul_le_self q f
  have hq2 : q + 1 ≤ (q / f + 1) * f := by
    have := Nat.lt_div_mul_add (a := q) (b := f) (by omega)
    rw [Nat.add_mul]; omega
  have hp1 : p / f * f ≤ p := Nat.div_mul_le_self p f
  have hp2 : p + 1 ≤ (p / f + 1) * f := by
    have := Nat.lt_div_mul_add (a := p) (b := f) (by omega)
    rw [Nat.add_mul]; omega
  have hle : p / f ≤ q / f := Nat.div_le_div_right hp
  generalize p / f = p' at *
  generalize q / f = q' at *
  by_cases hz : q' = 0
  · subst hz
    have : p' = 0 := by omega
    subst this
    simp only [Nat.zero_mul, Nat.zero_div, Nat.zero_add]
    have hqf : q + 1 ≤ f := by simpa using hq2
    have hpf : p + 1 ≤ f := by simpa using hp2
    have : q * B ≤ (f - 1) * B := Nat.mul_le_mul_right B (by omega)
    have : p * B ≤ q * B := Nat.mul_le_mul_right B hp
    refine ⟨by omega, by omega, Nat.zero_le _⟩
  · have hq' : 0 < q' := Nat.pos_of_ne_zero hz
    have h1 : p' * B / q' * q' ≤ p' * B := Nat.div_mul_le_self _ _
    have h2 : p' * B < (p' * B / q' + 1) * q' := by
      have := Nat.lt_div_mul_add (a := p' * B) hq'
      rw [Nat.add_mul]; omega
    have h3 : p' * B / q' ≤ B := by
      refine Nat.div_le_of_le_mul ?_
      exact Nat.mul_le_mul_right B hle
    generalize p' * B / q' = part at *
    refine ⟨?_, ?_, h3⟩
    · -- (p + 1) B ≤ p' B f + f B ≤ (part + 1) q + f B, and (f - 1) B < q
      have a1 : (p + 1) * B ≤ (p' + 1) * f * B := Nat.mul_le_mul_right B hp2
      have a2 : p' * B * f ≤ (part + 1) * q' * f := Nat.mul_le_mul_right f (Nat.le_of_lt h2)
      have a3 : (part + 1) * (q' * f) ≤ (part + 1) * q := Nat.mul_le_mul_left _ hq1
      have e1 : (p' + 1) * f * B = p' * B * f + f * B := by ring
      have e2 : (part + 1) * q' * f = (part + 1) * (q' * f) := by ring
      have e3 : (p + 1) * B = p * B + B := by ring
      have e4 : (part + 2) * q = (part + 1) * q + q := by ring
      have e5 : (f - 1) * B = f * B - B := by rw [Nat.sub_mul, Nat.one_mul]
      have e6 : B ≤ f * B := Nat.le_mul_of_pos_left B (by omega)
      omega
    · have a1 : part * (q + 1) ≤ part * ((q' + 1) * f) := Nat.mul_le_mul_left _ hq2
      have a2 : part * q' * f ≤ p' * B * f := Nat.mul_le_mul_right f h1
      have a3 : p' * f * B ≤ p * B := Nat.mul_le_mul_right B hp1
      have a4 : part * (f - 1) ≤ B * (f - 1) := Nat.mul_le_mul_right _ h3
      have e1 : part * ((q' + 1) * f) = part * q' * f + part * f := by ring
      have e2 : p' * B * f = p' * f * B := by ring
      have e3 : part * (q + 1) = part * q + part := by ring
      have e4 : part * (f - 1) + part = part * f := by
        rw [Nat.mul_sub, Nat.mul_one]
        have : part ≤ part * f := Nat.le_mul_of_pos_right part (by omega)
        omega
      have e5 : B * (f - 1) = (f - 1) * B := Nat.mul_comm _ _
      omega

theorem fraction_free (p q : Nat) (h : p * billion < q) : fromRational p q = 0 := by
  have hB := billion_pos
  have hpq : p < q := by
    rcases Nat.eq_zero_or_pos p with rfl | hp
    · omega
    · exact Nat.lt_of_le_of_lt (Nat.le_mul_of_pos_right p hB) h
  unfold fromRational
  rw [if_neg (by omega)]
  simp only
  have hf : p < max ((q + (billion - 1)) / billion) 1 := by
    refine Nat.lt_of_lt_of_le ?_ (Nat.le_max_left _ _)
    rw [Nat.lt_iff_add_one_le, Nat.le_div_iff_mul_le hB, Nat.add_mul]
    omega
  rw [Nat.div_eq_of_lt hf, Nat.zero_mul, Nat.zero_div]

theorem upwards_bounds (p x : Nat) : x * p ≤ upwards p x * billion ∧ upwards p x * billion ≤ x * p + billion := by
  unfold upwards
  have hB := billion_pos
  have h1 := Nat.div_mul_le_self (x * p + (billion - 1)) billion
  have h2 := Nat.lt_div_mul_add (a := x * p + (billion - 1)) hB
  omega

theorem upwards_le {p : Nat} (x : Nat) (hp : p ≤ billion) : upwards p x ≤ x := by
  have hB := billion_pos
  have : x * p ≤ x * billion := Nat.mul_le_mul_left x hp
  exact Nat.lt_succ_iff.1 ((Nat.div_lt_iff_lt_mul hB).2 (by rw [Nat.succ_mul]; omega))

theorem lost_eq {cfg : Config} {hist : List Step} {env : Env} {who : AccountId} {t : MsaId} {a : Balance}
    (h : (dispatch cfg (run cfg .init hist) ⟨env, .unstake who t a⟩).isOk = true) :
    lost cfg hist env who t a = min (capOf (run cfg .init hist) t).issued
      (revoked cfg (run cfg .init hist) who t (released cfg (run cfg .init hist) who a)) := by
  cases hd : dispatch cfg (run cfg .init hist) ⟨env, .unstake who t a⟩ with
  | error e => rw [hd] at h; cases h
  | ok s' =>
    have hc := (C89_unstake_capacity cfg hist env who t a s' hd).2
    have hr : run cfg .init (hist ++ [⟨env, .unstake who t a⟩]) = s' := by
      unfold run
      rw [List.foldl_append]
      show apply cfg (run cfg .init hist) _ = s'
      simp only [apply, hd]
    unfold lost
    rw [hr, hc]
    simp only
    omega

/-! ## C156 -/

/-- C156: an unstake that does not end the record of the target takes the share of the capacity up to one unit and two
billionths of the whole: at most two billionths less, and at most one unit and a billionth more. -/
theorem C156_share_partial (cfg : Config) (hcfg : cfg.fromRational = fromRational) (hist : List Step) (env : Env)
    (who : AccountId) (t : MsaId) (a : Balance) :
    let s := run cfg .init hist
    let n := released cfg s who a
    let q := (capOf s t).staked
    let c := (capOf s t).issued
    let l := lost cfg hist env who t a
    (dispatch cfg s ⟨env, .unstake who t a⟩).isOk = true → (tgtOf s who t).amount ≠ n → 0 < q → n ≤ q →
    n * c * 1000000000 ≤ q * l * 1000000000 + 2 * q * c ∧
    q * l * 1000000000 ≤ n * c * 1000000000 + q * c + q * 1000000000 := by
  intro s n q c l hok hne hq hn
  obtain ⟨h1, h2, h3⟩ := fraction_bounds n q hn hq
  have hl : l = upwards (fromRational n q) c := by
    show lost cfg hist env who t a = _
    rw [lost_eq hok, revoked, if_neg hne, hcfg]
    exact Nat.min_eq_right (upwards_le _ h3)
  obtain ⟨u1, u2⟩ := upwards_bounds (fromRational n q) c
  rw [← hl] at u1 u2
  have hB : billion = 1000000000 := rfl
  rw [hB] at h1 h2 u1 u2
  generalize fromRational n q = part at *
  generalize (1000000000 : Nat) = B at *
  constructor
  · have a1 := Nat.mul_le_mul_right c h1
    have a2 := Nat.mul_le_mul_left q u1
    have e1 : n * B * c = n * c * B := by ring
    have e2 : (part + 2) * q * c = q * (c * part) + 2 * q * c := by ring
    have e3 : q * (l * B) = q * l * B := by ring
    omega
  · have a1 := Nat.mul_le_mul_right c h2
    have a2 := Nat.mul_le_mul_left q u2
    have e1 : (n * B + q) * c = n * c * B + q * c := by ring
    have e2 : part * q * c = q * (c * part) := by ring
    have e3 : q * (l * B) = q * l * B := by ring
    have e4 : q * (c * part + B) = q * (c * part) + q * B := by ring
    omega

/-- C156: an unstake of the amount of the record takes the capacity of the record. -/
theorem C156_record (cfg : Config) (hist : List Step) (env : Env) (who : AccountId) (t : MsaId) (a : Balance) :
    let s := run cfg .init hist
    (dispatch cfg s ⟨env, .unstake who t a⟩).isOk = true → (tgtOf s who t).amount = released cfg s who a →
    lost cfg hist env who t a = min (capOf s t).issued (tgtOf s who t).capacity := by
  intro s hok he
  rw [lost_eq hok, revoked, if_pos he]

/-- C156: an unstake of less than a billionth of the stake costs the target nothing, unless it ends the record. -/
theorem C156_free (cfg : Config) (hcfg : cfg.fromRational = fromRational) (hist : List Step) (env : Env)
    (who : AccountId) (t : MsaId) (a : Balance) :
    let s := run cfg .init hist
    (dispatch cfg s ⟨env, .unstake who t a⟩).isOk = true → (tgtOf s who t).amount ≠ released cfg s who a →
    released cfg s who a * 1000000000 < (capOf s t).staked →
    lost cfg hist env who t a = 0 := by
  intro s hok hne hlt
  rw [lost_eq hok, revoked, if_neg hne, hcfg, fraction_free _ _ hlt]
  have : upwards 0 (capOf (run cfg .init hist) t).issued = 0 := by
    unfold upwards
    rw [Nat.mul_zero, Nat.zero_add]
    decide
  rw [this]
  exact Nat.min_zero _

/-- C156: an unstake of more than the target's whole stake takes all of its capacity. -/
theorem C156_beyond (cfg : Config) (hcfg : cfg.fromRational = fromRational) (hist : List Step) (env : Env)
    (who : AccountId) (t : MsaId) (a : Balance) :
    let s := run cfg .init hist
    (dispatch cfg s ⟨env, .unstake who t a⟩).isOk = true → (tgtOf s who t).amount ≠ released cfg s who a →
    (capOf s t).staked < released cfg s who a →
    lost cfg hist env who t a = (capOf s t).issued := by
  intro s hok hne hlt
  rw [lost_eq hok, revoked, if_neg hne, hcfg]
  have : fromRational (released cfg s who a) (capOf s t).staked = billion := by
    unfold fromRational
    rw [if_pos (Or.inr hlt)]
  rw [this]
  have hu := (upwards_bounds billion (capOf s t).issued).1
  exact Nat.min_eq_left (Nat.le_of_mul_le_mul_right hu billion_pos)

/-! ## Cases -/

/-- The small configuration with the fraction of the library. -/
def shareCfg : Config := { exCfg with fromRational := fromRational }

/-- Everybody has a hundred thousand million units. -/
def shareEnv : Env := ⟨fun _ => 100000000000, fun m => decide (m = 1 ∨ m = 2)⟩

/-- One account stakes fifty thousand million units to a provider. -/
def shareHist : List Step := [⟨shareEnv, .stake 7 1 50000000000⟩]

/-- The bounds at work: of fifty thousand million units staked, for a thousand million of capacity, a third goes. -/
example :
    (dispatch shareCfg (run shareCfg .init shareHist) ⟨shareEnv, .unstake 7 1 16666666667⟩).isOk = true ∧
    released shareCfg (run shareCfg .init shareHist) 7 16666666667 = 16666666667 ∧
    capOf (run shareCfg .init shareHist) 1 = ⟨1000000000, 50000000000, 1000000000, 0⟩ ∧
    lost shareCfg shareHist shareEnv 7 1 16666666667 = 333333333 := by
  decide +kernel

/-- The share of forty units is eight tenths of a unit of capacity; nothing is taken. -/
example :
    (dispatch shareCfg (run shareCfg .init shareHist) ⟨shareEnv, .unstake 7 1 40⟩).isOk = true ∧
    lost shareCfg shareHist shareEnv 7 1 40 = 0 ∧ 40 * 1000000000 < (capOf (run shareCfg .init shareHist) 1).staked := by
  decide +kernel

/-- The account has staked to two providers and unstakes from the one with the smaller stake more than that has. -/
example :
    let hist := shareHist ++ [⟨shareEnv, .stake 7 2 5000⟩]
    (dispatch shareCfg (run shareCfg .init hist) ⟨shareEnv, .unstake 7 2 6000⟩).isOk = true ∧
    (capOf (run shareCfg .init hist) 2).staked = 5000 ∧ lost shareCfg hist shareEnv 7 2 6000 = 100 ∧
    lost shareCfg hist shareEnv 7 2 5000 = 100 := by
  decide +kernel

/-- C156 in full does not hold: small parts of large stakes are free. -/
theorem C156_full_false : ¬ C156_full := by
  intro h
  have h1 := (h shareCfg rfl shareHist shareEnv 7 1 40 (by decide +kernel) (by decide +kernel)).1
  exact absurd h1 (by decide +kernel)

end Verif.Capacity
