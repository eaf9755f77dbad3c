import Verif.TxPayment.Multiplier
/-!
# C158: fees follow demand slowly
-/

namespace Verif.TxPayment

/-! ## Specification -/

/-- Normal transactions use at most a quarter of their room, in time and in proof. -/
def Calm (w : Weight) : Prop := 4 * w.refTime ≤ 375000000000 ∧ 4 * w.proof ≤ 3932160

/-- Normal transactions use at least half of their room, in time or in proof. -/
def Busy (w : Weight) : Prop := 375000000000 ≤ 2 * w.refTime ∨ 3932160 ≤ 2 * w.proof

/-! ## Lemmas -/

theorem adjustment_eq : adjustment = 75000000000000 := by decide +kernel

theorem square_eq : fixMul adjustment adjustment * fixOne / (2 * fixOne) = 2812500000 := by decide +kernel

theorem quarter_time : quarterOf 375000000000 = 93750000000 := by decide +kernel

theorem quarter_proof : quarterOf 3932160 = 983040 := by decide +kernel

/-- What is known of the limiting dimension. -/
structure Limit (b mx : Nat) : Prop where
  le : b ≤ mx
  pos : 0 < mx
  quarter : 4 * quarterOf mx = mx
  room : mx = 375000000000 ∨ mx = 3932160

theorem limiting_limit (w : Weight) : Limit (limiting w).1 (limiting w).2 := by
  unfold limiting
  dsimp only
  split
  · exact ⟨Nat.min_le_right _ _, by show 0 < 3932160; decide, by show 4 * quarterOf 3932160 = _; rw [quarter_proof]; rfl, Or.inr rfl⟩
  · exact ⟨Nat.min_le_right _ _, by show 0 < 375000000000; decide, by show 4 * quarterOf 375000000000 = _; rw [quarter_time]; rfl, Or.inl rfl⟩

/-- The share by which the multiplier changes. -/
def rate (b mx : Nat) : Nat × Nat :=
  let target := quarterOf mx
  let diff := fixRatio (max b target - min b target) (max mx 1)
  (fixMul adjustment diff, fixMul (fixMul adjustment adjustment * fixOne / (2 * fixOne)) (fixMul diff diff))

theorem next_eq (least : Nat) (w : Weight) (m : Nat) : nextMultiplier least w m =
    if quarterOf (limiting w).2 ≤ (limiting w).1 then
      max least (min fixMax (min fixMax (max m least +
        fixMul (min fixMax ((rate (limiting w).1 (limiting w).2).1 + (rate (limiting w).1 (limiting w).2).2)) (max m least))))
    else max least (min fixMax (max m least -
      fixMul ((rate (limiting w).1 (limiting w).2).1 - (rate (limiting w).1 (limiting w).2).2) (max m least))) := rfl

theorem fixMul_le (a b : Nat) : fixMul a b ≤ a * b / fixOne := Nat.min_le_right _ _

theorem fixMul_eq {a b : Nat} (h : a * b / fixOne ≤ fixMax) : fixMul a b = a * b / fixOne := Nat.min_eq_right h

/-- Difference to the target, at most three quarters above and one quarter below. -/
theorem diff_bound {b mx : Nat} (h : Limit b mx) (k : Nat) (hk : 4 * (max b (quarterOf mx) - min b (quarterOf mx)) ≤ k * mx) :
    fixRatio (max b (quarterOf mx) - min b (quarterOf mx)) (max mx 1) ≤ k * 250000000000000000 := by
  have hp := h.pos
  have hm : max mx 1 = mx := Nat.max_eq_left hp
  rw [hm]
  refine Nat.le_trans (Nat.min_le_right _ _) ?_
  refine Nat.div_le_of_le_mul ?_
  have h1 := Nat.mul_le_mul_right 250000000000000000 hk
  have e1 : mx * (k * 250000000000000000) = k * mx * 250000000000000000 := by ring
  rw [e1]
  have e2 : ∀ d : Nat, d * fixOne = 4 * d * 250000000000000000 := by
    intro d
    have : fixOne = 4 * 250000000000000000 := rfl
    rw [this]
    ring
  rw [e2]
  exact h1

theorem rate_bound {b mx : Nat} (h : Limit b mx) (k : Nat)
    (hk : 4 * (max b (quarterOf mx) - min b (quarterOf mx)) ≤ k * mx) :
    (rate b mx).1 ≤ k * 18750000000000 ∧ (rate b mx).2 ≤ k * k * 175781250 := by
  have hd := diff_bound h k hk
  unfold rate
  dsimp only
  rw [adjustment_eq, ← adjustment_eq, square_eq, adjustment_eq]
  generalize fixRatio (max b (quarterOf mx) - min b (quarterOf mx)) (max mx 1) = d at *
  constructor
  · refine Nat.le_trans (fixMul_le _ _) ?_
    unfold fixOne
    omega
  · refine Nat.le_trans (fixMul_le _ _) ?_
    have h2 : fixMul d d ≤ k * k * 62500000000000000 := by
      refine Nat.le_trans (fixMul_le _ _) (Nat.div_le_of_le_mul ?_)
      refine Nat.le_trans (Nat.mul_le_mul hd hd) (Nat.le_of_eq ?_)
      unfold fixOne
      ring
    unfold fixOne
    omega

/-- With the maximal rise. -/
theorem next_up (least : Nat) (w : Weight) (m : Nat) (hm : least ≤ m) :
    nextMultiplier least w m * 100000000 ≤ m * 100005626 := by
  have hl := limiting_limit w
  rw [next_eq, Nat.max_eq_left hm]
  generalize (limiting w).1 = b at *
  generalize (limiting w).2 = mx at *
  have hq := hl.quarter
  have hle := hl.le
  split
  · rename_i hb
    obtain ⟨h1, h2⟩ := rate_bound hl 3 (by omega)
    generalize rate b mx = r at *
    have h3 : fixMul (min fixMax (r.1 + r.2)) m ≤ 56251582031250 * m / fixOne := by
      refine Nat.le_trans (fixMul_le _ _) (Nat.div_le_div_right (Nat.mul_le_mul_right m ?_))
      omega
    have h4 : max least (min fixMax (min fixMax (m + fixMul (min fixMax (r.1 + r.2)) m))) ≤
        m + fixMul (min fixMax (r.1 + r.2)) m := by
      refine Nat.max_le.2 ⟨by omega, ?_⟩
      exact Nat.le_trans (Nat.min_le_right _ _) (Nat.min_le_right _ _)
    generalize max least (min fixMax (min fixMax (m + fixMul (min fixMax (r.1 + r.2)) m))) = x at *
    generalize fixMul (min fixMax (r.1 + r.2)) m = y at *
    unfold fixOne at h3
    omega
  · have h4 : ∀ y, max least (min fixMax (m - y)) ≤ m := by
      intro y
      exact Nat.max_le.2 ⟨hm, Nat.le_trans (Nat.min_le_right _ _) (Nat.sub_le _ _)⟩
    have := h4 (fixMul ((rate b mx).1 - (rate b mx).2) m)
    omega

theorem next_least (least : Nat) (w : Weight) (m : Nat) : least ≤ nextMultiplier least w m := by
  rw [next_eq]
  split <;> exact Nat.le_max_left _ _

/-- Multipliers fit. -/
theorem next_max (least : Nat) (w : Weight) (m : Nat) (hl : least ≤ fixMax) : nextMultiplier least w m ≤ fixMax := by
  rw [next_eq]
  split
  · exact Nat.max_le.2 ⟨hl, Nat.min_le_left _ _⟩
  · exact Nat.max_le.2 ⟨hl, Nat.min_le_left _ _⟩

/-- With the maximal fall. -/
theorem next_down (least : Nat) (w : Weight) (m : Nat) (hm : least ≤ m) (hx : m ≤ fixMax) :
    m * 99998125 ≤ nextMultiplier least w m * 100000000 := by
  have hl := limiting_limit w
  rw [next_eq, Nat.max_eq_left hm]
  generalize (limiting w).1 = b at *
  generalize (limiting w).2 = mx at *
  have hq := hl.quarter
  have hle := hl.le
  split
  · have h4 : ∀ y, m ≤ max least (min fixMax (min fixMax (m + y))) := by
      intro y
      refine Nat.le_trans ?_ (Nat.le_max_right _ _)
      exact Nat.le_min.2 ⟨hx, Nat.le_min.2 ⟨hx, Nat.le_add_right _ _⟩⟩
    have := h4 (fixMul (min fixMax ((rate b mx).1 + (rate b mx).2)) m)
    generalize max least (min fixMax (min fixMax (m + fixMul (min fixMax ((rate b mx).1 + (rate b mx).2)) m))) = x at *
    omega
  · rename_i hb
    obtain ⟨h1, _⟩ := rate_bound hl 1 (by omega)
    generalize rate b mx = r at *
    have h3 : fixMul (r.1 - r.2) m ≤ 18750000000000 * m / fixOne := by
      refine Nat.le_trans (fixMul_le _ _) (Nat.div_le_div_right (Nat.mul_le_mul_right m ?_))
      omega
    have h4 : m - fixMul (r.1 - r.2) m ≤ max least (min fixMax (m - fixMul (r.1 - r.2) m)) := by
      refine Nat.le_trans ?_ (Nat.le_max_right _ _)
      exact Nat.le_min.2 ⟨Nat.le_trans (Nat.sub_le _ _) hx, Nat.le_refl _⟩
    generalize max least (min fixMax (m - fixMul (r.1 - r.2) m)) = x at *
    generalize fixMul (r.1 - r.2) m = y at *
    unfold fixOne at h3
    omega

theorem multiplier_cons (least m : Nat) (w : Weight) (l : List Weight) :
    multiplier least m (w :: l) = multiplier least (nextMultiplier least w m) l := rfl

theorem multiplier_append (least m : Nat) (a b : List Weight) :
    multiplier least m (a ++ b) = multiplier least (multiplier least m a) b := List.foldl_append ..

theorem multiplier_snoc (least m : Nat) (a : List Weight) (w : Weight) :
    multiplier least m (a ++ [w]) = nextMultiplier least w (multiplier least m a) := by
  rw [multiplier_append, multiplier_cons]
  unfold multiplier
  rw [List.foldl_nil]

theorem multiplier_least (least m : Nat) (l : List Weight) (hm : least ≤ m) : least ≤ multiplier least m l := by
  induction l generalizing m with
  | nil => exact hm
  | cons w l ih => exact ih _ (next_least least w m)

theorem multiplier_up (least m : Nat) (l : List Weight) (hm : least ≤ m) :
    multiplier least m l * 100000000 ^ l.length ≤ m * 100005626 ^ l.length := by
  induction l generalizing m with
  | nil => exact Nat.le_refl _
  | cons w l ih =>
    rw [multiplier_cons, List.length_cons, Nat.pow_succ, Nat.pow_succ]
    have h1 := ih _ (next_least least w m)
    have h2 := next_up least w m hm
    generalize multiplier least (nextMultiplier least w m) l = x at *
    generalize nextMultiplier least w m = y at *
    generalize 100000000 ^ l.length = p at *
    generalize 100005626 ^ l.length = q at *
    calc x * (p * 100000000) = x * p * 100000000 := by ring
      _ ≤ y * q * 100000000 := Nat.mul_le_mul_right _ h1
      _ = y * 100000000 * q := by ring
      _ ≤ m * 100005626 * q := Nat.mul_le_mul_right _ h2
      _ = m * (q * 100005626) := by ring

theorem multiplier_max (least m : Nat) (l : List Weight) (hl : least ≤ fixMax) (hm : m ≤ fixMax) :
    multiplier least m l ≤ fixMax := by
  induction l generalizing m with
  | nil => exact hm
  | cons w l ih => exact ih _ (next_max least w m hl)

/-- Fees at two multipliers. -/
theorem fee_scale (m m' p q : Nat) (h : m' * p ≤ m * q) (hpq : p ≤ q) (w : Weight) (len : Nat) :
    tokenFee m' w len * p ≤ (tokenFee m w len + 1) * q := by
  have hmin : ∀ x x' : Nat, x' * p ≤ (x + 1) * q → min fixMax x' * p ≤ (min fixMax x + 1) * q := by
    intro x x' hx
    rcases Nat.le_total fixMax x with hf | hf
    · rw [Nat.min_eq_left hf]
      exact Nat.mul_le_mul (Nat.le_trans (Nat.min_le_left _ _) (Nat.le_succ _)) hpq
    · rw [Nat.min_eq_right hf]
      exact Nat.le_trans (Nat.mul_le_mul_right p (Nat.min_le_right _ _)) hx
  unfold tokenFee
  dsimp only
  generalize min fixMax (runtimeWeightToFee ⟨baseTime, 0⟩ + min fixMax (len * 10000)) = a
  generalize runtimeWeightToFee (w.min blockMax) = v
  have hd : 0 < fixOne := by decide
  have hv : m' * v / fixOne * p ≤ (m * v / fixOne + 1) * q := by
    have h1 := Nat.div_mul_le_self (m' * v) fixOne
    have h2 := Nat.lt_div_mul_add (a := m * v) hd
    generalize m' * v / fixOne = x' at *
    generalize m * v / fixOne = x at *
    refine Nat.le_of_mul_le_mul_right (c := fixOne) ?_ hd
    calc x' * p * fixOne = x' * fixOne * p := by ring
      _ ≤ m' * v * p := Nat.mul_le_mul_right _ h1
      _ = m' * p * v := by ring
      _ ≤ m * q * v := Nat.mul_le_mul_right _ h
      _ = m * v * q := by ring
      _ ≤ (x * fixOne + fixOne) * q := Nat.mul_le_mul_right _ (Nat.le_of_lt h2)
      _ = (x + 1) * q * fixOne := by ring
  refine hmin _ _ ?_
  have h1 := hmin _ _ hv
  have h2 : a * p ≤ a * q := Nat.mul_le_mul_left a hpq
  rw [Nat.add_mul, Nat.add_assoc, Nat.add_mul]
  omega

theorem calm_limiting {w : Weight} (h : Calm w) : (limiting w).1 ≤ quarterOf (limiting w).2 := by
  obtain ⟨h1, h2⟩ := h
  unfold limiting
  dsimp only
  split
  · show min w.proof 3932160 ≤ quarterOf 3932160
    rw [quarter_proof]
    omega
  · show min w.refTime 375000000000 ≤ quarterOf 375000000000
    rw [quarter_time]
    omega

theorem next_calm (least : Nat) (w : Weight) (m : Nat) (hm : least ≤ m) (h : Calm w) : nextMultiplier least w m ≤ m := by
  have hc := calm_limiting h
  have hl := limiting_limit w
  rw [next_eq, Nat.max_eq_left hm]
  generalize (limiting w).1 = b at *
  generalize (limiting w).2 = mx at *
  split
  · rename_i hb
    obtain ⟨h1, h2⟩ := rate_bound hl 0 (by omega)
    have h3 : fixMul (min fixMax ((rate b mx).1 + (rate b mx).2)) m = 0 := by
      have : (rate b mx).1 + (rate b mx).2 = 0 := by omega
      rw [this, Nat.min_zero, fixMul, Nat.zero_mul, Nat.zero_div, Nat.min_zero]
    rw [h3]
    exact Nat.max_le.2 ⟨hm, Nat.le_trans (Nat.min_le_right _ _) (Nat.min_le_right _ _)⟩
  · exact Nat.max_le.2 ⟨hm, Nat.le_trans (Nat.min_le_right _ _) (Nat.sub_le _ _)⟩

/-- In the limiting dimension a busy block is more than a third full. -/
theorem busy_limiting {w : Weight} (h : Busy w) : (limiting w).2 ≤ 3 * (limiting w).1 := by
  unfold limiting
  dsimp only
  have e1 : max normalMax.refTime 1 = 375000000000 := rfl
  have e2 : max normalMax.proof 1 = 3932160 := rfl
  have e3 : normalMax.refTime = 375000000000 := rfl
  have e4 : normalMax.proof = 3932160 := rfl
  rw [e1, e2, e3, e4]
  obtain ⟨t1, t2, _⟩ := Capacity.fraction_bounds (min w.refTime 375000000000) 375000000000 (Nat.min_le_right _ _) (by decide)
  obtain ⟨p1, p2, _⟩ := Capacity.fraction_bounds (min w.proof 3932160) 3932160 (Nat.min_le_right _ _) (by decide)
  have hB : Capacity.billion = 1000000000 := rfl
  rw [hB] at t1 t2 p1 p2
  generalize Capacity.fromRational (min w.refTime 375000000000) 375000000000 = x at *
  generalize Capacity.fromRational (min w.proof 3932160) 3932160 = y at *
  split
  · show 3932160 ≤ 3 * min w.proof 3932160
    rcases h with h | h <;> omega
  · show 375000000000 ≤ 3 * min w.refTime 375000000000
    rcases h with h | h <;> omega

theorem next_busy (least : Nat) (w : Weight) (m : Nat) (hm : least ≤ m) (h0 : 1000000000 ≤ m) (hx : m < fixMax) (h : Busy w) :
    m < nextMultiplier least w m := by
  have hc := busy_limiting h
  have hl := limiting_limit w
  have hq := hl.quarter
  have hp := hl.pos
  rw [next_eq, Nat.max_eq_left hm]
  generalize (limiting w).1 = b at *
  generalize (limiting w).2 = mx at *
  rw [if_pos (by omega)]
  have hd : 80000000000000000 ≤ fixRatio (max b (quarterOf mx) - min b (quarterOf mx)) (max mx 1) := by
    have hm' : max mx 1 = mx := Nat.max_eq_left hp
    rw [hm']
    refine Nat.le_min.2 ⟨by decide, (Nat.le_div_iff_mul_le hp).2 ?_⟩
    have hb : mx ≤ 12 * (max b (quarterOf mx) - min b (quarterOf mx)) := by omega
    generalize max b (quarterOf mx) - min b (quarterOf mx) = d at *
    unfold fixOne
    omega
  have hr : 6000000000000 ≤ (rate b mx).1 := by
    unfold rate
    dsimp only
    rw [adjustment_eq]
    generalize fixRatio (max b (quarterOf mx) - min b (quarterOf mx)) (max mx 1) = d at *
    refine Nat.le_min.2 ⟨by decide, ?_⟩
    unfold fixOne
    omega
  generalize rate b mx = r at *
  have hy : 1 ≤ fixMul (min fixMax (r.1 + r.2)) m := by
    refine Nat.le_min.2 ⟨by decide, (Nat.le_div_iff_mul_le (by decide)).2 ?_⟩
    have h1 : 6000000000000 ≤ min fixMax (r.1 + r.2) := Nat.le_min.2 ⟨by decide, by omega⟩
    have h2 := Nat.mul_le_mul h1 h0
    unfold fixOne
    omega
  generalize fixMul (min fixMax (r.1 + r.2)) m = y at *
  refine Nat.lt_of_lt_of_le ?_ (Nat.le_max_right _ _)
  exact Nat.lt_min.2 ⟨hx, Nat.lt_min.2 ⟨hx, by omega⟩⟩

theorem next_quiet (least m : Nat) (hm : least ≤ m) (h0 : 1000000000 ≤ m) (hx : m ≤ fixMax) :
    nextMultiplier least .zero m = least ∨ nextMultiplier least .zero m * 100000000 ≤ m * 99998126 := by
  have hl : limiting .zero = (0, 375000000000) := by decide +kernel
  have hr : rate 0 375000000000 = (18750000000000, 175781250) := by decide +kernel
  rw [next_eq, Nat.max_eq_left hm, hl]
  dsimp only
  rw [hr, quarter_time, if_neg (by decide)]
  have hy : fixMul (18750000000000 - 175781250) m = (18750000000000 - 175781250) * m / fixOne := by
    refine fixMul_eq (Nat.le_trans (Nat.div_le_of_le_mul ?_) hx)
    exact Nat.mul_le_mul_right m (by decide)
  rw [hy]
  unfold fixOne
  generalize hz : (18750000000000 - 175781250) * m / 1000000000000000000 = y
  rcases Nat.le_total (min fixMax (m - y)) least with h | h
  · exact Or.inl (Nat.max_eq_left h)
  · refine Or.inr ?_
    rw [Nat.max_eq_right h]
    have : min fixMax (m - y) ≤ m - y := Nat.min_le_right _ _
    generalize min fixMax (m - y) = z at *
    omega

theorem next_at_least (least : Nat) : nextMultiplier least .zero least = least := by
  refine Nat.le_antisymm (next_calm least _ least (Nat.le_refl _) ⟨by decide, by decide⟩) (next_least _ _ _)

theorem multiplier_quiet (least m k : Nat) (hl : 1000000000 ≤ least) (hlx : least ≤ fixMax) (hm : least ≤ m) (hx : m ≤ fixMax) :
    multiplier least m (List.replicate k .zero) = least ∨
    multiplier least m (List.replicate k .zero) * 100000000 ^ k ≤ m * 99998126 ^ k := by
  have stay : ∀ k, multiplier least least (List.replicate k .zero) = least := by
    intro k
    induction k with
    | zero => rfl
    | succ k ih => rw [List.replicate_succ, multiplier_cons, next_at_least, ih]
  induction k generalizing m with
  | zero => exact Or.inr (Nat.le_refl _)
  | succ k ih =>
    rw [List.replicate_succ, multiplier_cons]
    rcases next_quiet least m hm (by omega) hx with h | h
    · rw [h]; exact Or.inl (stay k)
    · rcases ih _ (next_least least .zero m) (next_max least .zero m hlx) with h1 | h1
      · exact Or.inl h1
      · refine Or.inr ?_
        rw [Nat.pow_succ, Nat.pow_succ]
        generalize multiplier least (nextMultiplier least .zero m) (List.replicate k .zero) = x at *
        generalize nextMultiplier least .zero m = y at *
        generalize 100000000 ^ k = p at *
        generalize 99998126 ^ k = q at *
        calc x * (p * 100000000) = x * p * 100000000 := by ring
          _ ≤ y * q * 100000000 := Nat.mul_le_mul_right _ h1
          _ = y * 100000000 * q := by ring
          _ ≤ m * 99998126 * q := Nat.mul_le_mul_right _ h
          _ = m * (q * 99998126) := by ring

theorem scale_power {x y p q k n a b : Nat} (h : x * p ^ k ≤ y * q ^ k) (hk : k ≤ n) (hpq : p ^ (n - k) ≤ q ^ (n - k)) (hp : 0 < p)
    (hf : q ^ n * a ≤ b * p ^ n) : x * a ≤ y * b := by
  have hpos : 0 < p ^ n := Nat.pow_pos hp
  have hs : p ^ n = p ^ k * p ^ (n - k) := by rw [← Nat.pow_add]; congr 1; omega
  have hs' : q ^ n = q ^ k * q ^ (n - k) := by rw [← Nat.pow_add]; congr 1; omega
  refine Nat.le_of_mul_le_mul_right (c := p ^ n) ?_ hpos
  calc x * a * p ^ n = x * p ^ k * p ^ (n - k) * a := by rw [hs]; ring
    _ ≤ y * q ^ k * q ^ (n - k) * a := Nat.mul_le_mul_right _ (Nat.mul_le_mul h hpq)
    _ = y * (q ^ n * a) := by rw [hs']; ring
    _ ≤ y * (b * p ^ n) := Nat.mul_le_mul_left _ hf
    _ = y * b * p ^ n := by ring

theorem quiet_half (least m k : Nat) (hl : 1000000000 ≤ least) (hlx : least ≤ fixMax) (hm : least ≤ m) (hx : m ≤ fixMax)
    (hf : 99998126 ^ k * 2 ≤ 100000000 ^ k) :
    multiplier least m (List.replicate k .zero) = least ∨ 2 * multiplier least m (List.replicate k .zero) ≤ m := by
  rcases multiplier_quiet least m k hl hlx hm hx with h | h
  · exact Or.inl h
  · have := scale_power (a := 2) (b := 1) h (Nat.le_refl _) (by rw [Nat.sub_self, Nat.pow_zero, Nat.pow_zero]) (by decide)
      (by rw [Nat.one_mul]; exact hf)
    exact Or.inr (by omega)

theorem day_rise (least m n : Nat) (day : List Weight) (hd : day.length ≤ n) (hm : least ≤ m)
    (hf : 100005626 ^ n * 2 ≤ 3 * 100000000 ^ n) : multiplier least m day * 2 ≤ m * 3 :=
  scale_power (multiplier_up least m day hm) hd (Nat.pow_le_pow_left (by decide) _) (by decide) hf

theorem day_factor : 100005626 ^ 7200 * 2 ≤ 3 * 100000000 ^ 7200 := by decide +kernel

theorem half_factor : 99998126 ^ 37000 * 2 ≤ 100000000 ^ 37000 := by decide +kernel

/-! ## C158

In all theorems `least` is the minimal multiplier: between a thousand millionth and one. The chain starts with one. -/

/-- C158, a block: whatever is in it, the fee of a transaction rises by less than 57 in a million, and a unit. -/
theorem C158_block (least : Nat) (hl : least ≤ fixOne) (hist : List Weight) (w : Weight) (c : Weight) (len : Nat) :
    tokenFee (multiplier least fixOne (hist ++ [w])) c len * 100000000 ≤
      (tokenFee (multiplier least fixOne hist) c len + 1) * 100005626 := by
  rw [multiplier_snoc]
  exact fee_scale _ _ _ _ (next_up least w _ (multiplier_least least _ hist hl)) (by decide) c len

/-- C158, a day: whatever is in the blocks of a day, the fee of a transaction rises by no more than one half, and a unit and
a half. -/
theorem C158_day (least : Nat) (hl : least ≤ fixOne) (hist day : List Weight) (hd : day.length ≤ 7200) (c : Weight) (len : Nat) :
    2 * tokenFee (multiplier least fixOne (hist ++ day)) c len ≤ 3 * tokenFee (multiplier least fixOne hist) c len + 3 := by
  rw [multiplier_append]
  have h2 := day_rise least _ _ day hd (multiplier_least least _ hist hl) day_factor
  have := fee_scale _ _ 2 3 h2 (by decide) c len
  omega

/-- C158, falling: in a block the fee falls by at most 19 in a million, and a unit. -/
theorem C158_fall (least : Nat) (hl : least ≤ fixOne) (hist : List Weight) (w : Weight) (c : Weight) (len : Nat) :
    tokenFee (multiplier least fixOne hist) c len * 99998125 ≤
      (tokenFee (multiplier least fixOne (hist ++ [w])) c len + 1) * 100000000 := by
  rw [multiplier_snoc]
  have hx : fixOne ≤ fixMax := by decide
  exact fee_scale _ _ _ _ (next_down least w _ (multiplier_least least _ hist hl)
    (multiplier_max least _ hist (Nat.le_trans hl hx) hx)) (by decide) c len

theorem tokenFee_mono {m m' : Nat} (h : m' ≤ m) (c : Weight) (len : Nat) : tokenFee m' c len ≤ tokenFee m c len := by
  unfold tokenFee
  dsimp only
  have h1 : m' * runtimeWeightToFee (c.min blockMax) / fixOne ≤ m * runtimeWeightToFee (c.min blockMax) / fixOne :=
    Nat.div_le_div_right (Nat.mul_le_mul_right _ h)
  generalize m' * runtimeWeightToFee (c.min blockMax) / fixOne = x' at *
  generalize m * runtimeWeightToFee (c.min blockMax) / fixOne = x at *
  generalize min fixMax (runtimeWeightToFee ⟨baseTime, 0⟩ + min fixMax (len * 10000)) = a
  generalize fixMax = F
  omega

/-- C158, little demand: while normal transactions use at most a quarter of their room, no fee rises. -/
theorem C158_calm (least : Nat) (hl : least ≤ fixOne) (hist calm : List Weight) (hc : ∀ w ∈ calm, Calm w) (c : Weight)
    (len : Nat) :
    tokenFee (multiplier least fixOne (hist ++ calm)) c len ≤ tokenFee (multiplier least fixOne hist) c len := by
  rw [multiplier_append]
  have hm := multiplier_least least _ hist hl
  generalize multiplier least fixOne hist = m at *
  refine tokenFee_mono ?_ c len
  induction calm generalizing m with
  | nil => exact Nat.le_refl _
  | cons w l ih =>
    rw [multiplier_cons]
    exact Nat.le_trans (ih (fun x hx => hc x (List.mem_cons_of_mem _ hx)) _ (next_least least w m))
      (next_calm least w m hm (hc w (List.mem_cons_self ..)))

/-- C158, much demand: a block in which normal transactions use half of their room or more raises the multiplier, unless it
is at the end of its range. -/
theorem C158_busy (least : Nat) (hl : least ≤ fixOne) (h0 : 1000000000 ≤ least) (hist : List Weight) (w : Weight) (hw : Busy w)
    (hx : multiplier least fixOne hist < fixMax) :
    multiplier least fixOne hist < multiplier least fixOne (hist ++ [w]) := by
  rw [multiplier_snoc]
  have hm := multiplier_least least _ hist hl
  exact next_busy least w _ hm (Nat.le_trans h0 hm) hx hw

/-- C158, no demand: after 37,000 blocks without normal transactions, about five days, the multiplier has halved, unless it is
the least. -/
theorem C158_quiet (least : Nat) (hl : least ≤ fixOne) (h0 : 1000000000 ≤ least) (hist : List Weight) :
    let m := multiplier least fixOne hist
    let m' := multiplier least fixOne (hist ++ List.replicate 37000 .zero)
    m' = least ∨ 2 * m' ≤ m := by
  intro m m'
  have hx : fixOne ≤ fixMax := by decide
  have hlx := Nat.le_trans hl hx
  have e : m' = multiplier least m (List.replicate 37000 .zero) := multiplier_append ..
  rw [e]
  exact quiet_half least m _ h0 hlx (multiplier_least least _ hist hl) (multiplier_max least _ hist hlx hx) half_factor

/-- The bounds of a block are close: a full block raises the multiplier by 56.25 millionths, an empty one lowers it by 18.75,
and one at the target leaves it. A block that is full of proofs but takes no time counts as full. -/
example : let l := 100000000000000000
    multiplier l fixOne [normalMax] = 1000056251582031250 ∧ multiplier l fixOne [.zero] = 999981250175781250 ∧
    multiplier l fixOne [⟨93750000000, 983040⟩] = fixOne ∧ multiplier l fixOne [⟨0, 3932160⟩] = 1000056251582031250 ∧
    multiplier l fixOne [⟨500000000000, 5242880⟩] = 1000056251582031250 := by decide +kernel

/-- Hypotheses met: calm and busy blocks; a transaction of two base weights and 200 bytes. -/
example : Calm ⟨93750000000, 983040⟩ ∧ Calm .zero ∧ Busy ⟨187500000000, 0⟩ ∧ Busy ⟨0, 1966080⟩ ∧
    multiplier 100000000000000000 fixOne [normalMax] < fixMax ∧ (100000000000000000 : Nat) ≤ fixOne ∧
    tokenFee fixOne ⟨118614000, 0⟩ 200 = 2300000 ∧
    tokenFee (multiplier 100000000000000000 fixOne [normalMax]) ⟨118614000, 0⟩ 200 = 2300011 ∧
    tokenFee (multiplier 100000000000000000 fixOne [.zero]) ⟨118614000, 0⟩ 200 = 2299996 := by
  refine ⟨⟨by decide, by decide⟩, ⟨by decide, by decide⟩, Or.inl (by decide), Or.inr (by decide), ?_⟩
  decide +kernel

/-- At the least multiplier there is no further fall. -/
example : multiplier 100000000000000000 100000000000000000 [.zero, .zero] = 100000000000000000 := by decide +kernel

end Verif.TxPayment
