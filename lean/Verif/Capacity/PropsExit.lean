import Verif.Capacity.PropsAccept
/-!
# Staked tokens can be taken out again

Property C99: whatever has happened before and whatever others do meanwhile, an account gets its staked tokens
back by its own calls within a bounded number of blocks.
-/

namespace Verif.Capacity

/-! ## Specification -/

/-- The token account whose call an operation is. -/
def Op.by : Op → Option AccountId
  | .stake who _ _ => some who
  | .unstake who _ _ => some who
  | .withdrawUnstaked who => some who
  | _ => none

/-- A history in which the account does nothing and blocks `n + 1` to `n + k` are initialised, one after the
other. Others may do anything. -/
structure Passes (who : AccountId) (n k : Nat) (later : List Step) : Prop where
  blocks : blocksOf later = List.range' (n + 1) k
  others : ∀ x ∈ later, x.op.by ≠ some who

/-- The longest an epoch can be: the default length or the limit for governance, whichever is more. -/
def longestEpoch (cfg : Config) : Nat := max 100 cfg.maxEpochLength

/-- Blocks after which unstaked tokens have thawed in any case. -/
def thawBlocks (cfg : Config) : Nat := cfg.thawPeriod * longestEpoch cfg

/-! ## Lemmas -/

theorem same_of_other {cfg : Config} {s : State} {x : Step} {who : AccountId} (h : x.op.by ≠ some who) :
    SameFor s (apply cfg s x) who := by
  have he := apply_eff cfg s x
  generalize apply cfg s x = t at he
  have hcap : ∀ {t}, CapOnly s t → SameFor s t who := by
    intro t h
    constructor <;> simp [actOf, chunksOf, frozenOf, tgtOf, h.active, h.unlocks, h.frozen, h.target]
  have hne : ∀ {w}, x.op.by = some w → w ≠ who := by
    intro w hw e
    subst e
    exact h hw
  cases he with
  | fail e h => exact ⟨rfl, rfl, rfl, fun _ => rfl⟩
  | stake hk =>
    have hkw := hne rfl
    refine ⟨by rw [hk.active, if_neg hkw], by simp [chunksOf, hk.unlocks],
      by rw [hk.frozen, if_neg hkw], fun u => ?_⟩
    simp [tgtOf, hk.target, SMap.get_insert, hkw]
  | unstake hk =>
    have hkw := hne rfl
    refine ⟨by rw [hk.active, if_neg hkw], by rw [chunksOf_unstaked hk, if_neg hkw],
      by simp [frozenOf, hk.frozen], fun u => ?_⟩
    have hg : t.target.get (who, u) = s.target.get (who, u) := by
      rw [hk.target]
      split
      · rw [SMap.get_erase_ne]
        intro e; cases e; exact hkw rfl
      · rw [SMap.get_insert_ne]
        intro e; cases e; exact hkw rfl
    simp only [tgtOf, hg]
  | withdraw hk =>
    have hkw := hne rfl
    refine ⟨by simp [actOf, hk.active], by rw [hk.chunks, if_neg hkw],
      by rw [hk.frozen, if_neg hkw], fun u => ?_⟩
    simp [tgtOf, hk.target]
  | epochLength h => exact ⟨rfl, rfl, rfl, fun _ => rfl⟩
  | newEpoch h => exact ⟨rfl, rfl, rfl, fun _ => rfl⟩
  | sameEpoch h => exact ⟨rfl, rfl, rfl, fun _ => rfl⟩
  | charge h hf hk => exact hcap h
  | replenishAll h hk => exact hcap h
  | replenishBy => exact ⟨rfl, rfl, rfl, fun _ => rfl⟩
  | deduct h hf hk => exact hcap h

theorem same_of_others {cfg : Config} {who : AccountId} (later : List Step) : ∀ {s : State},
    (∀ x ∈ later, x.op.by ≠ some who) → SameFor s (run cfg s later) who := by
  induction later with
  | nil => intro s _; exact ⟨rfl, rfl, rfl, fun _ => rfl⟩
  | cons x rest ih =>
    intro s h
    have h1 : SameFor s (apply cfg s x) who := same_of_other (h x (by simp))
    have h2 : SameFor (apply cfg s x) (run cfg (apply cfg s x) rest) who := ih (fun y hy => h y (by simp [hy]))
    exact ⟨h2.active.trans h1.active, h2.chunks.trans h1.chunks, h2.frozen.trans h1.frozen,
      fun m => (h2.target m).trans (h1.target m)⟩

/-- How epochs stand at the end of block `n`: the current one started at most a longest epoch ago, its number has
not run out, and no chunk thaws later than a thaw period from now. -/
structure Timed (cfg : Config) (n : Nat) (s : State) : Prop where
  start : s.epochStart ≤ n
  recent : n < s.epochStart + longestEpoch cfg
  len : s.epochLength ≤ longestEpoch cfg
  epoch : s.epoch ≤ cfg.maxEpoch
  thaw : ∀ w, ∀ c ∈ chunksOf s w, c.thawAt ≤ min cfg.maxEpoch (s.epoch + cfg.thawPeriod)

theorem timed_init (cfg : Config) : Timed cfg 0 .init := by
  refine ⟨Nat.le_refl _, ?_, Nat.le_max_left _ _, Nat.zero_le _, ?_⟩
  · show 0 < 0 + max 100 cfg.maxEpochLength
    omega
  · intro w c hc
    cases hc

/-- A step that starts no block. -/
theorem timed_call {cfg : Config} {n : Nat} {s : State} (h : Timed cfg n s) {x : Step}
    (hx : ∀ b, x.op ≠ .onInitialize b) :
    Timed cfg n (apply cfg s x) ∧ (apply cfg s x).epoch = s.epoch ∧ (apply cfg s x).epochStart = s.epochStart := by
  have he := apply_eff cfg s x
  generalize apply cfg s x = t at he
  have keep : ∀ {t : State}, (t.epoch = s.epoch ∧ t.epochStart = s.epochStart ∧ t.epochLength = s.epochLength) →
      (∀ w, ∀ c ∈ chunksOf t w, c.thawAt ≤ min cfg.maxEpoch (s.epoch + cfg.thawPeriod)) →
      Timed cfg n t ∧ t.epoch = s.epoch ∧ t.epochStart = s.epochStart := by
    intro t ⟨e1, e2, e3⟩ hc
    refine ⟨⟨?_, ?_, ?_, ?_, ?_⟩, e1, e2⟩
    · rw [e2]; exact h.start
    · rw [e2]; exact h.recent
    · rw [e3]; exact h.len
    · rw [e1]; exact h.epoch
    · rw [e1]; exact hc
  have same : ∀ {t : State}, t.unlocks = s.unlocks →
      (∀ w, ∀ c ∈ chunksOf t w, c.thawAt ≤ min cfg.maxEpoch (s.epoch + cfg.thawPeriod)) := by
    intro t e w c hc
    refine h.thaw w c ?_
    unfold chunksOf at hc ⊢
    rwa [e] at hc
  cases he with
  | fail e _ => exact ⟨h, rfl, rfl⟩
  | stake hk => exact keep hk.epoch (same hk.unlocks)
  | unstake hk =>
    refine keep hk.epoch ?_
    intro w c hc
    rw [chunksOf_unstaked hk] at hc
    split at hc
    · rename_i e
      rw [List.mem_append, List.mem_singleton] at hc
      rcases hc with hc | rfl
      · exact h.thaw _ c hc
      · exact Nat.le_refl _
    · exact h.thaw w c hc
  | withdraw hk =>
    refine keep hk.epoch ?_
    intro w c hc
    rw [hk.chunks] at hc
    split at hc
    · exact h.thaw _ c (List.mem_of_mem_filter hc)
    · exact h.thaw w c hc
  | epochLength hl =>
    refine ⟨⟨h.start, h.recent, ?_, h.epoch, h.thaw⟩, rfl, rfl⟩
    exact Nat.le_trans hl (Nat.le_max_right _ _)
  | newEpoch _ => exact absurd rfl (hx _)
  | sameEpoch _ => exact absurd rfl (hx _)
  | charge hk _ _ => exact keep hk.epoch (same hk.unlocks)
  | replenishAll hk _ => exact keep hk.epoch (same hk.unlocks)
  | replenishBy => exact ⟨h, rfl, rfl⟩
  | deduct hk _ _ => exact keep hk.epoch (same hk.unlocks)

/-- The start of the next block. -/
theorem timed_block {cfg : Config} {n : Nat} {s : State} (h : Timed cfg n s) {x : Step}
    (hx : x.op = .onInitialize (n + 1)) :
    Timed cfg (n + 1) (apply cfg s x) ∧
    ((apply cfg s x).epoch = cfg.maxEpoch ∨
      s.epoch * longestEpoch cfg + (n - s.epochStart) + 1 ≤
        (apply cfg s x).epoch * longestEpoch cfg + (n + 1 - (apply cfg s x).epochStart)) := by
  obtain ⟨env, op⟩ := x
  cases hx
  have hM : 0 < longestEpoch cfg := by
    show 0 < max 100 cfg.maxEpochLength
    omega
  have h1 := h.start
  have h2 := h.recent
  have h3 := h.len
  have h4 := h.epoch
  have ha : apply cfg s ⟨env, .onInitialize (n + 1)⟩ = startNewEpochIfNeeded cfg s (n + 1) := rfl
  rw [ha]
  unfold startNewEpochIfNeeded
  split
  · rename_i hl
    refine ⟨⟨Nat.le_refl _, ?_, h.len, ?_, ?_⟩, ?_⟩
    · show n + 1 < n + 1 + longestEpoch cfg
      omega
    · exact Nat.min_le_left _ _
    · intro w c hc
      have := h.thaw w c hc
      show c.thawAt ≤ min cfg.maxEpoch (min cfg.maxEpoch (s.epoch + 1) + cfg.thawPeriod)
      omega
    · show min cfg.maxEpoch (s.epoch + 1) = cfg.maxEpoch ∨
        _ ≤ min cfg.maxEpoch (s.epoch + 1) * longestEpoch cfg + (n + 1 - (n + 1))
      by_cases hm : s.epoch + 1 ≤ cfg.maxEpoch
      · right
        rw [Nat.min_eq_right hm, Nat.add_mul]
        omega
      · left
        omega
  · rename_i hl
    refine ⟨⟨Nat.le_succ_of_le h1, by omega, h3, h4, h.thaw⟩, ?_⟩
    right
    omega

/-- Over `k` blocks the number of the epoch grows by at least `k` divided by the longest epoch. -/
theorem timed_run {cfg : Config} (later : List Step) : ∀ {n k : Nat} {s : State}, Timed cfg n s →
    blocksOf later = List.range' (n + 1) k →
    Timed cfg (n + k) (run cfg s later) ∧
    ((run cfg s later).epoch = cfg.maxEpoch ∨
      s.epoch * longestEpoch cfg + (n - s.epochStart) + k ≤
        (run cfg s later).epoch * longestEpoch cfg + (n + k - (run cfg s later).epochStart)) := by
  induction later with
  | nil =>
    intro n k s h hb
    have hk : k = 0 := by
      cases k with
      | zero => rfl
      | succ k => simp [blocksOf, List.range'_succ] at hb
    subst hk
    exact ⟨h, Or.inr (Nat.le_refl _)⟩
  | cons x rest ih =>
    intro n k s h hb
    have hrun : run cfg s (x :: rest) = run cfg (apply cfg s x) rest := rfl
    rw [hrun]
    rw [blocksOf_cons] at hb
    by_cases hx : ∃ c, x.op = .onInitialize c
    · obtain ⟨c, hx⟩ := hx
      have hbl : blocksOf [x] = [c] := by simp [blocksOf, hx]
      rw [hbl] at hb
      cases k with
      | zero => simp at hb
      | succ k =>
        rw [List.range'_succ] at hb
        simp only [List.cons_append, List.nil_append, List.cons.injEq] at hb
        obtain ⟨rfl, hb⟩ := hb
        obtain ⟨t1, p1⟩ := timed_block h hx
        obtain ⟨t2, p2⟩ := ih t1 hb
        have e : n + (k + 1) = n + 1 + k := by omega
        rw [e]
        refine ⟨t2, ?_⟩
        rcases p2 with p2 | p2
        · exact Or.inl p2
        · rcases p1 with p1 | p1
          · left
            have := (epoch_mono_run cfg rest _ t1.epoch)
            omega
          · right
            omega
    · have hbl : blocksOf [x] = [] := by
        unfold blocksOf
        cases ho : x.op <;> simp [ho]
        exact hx ⟨_, ho⟩
      rw [hbl, List.nil_append] at hb
      obtain ⟨t1, e1, e2⟩ := timed_call h (x := x) (fun b hb => hx ⟨b, hb⟩)
      obtain ⟨t2, p2⟩ := ih t1 hb
      rw [e1, e2] at p2
      exact ⟨t2, p2⟩

/-- After the blocks of `j` longest epochs at least `j` epochs have begun. -/
theorem epochs_pass {cfg : Config} {later : List Step} {n k j : Nat} {s : State} (h : Timed cfg n s)
    (hb : blocksOf later = List.range' (n + 1) k) (hj : j * longestEpoch cfg ≤ k) :
    min cfg.maxEpoch (s.epoch + j) ≤ (run cfg s later).epoch := by
  obtain ⟨t, p⟩ := timed_run later h hb
  rcases p with p | p
  · omega
  · have h1 := t.recent
    have h2 := t.start
    generalize run cfg s later = u at *
    have h3 : (s.epoch + j) * longestEpoch cfg < (u.epoch + 1) * longestEpoch cfg := by
      rw [Nat.add_mul, Nat.add_mul, Nat.one_mul]
      omega
    have := Nat.lt_of_mul_lt_mul_right h3
    omega

theorem timed_reach {cfg : Config} {hist : List Step} {n : Nat} (hb : blocksOf hist = List.range' 1 n) :
    Timed cfg n (run cfg .init hist) := by
  have := (timed_run (cfg := cfg) hist (n := 0) (k := n) (timed_init cfg) hb).1
  rwa [Nat.zero_add] at this

theorem run_append (cfg : Config) (s : State) (a b : List Step) : run cfg s (a ++ b) = run cfg (run cfg s a) b := by
  unfold run
  rw [List.foldl_append]

/-- A withdrawal when everything has thawed. -/
theorem withdraw_all {cfg : Config} {s : State} (hi : Inv cfg s) (hr : Recorded s) {who : AccountId}
    (ht : ∀ c ∈ chunksOf s who, c.thawAt ≤ s.epoch) (env : Env) :
    let s' := apply cfg s ⟨env, .withdrawUnstaked who⟩
    frozenOf s' who = actOf s who ∧ chunksOf s' who = [] ∧ actOf s' who = actOf s who ∧
    (∀ m, tgtOf s' who m = tgtOf s who m) ∧ s'.epoch = s.epoch ∧
    (chunksOf s who ≠ [] → withdrawUnstaked cfg s who = .ok s') := by
  intro s'
  cases hc : chunksOf s who with
  | nil =>
    have hno : ∀ t, withdrawUnstaked cfg s who ≠ .ok t := by
      intro t h
      obtain ⟨c, hm, -⟩ := (withdraw_iff hi hr).1 ⟨t, h⟩
      rw [hc] at hm
      cases hm
    have hs : s' = s := by
      show apply cfg s _ = s
      unfold apply dispatch
      cases h : withdrawUnstaked cfg s who with
      | ok t => exact absurd h (hno t)
      | error e => simp only [h]
    rw [hs]
    refine ⟨?_, hc, rfl, fun _ => rfl, rfl, fun h => absurd rfl h⟩
    rw [hi.frozen, hc]
    simp [sumChunks]
  | cons c rest =>
    obtain ⟨t, h⟩ := (withdraw_iff hi hr (who := who)).2 ⟨c, by rw [hc]; simp, ht c (by rw [hc]; simp)⟩
    have hs : s' = t := by
      show apply cfg s _ = t
      unfold apply dispatch
      simp only [h]
    have hk := withdraw_ok h
    have hnil : (chunksOf s who).filter (fun c => decide (s.epoch < c.thawAt)) = [] := by
      rw [List.filter_eq_nil_iff]
      intro c hc
      have := ht c hc
      simp only [decide_eq_true_eq]
      omega
    rw [hs]
    refine ⟨?_, ?_, by simp [actOf, hk.active], fun m => by simp [tgtOf, hk.target], hk.epoch.1, fun _ => h⟩
    · rw [hk.frozen, if_pos rfl, hnil]
      have := hi.bound who
      show min cfg.maxBalance (actOf s who + 0) = _
      omega
    · rw [hk.chunks, if_pos rfl, hnil]

theorem target_of_active {cfg : Config} {s : State} (hi : Inv cfg s) {who : AccountId} (ha : 0 < actOf s who) :
    ∃ t, 0 < (tgtOf s who t).amount := by
  apply Classical.byContradiction
  intro hno
  have hz : stakedToTargets s who = 0 := by
    refine sumV_zero _ _ ?_
    rintro ⟨w, t⟩ d hd
    by_cases hw : w = who
    · subst hw
      have : tgtOf s w t = d := by rw [tgtOf, hd]; rfl
      simp only [if_true]
      apply Classical.byContradiction
      intro hne
      exact hno ⟨t, by rw [this]; omega⟩
    · simp [hw]
  have := hi.toTargets who
  omega

/-! ## C99 -/

/-- C99: unlocking tokens can be withdrawn, all of them, after the blocks of a thaw period counted in longest
epochs, whatever happened before and whatever others do meanwhile; then only the active stake is frozen. -/
theorem C99_unlocking_withdrawable (cfg : Config) (hist later : List Step) (who : AccountId) (n k : Nat)
    (hb : blocksOf hist = List.range' 1 n) (hl : Passes who n k later) (hk : thawBlocks cfg ≤ k)
    (hc : chunksOf (run cfg .init hist) who ≠ []) :
    ∃ s', withdrawUnstaked cfg (run cfg .init (hist ++ later)) who = .ok s' ∧
      frozenOf s' who = actOf (run cfg .init hist) who ∧ chunksOf s' who = [] := by
  have ht := timed_reach (cfg := cfg) hb
  have hi : Inv cfg (run cfg .init (hist ++ later)) := inv_run _ (inv_init cfg)
  have hr : Recorded (run cfg .init (hist ++ later)) := recorded_run _ recorded_init
  rw [run_append] at hi hr ⊢
  generalize run cfg .init hist = s at *
  have hs : SameFor s (run cfg s later) who := same_of_others later hl.others
  have hp := epochs_pass ht hl.blocks hk
  have hth : ∀ c ∈ chunksOf (run cfg s later) who, c.thawAt ≤ (run cfg s later).epoch := by
    intro c hm
    rw [hs.chunks] at hm
    exact Nat.le_trans (ht.thaw who c hm) hp
  obtain ⟨h1, h2, -, -, -, h3⟩ := withdraw_all hi hr hth ⟨fun _ => 0, fun _ => false⟩
  exact ⟨_, h3 (by rw [hs.chunks]; exact hc), h1.trans hs.active, h2⟩

/-- C99: an account with active stake can unstake all of it at once, naming one of its targets, unless it has the
largest number of unlocking chunks. -/
theorem C99_unstake_possible (cfg : Config) (hist : List Step) (who : AccountId)
    (ha : 0 < actOf (run cfg .init hist) who)
    (hc : (chunksOf (run cfg .init hist) who).length < cfg.maxChunks) :
    ∃ t s', unstake cfg (run cfg .init hist) who t (actOf (run cfg .init hist) who) = .ok s' ∧ actOf s' who = 0 := by
  have hi : Inv cfg (run cfg .init hist) := inv_run _ (inv_init cfg)
  have hr : Recorded (run cfg .init hist) := recorded_run _ recorded_init
  obtain ⟨t, htg⟩ := target_of_active hi ha
  obtain ⟨s', h⟩ := (unstake_iff (cfg := cfg) hr).2 ⟨ha, Nat.le_refl _, hc, htg⟩
  obtain ⟨n, c, hk⟩ := unstake_ok h
  refine ⟨t, s', h, ?_⟩
  rw [hk.active, if_pos rfl, hk.actual]
  split <;> omega

/-- C99: whatever happened before, an account gets everything back with three calls: it waits for a thaw period,
withdraws, unstakes its active stake naming a target it has now, waits again and withdraws. Whatever others do
meanwhile, nothing of it is frozen for staking then. -/
theorem C99_everything_out (cfg : Config) (hm : 0 < cfg.maxChunks) (hist : List Step) (who : AccountId) (n : Nat)
    (hb : blocksOf hist = List.range' 1 n) :
    ∃ t, ∀ (env : Env) (k1 k2 : Nat) (wait1 wait2 : List Step), Passes who n k1 wait1 → thawBlocks cfg ≤ k1 →
      Passes who (n + k1) k2 wait2 → thawBlocks cfg ≤ k2 →
      frozenOf (run cfg .init (hist ++ wait1 ++ [⟨env, .withdrawUnstaked who⟩,
        ⟨env, .unstake who t (actOf (run cfg .init hist) who)⟩] ++ wait2 ++ [⟨env, .withdrawUnstaked who⟩])) who = 0 := by
  have ht := timed_reach (cfg := cfg) hb
  have hi0 : Inv cfg (run cfg .init hist) := inv_run _ (inv_init cfg)
  have hr0 : Recorded (run cfg .init hist) := recorded_run _ recorded_init
  have htg : ∃ t, 0 < actOf (run cfg .init hist) who → 0 < (tgtOf (run cfg .init hist) who t).amount := by
    by_cases ha : 0 < actOf (run cfg .init hist) who
    · obtain ⟨t, h⟩ := target_of_active hi0 ha
      exact ⟨t, fun _ => h⟩
    · exact ⟨0, fun h => absurd h ha⟩
  obtain ⟨t, htg⟩ := htg
  refine ⟨t, ?_⟩
  intro env k1 k2 wait1 wait2 hw1 hk1 hw2 hk2
  simp only [run_append]
  generalize run cfg .init hist = s at *
  -- the first wait
  have hs1 : SameFor s (run cfg s wait1) who := same_of_others wait1 hw1.others
  have hp1 := epochs_pass ht hw1.blocks hk1
  have ht1 := (timed_run wait1 ht hw1.blocks).1
  have hi1 : Inv cfg (run cfg s wait1) := inv_run _ hi0
  have hr1 : Recorded (run cfg s wait1) := recorded_run _ hr0
  have hth1 : ∀ c ∈ chunksOf (run cfg s wait1) who, c.thawAt ≤ (run cfg s wait1).epoch := by
    intro c hm
    rw [hs1.chunks] at hm
    exact Nat.le_trans (ht.thaw who c hm) hp1
  generalize run cfg s wait1 = s1 at *
  -- the first withdrawal
  have hrun : ∀ u : State, run cfg u [⟨env, .withdrawUnstaked who⟩,
      ⟨env, .unstake who t (actOf s who)⟩] =
      apply cfg (apply cfg u ⟨env, .withdrawUnstaked who⟩) ⟨env, .unstake who t (actOf s who)⟩ := fun _ => rfl
  rw [hrun]
  obtain ⟨-, e2, e3, e4, -, -⟩ := withdraw_all hi1 hr1 hth1 env
  have ht2 := (timed_call ht1 (x := ⟨env, .withdrawUnstaked who⟩) (fun b h => by cases h)).1
  have hi2 := inv_apply hi1 ⟨env, .withdrawUnstaked who⟩
  have hr2 := recorded_apply (cfg := cfg) hr1 ⟨env, .withdrawUnstaked who⟩
  generalize apply cfg s1 ⟨env, .withdrawUnstaked who⟩ = s2 at *
  -- the unstake
  have hact2 : actOf s2 who = actOf s who := e3.trans hs1.active
  have hact3 : actOf (apply cfg s2 ⟨env, .unstake who t (actOf s who)⟩) who = 0 := by
    by_cases ha : 0 < actOf s who
    · obtain ⟨s', h⟩ := (unstake_iff (cfg := cfg) hr2 (who := who) (t := t) (a := actOf s who)).2
        ⟨ha, Nat.le_of_eq hact2.symm, by rw [e2]; exact hm, by rw [e4, hs1.target]; exact htg ha⟩
      have hap : apply cfg s2 ⟨env, .unstake who t (actOf s who)⟩ = s' := by
        unfold apply dispatch
        simp only [h]
      obtain ⟨n, c, hk⟩ := unstake_ok h
      rw [hap, hk.active, if_pos rfl, hk.actual, hact2]
      split <;> omega
    · have hap : apply cfg s2 ⟨env, .unstake who t (actOf s who)⟩ = s2 := by
        unfold apply dispatch
        cases h : unstake cfg s2 who t (actOf s who) with
        | error e => simp only [h]
        | ok s' =>
          obtain ⟨n, c, hk⟩ := unstake_ok h
          exact absurd hk.pos ha
      rw [hap, hact2]
      omega
  have ht3 := (timed_call ht2 (x := ⟨env, .unstake who t (actOf s who)⟩) (fun b h => by cases h)).1
  have hi3 := inv_apply hi2 ⟨env, .unstake who t (actOf s who)⟩
  have hr3 := recorded_apply (cfg := cfg) hr2 ⟨env, .unstake who t (actOf s who)⟩
  generalize apply cfg s2 ⟨env, .unstake who t (actOf s who)⟩ = s3 at *
  -- the second wait and withdrawal
  have hs4 : SameFor s3 (run cfg s3 wait2) who := same_of_others wait2 hw2.others
  have hp4 := epochs_pass ht3 hw2.blocks hk2
  have hi4 : Inv cfg (run cfg s3 wait2) := inv_run _ hi3
  have hr4 : Recorded (run cfg s3 wait2) := recorded_run _ hr3
  have hth4 : ∀ c ∈ chunksOf (run cfg s3 wait2) who, c.thawAt ≤ (run cfg s3 wait2).epoch := by
    intro c hm
    rw [hs4.chunks] at hm
    exact Nat.le_trans (ht3.thaw who c hm) hp4
  have hf := (withdraw_all hi4 hr4 hth4 env).1
  have hrun4 : ∀ u : State, run cfg u [⟨env, .withdrawUnstaked who⟩] = apply cfg u ⟨env, .withdrawUnstaked who⟩ :=
    fun _ => rfl
  rw [hrun4, hf, hs4.active, hact3]

/-- Three blocks: account 7 stakes to two targets and unstakes part of it. -/
def exBlocks : List Step :=
  [⟨exEnv, .onInitialize 1⟩, ⟨exEnv, .stake 7 1 500⟩, ⟨exEnv, .stake 7 2 300⟩, ⟨exEnv, .onInitialize 2⟩,
   ⟨exEnv, .unstake 7 1 200⟩, ⟨exEnv, .onInitialize 3⟩]

/-- Blocks in which only account 8 acts. -/
def exWait (n k : Nat) : List Step :=
  ⟨exEnv, .stake 8 1 100⟩ :: (List.range' (n + 1) k).map (fun b => ⟨exEnv, .onInitialize b⟩)

theorem exWait_passes (n k : Nat) : Passes 7 n k (exWait n k) := by
  refine ⟨?_, ?_⟩
  · unfold exWait blocksOf
    rw [List.filterMap_cons_none rfl, List.filterMap_map]
    exact List.filterMap_some
  · intro x hx
    unfold exWait at hx
    rcases List.mem_cons.1 hx with rfl | hx
    · decide
    · obtain ⟨b, -, rfl⟩ := List.mem_map.1 hx
      simp [Op.by]

/-- The hypotheses hold: before, 800 tokens are frozen; after the second withdrawal none. -/
example : frozenOf (run exCfg .init exBlocks) 7 = 800 ∧
    ∃ t, frozenOf (run exCfg .init (exBlocks ++ exWait 3 (thawBlocks exCfg) ++ [⟨exEnv, .withdrawUnstaked 7⟩,
      ⟨exEnv, .unstake 7 t 600⟩] ++ exWait (3 + thawBlocks exCfg) (thawBlocks exCfg) ++
      [⟨exEnv, .withdrawUnstaked 7⟩])) 7 = 0 := by
  refine ⟨by decide, ?_⟩
  obtain ⟨t, h⟩ := C99_everything_out exCfg (by decide) exBlocks 7 3 (by decide)
  exact ⟨t, h exEnv _ _ _ _ (exWait_passes _ _) (Nat.le_refl _) (exWait_passes _ _) (Nat.le_refl _)⟩

end Verif.Capacity
