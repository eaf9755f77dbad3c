import Verif.Capacity.Props
/-!
# When the operations of the capacity pallet succeed

Property C89: for every operation a condition in terms of stakes, unlocking chunks and capacity, equivalent
to its success in every reachable state; and the effects that C81 leaves open.
-/

namespace Verif.Capacity

/-! ## Specification -/

/-- `x` times a rate in billionths, rounded to the nearest whole number, halves down. -/
def nearestDown (p x : Nat) : Nat := (2 * (x * p) + (billion - 1)) / (2 * billion)

/-- `x` times a rate in billionths, rounded up. -/
def upwards (p x : Nat) : Nat := (x * p + (billion - 1)) / billion

/-- What a stake takes. -/
def taken (cfg : Config) (env : Env) (who : AccountId) (a : Balance) : Balance :=
  min (env.balance who - cfg.minTokenBalance) a

/-- The balances that grow with a stake stay balances: the freeze, the record of the target, its total and its
capacity. -/
structure Fits (cfg : Config) (s : State) (who : AccountId) (t : MsaId) (n g : Balance) : Prop where
  freeze : frozenOf s who + n ≤ cfg.maxBalance
  record : (tgtOf s who t).amount + n ≤ cfg.maxBalance ∧ (tgtOf s who t).capacity + g ≤ cfg.maxBalance
  total : (capOf s t).staked + n ≤ cfg.maxBalance ∧ (capOf s t).issued + g ≤ cfg.maxBalance

/-- Somebody has staked to the account before. -/
def Known (s : State) (m : MsaId) : Prop := s.capacity.get m ≠ none

/-- The condition of each operation. -/
def Permitted (cfg : Config) (s : State) (env : Env) : Op → Prop
  | .stake who t a => env.validTarget t = true ∧ 0 < taken cfg env who a ∧
      cfg.minStake ≤ actOf s who + taken cfg env who a ∧
      Fits cfg s who t (taken cfg env who a) (nearestDown cfg.capacityPerToken (taken cfg env who a))
  | .unstake who t a => 0 < a ∧ a ≤ actOf s who ∧ (chunksOf s who).length < cfg.maxChunks ∧ 0 < (tgtOf s who t).amount
  | .withdrawUnstaked who => ∃ c ∈ chunksOf s who, c.thawAt ≤ s.epoch
  | .setEpochLength n => n ≤ cfg.maxEpochLength
  | .onInitialize _ => True
  | .charge m fee => Known s m ∧ fee ≤ available s m
  | .replenishAll m => Known s m
  | .replenishBy m _ => Known s m
  | .deduct m a => Known s m ∧ a ≤ (capOf s m).remaining

/-- What an unstake takes: everything if no more than the minimum would stay. -/
def released (cfg : Config) (s : State) (who : AccountId) (a : Balance) : Balance :=
  if actOf s who ≤ cfg.minStake + a then actOf s who else a

/-- The capacity an unstake of `n` takes from the target: all that the record holds if that is its amount, else
the share of the whole stake, rounded to billionths as the library does, of the whole capacity, rounded up. -/
def revoked (cfg : Config) (s : State) (who : AccountId) (t : MsaId) (n : Balance) : Balance :=
  if (tgtOf s who t).amount = n then (tgtOf s who t).capacity
  else upwards (cfg.fromRational n (capOf s t).staked) (capOf s t).issued

/-! ## Steps -/

theorem nearest_eq (p x : Nat) : mulNearest p x = nearestDown p x := by
  unfold mulNearest nearestDown
  have hx := Nat.div_add_mod x billion
  generalize hq : x / billion = q at *
  generalize hr : x % billion = r at *
  have e : x * p = q * p * billion + r * p := by
    rw [← hx, Nat.add_mul, Nat.mul_assoc, Nat.mul_comm billion]
  rw [e]
  have hy := Nat.div_add_mod (r * p) billion
  have hlt := Nat.mod_lt (r * p) (show 0 < billion by decide)
  generalize r * p / billion = u at *
  generalize r * p % billion = v at *
  generalize q * p = w at *
  rw [← hy]
  unfold billion at *
  split <;> omega

theorem ceil_eq (p x : Nat) : mulCeil p x = upwards p x := by
  unfold mulCeil upwards
  have hx := Nat.div_add_mod x billion
  generalize hq : x / billion = q at *
  generalize hr : x % billion = r at *
  have e : x * p = q * p * billion + r * p := by
    rw [← hx, Nat.add_mul, Nat.mul_assoc, Nat.mul_comm billion]
  rw [e]
  have hy := Nat.div_add_mod (r * p) billion
  have hlt := Nat.mod_lt (r * p) (show 0 < billion by decide)
  generalize r * p / billion = u at *
  generalize r * p % billion = v at *
  generalize q * p = w at *
  rw [← hy]
  unfold billion at *
  split <;> omega

/-- What more holds of reachable states: a record of a target has an amount and the target has details of its
capacity; chunks are not empty. -/
structure Recorded (s : State) : Prop where
  amount : ∀ w t d, s.target.get (w, t) = some d → 0 < d.amount
  known : ∀ w t d, s.target.get (w, t) = some d → Known s t
  chunk : ∀ w, ∀ c ∈ chunksOf s w, 0 < c.value

theorem recorded_init : Recorded .init := by
  constructor
  · intro w t d h; simp [State.init] at h
  · intro w t d h; simp [State.init] at h
  · intro w c h; cases h

/-- Details of capacity are never removed. -/
theorem known_kept {cfg : Config} {s s' : State} {x : Step} (h : dispatch cfg s x = .ok s') (m : MsaId)
    (hk : Known s m) : Known s' m := by
  have hins : ∀ (s : State) (k : MsaId) (d : CapacityDetails), Known s m → Known (setCapacity s k d) m := by
    intro s k d h
    unfold Known setCapacity
    simp only [SMap.get_insert]
    split
    · simp
    · exact h
  obtain ⟨env, op⟩ := x
  cases op with
  | stake who t a =>
    obtain ⟨n, h⟩ := stake_ok h
    unfold Known
    rw [h.capacity, SMap.get_insert]
    split
    · simp
    · exact hk
  | unstake who t a =>
    obtain ⟨n, c, h⟩ := unstake_ok h
    unfold Known
    rw [h.capacity, SMap.get_insert]
    split
    · simp
    · exact hk
  | withdrawUnstaked who =>
    unfold Known
    rw [(withdraw_ok h).capacity]
    exact hk
  | setEpochLength n => obtain ⟨_, rfl⟩ := setEpochLength_ok h; exact hk
  | onInitialize b =>
    simp only [dispatch, Except.ok.injEq] at h
    subst h
    unfold startNewEpochIfNeeded
    split <;> exact hk
  | charge k fee =>
    simp only [dispatch, withdrawFee, replenishIfNeeded, bind_eq_ok_iff] at h
    obtain ⟨s1, h1, h2⟩ := h
    have : Known s1 m := by
      split at h1
      · simp only [replenishAllFor, bind_eq_ok_iff, okOr_eq_ok_iff, pure_eq_ok_iff] at h1
        obtain ⟨_, _, rfl⟩ := h1
        exact hins _ _ _ hk
      · simp only [Except.ok.injEq] at h1; subst h1; exact hk
    simp only [deduct, bind_eq_ok_iff, okOr_eq_ok_iff, pure_eq_ok_iff] at h2
    obtain ⟨_, _, _, _, rfl⟩ := h2
    exact hins _ _ _ this
  | replenishAll k =>
    simp only [dispatch, replenishAllFor, bind_eq_ok_iff, okOr_eq_ok_iff, pure_eq_ok_iff] at h
    obtain ⟨_, _, rfl⟩ := h
    exact hins _ _ _ hk
  | replenishBy k a => have := replenishBy_ok (cfg := cfg) (a := a) h; subst this; exact hk
  | deduct k a =>
    simp only [dispatch, deduct, bind_eq_ok_iff, okOr_eq_ok_iff, pure_eq_ok_iff] at h
    obtain ⟨_, _, _, _, rfl⟩ := h
    exact hins _ _ _ hk

theorem recorded_apply {cfg : Config} {s : State} (h : Recorded s) (x : Step) : Recorded (apply cfg s x) := by
  have hkeep : ∀ m, Known s m → Known (apply cfg s x) m := by
    intro m hm
    unfold apply
    cases hd : dispatch cfg s x with
    | ok s' => exact known_kept hd m hm
    | error e => exact hm
  have hsame : ∀ {s' : State}, s' = apply cfg s x → s'.target = s.target → s'.unlocks = s.unlocks → Recorded s' := by
    intro s' he ht hu
    refine ⟨?_, ?_, ?_⟩
    · rw [ht]; exact h.amount
    · rw [ht]; intro w t d hd; rw [he]; exact hkeep t (h.known w t d hd)
    · intro w; unfold chunksOf; rw [hu]; exact h.chunk w
  have he := apply_eff cfg s x
  generalize hs' : apply cfg s x = s' at *
  cases he with
  | fail e hd => exact h
  | stake hk =>
    rename_i env who t a n
    refine ⟨?_, ?_, ?_⟩
    · intro w m d hd
      rw [hk.target, SMap.get_insert] at hd
      split at hd
      · simp only [Option.some.injEq] at hd
        subst hd
        have := hk.pos
        simp only
        omega
      · exact h.amount _ _ _ hd
    · intro w m d hd
      rw [hk.target, SMap.get_insert] at hd
      split at hd
      · rename_i e
        obtain ⟨_, rfl⟩ := Prod.mk.inj e
        unfold Known
        rw [hk.capacity, SMap.get_insert, if_pos rfl]
        simp
      · exact hkeep m (h.known _ _ _ hd)
    · intro w; unfold chunksOf; rw [hk.unlocks]; exact h.chunk w
  | unstake hk =>
    rename_i env who t a n c
    refine ⟨?_, ?_, ?_⟩
    · intro w m d hd
      rw [hk.target] at hd
      split at hd
      · rw [SMap.get_erase] at hd
        split at hd
        · simp at hd
        · exact h.amount _ _ _ hd
      · rw [SMap.get_insert] at hd
        split at hd
        · simp only [Option.some.injEq] at hd
          subst hd
          simp only
          omega
        · exact h.amount _ _ _ hd
    · intro w m d hd
      rw [hk.target] at hd
      split at hd
      · rw [SMap.get_erase] at hd
        split at hd
        · simp at hd
        · exact hkeep m (h.known _ _ _ hd)
      · rw [SMap.get_insert] at hd
        split at hd
        · rename_i e
          obtain ⟨_, rfl⟩ := Prod.mk.inj e
          unfold Known
          rw [hk.capacity, SMap.get_insert, if_pos rfl]
          simp
        · exact hkeep m (h.known _ _ _ hd)
    · intro w cc hcc
      rw [chunksOf_unstaked hk] at hcc
      split at hcc
      · rcases List.mem_append.1 hcc with hc | hc
        · exact h.chunk _ _ hc
        · simp only [List.mem_singleton] at hc
          subst hc
          have := hk.actual
          have := hk.pos
          have := hk.le
          simp only
          split at * <;> omega
      · exact h.chunk _ _ hcc
  | withdraw hk =>
    refine ⟨?_, ?_, ?_⟩
    · rw [hk.target]; exact h.amount
    · rw [hk.target]; intro w t d hd; exact hkeep t (h.known w t d hd)
    · intro w c hc
      rw [hk.chunks] at hc
      split at hc
      · exact h.chunk _ _ (List.mem_of_mem_filter hc)
      · exact h.chunk _ _ hc
  | epochLength hk => exact hsame rfl rfl rfl
  | newEpoch hk => exact hsame rfl rfl rfl
  | sameEpoch hk => exact h
  | charge hc hf hk => exact hsame rfl hc.target hc.unlocks
  | replenishAll hc hk => exact hsame rfl hc.target hc.unlocks
  | replenishBy => exact h
  | deduct hc hf hk => exact hsame rfl hc.target hc.unlocks

theorem recorded_run {cfg : Config} (hist : List Step) : ∀ {s}, Recorded s → Recorded (run cfg s hist) := by
  induction hist with
  | nil => intro s h; exact h
  | cons x l ih => intro s h; exact ih (recorded_apply h x)

theorem deposit_iff {cfg : Config} {d : CapacityDetails} {a c : Balance} (hd : d.remaining ≤ d.issued) :
    (d.deposit cfg a c).2 = true ↔ d.staked + a ≤ cfg.maxBalance ∧ d.issued + c ≤ cfg.maxBalance := by
  refine ⟨fun h => (deposit_ok h).2, ?_⟩
  rintro ⟨h1, h2⟩
  unfold CapacityDetails.deposit
  have e1 : addB cfg a d.staked = some (a + d.staked) := addB_eq.2 ⟨rfl, by omega⟩
  have e2 : addB cfg c d.remaining = some (c + d.remaining) := addB_eq.2 ⟨rfl, by omega⟩
  have e3 : addB cfg c d.issued = some (c + d.issued) := addB_eq.2 ⟨rfl, by omega⟩
  rw [e1, e2, e3]

theorem stake_iff {cfg : Config} {env : Env} {s : State} (hi : Inv cfg s) {who : AccountId} {t : MsaId} {a : Balance} :
    (∃ s', stake cfg env s who t a = .ok s') ↔ Permitted cfg s env (.stake who t a) := by
  have hbound := hi.bound who
  have hct : chunksTotal cfg (chunksOf s who) = sumChunks (chunksOf s who) := chunksTotal_eq (by omega)
  have hfr := hi.frozen who
  simp only [stake, ensureCanStake, increaseStake, setActiveAndLock, bind_eq_ok_iff, ensure_eq_ok_iff,
    okOr_eq_ok_iff, pure_eq_ok_iff, Permitted]
  have hn : stakable cfg env who a = taken cfg env who a := rfl
  constructor
  · rintro ⟨s', r, ⟨_, h1, _, h2, _, h3, new, h4, _, h5, rfl⟩, act, h6, td, h7, _, h8, s2, ⟨tot, h9, rfl⟩, rfl⟩
    rw [addB_eq] at h4 h6 h9
    have h8' := (deposit_iff (hi.cap t)).1 h8
    unfold TargetDetails.deposit at h7
    simp only [Option.bind_eq_bind, Option.bind_eq_some_iff, addB_eq, Option.pure_def, Option.some.injEq] at h7
    obtain ⟨x, ⟨hx, hx'⟩, y, ⟨hy, hy'⟩, _⟩ := h7
    have e9 := h9.2
    have e6 := h6.1
    change act + chunksTotal cfg (chunksOf s who) ≤ _ at e9
    change act = stakable cfg env who a + actOf s who at e6
    rw [hct] at e9
    rw [hn] at *
    have hg : capacityGenerated cfg (taken cfg env who a) = nearestDown cfg.capacityPerToken (taken cfg env who a) :=
      nearest_eq _ _
    rw [hg] at h8' hy'
    refine ⟨h2, h3, ?_, ⟨by omega, ⟨?_, ?_⟩, h8'⟩⟩
    · have e4 := h4.1
      change new = actOf s who + taken cfg env who a at e4
      omega
    · change taken cfg env who a + (tgtOf s who t).amount ≤ _ at hx'; omega
    · change nearestDown _ _ + (tgtOf s who t).capacity ≤ _ at hy'; omega
  · rintro ⟨h2, h3, h5, ⟨f1, ⟨f2, f3⟩, f4⟩⟩
    have hg : capacityGenerated cfg (taken cfg env who a) = nearestDown cfg.capacityPerToken (taken cfg env who a) :=
      nearest_eq _ _
    have hpos : 0 < a := by unfold taken at h3; omega
    refine ⟨_, (actOf s who, taken cfg env who a), ⟨(), hpos, (), h2, (), h3, actOf s who + taken cfg env who a,
      addB_eq.2 ⟨rfl, by change actOf s who + taken cfg env who a ≤ _; omega⟩, (), h5, rfl⟩, taken cfg env who a + actOf s who, addB_eq.2 ⟨rfl, by change taken cfg env who a + actOf s who ≤ _; omega⟩,
      ⟨taken cfg env who a + (tgtOf s who t).amount, capacityGenerated cfg (taken cfg env who a) + (tgtOf s who t).capacity⟩,
      ?_, (), ?_, _, ⟨_, addB_eq.2 ⟨rfl, ?_⟩, rfl⟩, rfl⟩
    · unfold TargetDetails.deposit
      simp only [Option.bind_eq_bind, Option.bind_eq_some_iff, addB_eq, Option.pure_def, Option.some.injEq]
      refine ⟨_, ⟨rfl, ?_⟩, _, ⟨rfl, ?_⟩, rfl⟩
      · change taken cfg env who a + (tgtOf s who t).amount ≤ _; omega
      · change capacityGenerated cfg (taken cfg env who a) + (tgtOf s who t).capacity ≤ _; omega
    · rw [← hg] at f4
      exact (deposit_iff (hi.cap t)).2 f4
    · change taken cfg env who a + actOf s who + chunksTotal cfg (chunksOf s who) ≤ _
      omega

theorem unstake_iff {cfg : Config} {s : State} (hr : Recorded s) {who : AccountId} {t : MsaId} {a : Balance} :
    (∃ s', unstake cfg s who t a = .ok s') ↔ 0 < a ∧ a ≤ actOf s who ∧ (chunksOf s who).length < cfg.maxChunks ∧
      0 < (tgtOf s who t).amount := by
  constructor
  · rintro ⟨s', h⟩
    obtain ⟨n, c, hk⟩ := unstake_ok h
    refine ⟨hk.pos, hk.le, hk.chunks, ?_⟩
    obtain ⟨d, hd⟩ := hk.related
    have := hr.amount _ _ _ hd
    simpa [tgtOf, hd] using this
  · rintro ⟨h1, h2, h3, h4⟩
    simp only [unstake, decreaseActive, addUnlockChunk, reduceCapacity, bind_eq_ok_iff, ensure_eq_ok_iff,
      okOr_eq_ok_iff, pure_eq_ok_iff]
    cases ha : s.active.get who with
    | none => simp [actOf, ha] at h2; omega
    | some act =>
      cases ht : s.target.get (who, t) with
      | none => simp [tgtOf, ht, noTarget] at h4
      | some td =>
        obtain ⟨cd, hc⟩ := Option.ne_none_iff_exists'.1 (hr.known _ _ _ ht)
        have : a ≤ act := by simpa [actOf, ha] using h2
        exact ⟨_, (), h1, _, ⟨act, rfl, (), this, rfl⟩, _, ⟨(), h3, rfl⟩, td, ht, cd, hc, rfl⟩

theorem withdraw_iff {cfg : Config} {s : State} (hi : Inv cfg s) (hr : Recorded s) {who : AccountId} :
    (∃ s', withdrawUnstaked cfg s who = .ok s') ↔ ∃ c ∈ chunksOf s who, c.thawAt ≤ s.epoch := by
  constructor
  · rintro ⟨s', h⟩
    have hk := withdraw_ok h
    have hne := hk.nonzero
    unfold reapThawed at hne
    simp only at hne
    cases hf : (chunksOf s who).filter (fun c => decide (c.thawAt ≤ s.epoch)) with
    | nil => rw [hf] at hne; simp at hne
    | cons c l =>
      have : c ∈ (chunksOf s who).filter (fun c => decide (c.thawAt ≤ s.epoch)) := by rw [hf]; simp
      rw [List.mem_filter] at this
      exact ⟨c, this.1, by simpa using this.2⟩
  · rintro ⟨c, hc, hle⟩
    cases hu : s.unlocks.get who with
    | none => simp [chunksOf, hu] at hc
    | some l =>
      have hl : chunksOf s who = l := by simp [chunksOf, hu]
      have hne : (reapThawed cfg l s.epoch).2 ≠ 0 := by
        unfold reapThawed
        simp only
        have hmem : c ∈ l.filter (fun c => decide (c.thawAt ≤ s.epoch)) := by
          rw [List.mem_filter, ← hl]; exact ⟨hc, by simpa using hle⟩
        have h1 := value_le_sumChunks hmem
        have h2 := hr.chunk who c hc
        have h3 := sumChunks_filter_le (fun c => decide (c.thawAt ≤ s.epoch)) l
        have h4 := hi.bound who
        rw [hl] at h4
        have : chunksTotal cfg (l.filter (fun c => decide (c.thawAt ≤ s.epoch))) =
            sumChunks (l.filter (fun c => decide (c.thawAt ≤ s.epoch))) := chunksTotal_eq (by omega)
        unfold chunksTotal at this
        rw [this]
        omega
      simp only [withdrawUnstaked, bind_eq_ok_iff, ensure_eq_ok_iff, okOr_eq_ok_iff, pure_eq_ok_iff]
      exact ⟨_, l, hu, (), hne, rfl⟩

theorem deduct_iff {s : State} {m : MsaId} {a : Balance} :
    (∃ s', deduct s m a = .ok s') ↔ Known s m ∧ a ≤ (capOf s m).remaining := by
  constructor
  · rintro ⟨s', h⟩
    refine ⟨?_, (deduct_ok h).2.1⟩
    simp only [deduct, bind_eq_ok_iff, okOr_eq_ok_iff] at h
    obtain ⟨d, hd, _⟩ := h
    unfold Known; rw [hd]; simp
  · rintro ⟨hk, hle⟩
    obtain ⟨d, hd⟩ := Option.ne_none_iff_exists'.1 hk
    have : capOf s m = d := by simp [capOf, hd]
    rw [this] at hle
    simp only [deduct, bind_eq_ok_iff, okOr_eq_ok_iff, pure_eq_ok_iff]
    exact ⟨_, d, hd, _, by unfold CapacityDetails.deduct; rw [if_pos hle], rfl⟩

theorem charge_iff {s : State} {m : MsaId} {fee : Balance} :
    (∃ s', withdrawFee s m fee = .ok s') ↔ Known s m ∧ fee ≤ available s m := by
  have hav : (replenished s m).remaining = available s m := by unfold replenished available; split <;> rfl
  constructor
  · rintro ⟨s', h⟩
    refine ⟨?_, by rw [← hav]; exact (withdrawFee_ok h).2.1⟩
    intro hn
    simp only [withdrawFee, replenishIfNeeded, canReplenish, hn, bind_eq_ok_iff] at h
    obtain ⟨s1, h1, h2⟩ := h
    simp at h1
    subst h1
    simp [deduct, bind_eq_ok_iff, okOr_eq_ok_iff, hn] at h2
  · rintro ⟨hk, hle⟩
    obtain ⟨d, hd⟩ := Option.ne_none_iff_exists'.1 hk
    have hc : capOf s m = d := by simp [capOf, hd]
    unfold withdrawFee replenishIfNeeded canReplenish
    rw [hd]
    unfold available at hle
    rw [hc] at hle
    simp only [CapacityDetails.canReplenish, decide_eq_true_eq, bind_eq_ok_iff]
    split
    · rename_i hl
      rw [if_pos hl] at hle
      have h1 : replenishAllFor s m = .ok (setCapacity s m (d.replenishAll s.epoch)) := by
        simp only [replenishAllFor, bind_eq_ok_iff, okOr_eq_ok_iff, pure_eq_ok_iff]
        exact ⟨d, hd, rfl⟩
      obtain ⟨s', hs'⟩ := (deduct_iff (s := setCapacity s m (d.replenishAll s.epoch)) (m := m) (a := fee)).2
        ⟨by unfold Known setCapacity; simp, by rw [capOf_setCapacity, if_pos rfl]; exact hle⟩
      exact ⟨s', _, h1, hs'⟩
    · rename_i hl
      rw [if_neg hl] at hle
      obtain ⟨s', hs'⟩ := (deduct_iff (s := s) (m := m) (a := fee)).2 ⟨hk, by rw [hc]; exact hle⟩
      exact ⟨s', s, rfl, hs'⟩

/-! ## Property -/

/-- C89: in every reachable state an operation succeeds exactly if its condition holds. -/
theorem C89_accepted_iff (cfg : Config) (hist : List Step) (env : Env) (op : Op) :
    (∃ s', dispatch cfg (run cfg .init hist) ⟨env, op⟩ = .ok s') ↔ Permitted cfg (run cfg .init hist) env op := by
  have hi : Inv cfg (run cfg .init hist) := inv_run hist (inv_init cfg)
  have hr : Recorded (run cfg .init hist) := recorded_run hist recorded_init
  generalize run cfg .init hist = s at *
  have hknown : ∀ (m : MsaId) (f : CapacityDetails → State),
      (∃ s', (do let d ← okOr (s.capacity.get m) Err.targetCapacityNotFound; pure (f d) : Except Err State) = .ok s') ↔
        Known s m := by
    intro m f
    simp only [bind_eq_ok_iff, okOr_eq_ok_iff, pure_eq_ok_iff]
    constructor
    · rintro ⟨_, d, hd, _⟩; unfold Known; rw [hd]; simp
    · intro h
      obtain ⟨d, hd⟩ := Option.ne_none_iff_exists'.1 h
      exact ⟨_, d, hd, rfl⟩
  cases op with
  | stake who t a => exact stake_iff hi
  | unstake who t a => exact unstake_iff hr
  | withdrawUnstaked who => exact withdraw_iff hi hr
  | setEpochLength n =>
    constructor
    · rintro ⟨s', h⟩; exact (setEpochLength_ok h).1
    · intro h
      simp only [dispatch, setEpochLength, bind_eq_ok_iff, ensure_eq_ok_iff, pure_eq_ok_iff]
      exact ⟨_, (), h, rfl⟩
  | onInitialize b => exact ⟨fun _ => trivial, fun _ => ⟨_, rfl⟩⟩
  | charge m fee => exact charge_iff
  | replenishAll m => exact hknown m _
  | replenishBy m a => exact hknown m _
  | deduct m a => exact deduct_iff

/-- C89: what an unstake takes from the record of the target and from its capacity. -/
theorem C89_unstake_capacity (cfg : Config) (hist : List Step) (env : Env) (who : AccountId) (t : MsaId) (a : Balance)
    (s' : State) (h : dispatch cfg (run cfg .init hist) ⟨env, .unstake who t a⟩ = .ok s') :
    let s := run cfg .init hist
    let n := released cfg s who a
    let c := revoked cfg s who t n
    tgtOf s' who t = (if (tgtOf s who t).amount ≤ n then ⟨0, 0⟩
      else ⟨(tgtOf s who t).amount - n, (tgtOf s who t).capacity - c⟩) ∧
    capOf s' t = ⟨(capOf s t).remaining - c, (capOf s t).staked - n, (capOf s t).issued - c,
      (capOf s t).lastReplenished⟩ := by
  intro s n c
  obtain ⟨k, c', hk⟩ := unstake_ok h
  have hkn : k = n := by
    have h1 := hk.actual
    have h2 := hk.le
    have h3 : n = released cfg s who a := rfl
    have h4 : (actOf s who - a ≤ cfg.minStake) ↔ (actOf s who ≤ cfg.minStake + a) := by omega
    unfold released at h3
    rw [h3, h1]
    by_cases h5 : actOf s who ≤ cfg.minStake + a
    · rw [if_pos h5, if_pos (h4.2 h5)]
    · rw [if_neg h5, if_neg (fun h => h5 (h4.1 h))]
  rw [hkn] at hk
  have hcc : c' = c := by
    rw [hk.reduction]
    show _ = revoked cfg s who t n
    unfold revoked capacityReduction
    rw [ceil_eq]
  rw [hcc] at hk
  constructor
  · unfold tgtOf at *
    rw [hk.target]
    by_cases hz : ((s.target.get (who, t)).getD noTarget).amount ≤ n
    · rw [if_pos hz, if_pos (by show ((s.target.get (who, t)).getD noTarget).amount - n = 0; omega), SMap.get_erase_self]
      rfl
    · rw [if_neg hz, if_neg (by show ¬ ((s.target.get (who, t)).getD noTarget).amount - n = 0; omega), SMap.get_insert_self]
      rfl
  · unfold capOf at *
    rw [hk.capacity, SMap.get_insert_self]
    rfl

/-- C89: what the operations on epochs and the direct ones on capacity do. -/
theorem C89_effect (cfg : Config) (hist : List Step) (env : Env) (op : Op) (s' : State)
    (h : dispatch cfg (run cfg .init hist) ⟨env, op⟩ = .ok s') :
    let s := run cfg .init hist
    match op with
    | .setEpochLength n => s' = { s with epochLength := n }
    | .onInitialize b => s' = if s.epochStart + s.epochLength ≤ b ∨ s.epochLength = 0 then
        { s with epoch := min cfg.maxEpoch (s.epoch + 1), epochStart := b } else s
    | .replenishBy _ _ => s' = s
    | .replenishAll m => (∀ w, SameFor s s' w) ∧ s'.epoch = s.epoch ∧
        (∀ k, k ≠ m → capOf s' k = capOf s k) ∧
        capOf s' m = ⟨(capOf s m).issued, (capOf s m).staked, (capOf s m).issued, s.epoch⟩
    | .deduct m a => (∀ w, SameFor s s' w) ∧ s'.epoch = s.epoch ∧
        (∀ k, k ≠ m → capOf s' k = capOf s k) ∧
        capOf s' m = ⟨(capOf s m).remaining - a, (capOf s m).staked, (capOf s m).issued, (capOf s m).lastReplenished⟩
    | _ => True := by
  intro s
  have hsame : ∀ {s' : State}, CapOnly s s' → ∀ w, SameFor s s' w := fun h1 w =>
    ⟨by unfold actOf; rw [h1.active], by unfold chunksOf; rw [h1.unlocks], by unfold frozenOf; rw [h1.frozen],
      fun k => by unfold tgtOf; rw [h1.target]⟩
  cases op with
  | setEpochLength n => exact (setEpochLength_ok h).2
  | onInitialize b =>
    simp only [dispatch, Except.ok.injEq] at h
    subst h
    show startNewEpochIfNeeded cfg s b = _
    unfold startNewEpochIfNeeded
    have : (s.epochLength ≤ b - s.epochStart) ↔ (s.epochStart + s.epochLength ≤ b ∨ s.epochLength = 0) := by omega
    by_cases hc : s.epochLength ≤ b - s.epochStart
    · rw [if_pos hc, if_pos (this.1 hc)]
    · rw [if_neg hc, if_neg (fun h => hc (this.2 h))]
  | replenishBy m a => exact replenishBy_ok (cfg := cfg) (a := a) h
  | replenishAll m =>
    obtain ⟨h1, h2⟩ := replenishAll_ok h
    refine ⟨hsame h1, h1.epoch.1, fun k hk => by rw [h2, if_neg (Ne.symm hk)], by rw [h2, if_pos rfl]⟩
  | deduct m a =>
    obtain ⟨h1, _, h2⟩ := deduct_ok h
    refine ⟨hsame h1, h1.epoch.1, fun k hk => by rw [h2, if_neg (Ne.symm hk)], by rw [h2, if_pos rfl]⟩
  | _ => trivial

/-- Hypotheses met, and both outcomes occur: in the reached state an unstake that leaves the minimum takes
everything; one of more than is staked, a stake to an account that is no provider, one below the minimum, a
withdrawal before the thaw period and an epoch that is too long fail. -/
example : released exCfg exState 8 90 = 100 ∧ revoked exCfg exState 8 1 100 = 2 ∧
    revoked exCfg exState 7 1 150 = 3 ∧
    ([.unstake 8 1 90, .unstake 7 1 150, .stake 9 2 10, .setEpochLength 100, .charge 2 6, .deduct 2 6].all
      (fun op => (dispatch exCfg exState ⟨exEnv, op⟩).isOk)) = true ∧
    ([.unstake 8 1 101, .unstake 8 2 10, .stake 9 3 10, .stake 9 2 9, .withdrawUnstaked 7, .setEpochLength 101,
      .charge 2 7, .replenishAll 3].all (fun op => (dispatch exCfg exState ⟨exEnv, op⟩).isOk = false)) = true := by
  decide +kernel

end Verif.Capacity
