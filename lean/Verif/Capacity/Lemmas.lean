import Verif.Capacity.Model
/-!
# Lemmas about the capacity model
-/

namespace Verif.Capacity

/-! ## What a user can query -/

/-- Active stake of an account. -/
def actOf (s : State) (w : AccountId) : Balance := (s.active.get w).getD 0
/-- Unlocking chunks of an account. -/
def chunksOf (s : State) (w : AccountId) : List Chunk := (s.unlocks.get w).getD []
/-- Amount frozen for staking on an account. -/
def frozenOf (s : State) (w : AccountId) : Balance := (s.frozen.get w).getD 0
/-- What an account has staked to a target. -/
def tgtOf (s : State) (w : AccountId) (m : MsaId) : TargetDetails := (s.target.get (w, m)).getD noTarget
/-- Capacity details of a target. -/
def capOf (s : State) (m : MsaId) : CapacityDetails := (s.capacity.get m).getD noCapacity
/-- Sum of the values of chunks. -/
def sumChunks (l : List Chunk) : Balance := (l.map Chunk.value).sum

theorem addB_eq {cfg : Config} {a b c : Balance} : addB cfg a b = some c ↔ c = a + b ∧ a + b ≤ cfg.maxBalance := by
  unfold addB
  split
  · rename_i h; simp only [Option.some.injEq]; constructor
    · intro e; exact ⟨e.symm, h⟩
    · intro e; exact e.1.symm
  · rename_i h; simp [h]

theorem foldl_sat {cfg : Config} (l : List Chunk) : ∀ a, a + sumChunks l ≤ cfg.maxBalance →
    l.foldl (fun a c => satAdd cfg a c.value) a = a + sumChunks l := by
  induction l with
  | nil => intro a _; simp [sumChunks]
  | cons c l ih =>
    intro a h
    simp only [sumChunks, List.map_cons, List.sum_cons] at h
    have e : satAdd cfg a c.value = a + c.value := by unfold satAdd; omega
    simp only [List.foldl_cons, e]
    rw [ih _ (by simp only [sumChunks]; omega)]
    simp only [sumChunks, List.map_cons, List.sum_cons]
    omega

theorem chunksTotal_eq {cfg : Config} {l : List Chunk} (h : sumChunks l ≤ cfg.maxBalance) :
    chunksTotal cfg l = sumChunks l := by
  unfold chunksTotal
  rw [foldl_sat l 0 (by omega)]
  omega

theorem sum_split (l : List Chunk) (e : Nat) :
    sumChunks (l.filter (fun c => decide (e < c.thawAt))) +
      sumChunks (l.filter (fun c => decide (c.thawAt ≤ e))) = sumChunks l := by
  induction l with
  | nil => rfl
  | cons c l ih =>
    simp only [sumChunks] at *
    by_cases h : e < c.thawAt
    · rw [List.filter_cons_of_pos (by simpa using h), List.filter_cons_of_neg (by simpa using h)]
      simp only [List.map_cons, List.sum_cons]; omega
    · rw [List.filter_cons_of_neg (by simpa using h), List.filter_cons_of_pos (by simpa using h)]
      simp only [List.map_cons, List.sum_cons]; omega

/-! ## Queries after elementary updates -/

theorem getD_insert_or_erase {K V : Type} [DecidableEq K] (m : SMap K V) (k k' : K) (v d : V)
    (c : Prop) [Decidable c] (hc : c → v = d) :
    (((if c then m.erase k else m.insert k v).get k').getD d) =
      if k = k' then v else (m.get k').getD d := by
  split
  · rename_i h
    rw [SMap.get_erase]
    split
    · simp [hc h]
    · rfl
  · rw [SMap.get_insert]
    split <;> rfl

theorem actOf_setActive (s : State) (who w : AccountId) (a : Balance) :
    actOf (setActive s who a) w = if who = w then a else actOf s w := by
  unfold actOf setActive
  exact getD_insert_or_erase _ _ _ _ _ _ id

theorem frozenOf_setFreeze (s : State) (who w : AccountId) (a : Balance) :
    frozenOf (setFreeze s who a) w = if who = w then a else frozenOf s w := by
  unfold frozenOf setFreeze
  exact getD_insert_or_erase _ _ _ _ _ _ id

/-- A record that `set_target_details_for` stores or treats as absent. -/
theorem amount_setTarget (s : State) (who w : AccountId) (t m : MsaId) (d : TargetDetails) :
    (tgtOf (setTarget s who t d) w m).amount =
      if (who, t) = (w, m) then d.amount else (tgtOf s w m).amount := by
  unfold tgtOf setTarget
  split
  · rename_i h
    simp only [if_pos h, SMap.get_erase]
    split
    · simp [noTarget, h]
    · rfl
  · rename_i h
    simp only [if_neg h, SMap.get_insert]
    split <;> rfl

theorem capOf_setCapacity (s : State) (t m : MsaId) (d : CapacityDetails) :
    capOf (setCapacity s t d) m = if t = m then d else capOf s m := by
  unfold capOf setCapacity
  simp only [SMap.get_insert]
  split <;> rfl

/-! ## What successful operations do -/

/-- Effect of a successful stake. -/
structure Staked (cfg : Config) (env : Env) (s : State) (who : AccountId) (t : MsaId) (amount : Balance)
    (s' : State) (n : Balance) : Prop where
  actual : n = min (env.balance who - cfg.minTokenBalance) amount
  pos : 0 < n
  valid : env.validTarget t = true
  min : cfg.minStake ≤ actOf s who + n
  lock : actOf s who + n + chunksTotal cfg (chunksOf s who) ≤ cfg.maxBalance
  capBound : (capOf s t).staked + n ≤ cfg.maxBalance ∧
    (capOf s t).issued + capacityGenerated cfg n ≤ cfg.maxBalance
  active : ∀ w, actOf s' w = if who = w then actOf s who + n else actOf s w
  frozen : ∀ w, frozenOf s' w =
    if who = w then actOf s who + n + chunksTotal cfg (chunksOf s who) else frozenOf s w
  unlocks : s'.unlocks = s.unlocks
  target : s'.target = s.target.insert (who, t)
    ⟨(tgtOf s who t).amount + n, (tgtOf s who t).capacity + capacityGenerated cfg n⟩
  capacity : s'.capacity = s.capacity.insert t
    ⟨(capOf s t).remaining + capacityGenerated cfg n, (capOf s t).staked + n,
     (capOf s t).issued + capacityGenerated cfg n, (capOf s t).lastReplenished⟩
  epoch : s'.epoch = s.epoch ∧ s'.epochStart = s.epochStart ∧ s'.epochLength = s.epochLength

theorem deposit_ok {cfg : Config} {d : CapacityDetails} {a c : Balance} (h : (d.deposit cfg a c).2 = true) :
    (d.deposit cfg a c).1 = ⟨d.remaining + c, d.staked + a, d.issued + c, d.lastReplenished⟩ ∧
      d.staked + a ≤ cfg.maxBalance ∧ d.issued + c ≤ cfg.maxBalance := by
  unfold CapacityDetails.deposit at *
  cases h1 : addB cfg a d.staked with
  | none => rw [h1] at h; simp at h
  | some x =>
    cases h2 : addB cfg c d.remaining with
    | none => rw [h1, h2] at h; simp at h
    | some y =>
      cases h3 : addB cfg c d.issued with
      | none => rw [h1, h2, h3] at h; simp at h
      | some z =>
        rw [addB_eq] at h1 h2 h3
        simp only [CapacityDetails.mk.injEq, and_true]
        omega

theorem stake_ok {cfg env s who t amount s'} (h : stake cfg env s who t amount = .ok s') :
    ∃ n, Staked cfg env s who t amount s' n := by
  simp only [stake, ensureCanStake, increaseStake, setActiveAndLock, bind_eq_ok_iff, ensure_eq_ok_iff,
    okOr_eq_ok_iff, pure_eq_ok_iff] at h
  obtain ⟨r, ⟨_, h1, _, h2, _, h3, new, h4, _, h5, rfl⟩, act, h6, td, h7, _, h8, s2,
    ⟨tot, h9, rfl⟩, rfl⟩ := h
  simp only at *
  rw [addB_eq] at h4 h6 h9
  unfold TargetDetails.deposit at h7
  simp only [Option.bind_eq_bind, Option.bind_eq_some_iff, addB_eq, Option.pure_def,
    Option.some.injEq] at h7
  obtain ⟨x, ⟨hx, hx'⟩, y, ⟨hy, hy'⟩, rfl⟩ := h7
  obtain ⟨d1, d2, d3⟩ := deposit_ok h8
  refine ⟨stakable cfg env who amount, ?_⟩
  have hact : (s.active.get who).getD 0 = actOf s who := rfl
  have hch : (s.unlocks.get who).getD [] = chunksOf s who := rfl
  have htg : (s.target.get (who, t)).getD noTarget = tgtOf s who t := rfl
  have hcp : (s.capacity.get t).getD noCapacity = capOf s t := rfl
  rw [hact] at h4 h6
  rw [hch] at h9
  rw [htg] at hx hx' hy hy'
  rw [hcp] at d1 d2 d3
  obtain ⟨rfl, h4'⟩ := h4
  obtain ⟨rfl, h6'⟩ := h6
  obtain ⟨rfl, h9'⟩ := h9
  subst hx
  subst hy
  constructor
  · rfl
  · exact h3
  · exact h2
  · exact h5
  · omega
  · exact ⟨d2, d3⟩
  · intro w
    show actOf (setActive _ who _) w = _
    rw [actOf_setActive]
    split
    · omega
    · rfl
  · intro w
    show frozenOf (setFreeze _ who _) w = _
    rw [frozenOf_setFreeze]
    split
    · omega
    · rfl
  · rfl
  · simp only [setCapacity, setTarget, setActive, setFreeze]
    rw [if_neg (by omega)]
    congr 2 <;> omega
  · simp only [setCapacity, setTarget, setActive, setFreeze, hcp, d1]
  · exact ⟨rfl, rfl, rfl⟩

/-- Effect of a successful unstake of the actual amount `n`. -/
structure Unstaked (cfg : Config) (s : State) (who : AccountId) (t : MsaId) (amount : Balance)
    (s' : State) (n c : Balance) : Prop where
  pos : 0 < amount
  le : amount ≤ actOf s who
  actual : n = if actOf s who - amount ≤ cfg.minStake then actOf s who else amount
  related : ∃ d, s.target.get (who, t) = some d
  capRelated : ∃ d, s.capacity.get t = some d
  chunks : (chunksOf s who).length < cfg.maxChunks
  reduction : c = if (tgtOf s who t).amount = n then (tgtOf s who t).capacity
    else capacityReduction cfg n (capOf s t).staked (capOf s t).issued
  active : ∀ w, actOf s' w = if who = w then actOf s who - n else actOf s w
  frozen : s'.frozen = s.frozen
  unlocks : s'.unlocks = s.unlocks.insert who
    (chunksOf s who ++ [⟨n, min cfg.maxEpoch (s.epoch + cfg.thawPeriod)⟩])
  target : s'.target = if (tgtOf s who t).amount - n = 0 then s.target.erase (who, t)
    else s.target.insert (who, t) ⟨(tgtOf s who t).amount - n, (tgtOf s who t).capacity - c⟩
  capacity : s'.capacity = s.capacity.insert t
    ⟨(capOf s t).remaining - c, (capOf s t).staked - n, (capOf s t).issued - c,
     (capOf s t).lastReplenished⟩
  epoch : s'.epoch = s.epoch ∧ s'.epochStart = s.epochStart ∧ s'.epochLength = s.epochLength

theorem unstake_ok {cfg s who t amount s'} (h : unstake cfg s who t amount = .ok s') :
    ∃ n c, Unstaked cfg s who t amount s' n c := by
  simp only [unstake, decreaseActive, addUnlockChunk, reduceCapacity, bind_eq_ok_iff, ensure_eq_ok_iff,
    okOr_eq_ok_iff, pure_eq_ok_iff] at h
  obtain ⟨_, h1, r, ⟨act, h2, _, h3, rfl⟩, s2, ⟨_, h4, rfl⟩, td, h5, cd, h6, rfl⟩ := h
  have hact : actOf s who = act := by simp [actOf, h2]
  have htg : tgtOf s who t = td := by
    have : s.target.get (who, t) = some td := h5
    simp [tgtOf, this]
  have hcp : capOf s t = cd := by
    have : s.capacity.get t = some cd := h6
    simp [capOf, this]
  refine ⟨(withdrawActive cfg act amount).2, _, ⟨h1, by omega, ?_, ⟨_, h5⟩, ⟨_, h6⟩, h4, rfl, ?_, rfl,
    rfl, ?_, ?_, rfl, rfl, rfl⟩⟩
  · unfold withdrawActive
    rw [hact]
    split <;> rfl
  · intro w
    show actOf (setActive _ who _) w = _
    rw [actOf_setActive, hact]
    have : (withdrawActive cfg act amount).1 = act - (withdrawActive cfg act amount).2 := by
      unfold withdrawActive; split <;> simp
    rw [this]
  · simp only [setTarget, setCapacity, setActive, TargetDetails.withdraw, htg, hcp]
  · simp only [setTarget, setCapacity, setActive, CapacityDetails.withdraw, htg, hcp]

/-- Effect of a successful withdrawal. -/
structure Withdrawn (cfg : Config) (s : State) (who : AccountId) (s' : State) : Prop where
  some : ∃ l, s.unlocks.get who = some l
  nonzero : (reapThawed cfg (chunksOf s who) s.epoch).2 ≠ 0
  active : s'.active = s.active
  chunks : ∀ w, chunksOf s' w =
    if who = w then (chunksOf s who).filter (fun c => decide (s.epoch < c.thawAt)) else chunksOf s w
  frozen : ∀ w, frozenOf s' w = if who = w then
      satAdd cfg (actOf s who)
        (chunksTotal cfg ((chunksOf s who).filter (fun c => decide (s.epoch < c.thawAt))))
    else frozenOf s w
  target : s'.target = s.target
  capacity : s'.capacity = s.capacity
  epoch : s'.epoch = s.epoch ∧ s'.epochStart = s.epochStart ∧ s'.epochLength = s.epochLength

theorem withdraw_ok {cfg s who s'} (h : withdrawUnstaked cfg s who = .ok s') : Withdrawn cfg s who s' := by
  simp only [withdrawUnstaked, bind_eq_ok_iff, ensure_eq_ok_iff, okOr_eq_ok_iff, pure_eq_ok_iff] at h
  obtain ⟨l, h1, _, h2, rfl⟩ := h
  have hl : chunksOf s who = l := by simp [chunksOf, h1]
  refine ⟨⟨l, h1⟩, by rw [hl]; exact h2, rfl, ?_, ?_, rfl, rfl, rfl, rfl, rfl⟩
  · intro w
    rw [hl]
    unfold chunksOf setFreeze reapThawed
    simp only
    rw [getD_insert_or_erase]
    intro h
    simpa [List.isEmpty_iff] using h
  · intro w
    rw [frozenOf_setFreeze, hl]
    split
    · have e : l.filter (fun c => decide (s.epoch < c.thawAt)) = (reapThawed cfg l s.epoch).1 := rfl
      rw [e]
      show satAdd cfg (actOf s who) _ = _
      congr 1
      by_cases he : (reapThawed cfg l s.epoch).1.isEmpty = true
      · rw [if_pos he, List.isEmpty_iff.1 he]; rfl
      · rw [if_neg he]
    · rfl

/-- An operation that only changes the capacity details of one target. -/
structure CapOnly (s s' : State) : Prop where
  active : s'.active = s.active
  target : s'.target = s.target
  unlocks : s'.unlocks = s.unlocks
  frozen : s'.frozen = s.frozen
  epoch : s'.epoch = s.epoch ∧ s'.epochStart = s.epochStart ∧ s'.epochLength = s.epochLength

/-- Details after the lazy replenishment. -/
def replenished (s : State) (m : MsaId) : CapacityDetails :=
  if (capOf s m).lastReplenished < s.epoch then
    ⟨(capOf s m).issued, (capOf s m).staked, (capOf s m).issued, s.epoch⟩
  else capOf s m

theorem deduct_ok {s m a s'} (h : deduct s m a = .ok s') :
    CapOnly s s' ∧ a ≤ (capOf s m).remaining ∧
    ∀ k, capOf s' k = if m = k then { capOf s m with remaining := (capOf s m).remaining - a }
      else capOf s k := by
  simp only [deduct, bind_eq_ok_iff, okOr_eq_ok_iff, pure_eq_ok_iff] at h
  obtain ⟨d, h1, d', h2, rfl⟩ := h
  have hd : capOf s m = d := by simp [capOf, h1]
  unfold CapacityDetails.deduct at h2
  split at h2
  · simp only [Option.some.injEq] at h2
    subst h2
    refine ⟨⟨rfl, rfl, rfl, rfl, rfl, rfl, rfl⟩, by rw [hd]; assumption, fun k => ?_⟩
    rw [capOf_setCapacity, hd]
  · simp at h2

theorem replenishAll_ok {s m s'} (h : replenishAllFor s m = .ok s') :
    CapOnly s s' ∧
    ∀ k, capOf s' k = if m = k then
      ⟨(capOf s m).issued, (capOf s m).staked, (capOf s m).issued, s.epoch⟩ else capOf s k := by
  simp only [replenishAllFor, bind_eq_ok_iff, okOr_eq_ok_iff, pure_eq_ok_iff] at h
  obtain ⟨d, h1, rfl⟩ := h
  have hd : capOf s m = d := by simp [capOf, h1]
  refine ⟨⟨rfl, rfl, rfl, rfl, rfl, rfl, rfl⟩, fun k => ?_⟩
  rw [capOf_setCapacity, hd]
  rfl

theorem replenishBy_ok {cfg s m a s'} (h : replenishByAmount cfg s m a = .ok s') : s' = s := by
  simp only [replenishByAmount, bind_eq_ok_iff, okOr_eq_ok_iff, pure_eq_ok_iff] at h
  obtain ⟨d, h1, rfl⟩ := h
  rfl

theorem withdrawFee_ok {s m fee s'} (h : withdrawFee s m fee = .ok s') :
    CapOnly s s' ∧ fee ≤ (replenished s m).remaining ∧
    ∀ k, capOf s' k = if m = k then
      { replenished s m with remaining := (replenished s m).remaining - fee } else capOf s k := by
  simp only [withdrawFee, bind_eq_ok_iff] at h
  obtain ⟨s1, h1, h2⟩ := h
  obtain ⟨c2, l2, k2⟩ := deduct_ok h2
  have hs1 : CapOnly s s1 ∧ capOf s1 m = replenished s m ∧ ∀ k, m ≠ k → capOf s1 k = capOf s k := by
    unfold replenishIfNeeded at h1
    by_cases hr : canReplenish s m = true
    · rw [if_pos hr] at h1
      obtain ⟨c1, k1⟩ := replenishAll_ok h1
      refine ⟨c1, ?_, fun k hk => by rw [k1, if_neg hk]⟩
      rw [k1, if_pos rfl]
      unfold canReplenish at hr
      unfold replenished
      cases hg : s.capacity.get m with
      | none => rw [hg] at hr; simp at hr
      | some d =>
        have hd : capOf s m = d := by simp [capOf, hg]
        rw [hg] at hr
        simp only [CapacityDetails.canReplenish, decide_eq_true_eq] at hr
        rw [hd, if_pos hr]
    · rw [if_neg hr] at h1
      simp only [Except.ok.injEq] at h1
      subst h1
      refine ⟨⟨rfl, rfl, rfl, rfl, rfl, rfl, rfl⟩, ?_, fun _ _ => rfl⟩
      unfold canReplenish at hr
      unfold replenished
      cases hg : s.capacity.get m with
      | none =>
        simp only [deduct, hg, bind_eq_ok_iff, okOr_eq_ok_iff, reduceCtorEq, false_and,
          exists_false] at h2
      | some d =>
        have hd : capOf s m = d := by simp [capOf, hg]
        rw [hg] at hr
        simp only [CapacityDetails.canReplenish, decide_eq_true_eq] at hr
        rw [hd, if_neg hr]
  obtain ⟨c1, e1, k1⟩ := hs1
  refine ⟨⟨c2.active.trans c1.active, c2.target.trans c1.target, c2.unlocks.trans c1.unlocks,
    c2.frozen.trans c1.frozen, c2.epoch.1.trans c1.epoch.1, c2.epoch.2.1.trans c1.epoch.2.1,
    c2.epoch.2.2.trans c1.epoch.2.2⟩, by rw [← e1]; exact l2, fun k => ?_⟩
  rw [k2]
  split
  · rw [e1]
  · exact k1 k (by assumption)

theorem setEpochLength_ok {cfg s n s'} (h : setEpochLength cfg s n = .ok s') :
    n ≤ cfg.maxEpochLength ∧ s' = { s with epochLength := n } := by
  simp only [setEpochLength, bind_eq_ok_iff, ensure_eq_ok_iff, pure_eq_ok_iff] at h
  obtain ⟨_, h1, rfl⟩ := h
  exact ⟨h1, rfl⟩

/-- Everything an operation can do. -/
inductive Eff (cfg : Config) (s : State) : Step → State → Prop
  | fail {x} (e) (h : dispatch cfg s x = .error e) : Eff cfg s x s
  | stake {env who t a s' n} (h : Staked cfg env s who t a s' n) : Eff cfg s ⟨env, .stake who t a⟩ s'
  | unstake {env who t a s' n c} (h : Unstaked cfg s who t a s' n c) :
      Eff cfg s ⟨env, .unstake who t a⟩ s'
  | withdraw {env who s'} (h : Withdrawn cfg s who s') : Eff cfg s ⟨env, .withdrawUnstaked who⟩ s'
  | epochLength {env n} (h : n ≤ cfg.maxEpochLength) :
      Eff cfg s ⟨env, .setEpochLength n⟩ { s with epochLength := n }
  | newEpoch {env b} (h : s.epochLength ≤ b - s.epochStart) :
      Eff cfg s ⟨env, .onInitialize b⟩
        { s with epoch := min cfg.maxEpoch (s.epoch + 1), epochStart := b }
  | sameEpoch {env b} (h : ¬ s.epochLength ≤ b - s.epochStart) : Eff cfg s ⟨env, .onInitialize b⟩ s
  | charge {env m fee s'} (h : CapOnly s s') (hf : fee ≤ (replenished s m).remaining)
      (hk : ∀ k, capOf s' k = if m = k then
        { replenished s m with remaining := (replenished s m).remaining - fee } else capOf s k) :
      Eff cfg s ⟨env, .charge m fee⟩ s'
  | replenishAll {env m s'} (h : CapOnly s s')
      (hk : ∀ k, capOf s' k = if m = k then
        ⟨(capOf s m).issued, (capOf s m).staked, (capOf s m).issued, s.epoch⟩ else capOf s k) :
      Eff cfg s ⟨env, .replenishAll m⟩ s'
  | replenishBy {env m a} : Eff cfg s ⟨env, .replenishBy m a⟩ s
  | deduct {env m a s'} (h : CapOnly s s') (hf : a ≤ (capOf s m).remaining)
      (hk : ∀ k, capOf s' k = if m = k then { capOf s m with remaining := (capOf s m).remaining - a }
        else capOf s k) : Eff cfg s ⟨env, .deduct m a⟩ s'

theorem apply_eff (cfg : Config) (s : State) (x : Step) : Eff cfg s x (apply cfg s x) := by
  unfold apply
  cases hd : dispatch cfg s x with
  | error e => exact .fail e hd
  | ok s' =>
    show Eff cfg s x s'
    obtain ⟨env, op⟩ := x
    cases op with
    | stake who t a => obtain ⟨n, h⟩ := stake_ok hd; exact .stake h
    | unstake who t a => obtain ⟨n, c, h⟩ := unstake_ok hd; exact .unstake h
    | withdrawUnstaked who => exact .withdraw (withdraw_ok hd)
    | setEpochLength n =>
      obtain ⟨h1, rfl⟩ := setEpochLength_ok hd
      exact .epochLength h1
    | onInitialize b =>
      simp only [dispatch, Except.ok.injEq] at hd
      subst hd
      unfold startNewEpochIfNeeded
      split
      · exact .newEpoch (by assumption)
      · exact .sameEpoch (by assumption)
    | charge m fee =>
      obtain ⟨h1, h2, h3⟩ := withdrawFee_ok hd
      exact .charge h1 h2 h3
    | replenishAll m =>
      obtain ⟨h1, h2⟩ := replenishAll_ok hd
      exact .replenishAll h1 h2
    | replenishBy m a =>
      have := replenishBy_ok (cfg := cfg) (a := a) hd
      subst this
      exact .replenishBy
    | deduct m a =>
      obtain ⟨h1, h2, h3⟩ := deduct_ok hd
      exact .deduct h1 h2 h3

end Verif.Capacity
