import Verif.Capacity.Lemmas
/-!
# Properties of the capacity pallet
-/

namespace Verif.Capacity

/-! ## Specification -/

/-- Sum of what the records of an account's targets say it has staked to them. -/
def stakedToTargets (s : State) (w : AccountId) : Balance :=
  s.target.sumV (fun k d => if k.1 = w then d.amount else 0)

/-- Sum of what the records of the stakers of a target say they have staked to it. -/
def stakedByStakers (s : State) (m : MsaId) : Balance :=
  s.target.sumV (fun k d => if k.2 = m then d.amount else 0)

/-- An unstake asks for no more than the account has staked to that target, and either more than the
minimum stake remains active or the target is the only one. -/
def FromOneTarget (cfg : Config) (s : State) : Op → Prop
  | .unstake who t a => a ≤ (tgtOf s who t).amount ∧
      (cfg.minStake < actOf s who - a ∨ (tgtOf s who t).amount = actOf s who)
  | _ => True

/-- All unstakes in a history are of this kind. -/
def AllFromOneTarget (cfg : Config) : State → List Step → Prop
  | _, [] => True
  | s, x :: rest => FromOneTarget cfg s x.op ∧ AllFromOneTarget cfg (apply cfg s x) rest

/-- Capacity available to an account in the current epoch: everything issued to it if it has not been
replenished in this epoch yet, else what remains. -/
def available (s : State) (m : MsaId) : Balance :=
  if (capOf s m).lastReplenished < s.epoch then (capOf s m).issued else (capOf s m).remaining

/-- Fees charged to `m` in a history (those of accepted charges). -/
def chargedTo (cfg : Config) (m : MsaId) : State → List Step → Balance
  | _, [] => 0
  | s, x :: rest =>
    (match x.op, dispatch cfg s x with
      | .charge m' fee, .ok _ => if m' = m then fee else 0
      | _, _ => 0) + chargedTo cfg m (apply cfg s x) rest

/-- Capacity issued to `m` in a history: the sum of all increases of its issued total. -/
def issuedTo (cfg : Config) (m : MsaId) : State → List Step → Balance
  | _, [] => 0
  | s, x :: rest =>
    ((capOf (apply cfg s x) m).issued - (capOf s m).issued) + issuedTo cfg m (apply cfg s x) rest

/-- Operations that transactions and block hooks of the runtime perform. -/
def RuntimeOp : Op → Prop
  | .replenishAll _ => False
  | .replenishBy _ _ => False
  | .deduct _ _ => False
  | _ => True

/-! ## Concrete configuration for the examples -/

/-- A small configuration: minimum stake 10, minimum balance 5, two chunks, thaw period 3, 2 percent. -/
def exCfg : Config where
  minStake := 10
  minTokenBalance := 5
  maxChunks := 2
  thawPeriod := 3
  maxEpochLength := 100
  capacityPerToken := 20000000
  maxBalance := 2 ^ 128 - 1
  maxEpoch := 2 ^ 32 - 1
  fromRational p q := if q < p ∨ q = 0 then 1000000000 else p * 1000000000 / q

/-- Everybody has 1000 tokens; targets 1 and 2 are providers. -/
def exEnv : Env := ⟨fun _ => 1000, fun m => decide (m = 1 ∨ m = 2)⟩

/-- Stake to two targets, spend, unstake, next epoch, spend again. -/
def exHist : List Step :=
  [⟨exEnv, .stake 7 1 500⟩, ⟨exEnv, .stake 7 2 300⟩, ⟨exEnv, .stake 8 1 100⟩, ⟨exEnv, .charge 1 4⟩,
   ⟨exEnv, .unstake 7 1 200⟩, ⟨exEnv, .onInitialize 100⟩, ⟨exEnv, .charge 1 5⟩]

/-- State after it. -/
def exState : State := run exCfg .init exHist

example : actOf exState 7 = 600 ∧ chunksOf exState 7 = [⟨200, 3⟩] ∧ frozenOf exState 7 = 800 ∧
    capOf exState 1 = ⟨3, 400, 8, 1⟩ ∧ capOf exState 2 = ⟨6, 300, 6, 0⟩ ∧ exState.epoch = 1 := by decide

/-! ## The invariant -/

/-- Invariant of all reachable states. -/
structure Inv (cfg : Config) (s : State) : Prop where
  frozen : ∀ w, frozenOf s w = actOf s w + sumChunks (chunksOf s w)
  bound : ∀ w, actOf s w + sumChunks (chunksOf s w) ≤ cfg.maxBalance
  min : ∀ w, actOf s w = 0 ∨ cfg.minStake ≤ actOf s w
  chunks : ∀ w, (chunksOf s w).length ≤ cfg.maxChunks
  cap : ∀ m, (capOf s m).remaining ≤ (capOf s m).issued
  toTargets : ∀ w, actOf s w ≤ stakedToTargets s w
  byStakers : ∀ m, (capOf s m).staked ≤ stakedByStakers s m

theorem inv_init (cfg : Config) : Inv cfg .init := by
  constructor
  · intro w; rfl
  · intro w; show 0 ≤ cfg.maxBalance; omega
  · intro w; exact .inl rfl
  · intro w; show 0 ≤ cfg.maxChunks; omega
  · intro m; exact Nat.le_refl _
  · intro w; exact Nat.le_refl _
  · intro m; exact Nat.le_refl _

theorem contrib_target (s : State) (w : AccountId) (m : MsaId) (f : AccountId × MsaId → Bool) :
    SMap.contrib (fun k (d : TargetDetails) => if f k then d.amount else 0) (w, m)
      (s.target.get (w, m)) = if f (w, m) then (tgtOf s w m).amount else 0 := by
  unfold tgtOf
  cases s.target.get (w, m) with
  | none => simp [SMap.contrib, noTarget]
  | some d => simp [SMap.contrib]

/-- How a sum over the target records changes when one record changes. -/
theorem sum_insert (s : State) (w : AccountId) (m : MsaId) (d : TargetDetails)
    (f : AccountId × MsaId → Bool) :
    (s.target.insert (w, m) d).sumV (fun k d => if f k then d.amount else 0) +
      (if f (w, m) then (tgtOf s w m).amount else 0) =
    s.target.sumV (fun k d => if f k then d.amount else 0) + (if f (w, m) then d.amount else 0) := by
  have := SMap.sumV_insert s.target (w, m) d (fun k d => if f k then d.amount else 0)
  rw [contrib_target] at this
  exact this

theorem sum_erase (s : State) (w : AccountId) (m : MsaId) (f : AccountId × MsaId → Bool) :
    (s.target.erase (w, m)).sumV (fun k d => if f k then d.amount else 0) +
      (if f (w, m) then (tgtOf s w m).amount else 0) =
    s.target.sumV (fun k d => if f k then d.amount else 0) := by
  have := SMap.sumV_erase s.target (w, m) (fun k d => if f k then d.amount else 0)
  rw [contrib_target] at this
  exact this

theorem stakedToTargets_eq (s : State) (w : AccountId) : stakedToTargets s w =
    s.target.sumV (fun k d => if (fun k : AccountId × MsaId => decide (k.1 = w)) k then d.amount else 0) := by
  simp [stakedToTargets]

theorem stakedByStakers_eq (s : State) (m : MsaId) : stakedByStakers s m =
    s.target.sumV (fun k d => if (fun k : AccountId × MsaId => decide (k.2 = m)) k then d.amount else 0) := by
  simp [stakedByStakers]

/-- Sums after a stake. -/
theorem sums_staked {cfg env s who t a s' n} (h : Staked cfg env s who t a s' n) :
    (∀ w, stakedToTargets s' w = stakedToTargets s w + if who = w then n else 0) ∧
    (∀ m, stakedByStakers s' m = stakedByStakers s m + if t = m then n else 0) := by
  constructor
  · intro w
    have := sum_insert s who t ⟨(tgtOf s who t).amount + n,
      (tgtOf s who t).capacity + capacityGenerated cfg n⟩ (fun k => decide (k.1 = w))
    rw [← h.target] at this
    rw [stakedToTargets_eq, stakedToTargets_eq]
    by_cases e : who = w
    · simp only [e, decide_true, if_true] at *; omega
    · simp only [e, decide_false, if_false, Bool.false_eq_true] at *; omega
  · intro m
    have := sum_insert s who t ⟨(tgtOf s who t).amount + n,
      (tgtOf s who t).capacity + capacityGenerated cfg n⟩ (fun k => decide (k.2 = m))
    rw [← h.target] at this
    rw [stakedByStakers_eq, stakedByStakers_eq]
    by_cases e : t = m
    · simp only [e, decide_true, if_true] at *; omega
    · simp only [e, decide_false, if_false, Bool.false_eq_true] at *; omega

/-- Sums after an unstake: the records lose the unstaked amount, or what they have. -/
theorem sums_unstaked {cfg s who t a s' n c} (h : Unstaked cfg s who t a s' n c) :
    (∀ w, stakedToTargets s' w + (if who = w then min n (tgtOf s who t).amount else 0) =
      stakedToTargets s w) ∧
    (∀ m, stakedByStakers s' m + (if t = m then min n (tgtOf s who t).amount else 0) =
      stakedByStakers s m) := by
  have key : ∀ f : AccountId × MsaId → Bool,
      s'.target.sumV (fun k d => if f k then d.amount else 0) +
        (if f (who, t) then min n (tgtOf s who t).amount else 0) =
      s.target.sumV (fun k d => if f k then d.amount else 0) := by
    intro f
    rw [h.target]
    split
    · have := sum_erase s who t f
      by_cases e : f (who, t) = true
      · rw [if_pos e] at this ⊢; omega
      · rw [if_neg e] at *; omega
    · have := sum_insert s who t ⟨(tgtOf s who t).amount - n, (tgtOf s who t).capacity - c⟩ f
      by_cases e : f (who, t) = true
      · rw [if_pos e] at this ⊢; simp only at this; rw [if_pos e] at this; omega
      · rw [if_neg e] at *; rw [if_neg e] at this; omega
  constructor
  · intro w
    have := key (fun k => decide (k.1 = w))
    rw [stakedToTargets_eq, stakedToTargets_eq]
    simpa using this
  · intro m
    have := key (fun k => decide (k.2 = m))
    rw [stakedByStakers_eq, stakedByStakers_eq]
    simpa using this

theorem chunksOf_unstaked {cfg s who t a s' n c} (h : Unstaked cfg s who t a s' n c) (w : AccountId) :
    chunksOf s' w = if who = w then
      chunksOf s who ++ [⟨n, Nat.min cfg.maxEpoch (s.epoch + cfg.thawPeriod)⟩] else chunksOf s w := by
  unfold chunksOf
  rw [h.unlocks, SMap.get_insert]
  split <;> rfl

theorem sumChunks_append (l : List Chunk) (c : Chunk) : sumChunks (l ++ [c]) = sumChunks l + c.value := by
  simp [sumChunks]

theorem value_le_sumChunks {l : List Chunk} {c : Chunk} (h : c ∈ l) : c.value ≤ sumChunks l := by
  unfold sumChunks
  induction l with
  | nil => simp at h
  | cons d l ih =>
    simp only [List.map_cons, List.sum_cons]
    rcases List.mem_cons.1 h with rfl | h
    · omega
    · have := ih h; omega

theorem sumChunks_filter_le (f : Chunk → Bool) (l : List Chunk) :
    sumChunks (l.filter f) ≤ sumChunks l := by
  unfold sumChunks
  induction l with
  | nil => simp
  | cons d l ih =>
    by_cases h : f d = true
    · simp [h]; exact ih
    · simp [h]; omega

theorem Unstaked.n_le {cfg s who t a s' n c} (h : Unstaked cfg s who t a s' n c) :
    n ≤ actOf s who ∧ a ≤ n := by
  have := h.actual
  have := h.le
  split at * <;> omega

/-- What an operation that changes capacity details only preserves. -/
theorem CapOnly.inv {cfg s s'} (h : CapOnly s s') (hi : Inv cfg s)
    (hc : ∀ m, (capOf s' m).remaining ≤ (capOf s' m).issued)
    (hs : ∀ m, (capOf s' m).staked = (capOf s m).staked) : Inv cfg s' := by
  have e1 : ∀ w, actOf s' w = actOf s w := fun w => by unfold actOf; rw [h.active]
  have e2 : ∀ w, chunksOf s' w = chunksOf s w := fun w => by unfold chunksOf; rw [h.unlocks]
  have e3 : ∀ w, frozenOf s' w = frozenOf s w := fun w => by unfold frozenOf; rw [h.frozen]
  have e4 : ∀ w, stakedToTargets s' w = stakedToTargets s w := fun w => by
    unfold stakedToTargets; rw [h.target]
  have e5 : ∀ w, stakedByStakers s' w = stakedByStakers s w := fun w => by
    unfold stakedByStakers; rw [h.target]
  constructor
  · intro w; rw [e1, e2, e3]; exact hi.frozen w
  · intro w; rw [e1, e2]; exact hi.bound w
  · intro w; rw [e1]; exact hi.min w
  · intro w; rw [e2]; exact hi.chunks w
  · exact hc
  · intro w; rw [e1, e4]; exact hi.toTargets w
  · intro m; rw [hs, e5]; exact hi.byStakers m

theorem replenished_le {cfg s} (hi : Inv cfg s) (m : MsaId) :
    (replenished s m).remaining ≤ (replenished s m).issued ∧
    (replenished s m).issued = (capOf s m).issued ∧ (replenished s m).staked = (capOf s m).staked := by
  unfold replenished
  split
  · exact ⟨Nat.le_refl _, rfl, rfl⟩
  · exact ⟨hi.cap m, rfl, rfl⟩

theorem inv_apply {cfg s} (hi : Inv cfg s) (x : Step) : Inv cfg (apply cfg s x) := by
  have he := apply_eff cfg s x
  generalize apply cfg s x = s' at he
  cases he with
  | fail e h => exact hi
  | @stake env who t a s' n h =>
    obtain ⟨t1, t2⟩ := sums_staked h
    have hch : ∀ w, chunksOf s' w = chunksOf s w := fun w => by unfold chunksOf; rw [h.unlocks]
    have hb := hi.bound who
    have hct := chunksTotal_eq (cfg := cfg) (l := chunksOf s who) (by omega)
    have hlock := h.lock
    rw [hct] at hlock
    have hcap : ∀ m, capOf s' m = if t = m then
        ⟨(capOf s t).remaining + capacityGenerated cfg n, (capOf s t).staked + n,
         (capOf s t).issued + capacityGenerated cfg n, (capOf s t).lastReplenished⟩ else capOf s m := by
      intro m
      unfold capOf
      rw [h.capacity, SMap.get_insert]
      split <;> rfl
    constructor
    · intro w
      rw [h.frozen, h.active, hch, hct]
      split
      · rename_i e; subst e; rfl
      · exact hi.frozen w
    · intro w
      rw [h.active, hch]
      split
      · rename_i e; subst e; exact hlock
      · exact hi.bound w
    · intro w
      rw [h.active]
      split
      · exact .inr h.min
      · exact hi.min w
    · intro w; rw [hch]; exact hi.chunks w
    · intro m
      rw [hcap]
      split
      · have := hi.cap t; simp only; omega
      · exact hi.cap m
    · intro w
      rw [h.active, t1]
      have := hi.toTargets w
      split
      · rename_i e; subst e; omega
      · omega
    · intro m
      rw [hcap, t2]
      have := hi.byStakers m
      split
      · rename_i e; subst e; simp only; omega
      · omega
  | @unstake env who t a s' n c h =>
    obtain ⟨t1, t2⟩ := sums_unstaked h
    obtain ⟨hn, _⟩ := h.n_le
    have hfr : ∀ w, frozenOf s' w = frozenOf s w := fun w => by unfold frozenOf; rw [h.frozen]
    have hcap : ∀ m, capOf s' m = if t = m then
        ⟨(capOf s t).remaining - c, (capOf s t).staked - n, (capOf s t).issued - c,
         (capOf s t).lastReplenished⟩ else capOf s m := by
      intro m
      unfold capOf
      rw [h.capacity, SMap.get_insert]
      split <;> rfl
    have hsum : ∀ w, actOf s' w + sumChunks (chunksOf s' w) = actOf s w + sumChunks (chunksOf s w) := by
      intro w
      rw [h.active, chunksOf_unstaked h]
      split
      · rename_i e; subst e
        rw [sumChunks_append]; simp only; omega
      · rfl
    constructor
    · intro w; rw [hfr, hsum]; exact hi.frozen w
    · intro w; rw [hsum]; exact hi.bound w
    · intro w
      rw [h.active]
      split
      · have := h.actual
        have := h.le
        split at * <;> omega
      · exact hi.min w
    · intro w
      rw [chunksOf_unstaked h]
      split
      · have := h.chunks; simp; omega
      · exact hi.chunks w
    · intro m
      rw [hcap]
      split
      · have := hi.cap t; simp only; omega
      · exact hi.cap m
    · intro w
      rw [h.active]
      have h1 := t1 w
      have := hi.toTargets w
      split
      · rename_i e; subst e; rw [if_pos rfl] at h1; omega
      · rename_i e; rw [if_neg e] at h1; omega
    · intro m
      rw [hcap]
      have h1 := t2 m
      have := hi.byStakers m
      split
      · rename_i e; subst e; rw [if_pos rfl] at h1; simp only; omega
      · rename_i e; rw [if_neg e] at h1; omega
  | @withdraw env who s' h =>
    have hact : ∀ w, actOf s' w = actOf s w := fun w => by unfold actOf; rw [h.active]
    have hcap : ∀ m, capOf s' m = capOf s m := fun m => by unfold capOf; rw [h.capacity]
    have hsp := sum_split (chunksOf s who) s.epoch
    have hb := hi.bound who
    have hct := chunksTotal_eq (cfg := cfg)
      (l := (chunksOf s who).filter (fun c => decide (s.epoch < c.thawAt))) (by omega)
    constructor
    · intro w
      rw [h.frozen, hact, h.chunks, hct]
      split
      · rename_i e; subst e; unfold satAdd; omega
      · exact hi.frozen w
    · intro w
      rw [hact, h.chunks]
      split
      · rename_i e; subst e; omega
      · exact hi.bound w
    · intro w; rw [hact]; exact hi.min w
    · intro w
      rw [h.chunks]
      split
      · have := List.length_filter_le (fun c => decide (s.epoch < c.thawAt)) (chunksOf s who)
        have := hi.chunks who
        omega
      · exact hi.chunks w
    · intro m; rw [hcap]; exact hi.cap m
    · intro w; rw [hact]; unfold stakedToTargets; rw [h.target]; exact hi.toTargets w
    · intro m; rw [hcap]; unfold stakedByStakers; rw [h.target]; exact hi.byStakers m
  | epochLength h => exact ⟨hi.frozen, hi.bound, hi.min, hi.chunks, hi.cap, hi.toTargets, hi.byStakers⟩
  | newEpoch h => exact ⟨hi.frozen, hi.bound, hi.min, hi.chunks, hi.cap, hi.toTargets, hi.byStakers⟩
  | sameEpoch h => exact hi
  | @charge env m fee s' h hf hk =>
    obtain ⟨r1, r2, r3⟩ := replenished_le hi m
    refine h.inv hi (fun k => ?_) (fun k => ?_)
    · rw [hk]
      split
      · simp only; omega
      · exact hi.cap k
    · rw [hk]
      split
      · rename_i e; subst e; exact r3
      · rfl
  | @replenishAll env m s' h hk =>
    refine h.inv hi (fun k => ?_) (fun k => ?_)
    · rw [hk]
      split
      · exact Nat.le_refl _
      · exact hi.cap k
    · rw [hk]
      split
      · rename_i e; subst e; rfl
      · rfl
  | replenishBy => exact hi
  | @deduct env m a s' h hf hk =>
    refine h.inv hi (fun k => ?_) (fun k => ?_)
    · rw [hk]
      split
      · have := hi.cap m; simp only; omega
      · exact hi.cap k
    · rw [hk]
      split
      · rename_i e; subst e; rfl
      · rfl

theorem inv_run {cfg} (hist : List Step) : ∀ {s}, Inv cfg s → Inv cfg (run cfg s hist) := by
  induction hist with
  | nil => intro s h; exact h
  | cons x rest ih => intro s h; exact ih (inv_apply h x)

/-! ## C51, C52, C55 -/

/-- C51: after every history, the amount frozen for staking on an account is its active stake plus the
sum of its unlocking chunks. -/
theorem C51_frozen_is_active_plus_unlocking (cfg : Config) (hist : List Step) (w : AccountId) :
    frozenOf (run cfg .init hist) w =
      actOf (run cfg .init hist) w + ((chunksOf (run cfg .init hist) w).map Chunk.value).sum :=
  (inv_run hist (inv_init cfg)).frozen w

/-- C52: after every history, no account has more capacity remaining than was issued to it. -/
theorem C52_remaining_le_issued (cfg : Config) (hist : List Step) (m : MsaId) :
    (capOf (run cfg .init hist) m).remaining ≤ (capOf (run cfg .init hist) m).issued :=
  (inv_run hist (inv_init cfg)).cap m

/-- C55: after every history, the active stake of an account is zero or at least the minimum, and it has
at most the maximum number of unlocking chunks. -/
theorem C55_minimum_and_chunks (cfg : Config) (hist : List Step) (w : AccountId) :
    (actOf (run cfg .init hist) w = 0 ∨ cfg.minStake ≤ actOf (run cfg .init hist) w) ∧
    (chunksOf (run cfg .init hist) w).length ≤ cfg.maxChunks :=
  ⟨(inv_run hist (inv_init cfg)).min w, (inv_run hist (inv_init cfg)).chunks w⟩

/-- The claims on a state with two targets, an unlocking chunk and spent capacity; a third chunk is
refused; unstaking down to the minimum unstakes everything. -/
example : frozenOf exState 7 = 800 ∧ (capOf exState 1).remaining = 3 ∧ (capOf exState 1).issued = 8 ∧
    actOf (apply exCfg exState ⟨exEnv, .unstake 8 1 90⟩) 8 = 0 ∧
    actOf (apply exCfg exState ⟨exEnv, .unstake 8 1 89⟩) 8 = 11 ∧
    (chunksOf (run exCfg exState [⟨exEnv, .unstake 7 1 1⟩, ⟨exEnv, .unstake 7 1 1⟩]) 7).length = 2 := by
  decide

/-! ## C53 -/

/-- C53, partial: after every history, the active stake of an account is at most the sum of the amounts
recorded for its targets, and the staked total of a target is at most the sum over its stakers. Equality
fails in general, see `C53_unstake_from_wrong_target`. -/
theorem C53_bookkeeping_bound_partial (cfg : Config) (hist : List Step) (w : AccountId) (m : MsaId) :
    actOf (run cfg .init hist) w ≤ stakedToTargets (run cfg .init hist) w ∧
    (capOf (run cfg .init hist) m).staked ≤ stakedByStakers (run cfg .init hist) m :=
  ⟨(inv_run hist (inv_init cfg)).toTargets w, (inv_run hist (inv_init cfg)).byStakers m⟩

/-- Equality in C53. -/
def Balanced (s : State) : Prop :=
  (∀ w, actOf s w = stakedToTargets s w) ∧ (∀ m, (capOf s m).staked = stakedByStakers s m)

theorem balanced_apply {cfg s} (hi : Inv cfg s) (hb : Balanced s) (x : Step)
    (hx : FromOneTarget cfg s x.op) : Balanced (apply cfg s x) := by
  have he := apply_eff cfg s x
  generalize apply cfg s x = s' at he
  obtain ⟨b1, b2⟩ := hb
  have hcapOnly : ∀ {s'}, CapOnly s s' → (∀ m, (capOf s' m).staked = (capOf s m).staked) →
      Balanced s' := by
    intro s' h hs
    constructor
    · intro w
      unfold actOf stakedToTargets; rw [h.active, h.target]; exact b1 w
    · intro m
      rw [hs]; unfold stakedByStakers; rw [h.target]; exact b2 m
  cases he with
  | fail e h => exact ⟨b1, b2⟩
  | @stake env who t a s' n h =>
    obtain ⟨t1, t2⟩ := sums_staked h
    constructor
    · intro w
      rw [h.active, t1, ← b1]
      split
      · rename_i e; subst e; rfl
      · omega
    · intro m
      rw [t2, ← b2]
      unfold capOf
      rw [h.capacity, SMap.get_insert]
      split
      · rename_i e; subst e; rfl
      · simp
  | @unstake env who t a s' n c h =>
    obtain ⟨t1, t2⟩ := sums_unstaked h
    obtain ⟨hn, han⟩ := h.n_le
    have hle : n ≤ (tgtOf s who t).amount := by
      simp only [FromOneTarget] at hx
      have := h.actual
      rcases hx with ⟨hx1, hx2 | hx2⟩
      · split at this <;> omega
      · omega
    constructor
    · intro w
      rw [h.active]
      have h1 := t1 w
      have := b1 w
      split
      · rename_i e; subst e; rw [if_pos rfl] at h1; omega
      · rename_i e; rw [if_neg e] at h1; omega
    · intro m
      have h1 := t2 m
      have hb := b2 m
      unfold capOf at hb
      unfold capOf
      rw [h.capacity, SMap.get_insert]
      split
      · rename_i e; subst e; rw [if_pos rfl] at h1
        show (capOf s t).staked - n = _
        have : (capOf s t).staked = stakedByStakers s t := b2 t
        omega
      · rename_i e; rw [if_neg e] at h1; omega
  | @withdraw env who s' h =>
    constructor
    · intro w; unfold actOf stakedToTargets; rw [h.active, h.target]; exact b1 w
    · intro m; unfold capOf stakedByStakers; rw [h.capacity, h.target]; exact b2 m
  | epochLength h => exact ⟨b1, b2⟩
  | newEpoch h => exact ⟨b1, b2⟩
  | sameEpoch h => exact ⟨b1, b2⟩
  | @charge env m fee s' h hf hk =>
    refine hcapOnly h (fun k => ?_)
    rw [hk]
    split
    · rename_i e; subst e; exact (replenished_le hi m).2.2
    · rfl
  | @replenishAll env m s' h hk =>
    refine hcapOnly h (fun k => ?_)
    rw [hk]
    split
    · rename_i e; subst e; rfl
    · rfl
  | replenishBy => exact ⟨b1, b2⟩
  | @deduct env m a s' h hf hk =>
    refine hcapOnly h (fun k => ?_)
    rw [hk]
    split
    · rename_i e; subst e; rfl
    · rfl

/-- C53, partial: the sums are equal after every history in which no unstake takes more than the account
has staked to the target named, and unstaking everything happens only from a single target. Missing: all
other unstakes, where the claim is false. -/
theorem C53_bookkeeping_exact_partial (cfg : Config) (hist : List Step)
    (h : AllFromOneTarget cfg .init hist) (w : AccountId) (m : MsaId) :
    actOf (run cfg .init hist) w = stakedToTargets (run cfg .init hist) w ∧
    (capOf (run cfg .init hist) m).staked = stakedByStakers (run cfg .init hist) m := by
  have key : ∀ (hist : List Step) (s : State), Inv cfg s → Balanced s → AllFromOneTarget cfg s hist →
      Balanced (run cfg s hist) := by
    intro hist
    induction hist with
    | nil => intro s _ hb _; exact hb
    | cons x rest ih =>
      intro s hi hb hx
      exact ih _ (inv_apply hi x) (balanced_apply hi hb x hx.1) hx.2
  have := key hist .init (inv_init cfg) ⟨fun _ => rfl, fun _ => rfl⟩ h
  exact ⟨this.1 w, this.2 m⟩

/-- Hypotheses met. -/
example : AllFromOneTarget exCfg .init exHist ∧ actOf exState 7 = 600 ∧ stakedToTargets exState 7 = 600 := by
  refine ⟨?_, by decide, by decide⟩
  simp only [exHist, AllFromOneTarget, FromOneTarget, true_and, and_true]
  decide

/-- C53 is false of the code: an account with 100 staked to each of two targets unstakes 150 from the
first. Its active stake is 50, but 100 remain recorded for the second target, with the capacity issued
for them. -/
theorem C53_unstake_from_wrong_target :
    let s := run exCfg .init [⟨exEnv, .stake 7 1 100⟩, ⟨exEnv, .stake 7 2 100⟩, ⟨exEnv, .unstake 7 1 150⟩]
    actOf s 7 = 50 ∧ stakedToTargets s 7 = 100 ∧ capOf s 2 = ⟨2, 100, 2, 0⟩ := by decide

/-! ## C54 -/

/-- C54: a withdrawal in epoch `n` releases exactly the sum of the chunks whose thaw epoch is at most `n`,
and keeps exactly the other chunks, in order. -/
theorem C54_withdraw_exact (cfg : Config) (hist : List Step) (who : AccountId) (s' : State)
    (h : withdrawUnstaked cfg (run cfg .init hist) who = .ok s') :
    let s := run cfg .init hist
    chunksOf s' who = (chunksOf s who).filter (fun c => decide (s.epoch < c.thawAt)) ∧
    frozenOf s' who +
      (((chunksOf s who).filter (fun c => decide (c.thawAt ≤ s.epoch))).map Chunk.value).sum =
      frozenOf s who := by
  intro s
  have hi : Inv cfg s := inv_run hist (inv_init cfg)
  have hw := withdraw_ok h
  have h1 := hw.chunks who
  rw [if_pos rfl] at h1
  refine ⟨h1, ?_⟩
  have h2 := hw.frozen who
  rw [if_pos rfl] at h2
  have hsp := sum_split (chunksOf s who) s.epoch
  have hb := hi.bound who
  have hct := chunksTotal_eq (cfg := cfg)
    (l := (chunksOf s who).filter (fun c => decide (s.epoch < c.thawAt))) (by omega)
  have hf := hi.frozen who
  rw [h2]
  show satAdd cfg (actOf s who) (chunksTotal cfg ((chunksOf s who).filter
    (fun c => decide (s.epoch < c.thawAt)))) + _ = _
  rw [hct]
  unfold satAdd
  show _ + sumChunks _ = _
  omega

/-- C54: a withdrawal is possible as soon as a chunk of positive value has thawed. -/
theorem C54_withdraw_possible (cfg : Config) (hist : List Step) (who : AccountId) (c : Chunk)
    (hc : c ∈ chunksOf (run cfg .init hist) who) (hv : 0 < c.value)
    (ht : c.thawAt ≤ (run cfg .init hist).epoch) :
    ∃ s', withdrawUnstaked cfg (run cfg .init hist) who = .ok s' := by
  have hi : Inv cfg (run cfg .init hist) := inv_run hist (inv_init cfg)
  generalize run cfg .init hist = s at *
  unfold withdrawUnstaked
  cases hg : s.unlocks.get who with
  | none =>
    have : chunksOf s who = [] := by simp [chunksOf, hg]
    rw [this] at hc; simp at hc
  | some l =>
    have hl : chunksOf s who = l := by simp [chunksOf, hg]
    have hne : (reapThawed cfg l s.epoch).2 ≠ 0 := by
      unfold reapThawed
      simp only
      have hsp := sum_split l s.epoch
      have hb := hi.bound who
      rw [hl] at hb
      rw [foldl_sat _ 0 (by omega)]
      have hmem : c ∈ l.filter (fun c => decide (c.thawAt ≤ s.epoch)) := by
        rw [List.mem_filter]; rw [hl] at hc; exact ⟨hc, by simpa using ht⟩
      have : c.value ≤ sumChunks (l.filter (fun c => decide (c.thawAt ≤ s.epoch))) :=
        value_le_sumChunks hmem
      omega
    simp [okOr, hne, ensure, bind, Except.bind, pure, Except.pure]

/-- Value of the chunks of an account that thaw in epoch `e` or later. -/
def lockedUntil (s : State) (w : AccountId) (e : Nat) : Balance :=
  (((chunksOf s w).filter (fun c => decide (e ≤ c.thawAt))).map Chunk.value).sum

theorem epoch_mono_apply (cfg : Config) (s : State) (x : Step) (hs : s.epoch ≤ cfg.maxEpoch) :
    s.epoch ≤ (apply cfg s x).epoch ∧ (apply cfg s x).epoch ≤ s.epoch + 1 ∧
      (apply cfg s x).epoch ≤ cfg.maxEpoch := by
  have he := apply_eff cfg s x
  generalize apply cfg s x = s' at he
  cases he with
  | fail e h => omega
  | stake h => rw [h.epoch.1]; omega
  | unstake h => rw [h.epoch.1]; omega
  | withdraw h => rw [h.epoch.1]; omega
  | epochLength h => exact ⟨Nat.le_refl _, Nat.le_succ _, hs⟩
  | newEpoch h => simp only; omega
  | sameEpoch h => omega
  | charge h hf hk => rw [h.epoch.1]; omega
  | replenishAll h hk => rw [h.epoch.1]; omega
  | replenishBy => omega
  | deduct h hf hk => rw [h.epoch.1]; omega

theorem epoch_mono_run (cfg : Config) (hist : List Step) : ∀ s : State, s.epoch ≤ cfg.maxEpoch →
    s.epoch ≤ (run cfg s hist).epoch ∧ (run cfg s hist).epoch ≤ cfg.maxEpoch := by
  induction hist with
  | nil => intro s h; exact ⟨Nat.le_refl _, h⟩
  | cons x rest ih =>
    intro s h
    have h1 := epoch_mono_apply cfg s x h
    have h2 := ih (apply cfg s x) h1.2.2
    have hrun : run cfg s (x :: rest) = run cfg (apply cfg s x) rest := rfl
    rw [hrun]
    omega

theorem lockedUntil_apply {cfg s} (x : Step) (w : AccountId) (e : Nat)
    (he : s.epoch < e) : lockedUntil s w e ≤ lockedUntil (apply cfg s x) w e := by
  have hef := apply_eff cfg s x
  generalize apply cfg s x = s' at hef
  have same : ∀ {s'}, s'.unlocks = s.unlocks → lockedUntil s w e ≤ lockedUntil s' w e := by
    intro s' h
    unfold lockedUntil chunksOf
    rw [h]
  cases hef with
  | fail e h => exact Nat.le_refl _
  | stake h => exact same h.unlocks
  | unstake h =>
    unfold lockedUntil
    rw [chunksOf_unstaked h]
    split
    · rename_i e; subst e
      rw [List.filter_append, List.map_append, List.sum_append]
      omega
    · exact Nat.le_refl _
  | withdraw h =>
    unfold lockedUntil
    rw [h.chunks]
    split
    · rename_i e'; subst e'
      rw [List.filter_filter]
      apply Nat.le_of_eq
      congr 2
      apply List.filter_congr
      intro c _
      by_cases hc : e ≤ c.thawAt
      · simp only [hc, decide_true, Bool.true_and]
        symm
        simp only [decide_eq_true_eq]
        omega
      · simp [hc]
    · exact Nat.le_refl _
  | epochLength h => exact Nat.le_refl _
  | newEpoch h => exact Nat.le_refl _
  | sameEpoch h => exact Nat.le_refl _
  | charge h hf hk => exact same h.unlocks
  | replenishAll h hk => exact same h.unlocks
  | replenishBy => exact Nat.le_refl _
  | deduct h hf hk => exact same h.unlocks

theorem lockedUntil_run {cfg} (hist : List Step) (w : AccountId) (e : Nat) : ∀ s : State,
    s.epoch ≤ cfg.maxEpoch → (run cfg s hist).epoch < e → lockedUntil s w e ≤ lockedUntil (run cfg s hist) w e := by
  induction hist with
  | nil => intro s _ _; exact Nat.le_refl _
  | cons x rest ih =>
    intro s hs he
    have hrun : run cfg s (x :: rest) = run cfg (apply cfg s x) rest := rfl
    rw [hrun] at he ⊢
    have h1 := epoch_mono_apply cfg s x hs
    have h2 := epoch_mono_run cfg rest (apply cfg s x) h1.2.2
    have h3 := ih (apply cfg s x) h1.2.2 he
    have h4 := lockedUntil_apply (cfg := cfg) (s := s) x w e (by omega)
    omega

/-- C54: tokens unstaked in epoch `e` stay frozen, whatever happens, until epoch `e` plus the thaw period, or
the last epoch number if that is earlier: at every earlier time the frozen amount covers the active stake and
the unstaked amount. -/
theorem C54_unstaked_stays_frozen_until (cfg : Config) (hist later : List Step) (who : AccountId) (t : MsaId)
    (a : Balance) (s' : State) (h : unstake cfg (run cfg .init hist) who t a = .ok s') :
    let thaw := min cfg.maxEpoch ((run cfg .init hist).epoch + cfg.thawPeriod)
    (run cfg s' later).epoch < thaw →
    actOf (run cfg s' later) who + a ≤ frozenOf (run cfg s' later) who ∧
    a ≤ lockedUntil (run cfg s' later) who thaw := by
  intro thaw hlt
  obtain ⟨n, c, hu⟩ := unstake_ok h
  have hi0 : Inv cfg (run cfg .init hist) := inv_run hist (inv_init cfg)
  have hi' : Inv cfg s' := by
    have := inv_apply hi0 ⟨⟨fun _ => 0, fun _ => false⟩, .unstake who t a⟩
    have e : apply cfg (run cfg .init hist) ⟨⟨fun _ => 0, fun _ => false⟩, .unstake who t a⟩ = s' := by
      simp only [apply, dispatch, h]
    rwa [e] at this
  have hi := inv_run later hi'
  have hep : s'.epoch ≤ cfg.maxEpoch := by
    rw [hu.epoch.1]
    have : ∀ (l : List Step) (s : State), s.epoch ≤ cfg.maxEpoch → (run cfg s l).epoch ≤ cfg.maxEpoch := by
      intro l
      induction l with
      | nil => intro s hs; exact hs
      | cons x rest ih => intro s hs; exact ih _ (epoch_mono_apply cfg s x hs).2.2
    exact this hist _ (Nat.zero_le _)
  have h1 := lockedUntil_run later who thaw s' hep hlt
  have h2 : a ≤ lockedUntil s' who thaw := by
    unfold lockedUntil
    rw [chunksOf_unstaked hu, if_pos rfl, List.filter_append, List.map_append, List.sum_append]
    have hmin : Nat.min cfg.maxEpoch ((run cfg .init hist).epoch + cfg.thawPeriod) = thaw := rfl
    rw [hmin]
    simp only [Nat.le_refl, decide_true, List.filter_cons_of_pos, List.filter_nil, List.map_cons,
      List.map_nil, List.sum_cons, List.sum_nil]
    have := hu.n_le.2
    omega
  have h3 : lockedUntil (run cfg s' later) who thaw ≤
      sumChunks (chunksOf (run cfg s' later) who) :=
    sumChunks_filter_le _ _
  have h4 := hi.frozen who
  omega

/-- Numbers of the blocks that a history initialises, in order. -/
def blocksOf (hist : List Step) : List BlockNumber :=
  hist.filterMap fun x => match x.op with
    | .onInitialize b => some b
    | _ => none

/-- A history as a chain has it: every call happens inside a block, block numbers grow, the first is at least 1
and, like epoch numbers, they are 32-bit numbers. -/
structure Chronological (cfg : Config) (hist : List Step) : Prop where
  starts : ∃ env b rest, hist = ⟨env, .onInitialize b⟩ :: rest
  grows : (0 :: blocksOf hist).Pairwise (· < ·)
  bounded : ∀ b ∈ blocksOf hist, b ≤ cfg.maxEpoch

theorem blocksOf_cons (x : Step) (l : List Step) : blocksOf (x :: l) = blocksOf [x] ++ blocksOf l := by
  unfold blocksOf
  rw [← List.filterMap_append]; rfl

theorem epoch_lt_block (cfg : Config) (hist : List Step) : ∀ (s : State) (b : Nat), s.epoch < b →
    (b :: blocksOf hist).Pairwise (· < ·) → b ≤ cfg.maxEpoch → (∀ c ∈ blocksOf hist, c ≤ cfg.maxEpoch) →
    (run cfg s hist).epoch < cfg.maxEpoch := by
  induction hist with
  | nil => intro s b h _ hb _; exact Nat.lt_of_lt_of_le h hb
  | cons x rest ih =>
    intro s b h hp hb hc
    rw [blocksOf_cons] at hp hc
    have hrun : run cfg s (x :: rest) = run cfg (apply cfg s x) rest := rfl
    rw [hrun]
    have hm := epoch_mono_apply cfg s x (by omega)
    by_cases hx : ∃ c, x.op = .onInitialize c
    · obtain ⟨c, hx⟩ := hx
      have hbl : blocksOf [x] = [c] := by simp [blocksOf, hx]
      rw [hbl] at hp hc
      have hp' := List.pairwise_cons.1 hp
      have hbc : b < c := hp'.1 c (by simp)
      exact ih _ c (by omega) hp'.2 (hc c (by simp)) (fun d hd => hc d (by simp [hd]))
    · have hbl : blocksOf [x] = [] := by
        unfold blocksOf
        cases ho : x.op <;> simp [ho]
        exact hx ⟨_, ho⟩
      rw [hbl] at hp hc
      have hee : (apply cfg s x).epoch = s.epoch := by
        have he := apply_eff cfg s x
        generalize apply cfg s x = s' at he
        cases he with
        | fail e h => rfl
        | stake h => exact h.epoch.1
        | unstake h => exact h.epoch.1
        | withdraw h => exact h.epoch.1
        | epochLength h => rfl
        | newEpoch h => exact absurd ⟨_, rfl⟩ hx
        | sameEpoch h => rfl
        | charge h hf hk => exact h.epoch.1
        | replenishAll h hk => exact h.epoch.1
        | replenishBy => rfl
        | deduct h hf hk => exact h.epoch.1
      exact ih _ b (by omega) hp hb hc

/-- The epoch number never saturates. -/
theorem epoch_lt_max (cfg : Config) (hist : List Step) (hc : Chronological cfg hist) :
    (run cfg .init hist).epoch < cfg.maxEpoch := by
  obtain ⟨⟨env, b, rest, rfl⟩, hg, hb⟩ := hc
  rw [blocksOf_cons] at hg hb
  have hbl : blocksOf [(⟨env, .onInitialize b⟩ : Step)] = [b] := rfl
  rw [hbl] at hg hb
  have hg' := List.pairwise_cons.1 hg
  have h0 : 0 < b := hg'.1 b (by simp)
  have hrun : run cfg .init (⟨env, .onInitialize b⟩ :: rest) =
    run cfg (startNewEpochIfNeeded cfg .init b) rest := rfl
  rw [hrun]
  refine epoch_lt_block cfg rest _ b ?_ hg'.2 (hb b (by simp)) (fun c hc => hb c (by simp [hc]))
  unfold startNewEpochIfNeeded
  split
  · rename_i h
    have h1 : (State.init).epochLength = 100 := rfl
    have h2 : (State.init).epochStart = 0 := rfl
    have h3 : (State.init).epoch = 0 := rfl
    simp only [h3]
    omega
  · exact h0

/-- C54: on a chain, tokens unstaked in epoch `e` stay frozen, whatever happens, until epoch `e` plus the thaw
period: at every earlier time the frozen amount covers the active stake and the unstaked amount. -/
theorem C54_unstaked_stays_frozen (cfg : Config) (hist later : List Step) (env : Env) (who : AccountId)
    (t : MsaId) (a : Balance) (hc : Chronological cfg (hist ++ ⟨env, .unstake who t a⟩ :: later))
    (hok : (dispatch cfg (run cfg .init hist) ⟨env, .unstake who t a⟩).isOk) :
    let s := run cfg .init (hist ++ ⟨env, .unstake who t a⟩ :: later)
    s.epoch < (run cfg .init hist).epoch + cfg.thawPeriod → actOf s who + a ≤ frozenOf s who := by
  intro s hlt
  have hmax : s.epoch < cfg.maxEpoch := epoch_lt_max cfg _ hc
  cases hd : dispatch cfg (run cfg .init hist) ⟨env, .unstake who t a⟩ with
  | error e => rw [hd] at hok; cases hok
  | ok s' =>
    have hs : s = run cfg s' later := by
      show run cfg .init _ = _
      unfold run at hd ⊢
      rw [List.foldl_append, List.foldl_cons]
      congr 1
      simp only [apply, hd]
    have h := C54_unstaked_stays_frozen_until cfg hist later who t a s' hd
    rw [← hs] at h
    exact (h (by omega)).1

/-- Hypotheses met: a chain where account 7 stakes in block 1 and unstakes in epoch 1, and the tokens are still
frozen after an attempt to withdraw them in epoch 3. -/
example :
    let e (b : Nat) : Step := ⟨exEnv, .onInitialize b⟩
    let hist := [e 1, ⟨exEnv, .stake 7 1 500⟩, e 100]
    let all := hist ++ ⟨exEnv, .unstake 7 1 200⟩ :: [e 200, e 300, ⟨exEnv, .withdrawUnstaked 7⟩]
    Chronological exCfg all ∧ (dispatch exCfg (run exCfg .init hist) ⟨exEnv, .unstake 7 1 200⟩).isOk ∧
    (run exCfg .init all).epoch = 3 ∧ (run exCfg .init hist).epoch + exCfg.thawPeriod = 4 ∧
    frozenOf (run exCfg .init all) 7 = 500 := by
  refine ⟨⟨⟨_, _, _, rfl⟩, by decide, by decide⟩, by decide, by decide, by decide, by decide⟩

/-- Hypotheses met: unstaked in epoch 0, still frozen in epoch 2, withdrawn in epoch 3. -/
example :
    let e (b : Nat) : Step := ⟨exEnv, .onInitialize b⟩
    let w : Step := ⟨exEnv, .withdrawUnstaked 7⟩
    frozenOf (run exCfg exState [e 200, w]) 7 = 800 ∧ (run exCfg exState [e 200, w]).epoch = 2 ∧
    frozenOf (run exCfg exState [e 200, e 300, w]) 7 = 600 ∧
    chunksOf (run exCfg exState [e 200, e 300, w]) 7 = [] := by decide

/-! ## C56 -/

/-- C56: an operation never lowers the epoch number and raises it by at most one; it raises it only at the
start of a block, when at least the epoch length has passed since the first block of the epoch, and then
that block is the first of the new epoch. The epoch length never exceeds its maximum. -/
theorem C56_epochs (cfg : Config) (hist : List Step) (x : Step) :
    let s := run cfg .init hist
    let s' := apply cfg s x
    s.epoch ≤ s'.epoch ∧ s'.epoch ≤ s.epoch + 1 ∧
    (s'.epoch ≠ s.epoch → ∃ b, x.op = .onInitialize b ∧ s.epochLength ≤ b - s.epochStart ∧
      s'.epochStart = b) ∧
    (∀ b, x.op = .onInitialize b → s.epochLength ≤ b - s.epochStart → s.epoch < cfg.maxEpoch →
      s'.epoch = s.epoch + 1) ∧
    s'.epochLength ≤ max 100 cfg.maxEpochLength := by
  intro s s'
  have hs := (epoch_mono_run cfg hist .init (Nat.zero_le _)).2
  have hm := epoch_mono_apply cfg s x hs
  have hlen : ∀ (h : List Step) (s0 : State), s0.epochLength ≤ max 100 cfg.maxEpochLength →
      (run cfg s0 h).epochLength ≤ max 100 cfg.maxEpochLength := by
    intro h
    induction h with
    | nil => intro s0 hs; exact hs
    | cons y rest ih =>
      intro s0 hs0
      refine ih (apply cfg s0 y) ?_
      have he := apply_eff cfg s0 y
      generalize apply cfg s0 y = s1 at he
      cases he with
      | fail e h => exact hs0
      | stake h => rw [h.epoch.2.2]; exact hs0
      | unstake h => rw [h.epoch.2.2]; exact hs0
      | withdraw h => rw [h.epoch.2.2]; exact hs0
      | epochLength h => simp only; omega
      | newEpoch h => exact hs0
      | sameEpoch h => exact hs0
      | charge h hf hk => rw [h.epoch.2.2]; exact hs0
      | replenishAll h hk => rw [h.epoch.2.2]; exact hs0
      | replenishBy => exact hs0
      | deduct h hf hk => rw [h.epoch.2.2]; exact hs0
  refine ⟨hm.1, hm.2.1, ?_, ?_, ?_⟩
  · intro hne
    have he := apply_eff cfg s x
    have hs' : s' = apply cfg s x := rfl
    rw [hs'] at hne ⊢
    generalize apply cfg s x = s2 at he hne ⊢
    cases he with
    | fail e h => exact absurd rfl hne
    | stake h => exact absurd h.epoch.1 hne
    | unstake h => exact absurd h.epoch.1 hne
    | withdraw h => exact absurd h.epoch.1 hne
    | epochLength h => exact absurd rfl hne
    | @newEpoch env b h => exact ⟨b, rfl, h, rfl⟩
    | sameEpoch h => exact absurd rfl hne
    | charge h hf hk => exact absurd h.epoch.1 hne
    | replenishAll h hk => exact absurd h.epoch.1 hne
    | replenishBy => exact absurd rfl hne
    | deduct h hf hk => exact absurd h.epoch.1 hne
  · intro b hb hl hlt
    have : s' = startNewEpochIfNeeded cfg s b := by
      show apply cfg s x = _
      unfold apply dispatch
      rw [hb]
    rw [this]
    unfold startNewEpochIfNeeded
    rw [if_pos hl]
    simp only
    omega
  · exact hlen (hist ++ [x]) .init (by simp [State.init]) |> fun h => by
      have e : run cfg .init (hist ++ [x]) = s' := by simp [run, s', s, List.foldl_append]
      rwa [e] at h

/-- An epoch that is one block short does not end. -/
example : (run exCfg exState [⟨exEnv, .onInitialize 199⟩]).epoch = 1 ∧
    (run exCfg exState [⟨exEnv, .onInitialize 200⟩]).epoch = 2 ∧
    (run exCfg exState [⟨exEnv, .setEpochLength 50⟩, ⟨exEnv, .onInitialize 150⟩]).epoch = 2 := by decide

/-! ## C57 -/

theorem available_apply {cfg s} (hi : Inv cfg s) (m : MsaId) (x : Step) (hx : RuntimeOp x.op)
    (hep : (apply cfg s x).epoch = s.epoch) :
    (match x.op, dispatch cfg s x with
      | .charge m' fee, .ok _ => if m' = m then fee else 0
      | _, _ => 0) + available (apply cfg s x) m ≤
    available s m + ((capOf (apply cfg s x) m).issued - (capOf s m).issued) := by
  have hcapLe := hi.cap m
  have he := apply_eff cfg s x
  have hap : apply cfg s x = match dispatch cfg s x with
    | .ok s' => s'
    | .error _ => s := rfl
  generalize apply cfg s x = s' at he hep hap ⊢
  have same : ∀ {s' : State}, s'.epoch = s.epoch → capOf s' m = capOf s m →
      available s' m ≤ available s m + ((capOf s' m).issued - (capOf s m).issued) := by
    intro s' h1 h2
    unfold available
    rw [h1, h2]
    omega
  cases he with
  | fail e h =>
    rw [h]
    have : (match x.op, (Except.error e : Except Err State) with
      | .charge m' fee, .ok _ => if m' = m then fee else 0
      | _, _ => 0) = 0 := by cases x.op <;> rfl
    rw [this]
    omega
  | @stake env who t a s' n h =>
    simp only [Nat.zero_add]
    have hc : capOf s' m = if t = m then
        ⟨(capOf s t).remaining + capacityGenerated cfg n, (capOf s t).staked + n,
         (capOf s t).issued + capacityGenerated cfg n, (capOf s t).lastReplenished⟩ else capOf s m := by
      unfold capOf
      rw [h.capacity, SMap.get_insert]
      split <;> rfl
    by_cases e : t = m
    · subst e
      rw [if_pos rfl] at hc
      unfold available
      rw [hep, hc]
      simp only
      split <;> omega
    · rw [if_neg e] at hc
      exact same hep hc
  | @unstake env who t a s' n c h =>
    simp only [Nat.zero_add]
    have hc : capOf s' m = if t = m then
        ⟨(capOf s t).remaining - c, (capOf s t).staked - n, (capOf s t).issued - c,
         (capOf s t).lastReplenished⟩ else capOf s m := by
      unfold capOf
      rw [h.capacity, SMap.get_insert]
      split <;> rfl
    by_cases e : t = m
    · subst e
      rw [if_pos rfl] at hc
      unfold available
      rw [hep, hc]
      simp only
      split <;> omega
    · rw [if_neg e] at hc
      exact same hep hc
  | withdraw h =>
    simp only [Nat.zero_add]
    exact same hep (by unfold capOf; rw [h.capacity])
  | epochLength h => simp only [Nat.zero_add]; exact same rfl rfl
  | newEpoch h => simp only [Nat.zero_add]; exact same hep rfl
  | sameEpoch h => simp only [Nat.zero_add]; exact same rfl rfl
  | @charge env m' fee s' h hf hk =>
    have hav : available s m = (replenished s m).remaining := by
      unfold available replenished
      split <;> rfl
    have hlast : ¬ (replenished s m).lastReplenished < s.epoch := by
      unfold replenished
      split
      · exact Nat.lt_irrefl _
      · assumption
    have hk := hk m
    by_cases e : m' = m
    · subst e
      rw [if_pos rfl] at hk
      have hav' : available s' m' = (replenished s m').remaining - fee := by
        unfold available
        rw [hk, hep]
        rw [if_neg hlast]
      rw [hav', hav]
      split
      · rename_i heq _
        simp only [Op.charge.injEq] at heq
        rw [if_pos heq.1.symm, ← heq.2]; omega
      · omega
    · rw [if_neg e] at hk
      have := same hep hk
      split
      · rename_i heq _
        simp only [Op.charge.injEq] at heq
        rw [if_neg (by rw [← heq.1]; exact e)]
        omega
      · omega
  | replenishAll h hk => exact hx.elim
  | replenishBy => exact hx.elim
  | deduct h hf hk => exact hx.elim

/-- C57: over any history within one epoch, the fees charged to an account are at most the capacity
available to it at the beginning plus the capacity issued to it during the history; what is left over
stays available. -/
theorem C57_spending_covered (cfg : Config) (before hist : List Step) (m : MsaId)
    (hops : ∀ x ∈ hist, RuntimeOp x.op)
    (hep : (run cfg .init (before ++ hist)).epoch = (run cfg .init before).epoch) :
    chargedTo cfg m (run cfg .init before) hist + available (run cfg .init (before ++ hist)) m ≤
      available (run cfg .init before) m + issuedTo cfg m (run cfg .init before) hist := by
  have key : ∀ (hist : List Step) (s : State), Inv cfg s → s.epoch ≤ cfg.maxEpoch →
      (∀ x ∈ hist, RuntimeOp x.op) → (run cfg s hist).epoch = s.epoch →
      chargedTo cfg m s hist + available (run cfg s hist) m ≤ available s m + issuedTo cfg m s hist := by
    intro hist
    induction hist with
    | nil => intro s _ _ _ _; simp [chargedTo, issuedTo, run]
    | cons x rest ih =>
      intro s hi hmax hops hep
      have hrun : run cfg s (x :: rest) = run cfg (apply cfg s x) rest := rfl
      rw [hrun] at hep ⊢
      have e1 := epoch_mono_apply cfg s x hmax
      have e2 := epoch_mono_run cfg rest (apply cfg s x) e1.2.2
      have hs : (apply cfg s x).epoch = s.epoch := by omega
      have h1 := available_apply hi m x (hops x (by simp)) hs
      have h2 := ih (apply cfg s x) (inv_apply hi x) e1.2.2
        (fun y hy => hops y (List.mem_cons_of_mem _ hy)) (by omega)
      simp only [chargedTo, issuedTo]
      omega
  have hrun : run cfg .init (before ++ hist) = run cfg (run cfg .init before) hist := by
    simp [run, List.foldl_append]
  rw [hrun] at hep ⊢
  exact key hist _ (inv_run before (inv_init cfg))
    (epoch_mono_run cfg before .init (Nat.zero_le _)).2 hops hep

/-- Hypotheses met: account 1 has 3 left; 50 tokens more make 1, so 4 can be spent in this epoch but not
5. -/
example :
    let h (fee : Nat) : List Step := [⟨exEnv, .charge 1 2⟩, ⟨exEnv, .stake 8 1 50⟩, ⟨exEnv, .charge 1 fee⟩]
    available exState 1 = 3 ∧ issuedTo exCfg 1 exState (h 2) = 1 ∧ chargedTo exCfg 1 exState (h 2) = 4 ∧
    chargedTo exCfg 1 exState (h 3) = 2 ∧ (run exCfg exState (h 2)).epoch = exState.epoch := by decide

/-! ## C58, C59 -/

/-- C58, partial: a single stake never takes more than the token balance less the minimum balance.
Missing: the sum over several stakes, see `C58_same_tokens_staked_twice`. -/
theorem C58_single_stake_bound_partial (cfg : Config) (env : Env) (s s' : State) (who : AccountId)
    (t : MsaId) (a : Balance) (h : stake cfg env s who t a = .ok s') :
    actOf s' who + cfg.minTokenBalance ≤ actOf s who + env.balance who ∧
    actOf s' who ≤ actOf s who + a := by
  obtain ⟨n, hs⟩ := stake_ok h
  rw [hs.active, if_pos rfl]
  have h1 := hs.actual
  have h2 := hs.pos
  omega

example : (stake exCfg exEnv exState 7 1 5000).isOk = true := by decide

/-- C58 is false of the code: the check looks at the whole token balance, not at the part that is not yet
staked. An account with 1000 tokens stakes 995 twice and has 1990 staked. -/
theorem C58_same_tokens_staked_twice :
    let s := run exCfg .init [⟨exEnv, .stake 7 1 1000⟩, ⟨exEnv, .stake 7 2 1000⟩]
    exEnv.balance 7 = 1000 ∧ actOf s 7 = 1990 ∧ (capOf s 1).staked = 995 ∧ (capOf s 2).staked = 995 := by
  decide

/-- C57, the balance query: a positive amount can be deducted exactly if it is at most the balance reported. -/
theorem C57_balance (s : State) (m : MsaId) (a : Balance) (ha : 0 < a) :
    (deduct s m a).isOk = true ↔ a ≤ balanceOf s m := by
  unfold balanceOf deduct
  cases hg : s.capacity.get m with
  | none =>
    simp only [okOr]
    constructor
    · intro h; cases h
    · intro h; exact absurd h (by omega)
  | some d =>
    simp only [CapacityDetails.deduct, okOr]
    by_cases h : a ≤ d.remaining
    · simp [h, bind, Except.bind, pure, Except.pure, Except.isOk, Except.toBool]
    · simp [h, bind, Except.bind, Except.isOk, Except.toBool]

example : (deduct exState 1 3).isOk = true ∧ balanceOf exState 1 = 3 ∧ (deduct exState 1 4).isOk = false := by decide

/-- C59 is false of the code, in every state: a partial replenishment that succeeds changes nothing,
because the new details are not stored. -/
theorem C59_partial_replenish_no_effect (cfg : Config) (s s' : State) (m : MsaId) (a : Balance)
    (h : replenishByAmount cfg s m a = .ok s') : balanceOf s' m = balanceOf s m ∧ s' = s := by
  have := replenishBy_ok h
  subst this
  exact ⟨rfl, rfl⟩

/-- It does succeed. -/
example : (replenishByAmount exCfg exState 1 2).isOk = true ∧ balanceOf exState 1 = 3 := by decide

/-! ## C80 -/

/-- Sum of the capacity recorded for the stakers of a target. -/
def capacityByStakers (s : State) (m : MsaId) : Balance :=
  s.target.sumV (fun k d => if k.2 = m then d.capacity else 0)

/-- C80 as a user would state it: when no account has an active stake, no capacity is issued to anybody. -/
def C80_full (cfg : Config) : Prop :=
  ∀ hist : List Step, (∀ w, actOf (run cfg .init hist) w = 0) →
    ∀ m, (capOf (run cfg .init hist) m).issued = 0

/-- C80 is false of the code: account 7 stakes 100 tokens to target 1 and 500 to target 2, and unstakes all 600
from target 1. No stake is active, the tokens are withdrawn in epoch 3, and target 2 keeps its capacity. -/
theorem C80_full_false : ¬ C80_full exCfg := by
  intro h
  let e (b : Nat) : Step := ⟨exEnv, .onInitialize b⟩
  have := h [e 1, ⟨exEnv, .stake 7 1 100⟩, ⟨exEnv, .stake 7 2 500⟩, ⟨exEnv, .unstake 7 1 600⟩, e 100, e 200, e 300,
    ⟨exEnv, .withdrawUnstaked 7⟩] ?_ 2
  · exact absurd this (by decide)
  · intro w
    rw [actOf, SMap.get, show (run exCfg .init _).active.entries = [] from by decide]
    rfl

set_option maxRecDepth 4000 in
/-- The same tokens again: after a withdrawal they are staked and withdrawn twice more in the same way, and the
capacity of target 2 is three times as large although nothing is staked and nothing is frozen. -/
theorem C80_capacity_multiplied :
    let e (b : Nat) : Step := ⟨exEnv, .onInitialize b⟩
    let round (b : Nat) : List Step := [⟨exEnv, .stake 7 1 100⟩, ⟨exEnv, .stake 7 2 500⟩, ⟨exEnv, .unstake 7 1 600⟩,
      e (b + 100), e (b + 200), e (b + 300), ⟨exEnv, .withdrawUnstaked 7⟩]
    let s := run exCfg .init (round 0 ++ round 300 ++ round 600)
    frozenOf s 7 = 0 ∧ actOf s 7 = 0 ∧ (capOf s 2).issued = 30 := by decide

/-- Records have a positive amount, and the capacity issued to a target is covered by them. -/
structure Backed (s : State) : Prop where
  pos : ∀ k d, s.target.get k = some d → 0 < d.amount
  issued : ∀ m, (capOf s m).issued ≤ capacityByStakers s m

theorem contrib_capacity (s : State) (w : AccountId) (t m : MsaId) :
    SMap.contrib (fun (k : AccountId × MsaId) (d : TargetDetails) => if k.2 = m then d.capacity else 0) (w, t)
      (s.target.get (w, t)) = if t = m then (tgtOf s w t).capacity else 0 := by
  unfold tgtOf
  cases s.target.get (w, t) with
  | none => simp [SMap.contrib, noTarget]
  | some d => simp [SMap.contrib]

theorem backed_apply {cfg s} (hb : Backed s) (x : Step) (hx : FromOneTarget cfg s x.op) :
    Backed (apply cfg s x) := by
  have he := apply_eff cfg s x
  generalize apply cfg s x = s' at he
  obtain ⟨b1, b2⟩ := hb
  have hcapOnly : ∀ {s'}, CapOnly s s' → (∀ m, (capOf s' m).issued = (capOf s m).issued) → Backed s' := by
    intro s' h hs
    constructor
    · rw [h.target]; exact b1
    · intro m
      rw [hs]; unfold capacityByStakers; rw [h.target]; exact b2 m
  cases he with
  | fail e h => exact ⟨b1, b2⟩
  | @stake env who t a s' n h =>
    constructor
    · intro k d hk
      rw [h.target, SMap.get_insert] at hk
      split at hk
      · simp only [Option.some.injEq] at hk
        subst hk
        have := h.pos
        show 0 < (tgtOf s who t).amount + n
        omega
      · exact b1 k d hk
    · intro m
      have h1 := SMap.sumV_insert s.target (who, t)
        (⟨(tgtOf s who t).amount + n, (tgtOf s who t).capacity + capacityGenerated cfg n⟩ : TargetDetails)
        (fun k d => if k.2 = m then d.capacity else 0)
      rw [contrib_capacity] at h1
      have h2 := b2 m
      unfold capacityByStakers capOf at *
      rw [h.target, h.capacity, SMap.get_insert]
      split
      · rename_i e; subst e
        simp only [if_true, Option.getD_some] at h1 ⊢
        unfold capOf
        omega
      · rename_i e
        simp only [e, if_false] at h1
        omega
  | @unstake env who t a s' n c h =>
    obtain ⟨hn, han⟩ := h.n_le
    have hle : n ≤ (tgtOf s who t).amount := by
      simp only [FromOneTarget] at hx
      have := h.actual
      rcases hx with ⟨hx1, hx2 | hx2⟩
      · split at this <;> omega
      · omega
    have hc := h.reduction
    constructor
    · intro k d hk
      rw [h.target] at hk
      split at hk
      · rw [SMap.get_erase] at hk
        split at hk
        · cases hk
        · exact b1 k d hk
      · rename_i hne
        rw [SMap.get_insert] at hk
        split at hk
        · simp only [Option.some.injEq] at hk
          subst hk
          show 0 < (tgtOf s who t).amount - n
          omega
        · exact b1 k d hk
    · intro m
      have h2 := b2 m
      have h1 := SMap.sumV_insert s.target (who, t)
        (⟨(tgtOf s who t).amount - n, (tgtOf s who t).capacity - c⟩ : TargetDetails)
        (fun k d => if k.2 = m then d.capacity else 0)
      have h3 := SMap.sumV_erase s.target (who, t) (fun k (d : TargetDetails) => if k.2 = m then d.capacity else 0)
      rw [contrib_capacity] at h1 h3
      have hcap : (capOf s' m).issued = if t = m then (capOf s m).issued - c else (capOf s m).issued := by
        unfold capOf
        rw [h.capacity, SMap.get_insert]
        split
        · rename_i e; subst e; rfl
        · rfl
      rw [hcap]
      unfold capacityByStakers at *
      rw [h.target]
      by_cases ht : t = m
      · subst ht
        simp only [if_true] at h1 h3 ⊢
        split
        · rw [if_pos (by omega)] at hc
          omega
        · omega
      · simp only [ht, if_false] at h1 h3 ⊢
        split <;> omega
  | withdraw h =>
    constructor
    · rw [h.target]; exact b1
    · intro m
      unfold capacityByStakers capOf; rw [h.target, h.capacity]; exact b2 m
  | epochLength h => exact ⟨b1, b2⟩
  | newEpoch h => exact ⟨b1, b2⟩
  | sameEpoch h => exact ⟨b1, b2⟩
  | charge h hf hk =>
    refine hcapOnly h fun m => ?_
    rw [hk]
    split
    · rename_i e; subst e
      unfold replenished; split <;> rfl
    · rfl
  | replenishAll h hk =>
    refine hcapOnly h fun m => ?_
    rw [hk]
    split
    · rename_i e; subst e; rfl
    · rfl
  | replenishBy => exact ⟨b1, b2⟩
  | deduct h hf hk =>
    refine hcapOnly h fun m => ?_
    rw [hk]
    split
    · rename_i e; subst e; rfl
    · rfl

theorem sumV_zero {K V : Type} [DecidableEq K] (m : SMap K V) (f : K → V → Nat)
    (h : ∀ k v, m.get k = some v → f k v = 0) : m.sumV f = 0 := by
  have key : ∀ l : List (K × V), (∀ e ∈ l, f e.1 e.2 = 0) → (l.map (fun e => f e.1 e.2)).sum = 0 := by
    intro l
    induction l with
    | nil => intro _; rfl
    | cons e rest ih =>
      intro hl
      rw [List.map_cons, List.sum_cons, hl e List.mem_cons_self, ih fun x hx => hl x (List.mem_cons_of_mem _ hx)]
  exact key _ fun e he => h e.1 e.2 ((SMap.mem_entries_iff m e.1 e.2).1 he)

/-- C80, partial: in a history where no unstake takes more than the account has staked to the target named, and
unstaking everything happens only from a single target, the capacity issued to a target never exceeds the sum
recorded for its stakers, a target without stakers has no capacity, and if no account has an active stake no
target has any. Missing: all other unstakes, where the claim is false. -/
theorem C80_backed_partial (cfg : Config) (hist : List Step) (h : AllFromOneTarget cfg .init hist) (m : MsaId) :
    let s := run cfg .init hist
    (capOf s m).issued ≤ capacityByStakers s m ∧
    ((∀ w, (tgtOf s w m).amount = 0) → (capOf s m).issued = 0 ∧ (capOf s m).remaining = 0) ∧
    ((∀ w, actOf s w = 0) → (capOf s m).issued = 0 ∧ (capOf s m).remaining = 0) := by
  intro s
  have key : ∀ (hist : List Step) (s : State), Backed s → AllFromOneTarget cfg s hist →
      Backed (run cfg s hist) := by
    intro hist
    induction hist with
    | nil => intro s hb _; exact hb
    | cons x rest ih =>
      intro s hb hx
      exact ih _ (backed_apply hb x hx.1) hx.2
  have hb : Backed s := key hist .init
    ⟨fun k d hk => by simp [State.init] at hk, fun _ => Nat.le_refl _⟩ h
  have hi : Inv cfg s := inv_run hist (inv_init cfg)
  have hz : (∀ w, (tgtOf s w m).amount = 0) → (capOf s m).issued = 0 ∧ (capOf s m).remaining = 0 := by
    intro hw
    have h0 : capacityByStakers s m = 0 := by
      refine sumV_zero _ _ ?_
      rintro ⟨w, t⟩ d hd
      simp only
      split
      · rename_i e; subst e
        have h1 := hb.pos _ _ hd
        have h2 := hw w
        simp only [tgtOf, hd, Option.getD_some] at h2
        omega
      · rfl
    have h1 := hb.issued m
    have h2 := hi.cap m
    omega
  refine ⟨hb.issued m, hz, fun hw => hz fun w => ?_⟩
  have h1 := (C53_bookkeeping_exact_partial cfg hist h w m).1
  rw [hw w] at h1
  have h2 := SMap.contrib_le_sumV s.target (w, m) (fun k (d : TargetDetails) => if k.1 = w then d.amount else 0)
  have h3 : s.target.sumV (fun k (d : TargetDetails) => if k.1 = w then d.amount else 0) = 0 := h1.symm
  rw [h3] at h2
  unfold tgtOf
  cases hg : s.target.get (w, m) with
  | none => rfl
  | some d => rw [hg] at h2; simpa [SMap.contrib] using h2

/-- Hypotheses met: two accounts stake to target 1; when both have left, it has no capacity. -/
example :
    let hist : List Step := [⟨exEnv, .stake 7 1 130⟩, ⟨exEnv, .stake 8 1 90⟩, ⟨exEnv, .unstake 7 1 60⟩,
      ⟨exEnv, .unstake 8 1 90⟩, ⟨exEnv, .unstake 7 1 70⟩]
    AllFromOneTarget exCfg .init hist ∧ (capOf (run exCfg .init (hist.take 3)) 1).issued = 3 ∧
    capacityByStakers (run exCfg .init (hist.take 3)) 1 = 3 ∧ (capOf (run exCfg .init hist) 1).issued = 0 := by
  refine ⟨?_, by decide, by decide, by decide⟩
  simp only [AllFromOneTarget, FromOneTarget, true_and, and_true]
  decide

/-! ## C81 -/

/-- What an account or target of the pallet can see of its own records. -/
structure SameFor (s s' : State) (w : AccountId) : Prop where
  active : actOf s' w = actOf s w
  chunks : chunksOf s' w = chunksOf s w
  frozen : frozenOf s' w = frozenOf s w
  target : ∀ m, tgtOf s' w m = tgtOf s w m

/-- `g` is `x` times the rate `p` (in billionths), rounded to the nearest whole number. -/
def Nearest (p x g : Nat) : Prop := 2 * (x * p) ≤ 2 * (g * billion) + billion ∧ 2 * (g * billion) ≤ 2 * (x * p) + billion

theorem mulNearest_spec (p x : Nat) : Nearest p x (mulNearest p x) := by
  unfold Nearest mulNearest
  have hx := Nat.div_add_mod x billion
  generalize x / billion = q at *
  generalize hr : x % billion = r at *
  have hy := Nat.div_add_mod (r * p) billion
  have hlt : r * p % billion < billion := Nat.mod_lt _ (by decide)
  generalize r * p / billion = u at *
  generalize r * p % billion = v at *
  have e : x * p = q * p * billion + (billion * u + v) := by
    rw [hy, ← hx, Nat.add_mul, Nat.mul_comm billion q, Nat.mul_assoc, Nat.mul_comm billion p, ← Nat.mul_assoc]
  rw [e, Nat.add_mul]
  have hu : u * billion = billion * u := Nat.mul_comm _ _
  have h2 : billion / 2 * 2 = billion := by decide
  split
  · rw [Nat.add_mul, hu]; omega
  · rw [Nat.add_zero, hu]; omega

/-- C81: a successful stake takes the amount asked for or, if that is less, what the account holds above the
minimum balance. Exactly this amount is added to the active stake, to the freeze, to the record of the target
and to its total; exactly the capacity generated by it is added to the capacity issued and remaining. Unlocking
chunks, other accounts, other targets and the epoch are not touched. -/
theorem C81_stake_exact (cfg : Config) (hist : List Step) (env : Env) (who : AccountId) (t : MsaId) (a : Balance)
    (s' : State) (h : dispatch cfg (run cfg .init hist) ⟨env, .stake who t a⟩ = .ok s') :
    let s := run cfg .init hist
    let n := min (env.balance who - cfg.minTokenBalance) a
    0 < n ∧ env.validTarget t = true ∧ cfg.minStake ≤ actOf s' who ∧
    actOf s' who = actOf s who + n ∧ frozenOf s' who = frozenOf s who + n ∧
    chunksOf s' who = chunksOf s who ∧
    (∃ g, Nearest cfg.capacityPerToken n g ∧
      tgtOf s' who t = ⟨(tgtOf s who t).amount + n, (tgtOf s who t).capacity + g⟩ ∧
      capOf s' t = ⟨(capOf s t).remaining + g, (capOf s t).staked + n, (capOf s t).issued + g,
        (capOf s t).lastReplenished⟩) ∧
    (∀ w, w ≠ who → SameFor s s' w) ∧ (∀ m, m ≠ t → tgtOf s' who m = tgtOf s who m ∧ capOf s' m = capOf s m) ∧
    s'.epoch = s.epoch := by
  intro s n
  have hi : Inv cfg s := inv_run hist (inv_init cfg)
  obtain ⟨k, hk⟩ := stake_ok h
  have hkn : k = n := hk.actual
  subst hkn
  have hch : ∀ w, chunksOf s' w = chunksOf s w := fun w => by unfold chunksOf; rw [hk.unlocks]
  have htg : ∀ w m, (who, t) ≠ (w, m) → tgtOf s' w m = tgtOf s w m := fun w m e => by
    unfold tgtOf; rw [hk.target, SMap.get_insert_ne _ e]
  have hact := hk.active who
  rw [if_pos rfl] at hact
  have hfr := hk.frozen who
  have hb := hi.bound who
  rw [if_pos rfl, chunksTotal_eq (show sumChunks (chunksOf s who) ≤ cfg.maxBalance by omega)] at hfr
  have hf := hi.frozen who
  refine ⟨hk.pos, hk.valid, by rw [hact]; exact hk.min, hact, ?_, hch who, ⟨_, mulNearest_spec _ _, ?_, ?_⟩, ?_, ?_,
    hk.epoch.1⟩
  · rw [hfr, hf]
    have : s = run cfg .init hist := rfl
    rw [← this]
    omega
  · show tgtOf s' who t = _
    unfold tgtOf
    rw [hk.target, SMap.get_insert_self]
    rfl
  · unfold capOf
    rw [hk.capacity, SMap.get_insert_self]
    rfl
  · intro w hw
    refine ⟨?_, hch w, ?_, fun m => htg w m fun e => hw (Prod.mk.inj e).1.symm⟩
    · rw [hk.active, if_neg (Ne.symm hw)]
    · rw [hk.frozen, if_neg (Ne.symm hw)]
  · intro m hm
    refine ⟨htg who m fun e => hm (Prod.mk.inj e).2.symm, ?_⟩
    unfold capOf
    rw [hk.capacity, SMap.get_insert_ne _ (Ne.symm hm)]

/-- Hypotheses met. -/
example : (dispatch exCfg (run exCfg .init exHist) ⟨exEnv, .stake 7 2 130⟩).isOk = true := by decide

/-- C81: a successful unstake takes the amount asked for, or the whole active stake if what would remain is at
most the minimum. Exactly this amount leaves the active stake and becomes one new unlocking chunk, the last; the
freeze stays. The target loses the amount and some capacity: what is recorded for this staker, if the amount is
all that is recorded. Other accounts, other targets and the epoch are not touched. -/
theorem C81_unstake_exact (cfg : Config) (hist : List Step) (env : Env) (who : AccountId) (t : MsaId) (a : Balance)
    (s' : State) (h : dispatch cfg (run cfg .init hist) ⟨env, .unstake who t a⟩ = .ok s') :
    let s := run cfg .init hist
    let n := if actOf s who - a ≤ cfg.minStake then actOf s who else a
    0 < a ∧ a ≤ actOf s who ∧ actOf s' who + n = actOf s who ∧ frozenOf s' who = frozenOf s who ∧
    chunksOf s' who = chunksOf s who ++ [⟨n, min cfg.maxEpoch (s.epoch + cfg.thawPeriod)⟩] ∧
    (∃ c, ((tgtOf s who t).amount = n → c = (tgtOf s who t).capacity) ∧
      (tgtOf s' who t).amount = (tgtOf s who t).amount - n ∧
      capOf s' t = ⟨(capOf s t).remaining - c, (capOf s t).staked - n, (capOf s t).issued - c,
        (capOf s t).lastReplenished⟩) ∧
    (∀ w, w ≠ who → SameFor s s' w) ∧ (∀ m, m ≠ t → tgtOf s' who m = tgtOf s who m ∧ capOf s' m = capOf s m) ∧
    s'.epoch = s.epoch := by
  intro s n
  obtain ⟨k, c, hk⟩ := unstake_ok h
  have hkn : k = n := hk.actual
  subst hkn
  obtain ⟨hle, hle'⟩ := hk.n_le
  have hfr : ∀ w, frozenOf s' w = frozenOf s w := fun w => by unfold frozenOf; rw [hk.frozen]
  have htg : ∀ w m, (who, t) ≠ (w, m) → tgtOf s' w m = tgtOf s w m := fun w m e => by
    unfold tgtOf
    rw [hk.target]
    split
    · rw [SMap.get_erase_ne _ e]
    · rw [SMap.get_insert_ne _ e]
  have hact := hk.active who
  rw [if_pos rfl] at hact
  have hch := chunksOf_unstaked hk
  refine ⟨hk.pos, hk.le, ?_, hfr who, by rw [hch, if_pos rfl], ⟨c, fun e => ?_, ?_, ?_⟩, ?_, ?_, hk.epoch.1⟩
  · rw [hact]
    have : s = run cfg .init hist := rfl
    rw [← this] at hle ⊢
    omega
  · rw [hk.reduction, if_pos e]
  · show (tgtOf s' who t).amount = _
    unfold tgtOf
    rw [hk.target]
    split
    · rename_i e
      rw [SMap.get_erase_self]
      exact e.symm
    · rw [SMap.get_insert_self]
      rfl
  · unfold capOf
    rw [hk.capacity, SMap.get_insert_self]
    rfl
  · intro w hw
    refine ⟨?_, ?_, hfr w, fun m => htg w m fun e => hw (Prod.mk.inj e).1.symm⟩
    · rw [hk.active, if_neg (Ne.symm hw)]
    · rw [hch, if_neg (Ne.symm hw)]
  · intro m hm
    refine ⟨htg who m fun e => hm (Prod.mk.inj e).2.symm, ?_⟩
    unfold capOf
    rw [hk.capacity, SMap.get_insert_ne _ (Ne.symm hm)]

/-- Hypotheses met. -/
example : (dispatch exCfg (run exCfg .init exHist) ⟨exEnv, .unstake 7 2 130⟩).isOk = true := by decide

/-- C81: a withdrawal touches nothing but the chunks and the freeze of the account. -/
theorem C81_withdraw_only (cfg : Config) (hist : List Step) (env : Env) (who : AccountId)
    (s' : State) (h : dispatch cfg (run cfg .init hist) ⟨env, .withdrawUnstaked who⟩ = .ok s') :
    let s := run cfg .init hist
    actOf s' who = actOf s who ∧ (∀ m, tgtOf s' who m = tgtOf s who m) ∧ (∀ w, w ≠ who → SameFor s s' w) ∧
    (∀ m, capOf s' m = capOf s m) ∧ s'.epoch = s.epoch := by
  intro s
  have hk := withdraw_ok h
  have ha : ∀ w, actOf s' w = actOf s w := fun w => by unfold actOf; rw [hk.active]
  have ht : ∀ w m, tgtOf s' w m = tgtOf s w m := fun w m => by unfold tgtOf; rw [hk.target]
  refine ⟨ha who, ht who, fun w hw => ⟨ha w, ?_, ?_, ht w⟩, fun m => ?_, hk.epoch.1⟩
  · rw [hk.chunks, if_neg (Ne.symm hw)]
  · rw [hk.frozen, if_neg (Ne.symm hw)]
  · unfold capOf; rw [hk.capacity]

/-- Hypotheses met. -/
example : (dispatch exCfg (run exCfg .init (exHist ++ [⟨exEnv, .onInitialize 200⟩, ⟨exEnv, .onInitialize 300⟩]))
    ⟨exEnv, .withdrawUnstaked 7⟩).isOk = true := by decide

/-- C81: a fee above zero is accepted exactly if the account has that much capacity available in this epoch. It
then has exactly the fee less, its issued capacity and staked total stay, and nothing else changes. -/
theorem C81_charge_exact (cfg : Config) (hist : List Step) (env : Env) (m : MsaId) (fee : Balance) (hf : 0 < fee) :
    let s := run cfg .init hist
    ((dispatch cfg s ⟨env, .charge m fee⟩).isOk = true ↔ fee ≤ available s m) ∧
    ∀ s', dispatch cfg s ⟨env, .charge m fee⟩ = .ok s' →
      available s' m + fee = available s m ∧ (capOf s' m).issued = (capOf s m).issued ∧
      (capOf s' m).staked = (capOf s m).staked ∧ (∀ k, k ≠ m → capOf s' k = capOf s k) ∧
      (∀ w, SameFor s s' w) ∧ s'.epoch = s.epoch := by
  intro s
  have hav : ∀ s : State, (replenished s m).remaining = available s m := by
    intro s; unfold replenished available; split <;> rfl
  have hsucc : fee ≤ available s m → ∃ s', dispatch cfg s ⟨env, .charge m fee⟩ = .ok s' := by
    intro hle
    show ∃ s', withdrawFee s m fee = .ok s'
    cases hg : s.capacity.get m with
    | none =>
      have : available s m = 0 := by
        have : capOf s m = noCapacity := by simp [capOf, hg]
        unfold available
        rw [this]
        split <;> rfl
      omega
    | some d =>
      have hd : capOf s m = d := by simp [capOf, hg]
      unfold available at hle
      rw [hd] at hle
      unfold withdrawFee replenishIfNeeded canReplenish
      rw [hg]
      simp only [CapacityDetails.canReplenish, decide_eq_true_eq]
      split
      · rename_i hl
        rw [if_pos hl] at hle
        simp [replenishAllFor, deduct, hg, okOr, setCapacity, CapacityDetails.replenishAll, CapacityDetails.deduct,
          hle, bind, Except.bind, pure, Except.pure]
      · rename_i hl
        rw [if_neg hl] at hle
        simp [deduct, hg, okOr, CapacityDetails.deduct, hle, bind, Except.bind, pure, Except.pure]
  have heff : ∀ s', dispatch cfg s ⟨env, .charge m fee⟩ = .ok s' → fee ≤ available s m ∧
      available s' m + fee = available s m ∧ (capOf s' m).issued = (capOf s m).issued ∧
      (capOf s' m).staked = (capOf s m).staked ∧ (∀ k, k ≠ m → capOf s' k = capOf s k) ∧
      (∀ w, SameFor s s' w) ∧ s'.epoch = s.epoch := by
    intro s' hs
    obtain ⟨h1, h2, h3⟩ := withdrawFee_ok hs
    have hm := h3 m
    rw [if_pos rfl] at hm
    have hle := h2
    rw [hav] at hle
    have hlast : ¬ (replenished s m).lastReplenished < s.epoch := by
      unfold replenished
      split
      · exact Nat.lt_irrefl _
      · assumption
    have hkeep : (replenished s m).issued = (capOf s m).issued ∧ (replenished s m).staked = (capOf s m).staked := by
      unfold replenished; split <;> exact ⟨rfl, rfl⟩
    refine ⟨hle, ?_, by rw [hm]; exact hkeep.1, by rw [hm]; exact hkeep.2, fun k hk => ?_, fun w => ?_, h1.epoch.1⟩
    · have : available s' m = (replenished s m).remaining - fee := by
        unfold available
        rw [hm, h1.epoch.1, if_neg hlast]
      rw [this, hav]
      omega
    · rw [h3, if_neg (Ne.symm hk)]
    · exact ⟨by unfold actOf; rw [h1.active], by unfold chunksOf; rw [h1.unlocks], by unfold frozenOf; rw [h1.frozen],
        fun k => by unfold tgtOf; rw [h1.target]⟩
  refine ⟨⟨fun hok => ?_, fun hle => ?_⟩, fun s' hs => (heff s' hs).2⟩
  · cases hd : dispatch cfg s ⟨env, .charge m fee⟩ with
    | error e => rw [hd] at hok; cases hok
    | ok s' => exact (heff s' hd).1
  · obtain ⟨s', hs⟩ := hsucc hle
    rw [hs]; rfl

/-- Both cases occur: 3 are available to target 1 after the history. -/
example : available exState 1 = 3 ∧ (dispatch exCfg exState ⟨exEnv, .charge 1 3⟩).isOk = true ∧
    (dispatch exCfg exState ⟨exEnv, .charge 1 4⟩).isOk = false := by decide

end Verif.Capacity
