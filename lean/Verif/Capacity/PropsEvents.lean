import Verif.Capacity.Events
import Verif.Capacity.Props
/-!
# C109: the events of the capacity pallet add up
-/

namespace Verif.Capacity

/-! ## Specification -/

/-- Sum of a quantity over events. -/
def total (f : Event → Nat) (l : List Event) : Nat := (l.map f).sum

/-- Tokens an event reports as staked by an account, unstaked by it, withdrawn by it. -/
def Event.stakedBy (w : AccountId) : Event → Nat
  | .staked a _ n _ => if a = w then n else 0
  | _ => 0
def Event.unstakedBy (w : AccountId) : Event → Nat
  | .unStaked a _ n _ => if a = w then n else 0
  | _ => 0
def Event.withdrawnBy (w : AccountId) : Event → Nat
  | .stakeWithdrawn a n => if a = w then n else 0
  | _ => 0

/-- Tokens an event reports as staked to a provider and unstaked from it. -/
def Event.stakedTo (m : MsaId) : Event → Nat
  | .staked _ t n _ => if t = m then n else 0
  | _ => 0
def Event.unstakedFrom (m : MsaId) : Event → Nat
  | .unStaked _ t n _ => if t = m then n else 0
  | _ => 0

/-- Capacity an event reports as issued to a provider, taken back, spent. -/
def Event.issuedTo (m : MsaId) : Event → Nat
  | .staked _ t _ c => if t = m then c else 0
  | _ => 0
def Event.revokedFrom (m : MsaId) : Event → Nat
  | .unStaked _ t _ c => if t = m then c else 0
  | _ => 0
def Event.spentBy (m : MsaId) : Event → Nat
  | .capacityWithdrawn t n => if t = m then n else 0
  | _ => 0

/-- Length of an epoch after events; it is 100 blocks at first. -/
def lengthFollowed (l : List Event) : Nat :=
  l.foldl (fun now e => match e with | .epochLengthUpdated n => n | _ => now) 100

/-- C109 in full, but for spending, which is `C109_spent`: stake, freeze, stake to a provider, capacity of a provider
and epoch length are what the events add up to. -/
def C109_full : Prop :=
  ∀ (cfg : Config) (hist : List Step) (w : AccountId) (m : MsaId),
    let s := run cfg .init hist
    let l := eventsFrom cfg .init hist
    actOf s w + total (·.unstakedBy w) l = total (·.stakedBy w) l ∧
    frozenOf s w + total (·.withdrawnBy w) l = total (·.stakedBy w) l ∧
    s.epochLength = lengthFollowed l ∧
    (capOf s m).staked + total (·.unstakedFrom m) l = total (·.stakedTo m) l ∧
    (capOf s m).issued + total (·.revokedFrom m) l = total (·.issuedTo m) l

/-! ## Lemmas -/

theorem total_append (f : Event → Nat) (a b : List Event) : total f (a ++ b) = total f a + total f b := by
  simp [total]

/-- One step, in sums. -/
structure StepSums (s s' : State) (l : List Event) : Prop where
  active : ∀ w, actOf s' w + total (·.unstakedBy w) l = actOf s w + total (·.stakedBy w) l
  frozen : ∀ w, frozenOf s' w + total (·.withdrawnBy w) l = frozenOf s w + total (·.stakedBy w) l
  length : s'.epochLength = l.foldl (fun now e => match e with | .epochLengthUpdated n => n | _ => now) s.epochLength
  staked : ∀ m, (capOf s m).staked + total (·.stakedTo m) l ≤ (capOf s' m).staked + total (·.unstakedFrom m) l
  issued : ∀ m, (capOf s m).issued + total (·.issuedTo m) l ≤ (capOf s' m).issued + total (·.revokedFrom m) l

theorem StepSums.capOnly {s s' : State} (h : CapOnly s s') (l : List Event)
    (hl : l = [] ∨ ∃ m n, l = [.capacityWithdrawn m n])
    (hs : ∀ m, (capOf s' m).staked = (capOf s m).staked ∧ (capOf s' m).issued = (capOf s m).issued) :
    StepSums s s' l := by
  have ha : ∀ w, actOf s' w = actOf s w := fun w => by unfold actOf; rw [h.active]
  have hf : ∀ w, frozenOf s' w = frozenOf s w := fun w => by unfold frozenOf; rw [h.frozen]
  rcases hl with rfl | ⟨m, n, rfl⟩
  · exact ⟨by simp [ha, total], by simp [hf, total], h.epoch.2.2, by simp [hs, total], by simp [hs, total]⟩
  · exact ⟨by simp [ha, total, Event.unstakedBy, Event.stakedBy], by simp [hf, total, Event.withdrawnBy, Event.stakedBy],
      h.epoch.2.2, by simp [hs, total, Event.stakedTo, Event.unstakedFrom],
      by simp [hs, total, Event.issuedTo, Event.revokedFrom]⟩

theorem foldl_satAdd_eq {cfg : Config} {l : List Chunk} (h : sumChunks l ≤ cfg.maxBalance) :
    l.foldl (fun a c => satAdd cfg a c.value) 0 = sumChunks l := by
  have := foldl_sat (cfg := cfg) l 0 (by omega)
  simpa using this

theorem step_sums {cfg : Config} {s : State} (hi : Inv cfg s) (x : Step) :
    StepSums s (apply cfg s x) (eventsOf cfg s x) := by
  cases hd : dispatch cfg s x with
  | error e =>
    have h1 : apply cfg s x = s := by simp only [apply, hd]
    have h2 : eventsOf cfg s x = [] := by simp only [eventsOf, hd]
    rw [h1, h2]
    exact ⟨fun _ => rfl, fun _ => rfl, rfl, fun _ => Nat.le_refl _, fun _ => Nat.le_refl _⟩
  | ok s' =>
    have h1 : apply cfg s x = s' := by simp only [apply, hd]
    have h2 : eventsOf cfg s x = deposited cfg s x := by simp only [eventsOf, hd]
    rw [h1, h2]
    clear h1 h2
    obtain ⟨env, op⟩ := x
    cases op with
    | stake who t a =>
      obtain ⟨n, h⟩ := stake_ok hd
      have hn : stakable cfg env who a = n := h.actual.symm
      simp only [deposited, hn]
      have hcap : ∀ m, capOf s' m = if t = m then ⟨(capOf s t).remaining + capacityGenerated cfg n, (capOf s t).staked + n,
          (capOf s t).issued + capacityGenerated cfg n, (capOf s t).lastReplenished⟩ else capOf s m := by
        intro m
        unfold capOf
        rw [h.capacity, SMap.get_insert]
        split <;> rfl
      have hb : sumChunks (chunksOf s who) ≤ cfg.maxBalance := by have := hi.bound who; omega
      refine ⟨?_, ?_, ?_, ?_, ?_⟩
      · intro w
        rw [h.active]
        simp only [total, Event.unstakedBy, Event.stakedBy, List.map_cons, List.map_nil, List.sum_cons, List.sum_nil]
        split
        · rename_i e; subst e; omega
        · omega
      · intro w
        rw [h.frozen, chunksTotal_eq hb]
        simp only [total, Event.withdrawnBy, Event.stakedBy, List.map_cons, List.map_nil, List.sum_cons, List.sum_nil]
        split
        · rename_i e; subst e; have := hi.frozen who; omega
        · omega
      · exact h.epoch.2.2
      · intro m
        rw [hcap]
        simp only [total, Event.unstakedFrom, Event.stakedTo, List.map_cons, List.map_nil, List.sum_cons, List.sum_nil]
        split
        · rename_i e; subst e; simp only; omega
        · omega
      · intro m
        rw [hcap]
        simp only [total, Event.revokedFrom, Event.issuedTo, List.map_cons, List.map_nil, List.sum_cons, List.sum_nil]
        split
        · rename_i e; subst e; simp only; omega
        · omega
    | unstake who t a =>
      obtain ⟨n, c, h⟩ := unstake_ok hd
      have hn : (withdrawActive cfg ((s.active.get who).getD 0) a).2 = n := by
        rw [h.actual]
        unfold withdrawActive
        show (if actOf s who - a ≤ cfg.minStake then _ else _ : Balance × Balance).2 = _
        split <;> rfl
      have hc : reportedReduction cfg s who t n = c := h.reduction.symm
      simp only [deposited, hn, hc]
      have hcap : ∀ m, capOf s' m = if t = m then ⟨(capOf s t).remaining - c, (capOf s t).staked - n,
          (capOf s t).issued - c, (capOf s t).lastReplenished⟩ else capOf s m := by
        intro m
        unfold capOf
        rw [h.capacity, SMap.get_insert]
        split <;> rfl
      obtain ⟨hle, _⟩ := h.n_le
      refine ⟨?_, ?_, ?_, ?_, ?_⟩
      · intro w
        rw [h.active]
        simp only [total, Event.unstakedBy, Event.stakedBy, List.map_cons, List.map_nil, List.sum_cons, List.sum_nil]
        split
        · rename_i e; subst e; omega
        · omega
      · intro w
        unfold frozenOf
        rw [h.frozen]
        simp only [total, Event.withdrawnBy, Event.stakedBy, List.map_cons, List.map_nil, List.sum_cons, List.sum_nil]
      · exact h.epoch.2.2
      · intro m
        rw [hcap]
        simp only [total, Event.unstakedFrom, Event.stakedTo, List.map_cons, List.map_nil, List.sum_cons, List.sum_nil]
        split
        · rename_i e; subst e; simp only; omega
        · omega
      · intro m
        rw [hcap]
        simp only [total, Event.revokedFrom, Event.issuedTo, List.map_cons, List.map_nil, List.sum_cons, List.sum_nil]
        split
        · rename_i e; subst e; simp only; omega
        · omega
    | withdrawUnstaked who =>
      have h := withdraw_ok hd
      have hcap : ∀ m, capOf s' m = capOf s m := fun m => by unfold capOf; rw [h.capacity]
      have hb := hi.bound who
      have hsplit := sum_split (chunksOf s who) s.epoch
      have h0 : sumChunks ((chunksOf s who).filter (fun c => decide (c.thawAt ≤ s.epoch))) ≤ cfg.maxBalance := by omega
      have h1 : sumChunks ((chunksOf s who).filter (fun c => decide (s.epoch < c.thawAt))) ≤ cfg.maxBalance := by omega
      have hr : (reapThawed cfg (chunksOf s who) s.epoch).2 =
          sumChunks ((chunksOf s who).filter (fun c => decide (c.thawAt ≤ s.epoch))) := foldl_satAdd_eq h0
      refine ⟨?_, ?_, ?_, ?_, ?_⟩
      · intro w
        unfold actOf
        rw [h.active]
        simp [deposited, total, Event.unstakedBy, Event.stakedBy]
      · intro w
        rw [h.frozen, chunksTotal_eq h1]
        simp only [deposited, total, Event.withdrawnBy, Event.stakedBy, List.map_cons, List.map_nil, List.sum_cons,
          List.sum_nil]
        split
        · rename_i e; subst e
          have hf := hi.frozen who
          change satAdd cfg _ _ + ((reapThawed cfg (chunksOf s who) s.epoch).2 + 0) = _
          rw [hr, satAdd, Nat.min_eq_right (by omega)]
          omega
        · omega
      · exact h.epoch.2.2
      · intro m; rw [hcap]; simp [deposited, total, Event.unstakedFrom, Event.stakedTo]
      · intro m; rw [hcap]; simp [deposited, total, Event.revokedFrom, Event.issuedTo]
    | setEpochLength n =>
      obtain ⟨_, rfl⟩ := setEpochLength_ok hd
      refine ⟨?_, ?_, rfl, ?_, ?_⟩
      · intro w; simp [deposited, total, Event.unstakedBy, Event.stakedBy, actOf]
      · intro w; simp [deposited, total, Event.withdrawnBy, Event.stakedBy, frozenOf]
      · intro m; simp [deposited, total, Event.unstakedFrom, Event.stakedTo, capOf]
      · intro m; simp [deposited, total, Event.revokedFrom, Event.issuedTo, capOf]
    | onInitialize b =>
      simp only [dispatch, Except.ok.injEq] at hd
      subst hd
      unfold startNewEpochIfNeeded
      split <;> exact ⟨fun _ => rfl, fun _ => rfl, rfl, fun _ => Nat.le_refl _, fun _ => Nat.le_refl _⟩
    | charge m fee =>
      obtain ⟨h1, h2, h3⟩ := withdrawFee_ok hd
      refine .capOnly h1 _ (.inr ⟨m, fee, rfl⟩) (fun k => ?_)
      rw [h3]
      split
      · rename_i e; subst e
        unfold replenished
        split <;> exact ⟨rfl, rfl⟩
      · exact ⟨rfl, rfl⟩
    | replenishAll m =>
      obtain ⟨h1, h2⟩ := replenishAll_ok hd
      refine .capOnly h1 _ (.inl rfl) (fun k => ?_)
      rw [h2]
      split
      · rename_i e; subst e; exact ⟨rfl, rfl⟩
      · exact ⟨rfl, rfl⟩
    | replenishBy m a =>
      have := replenishBy_ok (cfg := cfg) (a := a) hd
      subst this
      exact .capOnly ⟨rfl, rfl, rfl, rfl, rfl, rfl, rfl⟩ _ (.inl rfl) (fun _ => ⟨rfl, rfl⟩)
    | deduct m a =>
      obtain ⟨h1, h2, h3⟩ := deduct_ok hd
      refine .capOnly h1 _ (.inr ⟨m, a, rfl⟩) (fun k => ?_)
      rw [h3]
      split
      · rename_i e; subst e; exact ⟨rfl, rfl⟩
      · exact ⟨rfl, rfl⟩

theorem run_sums {cfg : Config} (hist : List Step) : ∀ s, Inv cfg s →
    StepSums s (run cfg s hist) (eventsFrom cfg s hist) := by
  induction hist with
  | nil => intro s _; exact ⟨fun _ => rfl, fun _ => rfl, rfl, fun _ => Nat.le_refl _, fun _ => Nat.le_refl _⟩
  | cons x rest ih =>
    intro s hi
    have h1 := step_sums hi x
    have h2 := ih _ (inv_apply hi x)
    have he : eventsFrom cfg s (x :: rest) = eventsOf cfg s x ++ eventsFrom cfg (apply cfg s x) rest := rfl
    have hr : run cfg s (x :: rest) = run cfg (apply cfg s x) rest := rfl
    rw [he, hr]
    refine ⟨?_, ?_, ?_, ?_, ?_⟩
    · intro w; simp only [total_append]; have := h1.active w; have := h2.active w; omega
    · intro w; simp only [total_append]; have := h1.frozen w; have := h2.frozen w; omega
    · rw [List.foldl_append, ← h1.length]; exact h2.length
    · intro m; simp only [total_append]; have := h1.staked m; have := h2.staked m; omega
    · intro m; simp only [total_append]; have := h1.issued m; have := h2.issued m; omega

/-! ## C109 -/

/-- C109, stake: an account's active stake is what it staked less what it unstaked, its freeze what it staked less what
it withdrew, and an epoch is as long as last reported. -/
theorem C109_staker_partial (cfg : Config) (hist : List Step) (w : AccountId) :
    let s := run cfg .init hist
    let l := eventsFrom cfg .init hist
    actOf s w + total (·.unstakedBy w) l = total (·.stakedBy w) l ∧
    frozenOf s w + total (·.withdrawnBy w) l = total (·.stakedBy w) l ∧
    s.epochLength = lengthFollowed l := by
  have h := run_sums hist .init (inv_init cfg)
  refine ⟨?_, ?_, h.length⟩
  · have := h.active w
    have h0 : actOf State.init w = 0 := rfl
    rw [h0] at this; omega
  · have := h.frozen w
    have h0 : frozenOf State.init w = 0 := rfl
    rw [h0] at this; omega

/-- C109, providers, one direction: a provider never has less than the events add up to. -/
theorem C109_provider_bound_partial (cfg : Config) (hist : List Step) (m : MsaId) :
    let s := run cfg .init hist
    let l := eventsFrom cfg .init hist
    total (·.stakedTo m) l ≤ (capOf s m).staked + total (·.unstakedFrom m) l ∧
    total (·.issuedTo m) l ≤ (capOf s m).issued + total (·.revokedFrom m) l := by
  have h := run_sums hist .init (inv_init cfg)
  have h1 := h.staked m
  have h2 := h.issued m
  have e1 : (capOf State.init m).staked = 0 := rfl
  have e2 : (capOf State.init m).issued = 0 := rfl
  rw [e1] at h1; rw [e2] at h2
  rw [Nat.zero_add] at h1 h2
  exact ⟨h1, h2⟩

theorem step_staked {cfg : Config} {s : State} (hi : Inv cfg s) (hb : Balanced s) (x : Step)
    (hx : FromOneTarget cfg s x.op) (m : MsaId) :
    (capOf (apply cfg s x) m).staked + total (·.unstakedFrom m) (eventsOf cfg s x) =
      (capOf s m).staked + total (·.stakedTo m) (eventsOf cfg s x) := by
  have hge := (step_sums hi x).staked m
  refine Nat.le_antisymm ?_ hge
  cases hd : dispatch cfg s x with
  | error e =>
    have h1 : apply cfg s x = s := by simp only [apply, hd]
    have h2 : eventsOf cfg s x = [] := by simp only [eventsOf, hd]
    rw [h1, h2]; exact Nat.le_refl _
  | ok s' =>
    have h1 : apply cfg s x = s' := by simp only [apply, hd]
    have h2 : eventsOf cfg s x = deposited cfg s x := by simp only [eventsOf, hd]
    have hcapOnly : (∃ e, eventsOf cfg s x = [e] ∧ e.unstakedFrom m = 0 ∧ e.stakedTo m = 0) ∨ eventsOf cfg s x = [] →
        (capOf s' m).staked = (capOf s m).staked →
        (capOf (apply cfg s x) m).staked + total (·.unstakedFrom m) (eventsOf cfg s x) ≤
          (capOf s m).staked + total (·.stakedTo m) (eventsOf cfg s x) := by
      rintro (⟨e, he, e1, e2⟩ | he) hs
      · rw [h1, he, hs]; simp [total, e1, e2]
      · rw [h1, he, hs]; exact Nat.le_refl _
    obtain ⟨env, op⟩ := x
    cases op with
    | stake who t a =>
      obtain ⟨n, h⟩ := stake_ok hd
      have hn : stakable cfg env who a = n := h.actual.symm
      rw [h1, h2]
      simp only [deposited, hn, total, Event.unstakedFrom, Event.stakedTo, List.map_cons, List.map_nil, List.sum_cons,
        List.sum_nil]
      unfold capOf
      rw [h.capacity, SMap.get_insert]
      split
      · rename_i e; subst e
        show (capOf s t).staked + n + _ ≤ (capOf s t).staked + _
        omega
      · omega
    | unstake who t a =>
      obtain ⟨n, c, h⟩ := unstake_ok hd
      have hn : (withdrawActive cfg ((s.active.get who).getD 0) a).2 = n := by
        rw [h.actual]
        unfold withdrawActive
        show (if actOf s who - a ≤ cfg.minStake then _ else _ : Balance × Balance).2 = _
        split <;> rfl
      have hle : n ≤ (tgtOf s who t).amount := by
        simp only [FromOneTarget] at hx
        have := h.actual
        have := h.le
        rcases hx with ⟨hx1, hx2 | hx2⟩ <;> split at * <;> omega
      have hst : n ≤ (capOf s t).staked := by
        have := (sums_unstaked h).2 t
        rw [if_pos rfl] at this
        rw [hb.2 t]
        omega
      rw [h1, h2]
      simp only [deposited, hn, total, Event.unstakedFrom, Event.stakedTo, List.map_cons, List.map_nil, List.sum_cons,
        List.sum_nil]
      unfold capOf
      rw [h.capacity, SMap.get_insert]
      split
      · rename_i e; subst e
        show (capOf s t).staked - n + _ ≤ (capOf s t).staked + _
        omega
      · omega
    | withdrawUnstaked who =>
      have h := withdraw_ok hd
      exact hcapOnly (.inl ⟨_, h2, rfl, rfl⟩) (by unfold capOf; rw [h.capacity])
    | setEpochLength n =>
      obtain ⟨_, rfl⟩ := setEpochLength_ok hd
      exact hcapOnly (.inl ⟨_, h2, rfl, rfl⟩) rfl
    | onInitialize b =>
      simp only [dispatch, Except.ok.injEq] at hd
      subst hd
      refine hcapOnly (.inr h2) ?_
      unfold startNewEpochIfNeeded
      split <;> rfl
    | charge k fee =>
      obtain ⟨_, _, h3⟩ := withdrawFee_ok hd
      refine hcapOnly (.inl ⟨_, h2, rfl, rfl⟩) ?_
      rw [h3]
      split
      · rename_i e; subst e
        exact (replenished_le hi k).2.2
      · rfl
    | replenishAll k =>
      obtain ⟨_, h3⟩ := replenishAll_ok hd
      refine hcapOnly (.inr h2) ?_
      rw [h3]
      split
      · rename_i e; subst e; rfl
      · rfl
    | replenishBy k a =>
      have := replenishBy_ok (cfg := cfg) (a := a) hd
      subst this
      exact hcapOnly (.inr h2) rfl
    | deduct k a =>
      obtain ⟨_, _, h3⟩ := deduct_ok hd
      refine hcapOnly (.inl ⟨_, h2, rfl, rfl⟩) ?_
      rw [h3]
      split
      · rename_i e; subst e; rfl
      · rfl

/-- C109, stake to providers: the sums are equal after every history in which no unstake takes more than the account
has staked to the target named, and unstaking everything happens only from a single target. Missing: all other
unstakes, where the claim is false. -/
theorem C109_provider_stake_partial (cfg : Config) (hist : List Step) (h : AllFromOneTarget cfg .init hist) (m : MsaId) :
    let s := run cfg .init hist
    let l := eventsFrom cfg .init hist
    (capOf s m).staked + total (·.unstakedFrom m) l = total (·.stakedTo m) l := by
  have key : ∀ (hist : List Step) (s : State), Inv cfg s → Balanced s → AllFromOneTarget cfg s hist →
      (capOf (run cfg s hist) m).staked + total (·.unstakedFrom m) (eventsFrom cfg s hist) =
        (capOf s m).staked + total (·.stakedTo m) (eventsFrom cfg s hist) := by
    intro hist
    induction hist with
    | nil => intro s _ _ _; rfl
    | cons x rest ih =>
      intro s hi hb hx
      have h1 := step_staked hi hb x hx.1 m
      have h2 := ih _ (inv_apply hi x) (balanced_apply hi hb x hx.1) hx.2
      have he : eventsFrom cfg s (x :: rest) = eventsOf cfg s x ++ eventsFrom cfg (apply cfg s x) rest := rfl
      have hr : run cfg s (x :: rest) = run cfg (apply cfg s x) rest := rfl
      rw [he, hr]
      simp only [total_append]
      omega
  have := key hist .init (inv_init cfg) ⟨fun _ => rfl, fun _ => rfl⟩ h
  have e : (capOf State.init m).staked = 0 := rfl
  rw [e, Nat.zero_add] at this
  exact this

/-- C109, spending: the capacity an account is reported to have withdrawn is the sum of the fees accepted from it. -/
theorem C109_spent (cfg : Config) (hist : List Step) (hr : ∀ x ∈ hist, RuntimeOp x.op) (m : MsaId) :
    total (·.spentBy m) (eventsFrom cfg .init hist) = chargedTo cfg m .init hist := by
  have key : ∀ (hist : List Step) (s : State), (∀ x ∈ hist, RuntimeOp x.op) →
      total (·.spentBy m) (eventsFrom cfg s hist) = chargedTo cfg m s hist := by
    intro hist
    induction hist with
    | nil => intro s _; rfl
    | cons x rest ih =>
      intro s hx
      have ih := ih (apply cfg s x) (fun y hy => hx y (List.mem_cons_of_mem _ hy))
      have he : eventsFrom cfg s (x :: rest) = eventsOf cfg s x ++ eventsFrom cfg (apply cfg s x) rest := rfl
      rw [he, total_append, ih, chargedTo]
      congr 1
      have hx := hx x (by simp)
      obtain ⟨env, op⟩ := x
      unfold eventsOf
      cases hd : dispatch cfg s ⟨env, op⟩ with
      | error e => cases op <;> simp [total]
      | ok s' =>
        cases op with
        | deduct k a => exact False.elim hx
        | _ => simp [deposited, total, Event.spentBy]
  exact key hist .init hr

/-- Hypotheses met; the events of the example history and what they add up to. -/
example : AllFromOneTarget exCfg .init exHist ∧ (∀ x ∈ exHist, RuntimeOp x.op) ∧
    eventsFrom exCfg .init exHist = [.staked 7 1 500 10, .staked 7 2 300 6, .staked 8 1 100 2, .capacityWithdrawn 1 4,
      .unStaked 7 1 200 4, .capacityWithdrawn 1 5] := by
  refine ⟨?_, ?_, by decide +kernel⟩
  · simp only [exHist, AllFromOneTarget, FromOneTarget, true_and, and_true]
    decide
  · simp [exHist, RuntimeOp]

/-- C109 is false of the code: the stake to provider 1 as reported is minus 50 after an unstake of 150 from it by an
account that staked 100 to it and 100 to provider 2. -/
theorem C109_full_false : ¬ C109_full := by
  intro h
  have := (h exCfg [⟨exEnv, .stake 7 1 100⟩, ⟨exEnv, .stake 7 2 100⟩, ⟨exEnv, .unstake 7 1 150⟩] 7 1).2.2.2.1
  revert this
  decide +kernel

/-- Nor do the reported capacities add up, even if every unstake is within what was staked to the target. Two accounts
stake 100 to one provider, for 2 capacity each. The first unstakes 10 three times, each time with 1 capacity: rounded
up, more than its share. Then 1 is left, but the second account unstakes 100 with 2 capacity reported. -/
theorem C109_rounding :
    let hist : List Step := [⟨exEnv, .stake 7 1 100⟩, ⟨exEnv, .stake 8 1 100⟩, ⟨exEnv, .unstake 7 1 10⟩,
      ⟨exEnv, .unstake 7 1 10⟩, ⟨exEnv, .onInitialize 100⟩, ⟨exEnv, .onInitialize 200⟩, ⟨exEnv, .onInitialize 300⟩,
      ⟨exEnv, .withdrawUnstaked 7⟩, ⟨exEnv, .unstake 7 1 10⟩, ⟨exEnv, .unstake 8 1 100⟩]
    let l := eventsFrom exCfg .init hist
    AllFromOneTarget exCfg .init hist ∧ (capOf (run exCfg .init hist) 1).issued = 0 ∧
    total (·.issuedTo 1) l = 4 ∧ total (·.revokedFrom 1) l = 5 := by
  refine ⟨?_, by decide +kernel, by decide +kernel, by decide +kernel⟩
  simp only [AllFromOneTarget, FromOneTarget, true_and, and_true]
  decide +kernel

end Verif.Capacity
