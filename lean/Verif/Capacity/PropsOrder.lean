import Verif.Capacity.PropsShare
import Mathlib.Tactic.SplitIfs
/-!
# C166: stakes and payments of different accounts can come in any order
-/

namespace Verif.Capacity

/-! ## Specification -/

/-- Who stakes, unstakes or withdraws. -/
def staker : Op → Option AccountId
  | .stake a _ _ | .unstake a _ _ | .withdrawUnstaked a => some a
  | _ => none

/-- Whose capacity changes. -/
def provider : Op → Option MsaId
  | .stake _ m _ | .unstake _ m _ | .charge m _ => some m
  | _ => none

/-- What accounts do within a block. -/
def Ordinary : Op → Prop
  | .stake .. | .unstake .. | .withdrawUnstaked _ | .charge .. => True
  | _ => False

/-- The same is stored about every account and provider. -/
structure Same (s t : State) : Prop where
  active : ∀ a, s.active.get a = t.active.get a
  frozen : ∀ a, s.frozen.get a = t.frozen.get a
  unlocks : ∀ a, s.unlocks.get a = t.unlocks.get a
  target : ∀ a m, s.target.get (a, m) = t.target.get (a, m)
  capacity : ∀ m, s.capacity.get m = t.capacity.get m
  epoch : s.epoch = t.epoch ∧ s.epochStart = t.epochStart ∧ s.epochLength = t.epochLength

/-- Calls of different accounts. -/
def Strangers (x y : Op) : Prop := ∀ a, staker x = some a → staker y ≠ some a

/-- Calls about different providers. -/
def Elsewhere (x y : Op) : Prop := ∀ m, provider x = some m → provider y ≠ some m

/-- All of the calls succeed, one after the other. -/
def AllOk (cfg : Config) : State → List Step → Prop
  | _, [] => True
  | s, x :: h => (∃ s', dispatch cfg s x = .ok s') ∧ AllOk cfg (apply cfg s x) h

/-- The outcome of a call. -/
def outcome {α : Type} : Except Err α → Option Err
  | .ok _ => none
  | .error e => some e

/-! ## What a call reads and writes -/

/-- Two states agree on what the call is about. -/
structure Agree (x : Op) (s t : State) : Prop where
  mine : ∀ a, staker x = some a →
    s.active.get a = t.active.get a ∧ s.frozen.get a = t.frozen.get a ∧ s.unlocks.get a = t.unlocks.get a
  cap : ∀ m, provider x = some m → s.capacity.get m = t.capacity.get m
  both : ∀ a m, staker x = some a → provider x = some m → s.target.get (a, m) = t.target.get (a, m)
  epoch : s.epoch = t.epoch

/-- What a call leaves alone. -/
structure Frame (x : Op) (s t : State) : Prop where
  mine : ∀ a, staker x ≠ some a →
    s.active.get a = t.active.get a ∧ s.frozen.get a = t.frozen.get a ∧ s.unlocks.get a = t.unlocks.get a
  cap : ∀ m, provider x ≠ some m → s.capacity.get m = t.capacity.get m
  both : ∀ a m, staker x ≠ some a ∨ provider x ≠ some m → s.target.get (a, m) = t.target.get (a, m)
  epoch : s.epoch = t.epoch ∧ s.epochStart = t.epochStart ∧ s.epochLength = t.epochLength

/-- Results of the same call in two states. -/
def Alike (x : Op) (s t : State) (r r' : Except Err State) : Prop :=
  (∃ e, r = .error e ∧ r' = .error e) ∨ ∃ s' t', r = .ok s' ∧ r' = .ok t' ∧ Agree x s' t' ∧ Frame x s s' ∧ Frame x t t'

theorem get_if {K V : Type} [DecidableEq K] (m : SMap K V) (k k' : K) (v : V) (p : Prop) [Decidable p] :
    (if p then m.erase k else m.insert k v).get k' = if k = k' then (if p then none else some v) else m.get k' := by
  by_cases hp : p <;> by_cases hk : k = k'
  · subst hk; simp [hp]
  · simp [hp, hk, SMap.get_erase_ne]
  · subst hk; simp [hp]
  · simp [hp, hk, SMap.get_insert_ne]

theorem alike_bind {α : Type} {x : Op} {s t : State} (c : Except Err α) {f g : α → Except Err State}
    (h : ∀ a, c = .ok a → Alike x s t (f a) (g a)) : Alike x s t (c >>= f) (c >>= g) := by
  cases c with
  | error e => exact .inl ⟨e, rfl, rfl⟩
  | ok a => exact h a rfl

theorem stake_alike (cfg : Config) (env : Env) {s t : State} (who : AccountId) (m : MsaId) (v : Balance)
    (h : Agree (.stake who m v) s t) :
    Alike (.stake who m v) s t (stake cfg env s who m v) (stake cfg env t who m v) := by
  obtain ⟨ha, hf, hu⟩ := h.mine who rfl
  have hc := h.cap m rfl
  have hb := h.both who m rfl rfl
  have he : ensureCanStake cfg env t who m v = ensureCanStake cfg env s who m v := by
    unfold ensureCanStake; rw [ha]
  unfold stake
  rw [he]
  refine alike_bind _ fun r _ => ?_
  unfold increaseStake setActiveAndLock
  simp only [← hu, ← hc, ← hb, bind_assoc]
  refine alike_bind _ fun a _ => alike_bind _ fun td _ => alike_bind _ fun _ _ => alike_bind _ fun total _ => ?_
  refine .inr ⟨_, _, rfl, rfl, ⟨?_, ?_, ?_, h.epoch⟩, ⟨?_, ?_, ?_, rfl, rfl, rfl⟩, ⟨?_, ?_, ?_, rfl, rfl, rfl⟩⟩
  · rintro b hb'
    obtain rfl : who = b := Option.some.inj hb'
    simp only [setCapacity, setTarget, setActive, setFreeze, get_if, if_true, true_and]
    exact hu
  · rintro b hb'
    obtain rfl : m = b := Option.some.inj hb'
    simp only [setCapacity, SMap.get_insert_self]
  · rintro b n hb' hn'
    obtain rfl : who = b := Option.some.inj hb'
    obtain rfl : m = n := Option.some.inj hn'
    simp only [setCapacity, setTarget, get_if, if_true]
  all_goals
    first
    | intro b hb'
      have hb' : who ≠ b := fun e => hb' (by rw [← e]; rfl)
      simp only [setCapacity, setTarget, setActive, setFreeze, get_if, if_neg hb', true_and]
    | intro b hb'
      have hb' : m ≠ b := fun e => hb' (by rw [← e]; rfl)
      simp only [setCapacity, setTarget, setActive, setFreeze, SMap.get_insert_ne _ hb']
    | intro b n hb'
      have hb' : (who, m) ≠ (b, n) := by
        intro e
        obtain ⟨rfl, rfl⟩ := Prod.mk.inj e
        rcases hb' with h | h <;> exact h rfl
      simp only [setCapacity, setTarget, setActive, setFreeze, get_if, if_neg hb']

theorem unstake_alike (cfg : Config) {s t : State} (who : AccountId) (m : MsaId) (v : Balance)
    (h : Agree (.unstake who m v) s t) :
    Alike (.unstake who m v) s t (unstake cfg s who m v) (unstake cfg t who m v) := by
  obtain ⟨ha, hf, hu⟩ := h.mine who rfl
  have hc := h.cap m rfl
  have hb := h.both who m rfl rfl
  have hE := h.epoch
  unfold unstake decreaseActive addUnlockChunk reduceCapacity
  simp only [bind_assoc, pure_bind, setActive, setTarget, setCapacity]
  simp only [← hu, ← hc, ← hb, ← ha, ← hE]
  refine alike_bind _ fun _ _ => alike_bind _ fun a _ => alike_bind _ fun _ _ => alike_bind _ fun _ _ =>
    alike_bind _ fun td _ => alike_bind _ fun d _ => ?_
  refine .inr ⟨_, _, rfl, rfl, ⟨?_, ?_, ?_, rfl⟩, ⟨?_, ?_, ?_, rfl, rfl, rfl⟩, ⟨?_, ?_, ?_, hE.symm, rfl, rfl⟩⟩
  · rintro b hb'
    obtain rfl : who = b := Option.some.inj hb'
    simp only [get_if, if_true, SMap.get_insert_self, and_true, true_and]
    exact hf
  · rintro b hb'
    obtain rfl : m = b := Option.some.inj hb'
    simp only [SMap.get_insert_self]
  · rintro b n hb' hn'
    obtain rfl : who = b := Option.some.inj hb'
    obtain rfl : m = n := Option.some.inj hn'
    simp only [get_if, if_true]
  all_goals
    first
    | intro b hb'
      have hb' : who ≠ b := fun e => hb' (by rw [← e]; rfl)
      simp only [get_if, if_neg hb', SMap.get_insert_ne _ hb', true_and, and_true]
    | intro b hb'
      have hb' : m ≠ b := fun e => hb' (by rw [← e]; rfl)
      simp only [SMap.get_insert_ne _ hb']
    | intro b n hb'
      have hb' : (who, m) ≠ (b, n) := by
        intro e
        obtain ⟨rfl, rfl⟩ := Prod.mk.inj e
        rcases hb' with h | h <;> exact h rfl
      simp only [get_if, if_neg hb']

theorem withdraw_alike (cfg : Config) {s t : State} (who : AccountId) (h : Agree (.withdrawUnstaked who) s t) :
    Alike (.withdrawUnstaked who) s t (withdrawUnstaked cfg s who) (withdrawUnstaked cfg t who) := by
  obtain ⟨ha, hf, hu⟩ := h.mine who rfl
  have hE := h.epoch
  unfold withdrawUnstaked
  simp only [← hu, ← ha, ← hE]
  refine alike_bind _ fun l _ => alike_bind _ fun _ _ => ?_
  refine .inr ⟨_, _, rfl, rfl, ⟨?_, ?_, ?_, rfl⟩, ⟨?_, ?_, ?_, rfl, rfl, rfl⟩, ⟨?_, ?_, ?_, hE.symm, rfl, rfl⟩⟩
  · rintro b hb'
    obtain rfl : who = b := Option.some.inj hb'
    simp only [setFreeze, get_if, if_true, and_true]
    exact ha
  · intro b hb'; cases hb'
  · intro b n _ hb'; cases hb'
  all_goals
    first
    | intro b hb'
      have hb' : who ≠ b := fun e => hb' (by rw [← e]; rfl)
      simp only [setFreeze, get_if, if_neg hb', true_and, and_true]
    | intros; rfl

/-- The details of a provider at the time of a payment: replenished if this is due. -/
def ready (d : CapacityDetails) (epoch : EpochNumber) : CapacityDetails := if d.canReplenish epoch then d.replenishAll epoch else d

/-- The details of a provider after a payment. -/
def paid (d : CapacityDetails) (epoch : EpochNumber) (fee : Balance) : CapacityDetails :=
  { ready d epoch with remaining := (ready d epoch).remaining - fee }

theorem withdrawFee_eq (s : State) (m : MsaId) (fee : Balance) : withdrawFee s m fee = (match s.capacity.get m with
    | none => .error .targetCapacityNotFound
    | some d => if fee ≤ (ready d s.epoch).remaining then
        .ok { s with capacity := (if d.canReplenish s.epoch then s.capacity.insert m (d.replenishAll s.epoch) else s.capacity).insert m (paid d s.epoch fee) }
      else .error .insufficientBalance) := by
  unfold withdrawFee replenishIfNeeded canReplenish replenishAllFor deduct paid ready
  cases hd : s.capacity.get m with
  | none => simp [hd, okOr, bind, Except.bind]
  | some d =>
    cases hr : d.canReplenish s.epoch
    · by_cases hf : fee ≤ d.remaining <;>
        simp [hr, hd, okOr, bind, Except.bind, pure, Except.pure, CapacityDetails.deduct, setCapacity, hf]
    · by_cases hf : fee ≤ (d.replenishAll s.epoch).remaining <;>
        simp [hr, okOr, bind, Except.bind, pure, Except.pure, CapacityDetails.deduct, setCapacity, hf]

theorem charge_alike {s t : State} (m : MsaId) (fee : Balance) (h : Agree (.charge m fee) s t) :
    Alike (.charge m fee) s t (withdrawFee s m fee) (withdrawFee t m fee) := by
  have hc := h.cap m rfl
  have hE := h.epoch
  rw [withdrawFee_eq, withdrawFee_eq, ← hc, ← hE]
  cases s.capacity.get m with
  | none => exact .inl ⟨_, rfl, rfl⟩
  | some d =>
    by_cases hf : fee ≤ (ready d s.epoch).remaining
    · simp only [if_pos hf]
      refine .inr ⟨_, _, rfl, rfl, ⟨?_, ?_, ?_, ?_⟩, ⟨?_, ?_, ?_, rfl, rfl, rfl⟩, ⟨?_, ?_, ?_, ?_, rfl, rfl⟩⟩
      · intro b hb'; cases hb'
      · intro b hb'
        obtain rfl : m = b := Option.some.inj hb'
        simp only [SMap.get_insert_self]
      · intro b n hb'; cases hb'
      · first | rfl | exact hE
      all_goals
        first
        | intros; exact ⟨rfl, rfl, rfl⟩
        | intro b hb'
          have hb' : m ≠ b := fun e => hb' (by rw [← e]; rfl)
          simp only [SMap.get_insert_ne _ hb']
          split_ifs <;> simp [SMap.get_insert_ne _ hb']
        | intros; rfl
        | exact hE.symm
    · simp only [if_neg hf]
      exact .inl ⟨_, rfl, rfl⟩

theorem dispatch_alike (cfg : Config) {x : Step} (hx : Ordinary x.op) {s t : State} (h : Agree x.op s t) :
    Alike x.op s t (dispatch cfg s x) (dispatch cfg t x) := by
  obtain ⟨env, op⟩ := x
  cases op with
  | stake who m v => exact stake_alike cfg env who m v h
  | unstake who m v => exact unstake_alike cfg who m v h
  | withdrawUnstaked who => exact withdraw_alike cfg who h
  | charge m fee => exact charge_alike m fee h
  | _ => cases hx

theorem Agree.refl (x : Op) (s : State) : Agree x s s := ⟨fun _ _ => ⟨rfl, rfl, rfl⟩, fun _ _ => rfl, fun _ _ _ _ => rfl, rfl⟩

theorem Same.agree {s t : State} (h : Same s t) (x : Op) : Agree x s t :=
  ⟨fun a _ => ⟨h.active a, h.frozen a, h.unlocks a⟩, fun m _ => h.capacity m, fun a m _ _ => h.target a m, h.epoch.1⟩

theorem Same.refl (s : State) : Same s s :=
  ⟨fun _ => rfl, fun _ => rfl, fun _ => rfl, fun _ _ => rfl, fun _ => rfl, rfl, rfl, rfl⟩

theorem Same.symm {s t : State} (h : Same s t) : Same t s :=
  ⟨fun a => (h.active a).symm, fun a => (h.frozen a).symm, fun a => (h.unlocks a).symm, fun a m => (h.target a m).symm,
    fun m => (h.capacity m).symm, h.epoch.1.symm, h.epoch.2.1.symm, h.epoch.2.2.symm⟩

theorem Same.trans {s t u : State} (h : Same s t) (g : Same t u) : Same s u :=
  ⟨fun a => (h.active a).trans (g.active a), fun a => (h.frozen a).trans (g.frozen a), fun a => (h.unlocks a).trans (g.unlocks a),
    fun a m => (h.target a m).trans (g.target a m), fun m => (h.capacity m).trans (g.capacity m), h.epoch.1.trans g.epoch.1,
    h.epoch.2.1.trans g.epoch.2.1, h.epoch.2.2.trans g.epoch.2.2⟩

theorem Frame.refl (x : Op) (s : State) : Frame x s s :=
  ⟨fun _ _ => ⟨rfl, rfl, rfl⟩, fun _ _ => rfl, fun _ _ _ => rfl, rfl, rfl, rfl⟩

/-- Outcome and effect of a call in two states that agree on what it is about. -/
theorem apply_alike (cfg : Config) {x : Step} (hx : Ordinary x.op) {s t : State} (h : Agree x.op s t) :
    outcome (dispatch cfg s x) = outcome (dispatch cfg t x) ∧ Agree x.op (apply cfg s x) (apply cfg t x) ∧
    Frame x.op s (apply cfg s x) := by
  unfold apply
  rcases dispatch_alike cfg hx h with ⟨e, h1, h2⟩ | ⟨s', t', h1, h2, h3, h4, h5⟩
  · rw [h1, h2]; exact ⟨rfl, h, Frame.refl _ _⟩
  · rw [h1, h2]; exact ⟨rfl, h3, h4⟩

/-- The state after a call in two states where the same is stored. -/
theorem Same.apply (cfg : Config) {x : Step} (hx : Ordinary x.op) {s t : State} (h : Same s t) :
    Same (apply cfg s x) (apply cfg t x) := by
  obtain ⟨-, h2, h3⟩ := apply_alike cfg hx (h.agree x.op)
  obtain ⟨-, -, h4⟩ := apply_alike cfg hx (h.symm.agree x.op)
  refine ⟨?_, ?_, ?_, ?_, ?_, ?_⟩
  · intro a
    by_cases ha : staker x.op = some a
    · exact (h2.mine a ha).1
    · rw [← (h3.mine a ha).1, ← (h4.mine a ha).1]; exact h.active a
  · intro a
    by_cases ha : staker x.op = some a
    · exact (h2.mine a ha).2.1
    · rw [← (h3.mine a ha).2.1, ← (h4.mine a ha).2.1]; exact h.frozen a
  · intro a
    by_cases ha : staker x.op = some a
    · exact (h2.mine a ha).2.2
    · rw [← (h3.mine a ha).2.2, ← (h4.mine a ha).2.2]; exact h.unlocks a
  · intro a m
    by_cases ha : staker x.op = some a ∧ provider x.op = some m
    · exact h2.both a m ha.1 ha.2
    · have ha : staker x.op ≠ some a ∨ provider x.op ≠ some m := by
        by_cases hb : staker x.op = some a
        · exact .inr fun hc => ha ⟨hb, hc⟩
        · exact .inl hb
      rw [← h3.both a m ha, ← h4.both a m ha]; exact h.target a m
  · intro m
    by_cases ha : provider x.op = some m
    · exact h2.cap m ha
    · rw [← h3.cap m ha, ← h4.cap m ha]; exact h.capacity m
  · have := h.epoch
    rw [← h3.epoch.1, ← h3.epoch.2.1, ← h3.epoch.2.2, ← h4.epoch.1, ← h4.epoch.2.1, ← h4.epoch.2.2]
    exact this

/-- A call of somebody else about another provider leaves alone what the call is about. -/
theorem Frame.agree {x y : Op} (h1 : Strangers x y) (h2 : Elsewhere x y) {s t : State} (h : Frame y s t) : Agree x s t :=
  ⟨fun a ha => h.mine a (h1 a ha), fun m hm => h.cap m (h2 m hm), fun a m ha _ => h.both a m (.inl (h1 a ha)), h.epoch.1⟩

theorem Strangers.symm {x y : Op} (h : Strangers x y) : Strangers y x := fun a ha hb => h a hb ha
theorem Elsewhere.symm {x y : Op} (h : Elsewhere x y) : Elsewhere y x := fun a ha hb => h a hb ha

/-- Two calls in either order. -/
theorem swap (cfg : Config) {x y : Step} (hx : Ordinary x.op) (hy : Ordinary y.op) (h1 : Strangers x.op y.op)
    (h2 : Elsewhere x.op y.op) (s : State) :
    outcome (dispatch cfg (apply cfg s y) x) = outcome (dispatch cfg s x) ∧
    Same (apply cfg (apply cfg s x) y) (apply cfg (apply cfg s y) x) := by
  obtain ⟨-, -, fx⟩ := apply_alike cfg hx (Agree.refl x.op s)
  obtain ⟨-, -, fy⟩ := apply_alike cfg hy (Agree.refl y.op s)
  have ax : Agree x.op s (apply cfg s y) := fy.agree h1 h2
  have ay : Agree y.op s (apply cfg s x) := fx.agree h1.symm h2.symm
  obtain ⟨ox, gx, -⟩ := apply_alike cfg hx ax
  obtain ⟨-, gy, -⟩ := apply_alike cfg hy ay
  obtain ⟨-, -, fxy⟩ := apply_alike cfg hy (Agree.refl y.op (apply cfg s x))
  obtain ⟨-, -, fyx⟩ := apply_alike cfg hx (Agree.refl x.op (apply cfg s y))
  refine ⟨ox.symm, ?_, ?_, ?_, ?_, ?_, ?_⟩
  · intro a
    by_cases ha : staker x.op = some a
    · rw [← (gx.mine a ha).1, ← (fxy.mine a (h1 a ha)).1]
    · rw [← (fyx.mine a ha).1]
      by_cases hb : staker y.op = some a
      · exact ((gy.mine a hb).1).symm
      · rw [← (fxy.mine a hb).1, ← (fx.mine a ha).1, ← (fy.mine a hb).1]
  · intro a
    by_cases ha : staker x.op = some a
    · rw [← (gx.mine a ha).2.1, ← (fxy.mine a (h1 a ha)).2.1]
    · rw [← (fyx.mine a ha).2.1]
      by_cases hb : staker y.op = some a
      · exact ((gy.mine a hb).2.1).symm
      · rw [← (fxy.mine a hb).2.1, ← (fx.mine a ha).2.1, ← (fy.mine a hb).2.1]
  · intro a
    by_cases ha : staker x.op = some a
    · rw [← (gx.mine a ha).2.2, ← (fxy.mine a (h1 a ha)).2.2]
    · rw [← (fyx.mine a ha).2.2]
      by_cases hb : staker y.op = some a
      · exact ((gy.mine a hb).2.2).symm
      · rw [← (fxy.mine a hb).2.2, ← (fx.mine a ha).2.2, ← (fy.mine a hb).2.2]
  · intro a m
    by_cases ha : staker x.op = some a ∧ provider x.op = some m
    · rw [← gx.both a m ha.1 ha.2, ← fxy.both a m (.inl (h1 a ha.1))]
    · have ha : staker x.op ≠ some a ∨ provider x.op ≠ some m := by
        by_cases hb : staker x.op = some a
        · exact .inr fun hc => ha ⟨hb, hc⟩
        · exact .inl hb
      rw [← fyx.both a m ha]
      by_cases hb : staker y.op = some a ∧ provider y.op = some m
      · exact (gy.both a m hb.1 hb.2).symm
      · have hb : staker y.op ≠ some a ∨ provider y.op ≠ some m := by
          by_cases hc : staker y.op = some a
          · exact .inr fun hd => hb ⟨hc, hd⟩
          · exact .inl hc
        rw [← fxy.both a m hb, ← fx.both a m ha, ← fy.both a m hb]
  · intro m
    by_cases ha : provider x.op = some m
    · rw [← gx.cap m ha, ← fxy.cap m (h2 m ha)]
    · rw [← fyx.cap m ha]
      by_cases hb : provider y.op = some m
      · exact (gy.cap m hb).symm
      · rw [← fxy.cap m hb, ← fx.cap m ha, ← fy.cap m hb]
  · rw [← fxy.epoch.1, ← fxy.epoch.2.1, ← fxy.epoch.2.2, ← fyx.epoch.1, ← fyx.epoch.2.1, ← fyx.epoch.2.2, ← fx.epoch.1,
      ← fx.epoch.2.1, ← fx.epoch.2.2, ← fy.epoch.1, ← fy.epoch.2.1, ← fy.epoch.2.2]
    exact ⟨rfl, rfl, rfl⟩

/-! ## Calls about the same provider -/

/-- When a stake succeeds, and its effect. -/
theorem stake_eq {cfg : Config} {env : Env} {s s' : State} {who : AccountId} {m : MsaId} {v n g A : Balance} {T : TargetDetails}
    {D : CapacityDetails} {U : Balance} (hn : n = stakable cfg env who v) (hg : g = capacityGenerated cfg n)
    (hA : A = (s.active.get who).getD 0) (hT : T = (s.target.get (who, m)).getD noTarget)
    (hD : D = (s.capacity.get m).getD noCapacity) (hU : U = chunksTotal cfg ((s.unlocks.get who).getD [])) :
    stake cfg env s who m v = .ok s' ↔
      (0 < v ∧ env.validTarget m = true ∧ 0 < n ∧ cfg.minStake ≤ A + n ∧
        n + T.amount ≤ cfg.maxBalance ∧ g + T.capacity ≤ cfg.maxBalance ∧ n + A + U ≤ cfg.maxBalance) ∧
      (n + D.staked ≤ cfg.maxBalance ∧ g + D.remaining ≤ cfg.maxBalance ∧ g + D.issued ≤ cfg.maxBalance) ∧
      s' = setCapacity (setTarget (setActive (setFreeze s who (n + A + U)) who (n + A)) who m ⟨n + T.amount, g + T.capacity⟩) m
        ⟨g + D.remaining, n + D.staked, g + D.issued, D.lastReplenished⟩ := by
  have hd : D.deposit cfg n g = (⟨g + D.remaining, n + D.staked, g + D.issued, D.lastReplenished⟩, true) ∧
      (n + D.staked ≤ cfg.maxBalance ∧ g + D.remaining ≤ cfg.maxBalance ∧ g + D.issued ≤ cfg.maxBalance) ∨
      (D.deposit cfg n g).2 = false ∧
      ¬ (n + D.staked ≤ cfg.maxBalance ∧ g + D.remaining ≤ cfg.maxBalance ∧ g + D.issued ≤ cfg.maxBalance) := by
    unfold CapacityDetails.deposit addB
    by_cases h1 : n + D.staked ≤ cfg.maxBalance <;> by_cases h2 : g + D.remaining ≤ cfg.maxBalance <;>
      by_cases h3 : g + D.issued ≤ cfg.maxBalance <;> simp [h1, h2, h3]
  unfold stake ensureCanStake increaseStake setActiveAndLock TargetDetails.deposit
  rw [← hA, ← hn]
  by_cases h1 : 0 < v
  swap
  · simp [ensure, h1, bind, Except.bind]
  by_cases h2 : env.validTarget m = true
  swap
  · simp [ensure, h1, h2, bind, Except.bind]
  by_cases h3 : 0 < n
  swap
  · simp [ensure, h1, h2, h3, bind, Except.bind]
  by_cases h4 : A + n ≤ cfg.maxBalance
  swap
  · simp [ensure, h1, h2, h3, bind, Except.bind, addB, h4, okOr]; omega
  by_cases h5 : cfg.minStake ≤ A + n
  swap
  · simp [ensure, h1, h2, h3, bind, Except.bind, addB, h4, okOr, h5]
  have h4' : n + A ≤ cfg.maxBalance := by omega
  simp only [ensure, h1, h2, h3, h4, h4', h5, addB, okOr, if_true, bind, Except.bind, pure, Except.pure, ← hg, ← hT, ← hD, ← hU]
  by_cases h6 : n + T.amount ≤ cfg.maxBalance
  swap
  · simp [h6]
  by_cases h7 : g + T.capacity ≤ cfg.maxBalance
  swap
  · simp [h6, h7]
  by_cases h8 : n + A + U ≤ cfg.maxBalance
  swap
  · rcases hd with ⟨e1, e2⟩ | ⟨e1, e2⟩
    · simp [h6, h7, h8, e1]
    · simp [h6, h7, h8, e1]
  rcases hd with ⟨e1, e2⟩ | ⟨e1, e2⟩
  · simp [h6, h7, h8, e1, e2, eq_comm]
  · simp [h6, h7, h8, e1]
    intro a b c
    exact absurd ⟨a, b, c⟩ e2

/-- Two stakes of different accounts to the same provider. -/
theorem swap_stakes (cfg : Config) {env env' : Env} {s s1 s2 : State} {a b : AccountId} {m : MsaId} {v w : Balance} (hab : a ≠ b)
    (h1 : stake cfg env s a m v = .ok s1) (h2 : stake cfg env' s1 b m w = .ok s2) :
    ∃ t1 t2, stake cfg env' s b m w = .ok t1 ∧ stake cfg env t1 a m v = .ok t2 ∧ Same s2 t2 := by
  have hne : ((a, m) : AccountId × MsaId) ≠ (b, m) := fun e => hab (Prod.mk.inj e).1
  have hne' : ((b, m) : AccountId × MsaId) ≠ (a, m) := fun e => hab (Prod.mk.inj e).1.symm
  rw [stake_eq rfl rfl rfl rfl rfl rfl] at h1
  obtain ⟨c1, d1, e1⟩ := h1
  rw [stake_eq rfl rfl rfl rfl rfl rfl] at h2
  obtain ⟨c2, d2, e2⟩ := h2
  subst e1
  simp only [setCapacity, setTarget, setActive, setFreeze, get_if, if_neg hab, if_neg hne, SMap.get_insert_self, Option.getD_some] at c2 d2 e2
  refine ⟨_, _, (stake_eq rfl rfl rfl rfl rfl rfl).2 ⟨c2, ?_, rfl⟩, (stake_eq rfl rfl rfl rfl rfl rfl).2 ⟨?_, ?_, rfl⟩, ?_⟩
  · omega
  · simp only [setCapacity, setTarget, setActive, setFreeze, get_if, if_neg hab.symm, if_neg hne']
    exact c1
  · simp only [setCapacity, setTarget, setActive, setFreeze, SMap.get_insert_self, Option.getD_some]
    omega
  · subst e2
    simp only [setCapacity, setTarget, setActive, setFreeze, SMap.get_insert_self, Option.getD_some, get_if, if_neg hab.symm, if_neg hne']
    refine ⟨fun x => ?_, fun x => ?_, fun x => rfl, fun x y => ?_, fun x => ?_, rfl, rfl, rfl⟩
    · simp only [get_if]
      by_cases h1 : b = x
      · subst h1; simp [hab]
      · simp [h1]
    · simp only [get_if]
      by_cases h1 : b = x
      · subst h1; simp [hab]
      · simp [h1]
    · simp only [get_if]
      by_cases h1 : (b, m) = (x, y)
      · rw [← h1, if_pos rfl, if_neg hne, if_pos rfl]
      · rw [if_neg h1, if_neg h1]
    · by_cases h1 : m = x
      · subst h1
        simp only [SMap.get_insert_self, Option.some.injEq, CapacityDetails.mk.injEq]
        exact ⟨Nat.add_left_comm _ _ _, Nat.add_left_comm _ _ _, Nat.add_left_comm _ _ _, trivial⟩
      · simp only [SMap.get_insert_ne _ h1]

theorem ready_paid (d : CapacityDetails) (e : EpochNumber) (fee : Balance) : ready (paid d e fee) e = paid d e fee := by
  have : (paid d e fee).canReplenish e = false := by
    unfold paid ready
    cases h : d.canReplenish e
    · simpa [CapacityDetails.canReplenish] using h
    · simp [CapacityDetails.canReplenish, CapacityDetails.replenishAll]
  unfold ready
  rw [this]
  rfl

/-- Two payments of the same provider. -/
theorem swap_charges {s s1 s2 : State} {m : MsaId} {v w : Balance} (h1 : withdrawFee s m v = .ok s1) (h2 : withdrawFee s1 m w = .ok s2) :
    ∃ t1 t2, withdrawFee s m w = .ok t1 ∧ withdrawFee t1 m v = .ok t2 ∧ Same s2 t2 := by
  rw [withdrawFee_eq] at h1 h2
  cases hd : s.capacity.get m with
  | none => rw [hd] at h1; cases h1
  | some d =>
    rw [hd] at h1
    simp only at h1
    by_cases hv : v ≤ (ready d s.epoch).remaining
    swap
    · rw [if_neg hv] at h1; cases h1
    rw [if_pos hv] at h1
    obtain rfl := Except.ok.inj h1
    simp only [SMap.get_insert_self, ready_paid] at h2
    by_cases hw : w ≤ (paid d s.epoch v).remaining
    swap
    · rw [if_neg hw] at h2; cases h2
    rw [if_pos hw] at h2
    obtain rfl := Except.ok.inj h2
    have hw' : w ≤ (ready d s.epoch).remaining - v := hw
    have e1 : withdrawFee s m w = .ok { s with
        capacity := (if d.canReplenish s.epoch then s.capacity.insert m (d.replenishAll s.epoch) else s.capacity).insert m
          (paid d s.epoch w) } := by
      rw [withdrawFee_eq, hd]; exact if_pos (by omega)
    have e2 := withdrawFee_eq { s with
        capacity := (if d.canReplenish s.epoch then s.capacity.insert m (d.replenishAll s.epoch) else s.capacity).insert m
          (paid d s.epoch w) } m v
    simp only [SMap.get_insert_self, ready_paid] at e2
    have hv' : v ≤ (paid d s.epoch w).remaining := by show v ≤ (ready d s.epoch).remaining - w; omega
    rw [if_pos hv'] at e2
    refine ⟨_, _, e1, e2, ?_⟩
    · refine ⟨fun x => rfl, fun x => rfl, fun x => rfl, fun x y => rfl, fun x => ?_, rfl, rfl, rfl⟩
      by_cases h1 : m = x
      · subst h1
        simp only [SMap.get_insert_self]
        have e : ∀ f g, paid (paid d s.epoch f) s.epoch g = { ready d s.epoch with remaining := (ready d s.epoch).remaining - f - g } := by
          intro f g
          rw [paid, ready_paid]
          rfl
        rw [e, e, Nat.sub_right_comm]
      · simp only [SMap.get_insert_ne _ h1]
        split_ifs <;> simp [SMap.get_insert_ne _ h1]

/-- Stakes. -/
def IsStake : Op → Prop
  | .stake .. => True
  | _ => False

/-- Payments. -/
def IsPayment : Op → Prop
  | .charge .. => True
  | _ => False

/-- Calls of different accounts that are about different providers, or both stakes, or both payments. -/
def Together (x y : Op) : Prop := Strangers x y ∧ (Elsewhere x y ∨ (IsStake x ∧ IsStake y) ∨ (IsPayment x ∧ IsPayment y))

theorem Together.symm {x y : Op} (h : Together x y) : Together y x :=
  ⟨h.1.symm, h.2.imp Elsewhere.symm (Or.imp And.symm And.symm)⟩

theorem outcome_ok {α : Type} {r : Except Err α} : outcome r = none ↔ ∃ a, r = .ok a := by
  cases r <;> simp [outcome]

theorem apply_ok {cfg : Config} {s s' : State} {x : Step} (h : dispatch cfg s x = .ok s') : apply cfg s x = s' := by
  simp [apply, h]

/-- Two calls that succeed in one order do so in the other. -/
theorem swap_ok (cfg : Config) {x y : Step} (hx : Ordinary x.op) (hy : Ordinary y.op) (h : Together x.op y.op) {s s1 s2 : State}
    (h1 : dispatch cfg s x = .ok s1) (h2 : dispatch cfg s1 y = .ok s2) :
    ∃ t1 t2, dispatch cfg s y = .ok t1 ∧ dispatch cfg t1 x = .ok t2 ∧ Same s2 t2 := by
  by_cases he : Elsewhere x.op y.op
  · obtain ⟨e1, e2⟩ := swap cfg hx hy h.1 he s
    obtain ⟨e3, -⟩ := swap cfg hy hx h.1.symm he.symm s
    rw [apply_ok h1, h2] at e3
    obtain ⟨t1, ht1⟩ := outcome_ok.1 e3.symm
    rw [apply_ok ht1, h1] at e1
    obtain ⟨t2, ht2⟩ := outcome_ok.1 e1
    rw [apply_ok ht1, apply_ok ht2, apply_ok h1, apply_ok h2] at e2
    exact ⟨t1, t2, ht1, ht2, e2⟩
  · obtain ⟨env, x⟩ := x
    obtain ⟨env', y⟩ := y
    rcases h.2 with h3 | ⟨h3, h4⟩ | ⟨h3, h4⟩
    · exact absurd h3 he
    · cases x <;> try cases h3
      cases y <;> try cases h4
      rename_i a m v b m' w
      have hm : m = m' := by
        by_contra hm
        exact he fun n hn hn' => hm ((Option.some.inj hn).trans (Option.some.inj hn').symm)
      subst hm
      exact swap_stakes cfg (fun e => h.1 a rfl (by rw [e]; rfl)) h1 h2
    · cases x <;> try cases h3
      cases y <;> try cases h4
      rename_i m v m' w
      have hm : m = m' := by
        by_contra hm
        exact he fun n hn hn' => hm ((Option.some.inj hn).trans (Option.some.inj hn').symm)
      subst hm
      exact swap_charges h1 h2

theorem AllOk.same {cfg : Config} (h : List Step) (ho : ∀ x ∈ h, Ordinary x.op) {s t : State} (hs : Same s t) (ha : AllOk cfg s h) :
    AllOk cfg t h ∧ Same (run cfg s h) (run cfg t h) := by
  induction h generalizing s t with
  | nil => exact ⟨trivial, hs⟩
  | cons x h ih =>
    have hx := ho x (by simp)
    obtain ⟨e, -, -⟩ := apply_alike cfg hx (hs.agree x.op)
    obtain ⟨i1, i2⟩ := ih (fun y hy => ho y (by simp [hy])) (hs.apply cfg hx) ha.2
    exact ⟨⟨outcome_ok.1 (e ▸ outcome_ok.2 ha.1), i1⟩, i2⟩

theorem Same.run {cfg : Config} (h : List Step) (ho : ∀ x ∈ h, Ordinary x.op) {s t : State} (hs : Same s t) :
    Same (run cfg s h) (run cfg t h) := by
  induction h generalizing s t with
  | nil => exact hs
  | cons x h ih => exact ih (fun y hy => ho y (by simp [hy])) (hs.apply cfg (ho x (by simp)))

theorem Agree.trans {x : Op} {s t u : State} (h : Agree x s t) (g : Agree x t u) : Agree x s u :=
  ⟨fun a ha => ⟨(h.mine a ha).1.trans (g.mine a ha).1, (h.mine a ha).2.1.trans (g.mine a ha).2.1,
    (h.mine a ha).2.2.trans (g.mine a ha).2.2⟩, fun m hm => (h.cap m hm).trans (g.cap m hm),
    fun a m ha hm => (h.both a m ha hm).trans (g.both a m ha hm), h.epoch.trans g.epoch⟩

/-- Calls of others about other providers leave alone what a call is about. -/
theorem run_agree (cfg : Config) {x : Op} (h : List Step) (ho : ∀ y ∈ h, Ordinary y.op)
    (hd : ∀ y ∈ h, Strangers x y.op ∧ Elsewhere x y.op) (s : State) : Agree x s (run cfg s h) := by
  induction h generalizing s with
  | nil => exact Agree.refl x s
  | cons y h ih =>
    obtain ⟨-, -, f⟩ := apply_alike cfg (ho y (by simp)) (Agree.refl y.op s)
    obtain ⟨h1, h2⟩ := hd y (by simp)
    exact (f.agree h1 h2).trans (ih (fun z hz => ho z (by simp [hz])) (fun z hz => hd z (by simp [hz])) (apply cfg s y))

/-- Calls of different accounts about different providers. -/
def Apart (x y : Step) : Prop := Strangers x.op y.op ∧ Elsewhere x.op y.op

theorem Apart.symm {x y : Step} (h : Apart x y) : Apart y x := ⟨h.1.symm, h.2.symm⟩

/-! ## The theorems -/

/-- C166, outcomes, partial: in whatever order calls of different accounts about different providers come within a block, each
succeeds in the one order if it does in the other, and otherwise fails with the same error. Missing: calls about the same
provider (`C166_full_false`). -/
theorem C166_outcomes_partial (cfg : Config) (s : State) (h h' : List Step) (hp : h.Perm h') (ho : ∀ x ∈ h, Ordinary x.op)
    (hd : h.Pairwise Apart) (a b a' b' : List Step) (x : Step) (e : h = a ++ x :: b) (e' : h' = a' ++ x :: b') :
    outcome (dispatch cfg (run cfg s a) x) = outcome (dispatch cfg (run cfg s a') x) := by
  have hd' : h'.Pairwise Apart := (hp.pairwise_iff (fun h => h.symm)).1 hd
  have key : ∀ (h a b : List Step), h = a ++ x :: b → (∀ x ∈ h, Ordinary x.op) → h.Pairwise Apart →
      outcome (dispatch cfg (run cfg s a) x) = outcome (dispatch cfg s x) := by
    rintro h a b rfl ho hd
    rw [List.pairwise_append] at hd
    have hg := run_agree cfg (x := x.op) a (fun y hy => ho y (by simp [hy])) (fun y hy => (hd.2.2 y hy x (by simp)).symm) s
    exact ((apply_alike cfg (ho x (by simp)) hg).1).symm
  rw [key h a b e ho hd, key h' a' b' e' (fun y hy => ho y (hp.mem_iff.2 hy)) hd']

/-- C166, contents, partial: and the same is stored afterwards about every account and provider. -/
theorem C166_contents_partial (cfg : Config) (s : State) (h h' : List Step) (hp : h.Perm h') (ho : ∀ x ∈ h, Ordinary x.op)
    (hd : h.Pairwise Apart) : Same (run cfg s h) (run cfg s h') := by
  induction hp generalizing s with
  | nil => exact Same.refl _
  | cons x hp ih =>
    exact ih (apply cfg s x) (fun y hy => ho y (by simp [hy])) (List.pairwise_cons.1 hd).2
  | swap x y l =>
    have hxy : Apart y x := (List.pairwise_cons.1 hd).1 x (by simp)
    exact Same.run l (fun z hz => ho z (by simp [hz])) (swap cfg (ho y (by simp)) (ho x (by simp)) hxy.1 hxy.2 s).2
  | trans h1 h2 ih1 ih2 =>
    exact (ih1 s ho hd).trans (ih2 s (fun y hy => ho y (h1.mem_iff.2 hy)) ((h1.pairwise_iff (fun h => h.symm)).1 hd))

/-- C166, partial: stakes, unstakes and withdrawals of different accounts and payments, where for each provider there are only
stakes, only payments or a single unstake: if all succeed in one order they all succeed in every order, and the same is stored
afterwards. -/
theorem C166_all_partial (cfg : Config) (s : State) (h h' : List Step) (hp : h.Perm h') (ho : ∀ x ∈ h, Ordinary x.op)
    (hd : h.Pairwise (fun x y => Together x.op y.op)) (ha : AllOk cfg s h) :
    AllOk cfg s h' ∧ Same (run cfg s h) (run cfg s h') := by
  induction hp generalizing s with
  | nil => exact ⟨trivial, Same.refl _⟩
  | cons x hp ih =>
    obtain ⟨i1, i2⟩ := ih (apply cfg s x) (fun y hy => ho y (by simp [hy])) (List.pairwise_cons.1 hd).2 ha.2
    exact ⟨⟨ha.1, i1⟩, i2⟩
  | swap x y l =>
    have hxy : Together y.op x.op := (List.pairwise_cons.1 hd).1 x (by simp)
    obtain ⟨⟨s1, h1⟩, ⟨s2, h2⟩, h3⟩ := ha
    rw [apply_ok h1] at h2 h3
    rw [apply_ok h2] at h3
    obtain ⟨t1, t2, g1, g2, g3⟩ := swap_ok cfg (ho y (by simp)) (ho x (by simp)) hxy h1 h2
    obtain ⟨i1, i2⟩ := AllOk.same l (fun z hz => ho z (by simp [hz])) g3 h3
    refine ⟨⟨⟨t1, g1⟩, ?_⟩, ?_⟩
    · rw [apply_ok g1]
      refine ⟨⟨t2, g2⟩, ?_⟩
      rw [apply_ok g2]; exact i1
    · show Same (run cfg (apply cfg (apply cfg s y) x) l) (run cfg (apply cfg (apply cfg s x) y) l)
      rw [apply_ok h1, apply_ok h2, apply_ok g1, apply_ok g2]
      exact i2
  | trans h1 h2 ih1 ih2 =>
    obtain ⟨i1, i2⟩ := ih1 s ho hd ha
    obtain ⟨i3, i4⟩ := ih2 s (fun y hy => ho y (h1.mem_iff.2 hy)) ((h1.pairwise_iff (fun h => h.symm)).1 hd) i1
    exact ⟨i3, i2.trans i4⟩

/-! ## Where the order matters -/

/-- C166 in full: whatever different accounts do, and whatever different providers pay. -/
def C166_full : Prop :=
  ∀ (cfg : Config) (hist h h' : List Step), cfg.fromRational = fromRational → h.Perm h' → (∀ x ∈ h, Ordinary x.op) →
    h.Pairwise (fun x y => Strangers x.op y.op ∧ (IsPayment x.op → IsPayment y.op → Elsewhere x.op y.op)) →
    AllOk cfg (run cfg .init hist) h →
    AllOk cfg (run cfg .init hist) h' ∧ Same (run cfg (run cfg .init hist) h) (run cfg (run cfg .init hist) h')

/-- Two accounts have staked to a provider. -/
def orderBase : List Step := [⟨shareEnv, .stake 7 1 1000⟩, ⟨shareEnv, .stake 8 1 2000⟩]

/-- C166: two accounts unstake from the same provider. In both orders both calls succeed, yet what the provider is left with
depends on the order: the share is rounded, and the second share is one of what the first has left. -/
theorem C166_rounding :
    let x : Step := ⟨shareEnv, .unstake 7 1 151⟩
    let y : Step := ⟨shareEnv, .unstake 8 1 63⟩
    let s := run shareCfg .init orderBase
    (dispatch shareCfg s x).isOk = true ∧ (dispatch shareCfg (apply shareCfg s x) y).isOk = true ∧
    (dispatch shareCfg s y).isOk = true ∧ (dispatch shareCfg (apply shareCfg s y) x).isOk = true ∧
    capOf (run shareCfg s [x, y]) 1 ≠ capOf (run shareCfg s [y, x]) 1 := by
  decide +kernel

/-- C166: a provider pays with capacity that somebody has just staked to it. Before that it cannot. -/
theorem C166_payment :
    let x : Step := ⟨shareEnv, .stake 7 1 2000⟩
    let y : Step := ⟨shareEnv, .charge 1 80⟩
    let s := run shareCfg .init orderBase
    (dispatch shareCfg s x).isOk = true ∧ (dispatch shareCfg (apply shareCfg s x) y).isOk = true ∧
    (dispatch shareCfg s y).isOk = false := by
  decide +kernel

theorem C166_full_false : ¬C166_full := by
  intro h
  obtain ⟨h1, h2, -, -, h3⟩ := C166_rounding
  have e := h shareCfg orderBase [⟨shareEnv, .unstake 7 1 151⟩, ⟨shareEnv, .unstake 8 1 63⟩]
    [⟨shareEnv, .unstake 8 1 63⟩, ⟨shareEnv, .unstake 7 1 151⟩] rfl (.swap _ _ _) (by simp [Ordinary])
    (by simp [Strangers, staker, IsPayment]) ⟨?_, ?_, trivial⟩
  · apply h3
    unfold capOf
    rw [e.2.capacity 1]
  · cases hr : dispatch shareCfg (run shareCfg .init orderBase) ⟨shareEnv, .unstake 7 1 151⟩ with
    | ok v => exact ⟨v, rfl⟩
    | error e => rw [hr] at h1; cases h1
  · cases hr : dispatch shareCfg (apply shareCfg (run shareCfg .init orderBase) ⟨shareEnv, .unstake 7 1 151⟩)
        ⟨shareEnv, .unstake 8 1 63⟩ with
    | ok v => exact ⟨v, rfl⟩
    | error e => rw [hr] at h2; cases h2

/-- Two accounts stake to provider 1 while provider 2 makes two payments and a third account unstakes from provider 3: the
hypotheses of `C166_all_partial` hold, and everything succeeds. -/
example :
    let env : Env := ⟨fun _ => 100000000000, fun m => decide (m = 1 ∨ m = 2 ∨ m = 3)⟩
    let s := run shareCfg .init [⟨env, .stake 5 2 9000⟩, ⟨env, .stake 9 3 5000⟩]
    let h : List Step := [⟨env, .stake 7 1 1000⟩, ⟨env, .charge 2 70⟩, ⟨env, .stake 8 1 2000⟩, ⟨env, .charge 2 60⟩,
      ⟨env, .unstake 9 3 700⟩]
    (∀ x ∈ h, Ordinary x.op) ∧ h.Pairwise (fun x y => Together x.op y.op) ∧
    (dispatch shareCfg s h[0]).isOk = true ∧ (dispatch shareCfg (run shareCfg s (h.take 1)) h[1]).isOk = true ∧
    (dispatch shareCfg (run shareCfg s (h.take 2)) h[2]).isOk = true ∧
    (dispatch shareCfg (run shareCfg s (h.take 3)) h[3]).isOk = true ∧
    (dispatch shareCfg (run shareCfg s (h.take 4)) h[4]).isOk = true ∧
    (capOf (run shareCfg s h) 1).issued = 60 ∧ (capOf (run shareCfg s h) 2).remaining = 50 := by
  refine ⟨by simp [Ordinary], ?_, ?_, ?_, ?_, ?_, ?_, ?_, ?_⟩
  · simp [Together, Strangers, Elsewhere, IsStake, IsPayment, staker, provider]
  all_goals decide +kernel

/-- Calls about different providers: the hypotheses of `C166_outcomes_partial` and `C166_contents_partial`. -/
example : [(⟨shareEnv, .unstake 7 1 151⟩ : Step), ⟨shareEnv, .stake 8 2 2000⟩, ⟨shareEnv, .withdrawUnstaked 9⟩].Pairwise Apart := by
  simp [Apart, Strangers, Elsewhere, staker, provider]

end Verif.Capacity
