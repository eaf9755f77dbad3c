import Verif.Prelude
/-!
# Model of the capacity pallet

Source: `pallets/capacity/src/{lib,types}.rs`, and the charging of capacity fees in
`pallets/frequency-tx-payment/src/payment.rs`.

Token balances and the validity of targets belong to other pallets and are given per call. The freeze
with reason `CapacityStaking` is part of the state. `set_freeze` and `thaw` of the balances pallet are
taken to succeed (two freezes are allowed per account, and there are two reasons). Weights and events are
not modelled.
-/

namespace Verif.Capacity

/-- `EpochNumber`, a `u32`. -/
macro "EpochNumber" : term => `(Nat)

/-- Errors, lib.rs 254-290, and the arithmetic and origin errors. -/
inductive Err
  | invalidTarget
  | insufficientBalance
  | insufficientStakingAmount
  | zeroAmountNotAllowed
  | notAStakingAccount
  | noUnstakedTokensAvailable
  | unstakedAmountIsZero
  | amountToUnstakeExceedsAmountStaked
  | stakerTargetRelationshipNotFound
  | targetCapacityNotFound
  | maxUnlockingChunksExceeded
  | maxEpochLengthExceeded
  | balanceTooLowtoStake
  | noThawedTokenAvailable
  | overflow
  | badOrigin
  | payment
deriving DecidableEq

/-- Configuration, lib.rs 85-145. -/
structure Config where
  minStake : Balance
  minTokenBalance : Balance
  maxChunks : Nat
  thawPeriod : Nat
  maxEpochLength : Nat
  /-- `CapacityPerToken`, in billionths -/
  capacityPerToken : Nat
  /-- largest value of the balance type (`u128`) -/
  maxBalance : Nat
  /-- largest epoch number (`u32`) -/
  maxEpoch : Nat
  /-- `Perbill::from_rational`, a function of the `sp-arithmetic` library, in billionths; left open -/
  fromRational : Nat → Nat → Nat

/-! ## Arithmetic -/

/-- `checked_add` of balances. -/
def addB (cfg : Config) (a b : Balance) : Option Balance := if a + b ≤ cfg.maxBalance then some (a + b) else none

/-- `saturating_add` of balances. -/
def satAdd (cfg : Config) (a b : Balance) : Balance := min cfg.maxBalance (a + b)

/-- Denominator of `Perbill`. -/
def billion : Nat := 1000000000

/-- `Perbill * amount`: rounds to nearest, halves down. -/
def mulNearest (part x : Nat) : Nat :=
  x / billion * part + (x % billion * part / billion +
    (if billion / 2 < x % billion * part % billion then 1 else 0))

/-- `Perbill::mul_ceil`. -/
def mulCeil (part x : Nat) : Nat :=
  x / billion * part + (x % billion * part / billion +
    (if 0 < x % billion * part % billion then 1 else 0))

/-! ## Types -/

/-- `UnlockChunk`, types.rs 38-43. -/
structure Chunk where
  value : Balance
  thawAt : EpochNumber
deriving DecidableEq

/-- `StakingTargetDetails`, types.rs 79-84. -/
structure TargetDetails where
  amount : Balance
  capacity : Balance
deriving DecidableEq

/-- `CapacityDetails`, types.rs 104-113. -/
structure CapacityDetails where
  remaining : Balance
  staked : Balance
  issued : Balance
  lastReplenished : EpochNumber
deriving DecidableEq

/-- `StakingDetails::withdraw`, types.rs 54-67: new active stake and actual amount. -/
def withdrawActive (cfg : Config) (active amount : Balance) : Balance × Balance :=
  if active - amount ≤ cfg.minStake then (0, active) else (active - amount, amount)

/-- `StakingTargetDetails::deposit`, types.rs 88-93. -/
def TargetDetails.deposit (cfg : Config) (t : TargetDetails) (amount capacity : Balance) :
    Option TargetDetails := do
  let a ← addB cfg amount t.amount
  let c ← addB cfg capacity t.capacity
  pure ⟨a, c⟩

/-- `StakingTargetDetails::withdraw`, types.rs 96-99. -/
def TargetDetails.withdraw (t : TargetDetails) (amount capacity : Balance) : TargetDetails :=
  ⟨t.amount - amount, t.capacity - capacity⟩

/-- `CapacityDetails::deposit`, types.rs 122-133: the details as left behind, and whether every addition
succeeded. -/
def CapacityDetails.deposit (cfg : Config) (d : CapacityDetails) (amount capacity : Balance) :
    CapacityDetails × Bool :=
  match addB cfg amount d.staked with
  | none => (d, false)
  | some s =>
    match addB cfg capacity d.remaining with
    | none => ({ d with staked := s }, false)
    | some r =>
      match addB cfg capacity d.issued with
      | none => ({ d with staked := s, remaining := r }, false)
      | some i => ({ d with staked := s, remaining := r, issued := i }, true)

/-- `CapacityDetails::can_replenish`, types.rs 136-138. -/
def CapacityDetails.canReplenish (d : CapacityDetails) (epoch : EpochNumber) : Bool :=
  decide (d.lastReplenished < epoch)

/-- `CapacityDetails::replenish_all`, types.rs 142-145. -/
def CapacityDetails.replenishAll (d : CapacityDetails) (epoch : EpochNumber) : CapacityDetails :=
  { d with remaining := d.issued, lastReplenished := epoch }

/-- `CapacityDetails::replenish_by_amount`, types.rs 149-152. -/
def CapacityDetails.replenishBy (cfg : Config) (d : CapacityDetails) (amount : Balance)
    (epoch : EpochNumber) : CapacityDetails :=
  { d with remaining := satAdd cfg amount d.remaining, lastReplenished := epoch }

/-- `CapacityDetails::deduct_capacity_by_amount`, types.rs 156-161. -/
def CapacityDetails.deduct (d : CapacityDetails) (amount : Balance) : Option CapacityDetails :=
  if amount ≤ d.remaining then some { d with remaining := d.remaining - amount } else none

/-- `CapacityDetails::withdraw`, types.rs 165-169. -/
def CapacityDetails.withdraw (d : CapacityDetails) (capacity amount : Balance) : CapacityDetails :=
  { d with staked := d.staked - amount, issued := d.issued - capacity, remaining := d.remaining - capacity }

/-- `unlock_chunks_total`, types.rs 189-193. -/
def chunksTotal (cfg : Config) (l : List Chunk) : Balance := l.foldl (fun a c => satAdd cfg a c.value) 0

/-- `unlock_chunks_reap_thawed`, types.rs 198-212: remaining chunks and amount reaped. -/
def reapThawed (cfg : Config) (l : List Chunk) (epoch : EpochNumber) : List Chunk × Balance :=
  (l.filter (fun c => decide (epoch < c.thawAt)),
   (l.filter (fun c => decide (c.thawAt ≤ epoch))).foldl (fun a c => satAdd cfg a c.value) 0)

/-- Storage, lib.rs 147-205, and the staking freezes of the balances pallet. -/
structure State where
  /-- `StakingAccountLedger`: active stake; the staking type is always `MaximumCapacity` -/
  active : SMap AccountId Balance
  /-- `StakingTargetLedger` -/
  target : SMap (AccountId × MsaId) TargetDetails
  /-- `CapacityLedger` -/
  capacity : SMap MsaId CapacityDetails
  /-- `UnstakeUnlocks` -/
  unlocks : SMap AccountId (List Chunk)
  epoch : EpochNumber
  epochStart : BlockNumber
  epochLength : BlockNumber
  /-- freezes with reason `CapacityStaking` -/
  frozen : SMap AccountId Balance

/-- State at genesis; the default epoch length is 100, lib.rs 191-193. -/
def State.init : State := ⟨∅, ∅, ∅, ∅, 0, 0, 100, ∅⟩

/-- What a call sees of other pallets: token balances and which ids are registered providers. -/
structure Env where
  balance : AccountId → Balance
  validTarget : MsaId → Bool

/-- `Currency::set_freeze` (with amount zero it thaws, like `Currency::thaw`). -/
def setFreeze (s : State) (who : AccountId) (amount : Balance) : State :=
  { s with frozen := if amount = 0 then s.frozen.erase who else s.frozen.insert who amount }

/-! ## Staking -/

/-- `get_stakable_amount_for`, lib.rs 558-566. -/
def stakable (cfg : Config) (env : Env) (who : AccountId) (amount : Balance) : Balance :=
  min (env.balance who - cfg.minTokenBalance) amount

/-- `capacity_generated`, lib.rs 627-630. -/
def capacityGenerated (cfg : Config) (amount : Balance) : Balance := mulNearest cfg.capacityPerToken amount

/-- `calculate_capacity_reduction`, lib.rs 633-639. -/
def capacityReduction (cfg : Config) (unstaking totalStaked totalCapacity : Balance) : Balance :=
  mulCeil (cfg.fromRational unstaking totalStaked) totalCapacity

/-- `ensure_can_stake`, lib.rs 429-453: the active stake found and the amount to stake. -/
def ensureCanStake (cfg : Config) (env : Env) (s : State) (who : AccountId) (target : MsaId)
    (amount : Balance) : Except Err (Balance × Balance) := do
  ensure (0 < amount) .zeroAmountNotAllowed
  ensure (env.validTarget target = true) .invalidTarget
  let active := (s.active.get who).getD 0
  let actual := stakable cfg env who amount
  ensure (0 < actual) .balanceTooLowtoStake
  let new ← okOr (addB cfg active actual) .overflow
  ensure (cfg.minStake ≤ new) .insufficientStakingAmount
  pure (active, actual)

/-- `set_staking_account`, lib.rs 495-501. -/
def setActive (s : State) (who : AccountId) (active : Balance) : State :=
  { s with active := if active = 0 then s.active.erase who else s.active.insert who active }

/-- `set_target_details_for`, lib.rs 504-514. -/
def setTarget (s : State) (who : AccountId) (target : MsaId) (d : TargetDetails) : State :=
  { s with target := if d.amount = 0 then s.target.erase (who, target) else s.target.insert (who, target) d }

/-- `set_capacity_for`, lib.rs 517-522. -/
def setCapacity (s : State) (target : MsaId) (d : CapacityDetails) : State :=
  { s with capacity := s.capacity.insert target d }

/-- `set_staking_account_and_lock`, lib.rs 481-493. -/
def setActiveAndLock (cfg : Config) (s : State) (who : AccountId) (active : Balance) : Except Err State := do
  let unlocks := (s.unlocks.get who).getD []
  let total ← okOr (addB cfg active (chunksTotal cfg unlocks)) .overflow
  pure (setActive (setFreeze s who total) who active)

/-- Default details of a target and of its capacity. -/
def noTarget : TargetDetails := ⟨0, 0⟩
/-- `CapacityDetails::default`. -/
def noCapacity : CapacityDetails := ⟨0, 0, 0, 0⟩

/-- `increase_stake_and_issue_capacity`, lib.rs 457-479. -/
def increaseStake (cfg : Config) (s : State) (who : AccountId) (active : Balance) (target : MsaId)
    (amount : Balance) : Except Err State := do
  let active ← okOr (addB cfg amount active) .overflow
  let capacity := capacityGenerated cfg amount
  let t ← okOr (((s.target.get (who, target)).getD noTarget).deposit cfg amount capacity) .overflow
  let d := ((s.capacity.get target).getD noCapacity).deposit cfg amount capacity
  ensure (d.2 = true) .overflow
  let s ← setActiveAndLock cfg s who active
  pure (setCapacity (setTarget s who target t) target d.1)

/-- `stake`, lib.rs 320-345. -/
def stake (cfg : Config) (env : Env) (s : State) (who : AccountId) (target : MsaId) (amount : Balance) :
    Except Err State := do
  let r ← ensureCanStake cfg env s who target amount
  increaseStake cfg s who r.1 target r.2

/-- `decrease_active_staking_balance`, lib.rs 525-536. -/
def decreaseActive (cfg : Config) (s : State) (who : AccountId) (amount : Balance) :
    Except Err (State × Balance) := do
  let active ← okOr (s.active.get who) .notAStakingAccount
  ensure (amount ≤ active) .amountToUnstakeExceedsAmountStaked
  let r := withdrawActive cfg active amount
  pure (setActive s who r.1, r.2)

/-- `add_unlock_chunk`, lib.rs 538-556. -/
def addUnlockChunk (cfg : Config) (s : State) (who : AccountId) (amount : Balance) : Except Err State := do
  let thawAt := min cfg.maxEpoch (s.epoch + cfg.thawPeriod)
  let unlocks := (s.unlocks.get who).getD []
  ensure (unlocks.length < cfg.maxChunks) .maxUnlockingChunksExceeded
  pure { s with unlocks := s.unlocks.insert who (unlocks ++ [⟨amount, thawAt⟩]) }

/-- `reduce_capacity`, lib.rs 597-624. -/
def reduceCapacity (cfg : Config) (s : State) (who : AccountId) (target : MsaId) (amount : Balance) :
    Except Err State := do
  let t ← okOr (s.target.get (who, target)) .stakerTargetRelationshipNotFound
  let d ← okOr (s.capacity.get target) .targetCapacityNotFound
  let c := if t.amount = amount then t.capacity else capacityReduction cfg amount d.staked d.issued
  pure (setTarget (setCapacity s target (d.withdraw c amount)) who target (t.withdraw amount c))

/-- `unstake`, lib.rs 376-397. -/
def unstake (cfg : Config) (s : State) (who : AccountId) (target : MsaId) (amount : Balance) :
    Except Err State := do
  ensure (0 < amount) .unstakedAmountIsZero
  let r ← decreaseActive cfg s who amount
  let s ← addUnlockChunk cfg r.1 who r.2
  reduceCapacity cfg s who target r.2

/-- `do_withdraw_unstaked`, lib.rs 568-594. -/
def withdrawUnstaked (cfg : Config) (s : State) (who : AccountId) : Except Err State := do
  let unlocks ← okOr (s.unlocks.get who) .noUnstakedTokensAvailable
  let r := reapThawed cfg unlocks s.epoch
  ensure (r.2 ≠ 0) .noThawedTokenAvailable
  let total := if r.1.isEmpty then 0 else chunksTotal cfg r.1
  let s := { s with unlocks := if r.1.isEmpty then s.unlocks.erase who else s.unlocks.insert who r.1 }
  let active := (s.active.get who).getD 0
  pure (setFreeze s who (satAdd cfg active total))

/-! ## Epochs -/

/-- `set_epoch_length`, lib.rs 408-416. -/
def setEpochLength (cfg : Config) (s : State) (length : BlockNumber) : Except Err State := do
  ensure (length ≤ cfg.maxEpochLength) .maxEpochLengthExceeded
  pure { s with epochLength := length }

/-- `start_new_epoch_if_needed`, lib.rs 641-656, called by `on_initialize`. -/
def startNewEpochIfNeeded (cfg : Config) (s : State) (block : BlockNumber) : State :=
  if s.epochLength ≤ block - s.epochStart then
    { s with epoch := min cfg.maxEpoch (s.epoch + 1), epochStart := block }
  else s

/-! ## Spending and replenishing -/

/-- `Nontransferable::balance`, lib.rs 663-668. -/
def balanceOf (s : State) (m : MsaId) : Balance :=
  match s.capacity.get m with
  | some d => d.remaining
  | none => 0

/-- `Nontransferable::deduct`, lib.rs 671-682. -/
def deduct (s : State) (m : MsaId) (amount : Balance) : Except Err State := do
  let d ← okOr (s.capacity.get m) .targetCapacityNotFound
  let d ← okOr (d.deduct amount) .insufficientBalance
  pure (setCapacity s m d)

/-- `Nontransferable::deposit`, lib.rs 685-692: a failed addition is ignored. Not called by the runtime. -/
def depositCapacity (cfg : Config) (s : State) (m : MsaId) (amount : Balance) : Except Err State := do
  let d ← okOr (s.capacity.get m) .targetCapacityNotFound
  pure (setCapacity s m (d.deposit cfg amount (capacityGenerated cfg amount)).1)

/-- `Replenishable::replenish_all_for`, lib.rs 698-707. -/
def replenishAllFor (s : State) (m : MsaId) : Except Err State := do
  let d ← okOr (s.capacity.get m) .targetCapacityNotFound
  pure (setCapacity s m (d.replenishAll s.epoch))

/-- `Replenishable::replenish_by_amount`, lib.rs 711-719: the new details are computed and dropped. -/
def replenishByAmount (cfg : Config) (s : State) (m : MsaId) (amount : Balance) : Except Err State := do
  let d ← okOr (s.capacity.get m) .targetCapacityNotFound
  let _d := d.replenishBy cfg amount s.epoch
  pure s

/-- `Replenishable::can_replenish`, lib.rs 721-726. -/
def canReplenish (s : State) (m : MsaId) : Bool :=
  match s.capacity.get m with
  | some d => d.canReplenish s.epoch
  | none => false

/-- The conditional replenishment in `CapacityAdapter::withdraw_fee`,
frequency-tx-payment/src/payment.rs 46-51. -/
def replenishIfNeeded (s : State) (m : MsaId) : Except Err State :=
  if canReplenish s m then replenishAllFor s m else .ok s

/-- `CapacityAdapter::withdraw_fee`, frequency-tx-payment/src/payment.rs 34-59, after the key has been
resolved to the account `m`; the checks of the key and of the token balance of its holder are in the
model of the transaction payment pallet. Errors of the two steps become a payment error. -/
def withdrawFee (s : State) (m : MsaId) (fee : Balance) : Except Err State := do
  let s ← replenishIfNeeded s m
  deduct s m fee

/-! ## Histories -/

/-- Everything that changes the state of the pallet in the runtime. -/
inductive Op
  | stake (who : AccountId) (target : MsaId) (amount : Balance)
  | unstake (who : AccountId) (target : MsaId) (amount : Balance)
  | withdrawUnstaked (who : AccountId)
  /-- with root origin -/
  | setEpochLength (length : BlockNumber)
  | onInitialize (block : BlockNumber)
  /-- a transaction of account `m` is paid with capacity -/
  | charge (m : MsaId) (fee : Balance)
  | replenishAll (m : MsaId)
  | replenishBy (m : MsaId) (amount : Balance)
  | deduct (m : MsaId) (amount : Balance)

/-- One operation in its environment. -/
structure Step where
  env : Env
  op : Op

/-- Result of an operation. -/
def dispatch (cfg : Config) (s : State) (x : Step) : Except Err State :=
  match x.op with
  | .stake who t a => stake cfg x.env s who t a
  | .unstake who t a => unstake cfg s who t a
  | .withdrawUnstaked who => withdrawUnstaked cfg s who
  | .setEpochLength n => setEpochLength cfg s n
  | .onInitialize b => .ok (startNewEpochIfNeeded cfg s b)
  | .charge m fee => withdrawFee s m fee
  | .replenishAll m => replenishAllFor s m
  | .replenishBy m a => replenishByAmount cfg s m a
  | .deduct m a => deduct s m a

/-- A failing operation is rolled back. -/
def apply (cfg : Config) (s : State) (x : Step) : State :=
  match dispatch cfg s x with
  | .ok s' => s'
  | .error _ => s

/-- State after a history. -/
def run (cfg : Config) (s : State) (h : List Step) : State := h.foldl (apply cfg) s

end Verif.Capacity
