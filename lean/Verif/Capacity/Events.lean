import Verif.Capacity.Model
/-!
# Events of the capacity pallet

`pallets/capacity/src/lib.rs`, `enum Event` (223-264) and the `deposit_event` calls of the dispatchables and of
`deduct`.
-/

namespace Verif.Capacity

/-- `Event`, lib.rs 223-264. -/
inductive Event
  | staked (account : AccountId) (target : MsaId) (amount capacity : Balance)
  | stakeWithdrawn (account : AccountId) (amount : Balance)
  | unStaked (account : AccountId) (target : MsaId) (amount capacity : Balance)
  | epochLengthUpdated (blocks : BlockNumber)
  | capacityWithdrawn (m : MsaId) (amount : Balance)
  deriving DecidableEq, Repr

/-- Capacity that `reduce_capacity` returns, lib.rs 597-624, and `unstake` reports. -/
def reportedReduction (cfg : Config) (s : State) (who : AccountId) (target : MsaId) (amount : Balance) : Balance :=
  let t := (s.target.get (who, target)).getD noTarget
  let d := (s.capacity.get target).getD noCapacity
  if t.amount = amount then t.capacity else capacityReduction cfg amount d.staked d.issued

/-- Events deposited by an operation that succeeds in state `s`: lib.rs 337-342, 358-361, 390-395, 414, 681. Epoch
changes and replenishments deposit none. -/
def deposited (cfg : Config) (s : State) (x : Step) : List Event :=
  match x.op with
  | .stake who t a =>
    let actual := stakable cfg x.env who a
    [.staked who t actual (capacityGenerated cfg actual)]
  | .unstake who t a =>
    let actual := (withdrawActive cfg ((s.active.get who).getD 0) a).2
    [.unStaked who t actual (reportedReduction cfg s who t actual)]
  | .withdrawUnstaked who => [.stakeWithdrawn who (reapThawed cfg ((s.unlocks.get who).getD []) s.epoch).2]
  | .setEpochLength n => [.epochLengthUpdated n]
  | .charge m fee => [.capacityWithdrawn m fee]
  | .deduct m a => [.capacityWithdrawn m a]
  | .onInitialize _ => []
  | .replenishAll _ => []
  | .replenishBy _ _ => []

/-- Events an operation leaves in its block: those of a failing one are rolled back with it. -/
def eventsOf (cfg : Config) (s : State) (x : Step) : List Event :=
  match dispatch cfg s x with
  | .ok _ => deposited cfg s x
  | .error _ => []

/-- Events of a history, in order. -/
def eventsFrom (cfg : Config) : State → List Step → List Event
  | _, [] => []
  | s, x :: rest => eventsOf cfg s x ++ eventsFrom cfg (apply cfg s x) rest

end Verif.Capacity
