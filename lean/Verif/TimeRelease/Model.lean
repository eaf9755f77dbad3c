import Verif.Prelude
/-!
# Model of the time-release pallet

`pallets/time-release/src/lib.rs` and `types.rs`. The integer types appear as explicit bounds: block numbers
and counts are `u32`, balances are `u128`.

The balances pallet is not part of the repository. What this pallet uses of it (`balance`, `transfer`,
`set_freeze`, `thaw`) is modelled after its published interface: an account has a free and a reserved
balance, the largest of its freezes and locks limits what can leave it, and an account left with less than
the existential deposit and nothing frozen or reserved is closed, its remainder burned.
-/

namespace Verif.TimeRelease

/-- Errors. `panic` stands for a panic of the runtime: a failed `expect` or an arithmetic overflow. -/
inductive Err where
  | zeroReleasePeriod | zeroReleasePeriodCount | insufficientBalanceToFreeze | amountLow
  | maxReleaseSchedulesExceeded | overflow | currency | badOrigin | panic
  deriving DecidableEq, Repr

/-- `MinReleaseTransfer`, `MaxReleaseSchedules` of the pallet, `ExistentialDeposit` of the balances. -/
structure Config where
  minTransfer : Balance
  maxSchedules : Nat
  ed : Balance
  deriving Repr

/-- `ReleaseSchedule`, types.rs 16-26. -/
structure Sched where
  start : BlockNumber
  period : BlockNumber
  count : Nat
  perPeriod : Balance
  deriving DecidableEq, Repr

/-- The fields fit their integer types; true of every decoded schedule. -/
def Sched.Decodable (c : Sched) : Prop :=
  c.start < 2 ^ 32 ∧ c.period < 2 ^ 32 ∧ c.count < 2 ^ 32 ∧ c.perPeriod < 2 ^ 128

/-- `checked_mul`, `checked_add` of an integer type with `m` values. -/
def checked (m x : Nat) : Option Nat := if x < m then some x else none

/-- `end`, types.rs 31-34. -/
def Sched.end (c : Sched) : Option BlockNumber :=
  (checked (2 ^ 32) (c.period * c.count)).bind (fun x => checked (2 ^ 32) (x + c.start))

/-- `total_amount`, types.rs 37-39. -/
def Sched.total (c : Sched) : Option Balance := checked (2 ^ 128) (c.perPeriod * c.count)

/-- `frozen_amount`, types.rs 46-58. `none` is a failed `expect`. -/
def Sched.frozen (c : Sched) (time : BlockNumber) : Option Balance :=
  if c.period = 0 then none else checked (2 ^ 128) (c.perPeriod * (c.count - (time - c.start) / c.period))

/-- `ensure_valid_release_schedule`, lib.rs 460-472. -/
def ensureValid (cfg : Config) (c : Sched) : Except Err Balance := do
  ensure (c.period ≠ 0) .zeroReleasePeriod
  ensure (c.count ≠ 0) .zeroReleasePeriodCount
  ensure (c.end.isSome = true) .overflow
  let total ← okOr c.total .overflow
  ensure (cfg.minTransfer ≤ total) .amountLow
  pure total

/-! ## Balances -/

/-- An account of the balances pallet; `other` is the largest of the locks and freezes of other origin,
`freeze` the freeze `TimeReleaseVesting`. -/
structure Account where
  free : Balance
  reserved : Balance
  other : Balance
  freeze : Balance
  deriving DecidableEq, Repr

/-- An account that does not exist. -/
def Account.empty : Account := ⟨0, 0, 0, 0⟩

/-- `frozen`: what must stay on the account, free or reserved. -/
def Account.frozen (a : Account) : Balance := max a.other a.freeze

/-- All tokens of an account. -/
def Account.total (a : Account) : Balance := a.free + a.reserved

/-- State. `burned` counts the remainders of closed accounts. -/
structure State where
  block : BlockNumber
  accounts : SMap AccountId Account
  schedules : SMap AccountId (List Sched)
  burned : Balance

/-- What the model does not determine about a call: whether the freeze can be set (number of freezes,
reference counters), whether an account with nothing frozen or reserved may be closed. -/
structure Env where
  freezeOk : Bool
  canDie : Bool
  deriving Repr

/-- An account. -/
def acct (s : State) (who : AccountId) : Account := (s.accounts.get who).getD .empty

/-- Replace an account. -/
def setAcct (s : State) (who : AccountId) (a : Account) : State := { s with accounts := s.accounts.insert who a }

/-- `balance` of the fungible interface: the free balance. -/
def balance (s : State) (who : AccountId) : Balance := (acct s who).free

/-- `set_freeze`; an amount of zero is a `thaw`. -/
def setFreeze (env : Env) (s : State) (who : AccountId) (amount : Balance) : Except Err State := do
  ensure (amount = 0 ∨ env.freezeOk = true) .currency
  pure (setAcct s who { acct s who with freeze := amount })

/-- Whether an account can be closed: nothing frozen or reserved, and no other reference to it. -/
def closable (env : Env) (a : Account) : Prop := a.frozen = 0 ∧ a.reserved = 0 ∧ env.canDie = true

instance (env a) : Decidable (closable env a) := by unfold closable; infer_instance

/-- `can_withdraw` with `into_result(keep_nonzero = false)`: the amount must be free, must not be frozen, and
what remains must be at least the existential deposit unless the account can be closed. -/
def canWithdraw (cfg : Config) (env : Env) (a : Account) (amount : Balance) : Prop :=
  amount = 0 ∨ (amount ≤ a.free ∧ amount ≤ a.free - (a.frozen - a.reserved) ∧
    (a.free - amount < cfg.ed → closable env a) ∧ a.frozen ≤ a.free - amount + a.reserved)

instance (cfg env a n) : Decidable (canWithdraw cfg env a n) := by unfold canWithdraw; infer_instance

/-- `can_deposit`. -/
def canDeposit (cfg : Config) (a : Account) (amount : Balance) : Prop :=
  amount = 0 ∨ (cfg.ed ≤ a.free + amount ∧ a.free + amount + a.reserved < 2 ^ 128)

instance (cfg a n) : Decidable (canDeposit cfg a n) := by unfold canDeposit; infer_instance

/-- `decrease_balance`: an account left with less than the existential deposit and nothing reserved is closed
and the remainder burned. -/
def decrease (cfg : Config) (s : State) (who : AccountId) (amount : Balance) : State :=
  let a := acct s who
  if a.free - amount < cfg.ed ∧ a.reserved = 0 then
    { setAcct s who { a with free := 0 } with burned := s.burned + (a.free - amount) }
  else setAcct s who { a with free := a.free - amount }

/-- `increase_balance`. -/
def increase (s : State) (who : AccountId) (amount : Balance) : State :=
  setAcct s who { acct s who with free := (acct s who).free + amount }

/-- `transfer` with `Preservation::Expendable`. -/
def currencyTransfer (cfg : Config) (env : Env) (s : State) (src dest : AccountId) (amount : Balance) : Except Err State := do
  ensure (canWithdraw cfg env (acct s src) amount) .currency
  ensure (canDeposit cfg (acct s dest) amount) .currency
  if src = dest then pure s else pure (increase (decrease cfg s src amount) dest amount)

/-! ## Pallet -/

/-- `release_schedules`, the storage map with an empty list as default, lib.rs 166-175. -/
def schedulesOf (s : State) (who : AccountId) : List Sched := (s.schedules.get who).getD []

/-- The amounts frozen at `now` of a list of schedules; `none` if one of them panics. -/
def amounts (now : BlockNumber) : List Sched → Option (List Balance)
  | [] => some []
  | c :: cs => (c.frozen now).bind (fun x => (amounts now cs).map (x :: ·))

/-- The fold of lib.rs 376-378 with `+` on `u128`; `none` is an overflow. -/
def addAll : List Balance → Balance → Option Balance
  | [], acc => some acc
  | x :: xs, acc => (checked (2 ^ 128) (acc + x)).bind (addAll xs)

/-- Store a list of schedules, removing the entry if it is empty, lib.rs 361-365. -/
def storeSchedules (s : State) (who : AccountId) (l : List Sched) : State :=
  if l = [] then { s with schedules := s.schedules.erase who } else { s with schedules := s.schedules.insert who l }

/-- `prune_schedules_for`, lib.rs 354-368. -/
def prune (s : State) (who : AccountId) : Except Err (State × List Sched) := do
  let _ ← okOr (amounts s.block (schedulesOf s who)) .panic
  let l := (schedulesOf s who).filter (fun c => c.frozen s.block ≠ some 0)
  pure (storeSchedules s who l, l)

/-- `prune_and_get_frozen_balance`, lib.rs 371-381. -/
def pruneAndGet (s : State) (who : AccountId) : Except Err (State × Balance) := do
  let p ← prune s who
  let xs ← okOr (amounts s.block p.2) .panic
  let total ← okOr (addAll xs 0) .panic
  pure (p.1, total)

/-- `do_claim`, lib.rs 342-351 (`update_freeze` and `delete_freeze` 435-443). Returns the frozen amount. -/
def doClaim (env : Env) (s : State) (who : AccountId) : Except Err (State × Balance) := do
  let p ← pruneAndGet s who
  let s' ← setFreeze env p.1 who p.2
  pure (s', p.2)

/-- `do_transfer`, lib.rs 383-402. -/
def doTransfer (cfg : Config) (env : Env) (s : State) (src dest : AccountId) (c : Sched) : Except Err State := do
  let amount ← ensureValid cfg c
  let p ← pruneAndGet s dest
  let total ← okOr (checked (2 ^ 128) (p.2 + amount)) .overflow
  let s ← currencyTransfer cfg env p.1 src dest amount
  let s ← setFreeze env s dest total
  ensure ((schedulesOf s dest).length < cfg.maxSchedules) .maxReleaseSchedulesExceeded
  pure { s with schedules := s.schedules.insert dest (schedulesOf s dest ++ [c]) }

/-- The fold of lib.rs 417-424 (and of the genesis, 201-211): checks all schedules and sums their totals. -/
def sumTotals (cfg : Config) : List Sched → Balance → Except Err Balance
  | [], acc => pure acc
  | c :: cs, acc => do
    let amount ← ensureValid cfg c
    let acc ← okOr (checked (2 ^ 128) (acc + amount)) .overflow
    sumTotals cfg cs acc

/-- `do_update_release_schedules`, lib.rs 404-433. -/
def doUpdate (cfg : Config) (env : Env) (s : State) (who : AccountId) (l : List Sched) : Except Err State := do
  ensure (l.length ≤ cfg.maxSchedules) .maxReleaseSchedulesExceeded
  if l = [] then setFreeze env { s with schedules := s.schedules.erase who } who 0
  else
    let total ← sumTotals cfg l 0
    ensure (total ≤ balance s who) .insufficientBalanceToFreeze
    let s ← setFreeze env s who total
    pure { s with schedules := s.schedules.insert who l }

/-- The calls. -/
inductive Call where
  | claim
  | transfer (dest : AccountId) (c : Sched)
  | update (who : AccountId) (l : List Sched)
  | claimFor (dest : AccountId)
  deriving Repr

/-- The check of `transfer` for a transfer to oneself, lib.rs 275-281. -/
def selfCheck (s : State) (src dest : AccountId) (c : Sched) : Except Err Unit :=
  if dest = src then do
    let total ← okOr c.total .overflow
    ensure (total ≤ balance s src) .insufficientBalanceToFreeze
  else pure ()

/-- `claim` 246-252, `transfer` 267-291, `update_release_schedules` 306-318, `claim_for` 327-336. `origin` is
the signer, `none` is root. The result carries the amount of the `Claimed` event. -/
def dispatch (cfg : Config) (env : Env) (s : State) (origin : Option AccountId) (c : Call) :
    Except Err (State × Option (AccountId × Balance)) :=
  match c with
  | .claim => do
    let who ← okOr origin .badOrigin
    let p ← doClaim env s who
    pure (p.1, some (who, p.2))
  | .transfer dest c => do
    let src ← okOr origin .badOrigin
    selfCheck s src dest c
    let s ← doTransfer cfg env s src dest c
    pure (s, none)
  | .update who l => do
    ensure (origin = none) .badOrigin
    let s ← doUpdate cfg env s who l
    pure (s, none)
  | .claimFor dest => do
    let _ ← okOr origin .badOrigin
    let p ← doClaim env s dest
    pure (p.1, some (dest, p.2))

/-- One item of the genesis, lib.rs 188-227. `none`: the chain does not start. -/
def genesisItem (cfg : Config) (env : Env) (s : State) (who : AccountId) (c : Sched) : Option State :=
  (doUpdate cfg env s who (schedulesOf s who ++ [c])).toOption

/-- What happens: time passes, a call is executed, or another part of the runtime changes an account without
touching the freeze, leaving on it what the freeze demands and, if anything is left, the existential
deposit. -/
inductive Step where
  | tick (n : Nat)
  | call (env : Env) (origin : Option AccountId) (c : Call)
  | elsewhere (who : AccountId) (free reserved other : Balance)
  deriving Repr

/-- A step; a failed call changes nothing. -/
def apply (cfg : Config) (s : State) : Step → State
  | .tick n => { s with block := s.block + n }
  | .call env origin c => match dispatch cfg env s origin c with
    | .ok p => p.1
    | .error _ => s
  | .elsewhere who free reserved other =>
    if (acct s who).freeze ≤ free + reserved ∧ (free = 0 ∨ cfg.ed ≤ free ∨ 0 < reserved) then setAcct s who ⟨free, reserved, other, (acct s who).freeze⟩ else s

/-- A history. -/
def run (cfg : Config) (s : State) (h : List Step) : State := h.foldl (apply cfg) s

/-- The genesis: balances, then the items. -/
def genesis (cfg : Config) (env : Env) (s : State) : List (AccountId × Sched) → Option State
  | [] => some s
  | x :: xs => (genesisItem cfg env s x.1 x.2).bind (fun s => genesis cfg env s xs)

end Verif.TimeRelease
