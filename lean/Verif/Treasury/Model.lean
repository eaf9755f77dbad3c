import Verif.Governance.Model
/-!
# The treasury

`pallet_treasury` of the Polkadot SDK with the configuration of runtime/frequency/src/lib.rs 780-855. The pallet is not part of
the repository; its published source is followed.

Simplified: tokens are numbers without upper bound; of all that is reserved from an account only the bonds of proposals are
modelled; whether an account can spare a bond is decided by the environment as long as it has the tokens. Freezes, dust and
the other treasury calls, whose origin nobody has (`SpendOrigin`, lib.rs 814), are left out.
-/

namespace Verif.Treasury

open Verif.Governance (Origin councilAtLeast councilMoreThan)

/-- `Proposal`. -/
structure Proposal where
  proposer : AccountId
  value : Balance
  beneficiary : AccountId
  bond : Balance
  deriving DecidableEq, Repr

/-- Events of the pallet; amounts in units of the token. -/
inductive Event where
  | proposed (i : Nat)
  | rejected (i : Nat) (slashed : Balance)
  | awarded (i : Nat) (award : Balance) (account : AccountId)
  deriving DecidableEq, Repr

/-- Storage. An account exists if it has an entry in `free` or something reserved. -/
structure State where
  count : Nat
  proposals : SMap Nat Proposal
  approvals : List Nat
  free : SMap AccountId Balance
  bonded : SMap AccountId Balance
  log : List Event

/-- The keyless account, from `TreasuryPalletId`, and the period (`SpendPeriod`, runtime/common/src/constants.rs 192-193). -/
structure Config where
  treasury : AccountId
  period : Nat

/-- The period of the main network: seven days of 7,200 blocks. -/
def mainPeriod : Nat := 50400

/-- `EXISTENTIAL_DEPOSIT`, constants.rs 43: a cent; a token has 10^8 units. -/
def deposit : Balance := 1000000

/-- Free balance. -/
def freeOf (s : State) (a : AccountId) : Balance := (s.free.get a).getD 0

/-- Reserved for bonds. -/
def bondedOf (s : State) (a : AccountId) : Balance := (s.bonded.get a).getD 0

/-- `calculate_bond` with `ProposalBond`, `ProposalBondMinimum` and `ProposalBondMaximum`, constants.rs 212-230: five percent,
rounded to nearest, halves down, at least 100 and at most 1,000 tokens. -/
def bondFor (value : Balance) : Balance :=
  min 100000000000 (max 10000000000 ((value * 50000 + 499999) / 1000000))

/-- `MaxApprovals`, constants.rs 222. -/
def maxApprovals : Nat := 64

/-- `ApproveOrigin`, lib.rs 797-800. -/
def approveOrigin : Origin → Bool := councilAtLeast 3 5

/-- `RejectOrigin`, lib.rs 805-808. -/
def rejectOrigin : Origin → Bool := councilMoreThan 1 2

/-- `propose_spend`. `spare`: the account can spare the bond. -/
def propose (s : State) (who : AccountId) (value : Balance) (beneficiary : AccountId) (spare : Bool) : Option State :=
  let bond := bondFor value
  if spare = true ∧ bond ≤ freeOf s who then
    some { s with
      count := s.count + 1
      proposals := s.proposals.insert s.count ⟨who, value, beneficiary, bond⟩
      free := s.free.insert who (freeOf s who - bond)
      bonded := s.bonded.insert who (bondedOf s who + bond)
      log := s.log ++ [.proposed s.count] }
  else none

/-- `reject_proposal`: the bond is burnt (`OnSlash`, lib.rs 819). -/
def reject (s : State) (o : Origin) (i : Nat) : Option State :=
  if rejectOrigin o = true then
    match s.proposals.get i with
    | some p => some { s with
        proposals := s.proposals.erase i
        bonded := s.bonded.insert p.proposer (bondedOf s p.proposer - p.bond)
        log := s.log ++ [.rejected i p.bond] }
    | none => none
  else none

/-- `approve_proposal`. -/
def approve (s : State) (o : Origin) (i : Nat) : Option State :=
  if approveOrigin o = true ∧ s.proposals.contains i = true ∧ s.approvals.length < maxApprovals then
    some { s with approvals := s.approvals ++ [i] }
  else none

/-- `remove_approval`: the first entry. -/
def removeApproval (s : State) (o : Origin) (i : Nat) : Option State :=
  if rejectOrigin o = true ∧ i ∈ s.approvals then some { s with approvals := s.approvals.erase i } else none

/-- `unreserve` of a bond. -/
def unreserve (s : State) (who : AccountId) (bond : Balance) : State :=
  let back := min (bondedOf s who) bond
  { s with free := s.free.insert who (freeOf s who + back), bonded := s.bonded.insert who (bondedOf s who - back) }

/-- `deposit_creating`: an account that does not exist needs the existential deposit. The amount deposited. -/
def depositCreating (s : State) (who : AccountId) (value : Balance) : State × Balance :=
  if value = 0 then (s, 0)
  else if s.free.contains who = false ∧ bondedOf s who = 0 ∧ value < deposit then (s, 0)
  else ({ s with free := s.free.insert who (freeOf s who + value) }, value)

/-- In the loop of `spend_funds`: the state, what is left of the budget, what was deposited, and the approvals that stay. -/
structure Spending where
  state : State
  budget : Balance
  issued : Balance
  kept : List Nat

/-- The closure of `Approvals::mutate(|v| v.retain(..))` in `spend_funds`. -/
def spendOne (a : Spending) (i : Nat) : Spending :=
  match a.state.proposals.get i with
  | none => a
  | some p =>
    if p.value ≤ a.budget then
      let s := unreserve { a.state with proposals := a.state.proposals.erase i } p.proposer p.bond
      let (s, amount) := depositCreating s p.beneficiary p.value
      ⟨{ s with log := s.log ++ [.awarded i p.value p.beneficiary] }, a.budget - p.value, a.issued + amount, a.kept⟩
    else { a with kept := a.kept ++ [i] }

/-- The budget, `pot`: what the treasury has but for the existential deposit. -/
def pot (cfg : Config) (s : State) : Balance := freeOf s cfg.treasury - deposit

/-- `spend_funds`. Nothing is burnt (`Burn`, lib.rs 832). At the end the treasury pays what was deposited. -/
def spendFunds (cfg : Config) (s : State) : State :=
  let a := s.approvals.foldl spendOne ⟨s, pot cfg s, 0, []⟩
  { a.state with
    approvals := a.kept
    free := a.state.free.insert cfg.treasury (freeOf a.state cfg.treasury - a.issued) }

/-- What happens. `other`: anything else on the chain, which leaves accounts with these tokens; it takes nothing from the
keyless account and does not touch the bonds. -/
inductive Op where
  | propose (who : AccountId) (value : Balance) (beneficiary : AccountId) (spare : Bool)
  | reject (o : Origin) (i : Nat)
  | approve (o : Origin) (i : Nat)
  | removeApproval (o : Origin) (i : Nat)
  | block (n : Nat)
  | other (free : SMap AccountId Balance)

/-- Whether `other` leaves this to the accounts. -/
def allowed (cfg : Config) (s : State) (free : SMap AccountId Balance) : Bool :=
  decide (freeOf s cfg.treasury ≤ (free.get cfg.treasury).getD 0)

/-- A step; a call that fails has no effect. `on_initialize` spends in the first block of each period. -/
def step (cfg : Config) (s : State) : Op → State
  | .propose who value ben spare => (propose s who value ben spare).getD s
  | .reject o i => (reject s o i).getD s
  | .approve o i => (approve s o i).getD s
  | .removeApproval o i => (removeApproval s o i).getD s
  | .block n => if n % cfg.period = 0 then spendFunds cfg s else s
  | .other free => if allowed cfg s free = true then { s with free := free } else s

/-- Genesis, with any tokens. -/
def genesis (free : SMap AccountId Balance) : State := ⟨0, ∅, [], free, ∅, []⟩

/-- A history. -/
def run (cfg : Config) (s : State) (h : List Op) : State := h.foldl (step cfg) s

end Verif.Treasury
