import Verif.Prelude
/-!
# How calls get root authority on mainnet

Mainnet has no `Sudo` (runtime/frequency/src/lib.rs 1176-1178) and takes no messages of the relay chain or other chains
(lib.rs 954-960), so that calls are dispatched as root by the scheduler only, for referenda that passed. This module
models `pallet_democracy` and `pallet_scheduler` of the SDK (release-polkadot-v1.6.0, not part of the repository, modelled
from their published source) with the configuration of lib.rs 623-640 and 707-778 and the periods of
runtime/common/src/constants.rs 176-182.

Simplifications: proposals are named by the call, not by its hash or preimage (hashes are taken not to collide, preimages
to be present); deposits, the votes behind a tally and their locks are left out, a tally can change in any way while a
referendum is open; tasks of the scheduler are carried out in the block they are scheduled for, and once; `MaxProposals`,
`MaxBlacklisted` and `MaxScheduledPerBlock` are not reached. Origins of the collectives are inputs (Council/Model.lean has
the council).
-/

namespace Verif.Governance

/-- Calls: of democracy and the scheduler, and all others. -/
inductive Call where
  | propose (c : Call)
  | externalPropose (c : Call)
  | externalProposeMajority (c : Call)
  | externalProposeDefault (c : Call)
  | fastTrack (c : Call) (voting delay : Nat)
  | vetoExternal (c : Call)
  | emergencyCancel (index : Nat)
  | cancelReferendum (index : Nat)
  | cancelProposal (position : Nat)
  | blacklist (c : Call) (index : Option Nat)
  | clearPublicProposals
  | schedule (at_ : BlockNumber) (c : Call)
  /-- `cancel_named`, of the task that carries out a referendum -/
  | cancelNamed (index : Nat)
  | other (n : Nat)
  deriving DecidableEq, Repr

/-- Origins: `RawOrigin::Members(yes, seats)` and `RawOrigin::Member` of the council and the technical committee. -/
inductive Origin where
  | root
  | council (yes seats : Nat)
  | technical (yes seats : Nat)
  | technicalMember (who : AccountId)
  | signed (who : AccountId)
  deriving DecidableEq, Repr

/-- `VoteThreshold`. -/
inductive Threshold where
  | superMajorityApprove | superMajorityAgainst | simpleMajority
  deriving DecidableEq, Repr

/-- `Tally`: votes with conviction, and the tokens behind them. -/
structure Tally where
  ayes : Nat
  nays : Nat
  turnout : Nat
  deriving DecidableEq, Repr

/-- What became of a referendum: `ReferendumInfo`, and removal when cancelled. -/
inductive Status where
  | ongoing
  | finished (approved : Bool)
  | cancelled
  deriving DecidableEq, Repr

/-- `ReferendumStatus`; the fields stay readable here after the end. -/
structure Referendum where
  proposal : Call
  threshold : Threshold
  delay : Nat
  ends : BlockNumber
  tally : Tally
  status : Status
  deriving DecidableEq, Repr

/-- What can be seen on chain, with its block: calls that succeeded with their origin, and events of democracy. -/
inductive Event where
  | done (o : Origin) (c : Call)
  | started (index : Nat)
  /-- with `active_issuance` at that time -/
  | passed (index electorate : Nat)
  deriving DecidableEq, Repr

/-- A task of the scheduler; `name` for those of referenda. -/
structure Task where
  at_ : BlockNumber
  origin : Origin
  call : Call
  name : Option Nat
  deriving DecidableEq, Repr

/-- Periods, constants.rs 176-182. -/
structure Config where
  launch : Nat
  voting : Nat
  fastTrackVoting : Nat
  enactment : Nat
  cooloff : Nat

/-- Mainnet; a day has 7,200 blocks, constants.rs 29-36. -/
def mainnet : Config where
  launch := 7 * 7200
  voting := 7 * 7200
  fastTrackVoting := 3 * 300
  enactment := 8 * 7200
  cooloff := 7 * 7200

/-- `System::Number`, `NextExternal`, `PublicProps` in the order of their deposits, `LastTabledWasExternal`, `Blacklist`,
`Cancellations`, `ReferendumInfoOf` by index, `Agenda`, and what was seen. -/
structure State where
  now : BlockNumber
  next : Option (Call × Threshold)
  queue : List Call
  lastExternal : Bool
  vetoed : List (Call × BlockNumber × List AccountId)
  cancelled : List Call
  referenda : List Referendum
  agenda : List Task
  log : List (BlockNumber × Event)

/-- Genesis. -/
def State.init : State := ⟨0, none, [], false, [], [], [], [], []⟩

/-! ## Origins, lib.rs 725-777 -/

/-- `EnsureProportionAtLeast<_, Council, n, d>` or root. -/
def councilAtLeast (n d : Nat) : Origin → Bool
  | .root => true
  | .council yes seats => decide (n * seats ≤ yes * d)
  | _ => false

/-- `EnsureProportionMoreThan<_, Council, n, d>` or root. -/
def councilMoreThan (n d : Nat) : Origin → Bool
  | .root => true
  | .council yes seats => decide (n * seats < yes * d)
  | _ => false

/-- `EnsureProportionAtLeast<_, TechnicalCommittee, n, d>` or root. -/
def technicalAtLeast (n d : Nat) : Origin → Bool
  | .root => true
  | .technical yes seats => decide (n * seats ≤ yes * d)
  | _ => false

/-- Lines 725-728. -/
def externalDefaultOrigin : Origin → Bool := councilAtLeast 1 1
/-- Lines 731-734. -/
def externalMajorityOrigin : Origin → Bool := councilMoreThan 1 2
/-- Lines 736-739. -/
def externalOrigin : Origin → Bool := councilAtLeast 1 2
/-- Lines 746-749. -/
def fastTrackOrigin : Origin → Bool := technicalAtLeast 2 3
/-- Lines 753-756; `InstantAllowed` is true, line 713. -/
def instantOrigin : Origin → Bool := technicalAtLeast 1 1
/-- Lines 761-764. -/
def cancellationOrigin : Origin → Bool := councilAtLeast 2 3
/-- Lines 767-770. -/
def cancelProposalOrigin : Origin → Bool := technicalAtLeast 1 1
/-- Lines 631-634, the scheduler. -/
def scheduleOrigin : Origin → Bool := councilAtLeast 1 2

/-! ## Referenda -/

/-- `integer_sqrt` of the SDK. -/
def isqrt (n : Nat) : Nat := Nat.sqrt n

/-- `compare_rationals`, vote_threshold.rs: whether `n1 / d1 < n2 / d2`, by continued fractions. -/
def compareRationals (n1 d1 n2 d2 : Nat) : Bool :=
  if n1 / d1 < n2 / d2 then true
  else if n2 / d2 < n1 / d1 then false
  else if n2 % d2 = 0 then false
  else if n1 % d1 = 0 then true
  else if d1 = 0 then false
  else if d2 = 0 then false
  else compareRationals d2 (n2 % d2) d1 (n1 % d1)
termination_by d1 + d2
decreasing_by
  have h1 := Nat.mod_lt n1 (Nat.pos_of_ne_zero ‹d1 ≠ 0›)
  have h2 := Nat.mod_lt n2 (Nat.pos_of_ne_zero ‹d2 ≠ 0›)
  omega

/-- `VoteThreshold::approved`. -/
def approved (t : Threshold) (y : Tally) (electorate : Nat) : Bool :=
  if isqrt y.turnout = 0 then false
  else match t with
    | .superMajorityApprove => compareRationals y.nays (isqrt y.turnout) y.ayes (isqrt electorate)
    | .superMajorityAgainst => compareRationals y.nays (isqrt electorate) y.ayes (isqrt y.turnout)
    | .simpleMajority => decide (y.nays < y.ayes)

/-- `inject_referendum`. -/
def inject (s : State) (ends : BlockNumber) (p : Call) (t : Threshold) (delay : Nat) : State :=
  { s with
    referenda := s.referenda ++ [⟨p, t, delay, ends, ⟨0, 0, 0⟩, .ongoing⟩]
    log := s.log ++ [(s.now, .started s.referenda.length)] }

/-- `launch_external`. -/
def launchExternal (cfg : Config) (s : State) : Option State :=
  match s.next with
  | none => none
  | some (p, t) => some (inject { s with next := none, lastExternal := true } (s.now + cfg.voting) p t cfg.enactment)

/-- `launch_public`: the proposal with the greatest deposit. -/
def launchPublic (cfg : Config) (s : State) : Option State :=
  match s.queue with
  | [] => none
  | p :: rest => some (inject { s with queue := rest, lastExternal := false } (s.now + cfg.voting) p .superMajorityApprove
      cfg.enactment)

/-- `launch_next`: the two queues take turns. -/
def launchNext (cfg : Config) (s : State) : State :=
  if s.lastExternal then (launchPublic cfg s).getD ((launchExternal cfg s).getD s)
  else (launchExternal cfg s).getD ((launchPublic cfg s).getD s)

/-- `bake_referendum` and the entry `Finished`, for a referendum that ends now. -/
def bake (electorate : Nat) (s : State) (i : Nat) : State :=
  match s.referenda[i]? with
  | none => s
  | some r =>
    if r.status = .ongoing ∧ r.ends = s.now then
      let ok := approved r.threshold r.tally electorate
      let s := { s with referenda := s.referenda.set i { r with status := .finished ok } }
      if ok then
        { s with
          agenda := s.agenda ++ [⟨s.now + max r.delay 1, .root, r.proposal, some i⟩]
          log := s.log ++ [(s.now, .passed i electorate)] }
      else s
    else s

/-- `begin_block`. -/
def beginBlock (cfg : Config) (electorate : Nat) (s : State) : State :=
  let s := if s.now % cfg.launch = 0 then launchNext cfg s else s
  (List.range s.referenda.length).foldl (bake electorate) s

/-- `internal_cancel_referendum`. -/
def cancel (s : State) (i : Nat) : State :=
  match s.referenda[i]? with
  | none => s
  | some r => { s with referenda := s.referenda.set i { r with status := .cancelled } }

/-! ## Calls -/

/-- `Blacklist`, the entry of a proposal. -/
def veto? (s : State) (c : Call) : Option (BlockNumber × List AccountId) := (s.vetoed.find? (fun v => v.1 = c)).map Prod.snd

/-- Whether a proposal may come now as far as `Blacklist` is concerned. -/
def free (s : State) (c : Call) : Bool :=
  match veto? s c with
  | none => true
  | some v => decide (v.1 ≤ s.now)

/-- Calls, without the record of what was done. -/
def effect (cfg : Config) (s : State) (o : Origin) : Call → Option State
  | .propose c => match o with
    | .signed _ => if free s c then some { s with queue := s.queue ++ [c] } else none
    | _ => none
  | .externalPropose c =>
    if externalOrigin o ∧ s.next = none ∧ free s c then some { s with next := some (c, .superMajorityApprove) } else none
  | .externalProposeMajority c =>
    if externalMajorityOrigin o then some { s with next := some (c, .simpleMajority) } else none
  | .externalProposeDefault c =>
    if externalDefaultOrigin o then some { s with next := some (c, .superMajorityAgainst) } else none
  | .fastTrack c voting delay =>
    if (cfg.fastTrackVoting ≤ voting ∧ fastTrackOrigin o = true) ∨ instantOrigin o = true then
      if voting = 0 then none
      else match s.next with
        | none => none
        | some (p, t) =>
          if t = .superMajorityApprove ∨ p ≠ c then none
          else some (inject { s with next := none } (s.now + voting) p t delay)
    else none
  | .vetoExternal c => match o with
    | .technicalMember who => match s.next with
      | none => none
      | some (p, _) =>
        if p ≠ c then none
        else
          let vetoers := ((veto? s c).map Prod.snd).getD []
          if who ∈ vetoers then none
          else some { s with
            next := none
            vetoed := (c, s.now + cfg.cooloff, who :: vetoers) :: s.vetoed.filter (fun v => v.1 ≠ c) }
    | _ => none
  | .emergencyCancel i =>
    if cancellationOrigin o then
      match s.referenda[i]? with
      | none => none
      | some r =>
        if r.status ≠ .ongoing ∨ r.proposal ∈ s.cancelled then none
        else some (cancel { s with cancelled := r.proposal :: s.cancelled } i)
    else none
  | .cancelReferendum i => if o = .root then some (cancel s i) else none
  | .cancelProposal i =>
    if cancelProposalOrigin o ∧ i < s.queue.length then some { s with queue := s.queue.eraseIdx i } else none
  | .blacklist c i =>
    if o = .root then
      let s := { s with
        vetoed := (c, 2 ^ 32 - 1, []) :: s.vetoed.filter (fun v => v.1 ≠ c)
        queue := s.queue.filter (fun p => p ≠ c)
        next := if s.next.map Prod.fst = some c then none else s.next }
      match i with
      | none => some s
      | some i => match s.referenda[i]? with
        | some r => if r.status = .ongoing ∧ r.proposal = c then some (cancel s i) else some s
        | none => some s
    else none
  | .clearPublicProposals => if o = .root then some { s with queue := [] } else none
  | .schedule b c =>
    if scheduleOrigin o ∧ s.now < b then some { s with agenda := s.agenda ++ [⟨b, o, c, none⟩] } else none
  -- `EqualPrivilegeOnly`, lib.rs 638: only the origin of the task itself
  | .cancelNamed i =>
    if scheduleOrigin o then
      if s.agenda.any (fun t => t.name = some i ∧ t.origin = o) then
        some { s with agenda := s.agenda.filter (fun t => ¬ (t.name = some i)) }
      else none
    else none
  | .other _ => some s

/-- A call. -/
def dispatch (cfg : Config) (s : State) (o : Origin) (c : Call) : Option State :=
  (effect cfg s o c).map (fun s' => { s' with log := s'.log ++ [(s'.now, .done o c)] })

/-- A task of the scheduler; if it fails it is gone. -/
def perform (cfg : Config) (s : State) (t : Task) : State := (dispatch cfg s t.origin t.call).getD s

/-- `on_initialize` of the scheduler: the tasks of this block. -/
def service (cfg : Config) (s : State) : State :=
  (s.agenda.filter (fun t => t.at_ = s.now)).foldl (perform cfg)
    { s with agenda := s.agenda.filter (fun t => t.at_ ≠ s.now) }

/-- What happens: calls by anyone but root, votes, more deposits for public proposals, blocks. -/
inductive Step where
  | call (o : Origin) (c : Call)
  | votes (index : Nat) (tally : Tally)
  /-- `second`, and any other change in the order of the public proposals -/
  | reorder (queue : List Call)
  | block (electorate : Nat)

/-- A step. Root is not an origin of transactions. -/
def apply (cfg : Config) (s : State) : Step → State
  | .call o c => if o = .root then s else (dispatch cfg s o c).getD s
  | .votes i y => match s.referenda[i]? with
    | some r => if r.status = .ongoing then { s with referenda := s.referenda.set i { r with tally := y } } else s
    | none => s
  | .reorder q => if q.isPerm s.queue then { s with queue := q } else s
  | .block electorate => service cfg (beginBlock cfg electorate { s with now := s.now + 1 })

/-- A history. -/
def run (cfg : Config) (s : State) (h : List Step) : State := h.foldl (apply cfg) s

end Verif.Governance
