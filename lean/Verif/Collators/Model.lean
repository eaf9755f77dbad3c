import Verif.Deposits.Model
import Mathlib.Data.List.Sort
/-!
# Who makes blocks

`pallet_collator_selection`, `pallet_session`, `pallet_aura` and `pallet_authorship` of the Polkadot SDK with the configuration
of runtime/frequency/src/lib.rs 592-595, 982-1052 and the constants in runtime/common/src/constants.rs 244-270; the pallets
are not part of the repository: their published source is followed as known, it could not be read here.

Simplified: tokens and block numbers are numbers without upper bound. Calls come from an origin: an account, or root or three
fifths of the council (`Governance` and `Council` model how these come about). The reward of block makers is left out: it is
paid from an account that gets no tokens. Everything else that happens to the tokens of an account is an event with an
arbitrary result (`other`), and what other pallets reserve is recorded in `elsewhere`. A block names the slot it is for; the
check of its seal is not modelled. `QueuedChanged` is left out: collator selection always names a set, so it is set whenever
a session is planned, and at genesis the planned session is the current one. `made` and `joined` are not stored by the chain:
they record who was noted as maker of which block, and when an account last became a candidate.
-/

namespace Verif.Collators
open Verif.Wrapped (put)
open Verif.Deposits (Purse existential)

/-- `CandidateInfo`. -/
structure Cand where
  who : AccountId
  deposit : Balance
  deriving DecidableEq, Repr

/-- What differs between the networks: `CollatorMinCandidates` and `CollatorMaxInvulnerables`, constants.rs 260-261. -/
structure Config where
  minEligible : Nat
  maxInvulnerables : Nat
  deriving DecidableEq, Repr

/-- The main network, constants.rs 260-261. -/
def mainnet : Config := ⟨1, 16⟩
/-- The test networks and local networks, constants.rs 260-261. -/
def testnet : Config := ⟨0, 5⟩
/-- `CollatorMaxCandidates`, constants.rs 259. -/
def maxCandidates : Nat := 50
/-- `SessionPeriod`, constants.rs 245 with 27-35: six hours in blocks; the offset is zero (246). -/
def period : Nat := 1800
/-- `CollatorKickThreshold`, constants.rs 262-263: six hours in blocks on every network. -/
def kick : Nat := 1800

/-- Storage of the four pallets and the tokens. -/
structure State where
  now : Nat
  purse : AccountId → Purse
  /-- what other pallets have reserved -/
  elsewhere : AccountId → Balance
  /-- `NextKeys` of the session pallet -/
  keys : AccountId → Option Nat
  /-- `KeyOwner` of the session pallet -/
  owner : Nat → Option AccountId
  invulnerables : List AccountId
  /-- `CandidateList` -/
  cands : List Cand
  bond : Balance
  desired : Nat
  /-- `LastAuthoredBlock`, zero where there is no entry -/
  authored : AccountId → Nat
  /-- `QueuedKeys`: the makers of the next session with their keys -/
  queued : List (AccountId × Nat)
  /-- `Validators`: the makers of this session -/
  validators : List AccountId
  /-- `Authorities` of `pallet_aura`: the keys that may make blocks -/
  authorities : List Nat
  made : List (Nat × AccountId)
  joined : AccountId → Nat

/-- Errors. -/
inductive Err where
  | badOrigin | insufficientBalance
  | tooFewEligible | tooManyInvulnerables | alreadyInvulnerable | notInvulnerable | notRegistered
  | tooManyCandidates | alreadyCandidate | notCandidate | depositTooLow | identicalDeposit | invalidUnreserve
  | insufficientBond | targetIsNotCandidate | duplicatedKey | noKeys
  deriving DecidableEq, Repr

/-- `reserve` of the balances pallet, as in `Deposits`. -/
def reserve (s : State) (a : AccountId) (v : Balance) : Except Err State :=
  let p := s.purse a
  if v = 0 then .ok s
  else if v ≤ p.free ∧ p.frozen ≤ p.free - v ∧ existential ≤ p.free - v then
    .ok { s with purse := put s.purse a { p with free := p.free - v, reserved := p.reserved + v } }
  else .error .insufficientBalance

/-- `unreserve` of the balances pallet, as in `Deposits`. -/
def unreserve (s : State) (a : AccountId) (v : Balance) : State :=
  let p := s.purse a
  let v := min v p.reserved
  { s with purse := put s.purse a { p with free := p.free + v, reserved := p.reserved - v } }

/-- `eligible_collators`. -/
def eligible (s : State) : Nat := s.cands.length + s.invulnerables.length

/-- `ValidatorRegistration::is_registered`: the session pallet, runtime/frequency/src/lib.rs 1050, looks for keys. -/
def registered (s : State) (a : AccountId) : Prop := (s.keys a).isSome = true

instance (s : State) (a : AccountId) : Decidable (registered s a) := inferInstanceAs (Decidable (_ = _))

/-- `try_remove_candidate`; nothing happens where the code returns an error that its callers ignore. -/
def removeCand (s : State) (a : AccountId) (forget : Bool) : State :=
  match s.cands.find? (fun c => decide (c.who = a)) with
  | none => s
  | some c =>
    let s := unreserve s a c.deposit
    { s with
      cands := s.cands.eraseP (fun c => decide (c.who = a))
      authored := if forget then put s.authored a 0 else s.authored }

/-- Insertion before the first candidate with at least this deposit, as in `update_bond`. -/
def place (l : List Cand) (c : Cand) : List Cand := l.insertIdx (l.findIdx (fun x => decide (c.deposit ≤ x.deposit))) c

/-- `set_invulnerables`: accounts without keys are skipped. -/
def setInvulnerables (cfg : Config) (s : State) (new : List AccountId) : Except Err State := do
  ensure (new = [] → cfg.minEligible ≤ s.cands.length) .tooFewEligible
  ensure (new.length ≤ cfg.maxInvulnerables) .tooManyInvulnerables
  pure { s with invulnerables := (new.filter (fun a => decide (registered s a))).insertionSort (· ≤ ·) }

/-- `set_candidacy_bond`: with a higher bond, the candidates before the first that has put up enough are removed. -/
def setBond (s : State) (bond : Balance) : State :=
  let raised := decide (s.bond < bond)
  let s := { s with bond := bond }
  if raised then
    let n := s.cands.findIdx (fun c => decide (bond ≤ c.deposit))
    let s' := (s.cands.take n).foldl (fun s c =>
      let s := unreserve s c.who c.deposit
      { s with authored := put s.authored c.who 0 }) s
    { s' with cands := s.cands.drop n }
  else s

/-- `register_as_candidate`. -/
def register (s : State) (who : AccountId) : Except Err State := do
  ensure (s.cands.length < maxCandidates) .tooManyCandidates
  ensure (who ∉ s.invulnerables) .alreadyInvulnerable
  ensure (registered s who) .notRegistered
  ensure (who ∉ s.cands.map Cand.who) .alreadyCandidate
  let s ← reserve s who s.bond
  pure { s with
    authored := put s.authored who (s.now + kick)
    joined := put s.joined who s.now
    cands := ⟨who, s.bond⟩ :: s.cands }

/-- `leave_intent`. -/
def leave (cfg : Config) (s : State) (who : AccountId) : Except Err State := do
  ensure (cfg.minEligible < eligible s) .tooFewEligible
  ensure (who ∈ s.cands.map Cand.who) .notCandidate
  pure (removeCand s who true)

/-- `add_invulnerable`; the list is sorted, so that the binary search finds what is in it. -/
def addInvulnerable (cfg : Config) (s : State) (who : AccountId) : Except Err State := do
  ensure (registered s who) .notRegistered
  ensure (who ∉ s.invulnerables) .alreadyInvulnerable
  ensure (s.invulnerables.length < cfg.maxInvulnerables) .tooManyInvulnerables
  pure (removeCand { s with invulnerables := s.invulnerables.orderedInsert (· ≤ ·) who } who false)

/-- `remove_invulnerable`. -/
def removeInvulnerable (cfg : Config) (s : State) (who : AccountId) : Except Err State := do
  ensure (cfg.minEligible < eligible s) .tooFewEligible
  ensure (who ∈ s.invulnerables) .notInvulnerable
  pure { s with invulnerables := s.invulnerables.erase who }

/-- `update_bond`. -/
def updateBond (s : State) (who : AccountId) (new : Balance) : Except Err State := do
  ensure (s.bond ≤ new) .depositTooLow
  let c ← okOr (s.cands.find? (fun c => decide (c.who = who))) .notCandidate
  let i := s.cands.findIdx (fun c => decide (c.who = who))
  let rest := s.cands.eraseIdx i
  let s1 ←
    if c.deposit < new then reserve s who (new - c.deposit)
    else if new < c.deposit then do
      ensure (i + s.desired < s.cands.length) .invalidUnreserve
      pure (unreserve s who (c.deposit - new))
    else throw .identicalDeposit
  pure { s1 with cands := place rest ⟨who, new⟩ }

/-- `take_candidate_slot`; the position is that before the first candidate with at least this deposit, or the end, in both
cases reduced by one for the candidate that has been removed. -/
def takeSlot (s : State) (who : AccountId) (deposit : Balance) (target : AccountId) : Except Err State := do
  ensure (who ∉ s.invulnerables) .alreadyInvulnerable
  ensure (s.bond ≤ deposit) .insufficientBond
  ensure (registered s who) .notRegistered
  ensure (who ∉ s.cands.map Cand.who) .alreadyCandidate
  let t ← okOr (s.cands.find? (fun c => decide (c.who = target))) .targetIsNotCandidate
  let rest := s.cands.eraseIdx (s.cands.findIdx (fun c => decide (c.who = target)))
  ensure (t.deposit < deposit) .insufficientBond
  let i := s.cands.findIdx (fun c => decide (deposit ≤ c.deposit)) - 1
  let s1 ← reserve s who deposit
  let s2 := unreserve s1 target t.deposit
  pure { s2 with
    cands := rest.insertIdx i ⟨who, deposit⟩
    authored := put (put s2.authored target 0) who (s2.now + kick)
    joined := put s2.joined who s2.now }

/-- `set_keys` of the session pallet. -/
def setKeys (s : State) (who : AccountId) (k : Nat) : Except Err State := do
  ensure (s.owner k = none ∨ s.owner k = some who) .duplicatedKey
  let owner := match s.keys who with
    | some old => if old = k then s.owner else put s.owner old none
    | none => s.owner
  pure { s with owner := put owner k (some who), keys := put s.keys who (some k) }

/-- `purge_keys` of the session pallet. -/
def purgeKeys (s : State) (who : AccountId) : Except Err State := do
  let k ← okOr (s.keys who) .noKeys
  pure { s with owner := put s.owner k none, keys := put s.keys who none }

/-- Origins: an account, or root or three fifths of the council (`UpdateOrigin`, runtime/frequency/src/lib.rs 1013-1018). -/
inductive Origin where
  | signed (a : AccountId)
  | update
  deriving DecidableEq, Repr

/-- Calls. -/
inductive Call where
  | setInvulnerables (new : List AccountId)
  | setDesired (n : Nat)
  | setBond (b : Balance)
  | addInvulnerable (a : AccountId)
  | removeInvulnerable (a : AccountId)
  | register
  | leave
  | updateBond (new : Balance)
  | takeSlot (deposit : Balance) (target : AccountId)
  | setKeys (k : Nat)
  | purgeKeys
  deriving DecidableEq, Repr

/-- The calls by origin; `set_desired_candidates` accepts any number. -/
def dispatch (cfg : Config) (s : State) : Origin → Call → Except Err State
  | .update, .setInvulnerables new => setInvulnerables cfg s new
  | .update, .setDesired n => .ok { s with desired := n }
  | .update, .setBond b => .ok (setBond s b)
  | .update, .addInvulnerable a => addInvulnerable cfg s a
  | .update, .removeInvulnerable a => removeInvulnerable cfg s a
  | .signed who, .register => register s who
  | .signed who, .leave => leave cfg s who
  | .signed who, .updateBond new => updateBond s who new
  | .signed who, .takeSlot deposit target => takeSlot s who deposit target
  | .signed who, .setKeys k => setKeys s who k
  | .signed who, .purgeKeys => purgeKeys s who
  | _, _ => .error .badOrigin

/-- `kick_stale_candidates` for one candidate. -/
def kickOne (cfg : Config) (s : State) (a : AccountId) : State :=
  if a ∈ s.invulnerables then removeCand s a false
  else if eligible s ≤ cfg.minEligible ∨ s.now - s.authored a < kick then s
  else removeCand s a true

/-- `kick_stale_candidates`. -/
def kickStale (cfg : Config) (s : State) : State := (s.cands.map Cand.who).foldl (kickOne cfg) s

/-- `assemble_collators`. -/
def assemble (s : State) : List AccountId := s.invulnerables ++ (s.cands.reverse.take s.desired).map Cand.who

/-- `rotate_session` of the session pallet, with `new_session` of collator selection and `on_new_session` of `pallet_aura`,
which ignores an empty list. -/
def rotate (cfg : Config) (s : State) : State :=
  let next := kickStale cfg s
  { next with
    validators := s.queued.map Prod.fst
    queued := (assemble next).filterMap (fun a => (s.keys a).map (fun k => (a, k)))
    authorities := if s.queued = [] then s.authorities else s.queued.map Prod.snd }

/-- `note_author` of `pallet_authorship` and collator selection: the slot gives the position among the keys
(`Aura::find_author`), and this the account (`FindAccountFromAuthorIndex`). -/
def noteAuthor (s : State) (slot : Nat) : State :=
  match s.validators[slot % s.authorities.length]? with
  | none => s
  | some a => { s with authored := put s.authored a s.now, made := (s.now, a) :: s.made }

/-- The start of a block: the author is noted, then, at the turn, the session ends (order of the pallets:
runtime/frequency/src/lib.rs 1196-1201). -/
def block (cfg : Config) (s : State) (slot : Nat) : State :=
  let s := noteAuthor { s with now := s.now + 1 } slot
  if s.now % period = 0 then rotate cfg s else s

/-- What happens on the chain. -/
inductive Event where
  | block (slot : Nat)
  | call (o : Origin) (c : Call)
  /-- tokens of an account afterwards, and what other pallets have reserved of them -/
  | other (a : AccountId) (p : Purse) (elsewhere : Balance)
  deriving DecidableEq, Repr

/-- One event. A call that fails changes nothing; other pallets leave alone what is reserved here. -/
def apply (cfg : Config) (s : State) : Event → State
  | .block slot => block cfg s slot
  | .call o c => match dispatch cfg s o c with
    | .ok s' => s'
    | .error _ => s
  | .other a p e =>
    if p.reserved + s.elsewhere a = (s.purse a).reserved + e then
      { s with purse := put s.purse a p, elsewhere := put s.elsewhere a e }
    else s

/-- Histories. -/
def run (cfg : Config) (s : State) (h : List Event) : State := h.foldl (apply cfg) s

/-- Genesis, node/service/src/chain_spec/frequency.rs 417-440: the invulnerables with their keys make the blocks, and there
are no candidates. -/
def genesis (invulnerables : List (AccountId × Nat)) (bond : Balance) (desired : Nat) (purse : AccountId → Balance) : State where
  now := 0
  purse := fun a => ⟨purse a, 0, 0⟩
  elsewhere := fun _ => 0
  keys := fun a => (invulnerables.find? (fun p => decide (p.1 = a))).map Prod.snd
  owner := fun k => (invulnerables.find? (fun p => decide (p.2 = k))).map Prod.fst
  invulnerables := (invulnerables.map Prod.fst).insertionSort (· ≤ ·)
  cands := []
  bond := bond
  desired := desired
  authored := fun _ => 0
  queued := ((invulnerables.map Prod.fst).insertionSort (· ≤ ·)).filterMap (fun a =>
    ((invulnerables.find? (fun p => decide (p.1 = a))).map Prod.snd).map (fun k => (a, k)))
  validators := (invulnerables.map Prod.fst).insertionSort (· ≤ ·)
  authorities := (((invulnerables.map Prod.fst).insertionSort (· ≤ ·)).filterMap (fun a =>
    (invulnerables.find? (fun p => decide (p.1 = a))).map Prod.snd))
  made := []
  joined := fun _ => 0

/-- What the genesis of a network may be: at least one maker, nobody twice, no key twice, not more than allowed, with the
checks made when it is built. -/
def Start (cfg : Config) (l : List (AccountId × Nat)) : Prop :=
  l ≠ [] ∧ (l.map Prod.fst).Nodup ∧ (l.map Prod.snd).Nodup ∧ l.length ≤ cfg.maxInvulnerables

end Verif.Collators
