import Verif.Wrapped.Model
/-!
# Deposits for proxies, announcements and multisig operations

`pallet_proxy` and `pallet_multisig` of the Polkadot SDK with the configuration of runtime/frequency/src/lib.rs 542-558 and
1055-1070; the pallets are not part of the repository, their published source (v1.6.0) is followed. `Wrapped` models what
these pallets let accounts do for each other; here is what it costs.

Simplified: tokens are numbers without upper bound. Calls that are executed by `proxy`, `proxy_announced` and `as_multi` are
events of their own, by the account in whose name they are executed. Everything else that happens to an account is an event
with an arbitrary result (`moved`), and what other pallets reserve is recorded in `elsewhere`. Accounts with less than the
existential deposit are not removed.
-/

namespace Verif.Deposits
open Verif.Runtime (ProxyType)
open Verif.Wrapped (Def Ann insertDef members put maxProxies)

/-- `currency::deposit`, runtime/common/src/constants.rs 53-55, in the smallest unit; a token has 10^8. -/
def price (items bytes : Nat) : Balance := items * 20 * 10 ^ 8 + bytes * 100 * 1000

/-- `ProxyDepositBase`, constants.rs 276. -/
def proxyBase : Balance := price 1 8
/-- `ProxyDepositFactor`, constants.rs 278. -/
def proxyFactor : Balance := price 0 33
/-- `AnnouncementDepositBase`, constants.rs 280. -/
def annBase : Balance := price 1 8
/-- `AnnouncementDepositFactor`, constants.rs 281. -/
def annFactor : Balance := price 0 66
/-- `DepositBase`, runtime/frequency/src/lib.rs 543. -/
def multiBase : Balance := price 1 88
/-- `DepositFactor`, runtime/frequency/src/lib.rs 545. -/
def multiFactor : Balance := price 0 32
/-- `EXISTENTIAL_DEPOSIT`, constants.rs 43. -/
def existential : Balance := 10 ^ 6

/-- The tokens of an account, `AccountData` of the balances pallet. -/
structure Purse where
  free : Balance
  reserved : Balance
  frozen : Balance
  deriving DecidableEq, Repr

/-- `Multisig`: `when` is block and number of the transaction. -/
structure Opened where
  when : Nat × Nat
  deposit : Balance
  depositor : AccountId
  approvals : List AccountId
  deriving DecidableEq, Repr

/-- Hashes: pure accounts by spawner, type, index, block and extrinsic, and multisig accounts. -/
structure Config where
  pure : AccountId → ProxyType → Nat → Nat → Nat → AccountId
  multi : List AccountId → Nat → AccountId

/-- Storage of the two pallets and the tokens. -/
structure State where
  purse : AccountId → Purse
  proxies : SMap AccountId (List Def × Balance)
  anns : SMap AccountId (List Ann × Balance)
  multis : SMap (AccountId × Nat) Opened
  /-- what other pallets have reserved, by their own records -/
  elsewhere : AccountId → Balance

/-- Errors. -/
inductive Err where
  | insufficientBalance
  | notFound | duplicate | tooMany | noSelfProxy | noPermission | notProxy | unannounced
  | signatories | minimumThreshold | timepoint | notOwner | alreadyApproved
  deriving DecidableEq, Repr

/-- `reserve` of the balances pallet: what stays free covers the freezes and keeps the account alive. -/
def reserve (s : State) (a : AccountId) (v : Balance) : Except Err State :=
  let p := s.purse a
  if v = 0 then .ok s
  else if v ≤ p.free ∧ p.frozen ≤ p.free - v ∧ existential ≤ p.free - v then
    .ok { s with purse := put s.purse a { p with free := p.free - v, reserved := p.reserved + v } }
  else .error .insufficientBalance

/-- `unreserve` of the balances pallet: as much as there is. -/
def unreserve (s : State) (a : AccountId) (v : Balance) : State :=
  let p := s.purse a
  let v := min v p.reserved
  { s with purse := put s.purse a { p with free := p.free + v, reserved := p.reserved - v } }

/-- The change from one deposit to another, as in `add_proxy_delegate`, `remove_proxy_delegate` and `rejig_deposit`. -/
def rejig (s : State) (a : AccountId) (old new : Balance) : Except Err State :=
  if old < new then reserve s a (new - old)
  else if new < old then .ok (unreserve s a (old - new))
  else .ok s

/-- `deposit` of the proxy pallet. -/
def proxyDeposit (n : Nat) : Balance := if n = 0 then 0 else proxyBase + proxyFactor * n

/-- The deposit in `rejig_deposit`. -/
def annDeposit (n : Nat) : Balance := if n = 0 then 0 else annBase + annFactor * n

/-- `deposit` of the multisig pallet. -/
def multiDeposit (threshold : Nat) : Balance := multiBase + multiFactor * threshold

/-- Calls of the two pallets. `multi` is `as_multi` if `execute` is set, which stands for a call with the hash that
keeps to the weight given, and otherwise `approve_as_multi`. -/
inductive Call where
  | addProxy (delegate : AccountId) (ty : ProxyType) (delay : Nat)
  | removeProxy (delegate : AccountId) (ty : ProxyType) (delay : Nat)
  | removeProxies
  | createPure (ty : ProxyType) (delay index : Nat)
  | killPure (spawner : AccountId) (ty : ProxyType) (index height extrinsic : Nat)
  | announce (real : AccountId) (hash : Nat)
  | removeAnnouncement (real : AccountId) (hash : Nat)
  | rejectAnnouncement (delegate : AccountId) (hash : Nat)
  | proxyAnnounced (delegate real : AccountId) (force : Option ProxyType) (hash : Nat)
  | multi (threshold : Nat) (others : List AccountId) (timepoint : Option (Nat × Nat)) (hash : Nat) (execute : Bool)
  | cancelMulti (threshold : Nat) (others : List AccountId) (timepoint : Nat × Nat) (hash : Nat)
  deriving DecidableEq, Repr

/-- Registrations of an account; none if there is no entry. -/
def defsOf (s : State) (a : AccountId) : List Def × Balance := (s.proxies.get a).getD ([], 0)

/-- Announcements of an account; none if there is no entry. -/
def annsOf (s : State) (a : AccountId) : List Ann × Balance := (s.anns.get a).getD ([], 0)

/-- `find_proxy`. -/
def findProxy (s : State) (real delegate : AccountId) (force : Option ProxyType) : Option Def :=
  (defsOf s real).1.find? (fun d => decide (d.delegate = delegate) && force.all (fun t => decide (d.ty = t)))

/-- `add_proxy_delegate`. -/
def addProxy (s : State) (who : AccountId) (d : Def) : Except Err State := do
  ensure (who ≠ d.delegate) .noSelfProxy
  ensure (d ∉ (defsOf s who).1) .duplicate
  ensure ((defsOf s who).1.length < maxProxies) .tooMany
  let defs := insertDef d (defsOf s who).1
  let new := proxyDeposit defs.length
  let s1 ← rejig s who (defsOf s who).2 new
  pure { s1 with proxies := s1.proxies.insert who (defs, new) }

/-- `remove_proxy_delegate`. -/
def removeProxy (s : State) (who : AccountId) (d : Def) : Except Err State := do
  let x ← okOr (s.proxies.get who) .notFound
  ensure (d ∈ x.1) .notFound
  let defs := x.1.erase d
  let new := proxyDeposit defs.length
  let s1 ← rejig s who x.2 new
  pure { s1 with proxies := if defs = [] then s1.proxies.erase who else s1.proxies.insert who (defs, new) }

/-- `edit_announcements`. -/
def editAnns (s : State) (delegate : AccountId) (keep : Ann → Bool) (e : Err) : Except Err State := do
  let x ← okOr (s.anns.get delegate) e
  let left := x.1.filter keep
  ensure (left.length < x.1.length) e
  let s1 ← rejig s delegate x.2 (annDeposit left.length)
  pure { s1 with anns := if left = [] then s1.anns.erase delegate else s1.anns.insert delegate (left, annDeposit left.length) }

/-- `operate` of the multisig pallet, without the execution of the call. -/
def operate (cfg : Config) (block extrinsic : Nat) (s : State) (who : AccountId) (threshold : Nat) (others : List AccountId)
    (timepoint : Option (Nat × Nat)) (hash : Nat) (execute : Bool) : Except Err State := do
  ensure (2 ≤ threshold) .minimumThreshold
  let all ← okOr (members who others) .signatories
  let id := cfg.multi all threshold
  match s.multis.get (id, hash) with
  | some m =>
    ensure (timepoint = some m.when) .timepoint
    let new := decide (who ∉ m.approvals ∧ m.approvals.length < threshold)
    if execute = true ∧ threshold ≤ m.approvals.length + (if new then 1 else 0) then
      pure (unreserve { s with multis := s.multis.erase (id, hash) } m.depositor m.deposit)
    else if new then
      pure { s with multis := s.multis.insert (id, hash) { m with approvals := who :: m.approvals } }
    else .error .alreadyApproved
  | none =>
    ensure (timepoint = none) .timepoint
    let s1 ← reserve s who (multiDeposit threshold)
    pure { s1 with multis := s1.multis.insert (id, hash) ⟨(block, extrinsic), multiDeposit threshold, who, [who]⟩ }

/-- The calls of the two pallets that concern deposits, by an account, in a block as its transaction `extrinsic`. -/
def dispatch (cfg : Config) (block extrinsic : Nat) (s : State) (who : AccountId) : Call → Except Err State
  | .addProxy delegate ty delay => addProxy s who ⟨delegate, ty, delay⟩
  | .removeProxy delegate ty delay => removeProxy s who ⟨delegate, ty, delay⟩
  | .removeProxies => .ok (unreserve { s with proxies := s.proxies.erase who } who (defsOf s who).2)
  | .createPure ty delay index => do
    let account := cfg.pure who ty index block extrinsic
    ensure (s.proxies.get account = none) .duplicate
    let s1 ← reserve s who (proxyBase + proxyFactor)
    pure { s1 with proxies := s1.proxies.insert account ([⟨who, ty, delay⟩], proxyBase + proxyFactor) }
  | .killPure spawner ty index height ext => do
    ensure (cfg.pure spawner ty index height ext = who) .noPermission
    pure (unreserve { s with proxies := s.proxies.erase who } spawner (defsOf s who).2)
  | .announce real hash => do
    let _ ← okOr (findProxy s real who none) .notProxy
    ensure ((annsOf s who).1.length < maxProxies) .tooMany
    let anns := (annsOf s who).1 ++ [⟨real, hash, block⟩]
    let s1 ← rejig s who (annsOf s who).2 (annDeposit anns.length)
    pure { s1 with anns := s1.anns.insert who (anns, annDeposit anns.length) }
  | .removeAnnouncement real hash => editAnns s who (fun a => decide (a.real ≠ real ∨ a.hash ≠ hash)) .notFound
  | .rejectAnnouncement delegate hash => editAnns s delegate (fun a => decide (a.real ≠ who ∨ a.hash ≠ hash)) .notFound
  | .proxyAnnounced delegate real force hash => do
    let d ← okOr (findProxy s real delegate force) .notProxy
    editAnns s delegate (fun a => decide (a.real ≠ real ∨ a.hash ≠ hash ∨ block - a.height < d.delay)) .unannounced
  | .multi threshold others timepoint hash execute =>
    operate cfg block extrinsic s who threshold others timepoint hash execute
  | .cancelMulti threshold others timepoint hash => do
    ensure (2 ≤ threshold) .minimumThreshold
    let all ← okOr (members who others) .signatories
    let id := cfg.multi all threshold
    let m ← okOr (s.multis.get (id, hash)) .notFound
    ensure (m.depositor = who) .notOwner
    ensure (m.when = timepoint) .timepoint
    pure { unreserve s m.depositor m.deposit with multis := s.multis.erase (id, hash) }

/-- What happens. -/
inductive Event where
  | call (block extrinsic : Nat) (who : AccountId) (c : Call)
  /-- another pallet reserves, `Currency::reserve` or a hold -/
  | take (a : AccountId) (v : Balance)
  /-- another pallet gives back of what it has recorded -/
  | giveBack (a : AccountId) (v : Balance)
  /-- another pallet takes away of what it has recorded -/
  | slash (a : AccountId) (v : Balance)
  /-- transfers, fees, freezes: free and frozen balance afterwards -/
  | moved (a : AccountId) (free frozen : Balance)
  deriving DecidableEq, Repr

/-- One event; a call that fails changes nothing. -/
def apply (cfg : Config) (s : State) : Event → State
  | .call block extrinsic who c => match dispatch cfg block extrinsic s who c with
    | .ok s' => s'
    | .error _ => s
  | .take a v => match reserve s a v with
    | .ok s' => { s' with elsewhere := put s.elsewhere a (s.elsewhere a + v) }
    | .error _ => s
  | .giveBack a v =>
    if v ≤ s.elsewhere a then { unreserve s a v with elsewhere := put s.elsewhere a (s.elsewhere a - v) } else s
  | .slash a v =>
    if v ≤ s.elsewhere a then
      { s with purse := put s.purse a { s.purse a with reserved := (s.purse a).reserved - v }
               elsewhere := put s.elsewhere a (s.elsewhere a - v) }
    else s
  | .moved a free frozen => { s with purse := put s.purse a { s.purse a with free := free, frozen := frozen } }

/-- A chain on which nobody has deposited anything. -/
def State.init : State := ⟨fun _ => ⟨0, 0, 0⟩, ∅, ∅, ∅, fun _ => 0⟩

/-- Histories. -/
def run (cfg : Config) (s : State) (h : List Event) : State := h.foldl (apply cfg) s

end Verif.Deposits
