import Verif.Chain.Model
import Verif.TimeRelease.Model
/-!
# The chain with its tokens

`runtime/frequency/src/lib.rs`: the six pallets of `Chain/Model.lean`, the time-release pallet and the balances on one
chain. The capacity pallet sees the balances themselves, and both pallets freeze tokens of the same accounts, under
their own reasons, lib.rs 506, 568, 605-614.

The balances pallet is not in the repository; its transfers, fees, deposits and locks are modelled from its published
interface like what the time-release pallet uses of it: freezes and locks overlap, and the largest of them limits what
can leave an account. Left out are what other pallets of the framework may do to accounts at the word of governance:
setting balances and slashing deposits. Fees are burned, lib.rs 860.
-/

namespace Verif.Tokens
open TimeRelease (Account acct setAcct)

/-- Configurations of the pallets; the existential deposit is in `release`. -/
structure Config where
  chain : Chain.Config
  release : TimeRelease.Config

/-- State: the six pallets, the balances with the time-release pallet, the locks of other pallets, and what was burned
as fees and as remainders of accounts closed by transfers. -/
structure State where
  chain : Chain.State
  ledger : TimeRelease.State
  locks : SMap AccountId Balance
  burned : Balance

/-- The lock of other pallets on an account. -/
def lockOf (s : State) (who : AccountId) : Balance := (s.locks.get who).getD 0

/-- What has to stay on an account for staking or other locks; `other` of the time-release model. -/
def held (s : State) (who : AccountId) : Balance := max (lockOf s who) ((s.chain.capacity.frozen.get who).getD 0)

/-- `update_freezes` and `update_locks` of the balances: the account keeps the largest of its freezes and locks. -/
def sync (s : State) (who : AccountId) : State :=
  { s with ledger := setAcct s.ledger who { acct s.ledger who with other := held s who } }

/-- After a call: a call of the capacity pallet may have changed the freeze of the signer, pallets/capacity/src/lib.rs
481-493, 568-594. -/
def syncSigner (s : State) : Option AccountId → State
  | some who => sync s who
  | none => s

/-- `Currency::balance` as the capacity pallet sees it: the free balance, pallets/capacity/src/lib.rs 558-566. -/
def bal (s : State) (who : AccountId) : Balance := TimeRelease.balance s.ledger who

/-- A source account after a transfer, and what is burned: an account left with less than the existential deposit and
nothing reserved is closed. -/
def debited (cfg : Config) (a : Account) (amount : Balance) : Account × Balance :=
  if a.free - amount < cfg.release.ed ∧ a.reserved = 0 then ({ a with free := 0 }, a.free - amount)
  else ({ a with free := a.free - amount }, 0)

/-- `transfer_allow_death`, and with `keep` `transfer_keep_alive`, of the balances. -/
def transfer (cfg : Config) (env : TimeRelease.Env) (keep : Bool) (s : State) (src dest : AccountId) (amount : Balance) :
    Option State :=
  if TimeRelease.canWithdraw cfg.release env (acct s.ledger src) amount ∧
      (keep = true → amount = 0 ∨ cfg.release.ed ≤ (acct s.ledger src).free - amount) ∧
      TimeRelease.canDeposit cfg.release (acct s.ledger dest) amount then
    if src = dest then some s
    else
      let d := debited cfg (acct s.ledger src) amount
      let l := setAcct s.ledger src d.1
      some { s with
        ledger := setAcct l dest { acct l dest with free := (acct l dest).free + amount }
        burned := s.burned + d.2 }
  else none

/-- `reducible_balance`: what `transfer_all` transfers. -/
def reducible (cfg : Config) (env : TimeRelease.Env) (keep : Bool) (a : Account) : Balance :=
  a.free - max (a.frozen - a.reserved)
    (if keep = true ∨ ¬ TimeRelease.closable env a then cfg.release.ed else 0)

/-- `withdraw` of a fee; the payer stays alive. -/
def fee (cfg : Config) (s : State) (who : AccountId) (amount : Balance) : Option State :=
  let a := acct s.ledger who
  if amount = 0 ∨ (amount ≤ a.free ∧ a.frozen ≤ a.free - amount ∧ cfg.release.ed ≤ a.free - amount) then
    some { s with ledger := setAcct s.ledger who { a with free := a.free - amount }, burned := s.burned + amount }
  else none

/-- `deposit_into_existing` of what is paid back of a fee: of what was burned, and to an account that exists. -/
def refund (s : State) (who : AccountId) (amount : Balance) : Option State :=
  let a := acct s.ledger who
  if 0 < a.free + a.reserved ∧ amount ≤ s.burned then
    some { s with ledger := setAcct s.ledger who { a with free := a.free + amount }, burned := s.burned - amount }
  else none

/-- `reserve` or `hold` of a deposit; a hold may take frozen tokens. -/
def reserve (cfg : Config) (s : State) (who : AccountId) (amount : Balance) : Option State :=
  let a := acct s.ledger who
  if amount ≤ a.free ∧ cfg.release.ed ≤ a.free - amount then
    some { s with ledger := setAcct s.ledger who { a with free := a.free - amount, reserved := a.reserved + amount } }
  else none

/-- `unreserve` or `release` of a deposit; of an account that was not closed, see `reserve`. -/
def unreserve (cfg : Config) (s : State) (who : AccountId) (amount : Balance) : Option State :=
  let a := acct s.ledger who
  if amount ≤ a.reserved ∧ cfg.release.ed ≤ a.free + amount then
    some { s with ledger := setAcct s.ledger who { a with free := a.free + amount, reserved := a.reserved - amount } }
  else none

/-- What happens to the chain. -/
inductive Step where
  /-- the next block begins -/
  | newBlock
  /-- the relay chain, whose blocks the time-release pallet counts, goes on, lib.rs 573-576 -/
  | tick (n : Nat)
  /-- a call of one of the six pallets is dispatched, however it was wrapped -/
  | call (o : Chain.Origin) (c : Chain.Call)
  /-- a signed transaction with such a call -/
  | submit (who : AccountId) (c : Chain.Call)
  /-- a transaction signed with `key` is paid with capacity -/
  | charge (key : AccountId) (fee : Balance)
  /-- a runtime upgrade runs the migration of the schemas pallet -/
  | upgrade (known : List (SchemaId × Bytes))
  /-- a call of the time-release pallet; `none` is root -/
  | release (env : TimeRelease.Env) (origin : Option AccountId) (c : TimeRelease.Call)
  /-- transfers of the balances pallet -/
  | transfer (env : TimeRelease.Env) (keep : Bool) (src dest : AccountId) (amount : Balance)
  | transferAll (env : TimeRelease.Env) (keep : Bool) (src dest : AccountId)
  /-- a fee in tokens, and what is paid back of it -/
  | fee (who : AccountId) (amount : Balance)
  | refund (who : AccountId) (amount : Balance)
  /-- deposits of other pallets, and their locks -/
  | reserve (who : AccountId) (amount : Balance)
  | unreserve (who : AccountId) (amount : Balance)
  | lock (who : AccountId) (amount : Balance)

/-- A step. What fails changes nothing. -/
def apply (cfg : Config) (s : State) : Step → State
  | .newBlock => { s with chain := Chain.apply cfg.chain s.chain .newBlock }
  | .tick n => { s with ledger := TimeRelease.apply cfg.release s.ledger (.tick n) }
  | .call o c => syncSigner { s with chain := Chain.apply cfg.chain s.chain (.call (bal s) o c) } o.signer
  | .submit who c => sync { s with chain := Chain.apply cfg.chain s.chain (.submit (bal s) who c) } who
  | .charge key n => { s with chain := Chain.apply cfg.chain s.chain (.charge key n) }
  | .upgrade known => { s with chain := Chain.apply cfg.chain s.chain (.upgrade known) }
  | .release env origin c => { s with ledger := TimeRelease.apply cfg.release s.ledger (.call env origin c) }
  | .transfer env keep src dest amount => (transfer cfg env keep s src dest amount).getD s
  | .transferAll env keep src dest =>
    (transfer cfg env keep s src dest (reducible cfg env keep (acct s.ledger src))).getD s
  | .fee who amount => (fee cfg s who amount).getD s
  | .refund who amount => (refund s who amount).getD s
  | .reserve who amount => (reserve cfg s who amount).getD s
  | .unreserve who amount => (unreserve cfg s who amount).getD s
  | .lock who amount => sync { s with locks := s.locks.insert who amount } who

/-- A history. -/
def run (cfg : Config) (s : State) (h : List Step) : State := h.foldl (apply cfg) s

/-- The chain after its genesis; `ledger` are the balances with the vesting schedules of the genesis. -/
def genesis (maxBytes : Nat) (ledger : TimeRelease.State) : State := ⟨.init maxBytes, ledger, ∅, 0⟩

end Verif.Tokens
