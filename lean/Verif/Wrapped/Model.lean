import Verif.Wallet.Model
/-!
# Transactions that act for other accounts

Transactions as in `Wallet`, on the chain with its tokens, with the calls that execute other calls in the name of
another account: the proxy pallet (registrations, announcements, pure proxies), the multisig pallet and `as_derivative` of the utility pallet, with the
proxy types of `runtime/frequency/src/lib.rs` 206-270. The pallets are configured in lib.rs 546-558 and 1056-1069; they
are not part of the repository and modelled from their published behaviour.

Simplifications: no deposits are taken; weights and timepoints of multisig operations always agree. Both only add
transactions. As in `Wallet` the fee in tokens is given with the transaction, and there are no tips. Calls of pallets
that are not modelled have no effect here; those that execute other calls do so with another origin than a signed account (root, members of the council), see `Council`.
-/

namespace Verif.Wrapped
open Verif.Runtime (ProxyType BatchKind Fn)

/-- `ProxyDefinition`. -/
structure Def where
  delegate : AccountId
  ty : ProxyType
  delay : Nat
  deriving DecidableEq, Repr

/-- `Announcement`. -/
structure Ann where
  real : AccountId
  hash : Nat
  height : Nat
  deriving DecidableEq, Repr

/-- `Multisig`. -/
structure Multi where
  depositor : AccountId
  approvals : List AccountId
  deriving DecidableEq, Repr

/-- Calls: those of the six pallets, of the time-release pallet, transfers, those of other pallets by name, and those that
register or execute. -/
inductive Call where
  | leaf (c : Chain.Call)
  | release (c : TimeRelease.Call)
  /-- `transfer_allow_death`, and with `keep` `transfer_keep_alive` -/
  | transfer (keep : Bool) (dest : AccountId) (amount : Balance)
  | transferAll (keep : Bool) (dest : AccountId)
  | other (f : Fn) (size : Nat)
  | addProxy (delegate : AccountId) (ty : ProxyType) (delay : Nat)
  | removeProxy (delegate : AccountId) (ty : ProxyType) (delay : Nat)
  | removeProxies
  | createPure (ty : ProxyType) (delay index : Nat)
  | killPure (spawner : AccountId) (ty : ProxyType) (index height extrinsic : Nat)
  | announce (real : AccountId) (hash : Nat)
  | removeAnnouncement (real : AccountId) (hash : Nat)
  | rejectAnnouncement (delegate : AccountId) (hash : Nat)
  | proxy (real : AccountId) (force : Option ProxyType) (c : Call)
  | proxyAnnounced (delegate real : AccountId) (force : Option ProxyType) (c : Call)
  | batch (k : BatchKind) (calls : List Call)
  | asDerivative (index : Nat) (c : Call)
  | payWithCapacity (c : Call)
  | payWithCapacityBatchAll (calls : List Call)
  | multiThreshold1 (others : List AccountId) (c : Call)
  | multi (threshold : Nat) (others : List AccountId) (c : Call)
  | approveMulti (threshold : Nat) (others : List AccountId) (hash : Nat)
  | cancelMulti (threshold : Nat) (others : List AccountId) (hash : Nat)

mutual
/-- The call with what filters and weights look at; they do not look at accounts. -/
def Call.view : Call → Runtime.Call
  | .leaf c => Tx.view c
  | .release .claim => .fn .timeReleaseClaim 0
  | .release (.claimFor _) => .fn .timeReleaseClaimFor 0
  | .release (.transfer ..) => .fn .timeReleaseTransfer 0
  | .release (.update ..) => .fn .timeReleaseUpdate 0
  | .transfer keep _ _ => .fn (if keep then .transferKeepAlive else .transferAllowDeath) 0
  | .transferAll _ _ => .fn .transferAll 0
  | .other f size => .fn f size
  | .rejectAnnouncement .. => .fn .rejectAnnouncement 0
  | .addProxy .. | .removeProxy .. | .removeProxies | .createPure .. | .killPure .. | .announce ..
  | .removeAnnouncement .. => .fn (.other .proxy false) 0
  | .proxy real _ c => .proxy .any real c.view
  | .proxyAnnounced _ real _ c => .proxy .any real c.view
  | .batch k calls => .batch k (viewL calls)
  | .asDerivative _ c => .asDerivative 0 c.view
  | .payWithCapacity c => .payWithCapacity c.view
  | .payWithCapacityBatchAll calls => .payWithCapacityBatchAll (viewL calls)
  | .multiThreshold1 _ c => .multiThreshold1 0 c.view
  | .multi .. | .approveMulti .. | .cancelMulti .. => .fn (.other .multisig false) 0
/-- The same for lists of calls. -/
def viewL : List Call → List Runtime.Call
  | [] => []
  | c :: cs => c.view :: viewL cs
end

/-- The configuration of transactions, and the hashes that are not part of the repository: hash of a call, derived,
multisig and pure accounts. -/
structure Config where
  wallet : Wallet.Config
  hash : Call → Nat
  derive : AccountId → Nat → AccountId
  multi : List AccountId → Nat → AccountId
  /-- spawner, type, index, block and extrinsic -/
  pure : AccountId → ProxyType → Nat → Nat → Nat → AccountId

/-- The configuration of the six pallets. -/
abbrev Config.chain (cfg : Config) : Chain.Config := cfg.wallet.tokens.chain

/-- The six pallets with the tokens, the storage of the proxy and the multisig pallet, and the number of the transaction in its block;
`log` is no storage but remembers which calls were executed successfully, in whose name, other than those that only
execute others. -/
structure World where
  tokens : Tokens.State
  defs : AccountId → List Def
  anns : AccountId → List Ann
  multis : AccountId → Nat → Option Multi
  extrinsic : Nat
  log : List (AccountId × Call)

/-- The six pallets. -/
abbrev World.chain (w : World) : Chain.State := w.tokens.chain

/-- `MaxProxies` and `MaxPending`, runtime/common/src/constants.rs 279 and 282. -/
def maxProxies : Nat := 32

/-- `MaxSignatories`, runtime/frequency/src/lib.rs 546. -/
def maxSignatories : Nat := 100

/-- A map with one value replaced. -/
def put {α β : Type} [DecidableEq α] (f : α → β) (a : α) (b : β) : α → β := fun x => if x = a then b else f x

/-- The position of a proxy type in the declaration, runtime/common/src/proxy.rs 19-30, which orders them. -/
def rank : ProxyType → Nat
  | .any => 0
  | .nonTransfer => 1
  | .governance => 2
  | .staking => 3
  | .cancelProxy => 4

/-- The derived order of `ProxyDefinition`. -/
def Def.before (a b : Def) : Bool :=
  a.delegate < b.delegate || (a.delegate = b.delegate && (rank a.ty < rank b.ty || (a.ty = b.ty && a.delay < b.delay)))

/-- Insertion at the place found by `binary_search`. -/
def insertDef (d : Def) : List Def → List Def
  | [] => [d]
  | x :: xs => if d.before x then d :: x :: xs else x :: insertDef d xs

/-- `find_proxy`: the first registration of the delegate, of the type asked for if one is. -/
def findProxy (w : World) (real delegate : AccountId) (force : Option ProxyType) : Option Def :=
  (w.defs real).find? (fun d => decide (d.delegate = delegate) && force.all (fun t => decide (d.ty = t)))

/-- `add_proxy_delegate`. -/
def addProxy (w : World) (who : AccountId) (d : Def) : Option World :=
  if who = d.delegate ∨ d ∈ w.defs who ∨ maxProxies ≤ (w.defs who).length then none
  else some { w with defs := put w.defs who (insertDef d (w.defs who)) }

/-- `remove_proxy_delegate`. -/
def removeProxy (w : World) (who : AccountId) (d : Def) : Option World :=
  if d ∈ w.defs who then some { w with defs := put w.defs who ((w.defs who).erase d) } else none

/-- `edit_announcements`: keep those that satisfy the condition; an error if all do. -/
def editAnns (w : World) (delegate : AccountId) (keep : Ann → Bool) : Option World :=
  if (w.anns delegate).all keep then none
  else some { w with anns := put w.anns delegate ((w.anns delegate).filter keep) }

/-- `ensure_sorted_and_insert`, with the bounds on the number of signatories. -/
def members (who : AccountId) (others : List AccountId) : Option (List AccountId) :=
  if others.Pairwise (· < ·) ∧ who ∉ others ∧ others ≠ [] ∧ others.length < maxSignatories then
    some (others.filter (· < who) ++ who :: others.filter (who < ·))
  else none

/-- A filter of an origin. -/
abbrev Filter := Call → Bool

/-- The filter of every signed origin, `BaseCallFilter`. -/
def base (cfg : Config) : Filter := fun c => Runtime.contains cfg.wallet.mainnet c.view

/-- The filter that `do_proxy` adds to the new origin. -/
def Def.filter (d : Def) (c : Call) : Bool :=
  match c with
  | .addProxy _ ty _ | .removeProxy _ ty _ => d.ty.isSuperset ty && d.ty.filter c.view
  | .removeProxies | .killPure .. => decide (d.ty = .any) && d.ty.filter c.view
  | c => d.ty.filter c.view

/-- The filter of the calls in a batch. -/
def batchFilter (k : BatchKind) (flt : Filter) : Filter :=
  if k = .batchAll then fun c => flt c && Runtime.noBatchAll c.view else flt

/-- Remember a call. -/
def World.done (w : World) (who : AccountId) (c : Call) : World := { w with log := w.log ++ [(who, c)] }

/-- Calls that register something or belong to a pallet, without executing other calls. -/
def step (cfg : Config) (env : TimeRelease.Env) (who : AccountId) (w : World) : Call → Option World
  | .leaf c => (Chain.dispatch cfg.chain (Tokens.bal w.tokens) w.chain (.signed who) c).map
      (fun s => { w with tokens := Tokens.sync { w.tokens with chain := s } who })
  | .release c => (TimeRelease.dispatch cfg.wallet.tokens.release env w.tokens.ledger (some who) c).toOption.map
      (fun p => { w with tokens := { w.tokens with ledger := p.1 } })
  | .transfer keep dest amount => (Tokens.transfer cfg.wallet.tokens env keep w.tokens who dest amount).map
      (fun s => { w with tokens := s })
  | .transferAll keep dest => (Tokens.transfer cfg.wallet.tokens env keep w.tokens who dest
      (Tokens.reducible cfg.wallet.tokens env keep (TimeRelease.acct w.tokens.ledger who))).map (fun s => { w with tokens := s })
  | .other _ _ => some w
  | .addProxy delegate ty delay => addProxy w who ⟨delegate, ty, delay⟩
  | .removeProxy delegate ty delay => removeProxy w who ⟨delegate, ty, delay⟩
  | .removeProxies => some { w with defs := put w.defs who [] }
  | .createPure ty delay index =>
    let account := cfg.pure who ty index w.chain.block w.extrinsic
    if w.defs account = [] then some { w with defs := put w.defs account [⟨who, ty, delay⟩] } else none
  | .killPure spawner ty index height extrinsic =>
    if cfg.pure spawner ty index height extrinsic = who then some { w with defs := put w.defs who [] } else none
  | .announce real hash =>
    if (w.defs real).any (fun d => decide (d.delegate = who)) && decide ((w.anns who).length < maxProxies) then
      some { w with anns := put w.anns who (w.anns who ++ [⟨real, hash, w.chain.block⟩]) }
    else none
  | .removeAnnouncement real hash => editAnns w who (fun a => decide (a.real ≠ real ∨ a.hash ≠ hash))
  | .rejectAnnouncement delegate hash => editAnns w delegate (fun a => decide (a.real ≠ who ∨ a.hash ≠ hash))
  | .approveMulti threshold others hash => do
    let all ← members who others
    if threshold < 2 then none else
    let id := cfg.multi all threshold
    match w.multis id hash with
    | none => some { w with multis := put w.multis id (put (w.multis id) hash (some ⟨who, [who]⟩)) }
    | some m =>
      if who ∈ m.approvals ∨ threshold ≤ m.approvals.length then none
      else some { w with multis := put w.multis id (put (w.multis id) hash (some ⟨m.depositor, who :: m.approvals⟩)) }
  | .cancelMulti threshold others hash => do
    let all ← members who others
    let id := cfg.multi all threshold
    let m ← w.multis id hash
    if threshold < 2 ∨ m.depositor ≠ who then none
    else some { w with multis := put w.multis id (put (w.multis id) hash none) }
  | _ => none

/-- `as_multi` up to the execution: whether the call is executed now, and the new state otherwise. -/
def operate (cfg : Config) (who : AccountId) (w : World) (threshold : Nat) (others : List AccountId) (hash : Nat) :
    Option (AccountId × World × Bool) := do
  let all ← members who others
  if threshold < 2 then none else
  let id := cfg.multi all threshold
  match w.multis id hash with
  | none => some (id, { w with multis := put w.multis id (put (w.multis id) hash (some ⟨who, [who]⟩)) }, false)
  | some m =>
    let new := decide (who ∉ m.approvals ∧ m.approvals.length < threshold)
    if threshold ≤ m.approvals.length + (if new then 1 else 0) then
      some (id, { w with multis := put w.multis id (put (w.multis id) hash none) }, true)
    else if new then
      some (id, { w with multis := put w.multis id (put (w.multis id) hash (some ⟨m.depositor, who :: m.approvals⟩)) }, false)
    else none

mutual
/-- Dispatch of a call by a signer through the filter of the origin; `none` is an error. -/
def exec (cfg : Config) (env : TimeRelease.Env) (flt : Filter) (who : AccountId) (c : Call) (w : World) : Option World :=
  if flt c then
    match c with
    -- `proxy` and `do_proxy`: an error of the call is reported in an event
    | .proxy real force c => do
      let d ← findProxy w real who force
      if d.delay = 0 then
        some ((exec cfg env (fun c => base cfg c && d.filter c) real c w).getD w)
      else none
    -- `proxy_announced`
    | .proxyAnnounced delegate real force c => do
      let d ← findProxy w real delegate force
      let w ← editAnns w delegate (fun a => decide (a.real ≠ real ∨ a.hash ≠ cfg.hash c ∨ w.chain.block - a.height < d.delay))
      some ((exec cfg env (fun c => base cfg c && d.filter c) real c w).getD w)
    | .batch k calls => execL cfg env k (batchFilter k flt) who calls w
    -- the caller is replaced, the filter stays
    | .asDerivative index c => exec cfg env flt (cfg.derive who index) c w
    | .payWithCapacity c => exec cfg env flt who c w
    | .payWithCapacityBatchAll calls =>
      if calls.length ≤ Runtime.maxCapacityBatch then execL cfg env .batchAll (batchFilter .batchAll flt) who calls w else none
    | .multiThreshold1 others c => do
      let all ← members who others
      exec cfg env (base cfg) (cfg.multi all 1) c w
    | .multi threshold others c => do
      let (id, w, now) ← operate cfg who w threshold others (cfg.hash c)
      if now then some ((exec cfg env (base cfg) id c w).getD w) else some w
    | c => (step cfg env who w c).map (fun w => w.done who c)
  else none
/-- A list of calls: `batch` stops at the first error and keeps what was done, `force_batch` skips calls with errors,
`batch_all` fails with the first error. -/
def execL (cfg : Config) (env : TimeRelease.Env) (k : BatchKind) (flt : Filter) (who : AccountId) (calls : List Call)
    (w : World) : Option World :=
  match calls with
  | [] => some w
  | c :: cs => match exec cfg env flt who c w with
    | some w' => execL cfg env k flt who cs w'
    | none => match k with
      | .batch => some w
      | .batchAll => none
      | .forceBatch => execL cfg env k flt who cs w
end

/-- A signed transaction, as `Wallet.Signed`. -/
structure Signed where
  who : AccountId
  nonce : Nat
  call : Call
  len : Nat
  fee : Balance
  back : Balance
  env : TimeRelease.Env

/-- The world and the numbers of the accounts; accounts that do not exist have the number zero. -/
structure State where
  world : World
  nonces : AccountId → Nat

/-- `ChargeFrqTransactionPayment::pre_dispatch`, as `Wallet.pay`. -/
def pay (cfg : Config) (s : Tokens.State) (t : Signed) : Option Tokens.State :=
  match TxPayment.charge cfg.wallet.payment s.chain.msa (Tokens.bal s t.who) s.chain.capacity t.who t.len t.call.view with
  | some r => r.toOption.map (fun c => { s with chain := { s.chain with capacity := c } })
  | none => if Runtime.paysNo t.call.view then some s else Tokens.fee cfg.wallet.tokens s t.who t.fee

/-- Whether a transaction is paid with tokens. -/
def inTokens (c : Call) : Bool :=
  match c with
  | .payWithCapacity _ | .payWithCapacityBatchAll _ => false
  | c => !Runtime.paysNo c.view

/-- `CheckFreeExtrinsicUse` and `HandlesSignedExtension` look at the outermost call only. -/
def extensions (cfg : Config) (s : Chain.State) (who : AccountId) : Call → Bool
  | .leaf c => Chain.extensions cfg.chain s who c
  | _ => true

/-- `CheckNonce::pre_dispatch`, as `Wallet.checkNonce`. -/
def checkNonce (s : State) (t : Signed) : Option (AccountId → Nat) :=
  if t.nonce = s.nonces t.who then
    some (if Runtime.paysNo t.call.view && !Wallet.existing s.world.tokens t.who then s.nonces
      else put s.nonces t.who (t.nonce + 1))
  else none

/-- The extensions in their order, lib.rs 296-300. -/
def takeIn (cfg : Config) (s : State) (t : Signed) : Option State := do
  let nonces ← checkNonce s t
  let tokens ← pay cfg s.world.tokens t
  if extensions cfg tokens.chain t.who t.call then
    some ⟨{ s.world with tokens := tokens, extrinsic := s.world.extrinsic + 1 }, nonces⟩
  else none

/-- `post_dispatch`, as `Wallet.settle`. -/
def settle (s : Tokens.State) (t : Signed) : Tokens.State :=
  if inTokens t.call then (Tokens.refund s t.who (min t.back t.fee)).getD s else s

/-- Accounts that were closed are forgotten, with their numbers. -/
def forget (before after : Tokens.State) (nonces : AccountId → Nat) : AccountId → Nat :=
  fun who => if Wallet.existing before who && !Wallet.existing after who then 0 else nonces who

/-- A transaction: if it is included its call is dispatched, and what fails is undone except for number and payment. -/
def submit (cfg : Config) (s : State) (t : Signed) : State :=
  match takeIn cfg s t with
  | none => s
  | some s1 =>
    let w := (exec cfg t.env (base cfg) t.who t.call s1.world).getD s1.world
    let after := settle w.tokens t
    ⟨{ w with tokens := after }, forget s1.world.tokens after s1.nonces⟩

/-- What happens: a block begins, the relay chain goes on, or a transaction is submitted. -/
inductive Event where
  | newBlock
  | tick (n : Nat)
  | submit (t : Signed)

/-- Its effect. -/
def apply (cfg : Config) (s : State) : Event → State
  | .newBlock => { s with world := { s.world with
      tokens := Tokens.apply cfg.wallet.tokens s.world.tokens .newBlock, extrinsic := 0 } }
  | .tick n => { s with world := { s.world with tokens := Tokens.apply cfg.wallet.tokens s.world.tokens (.tick n) } }
  | .submit t => submit cfg s t

/-- The chain after its genesis, without proxies and multisig operations. -/
def genesis (maxBytes : Nat) (ledger : TimeRelease.State) : State :=
  ⟨⟨Tokens.genesis maxBytes ledger, fun _ => [], fun _ => [], fun _ _ => none, 0, []⟩, fun _ => 0⟩

/-- A history. -/
def run (cfg : Config) (s : State) (h : List Event) : State := h.foldl (apply cfg) s

end Verif.Wrapped
