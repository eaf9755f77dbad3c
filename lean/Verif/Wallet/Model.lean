import Verif.Tokens.Model
import Verif.Tx.Model
/-!
# Signed transactions on the chain with its tokens

As `Tx/Model.lean`, but on the state of `Tokens/Model.lean`: fees in tokens are taken from the balances, what the
capacity pallet stakes are the tokens that are there, and the calls include transfers and those of the time-release
pallet. Accounts of `frame_system` exist as long as they have tokens; with the account its number is forgotten. The
extensions of `SignedExtra` are those of `Tx/Model.lean`, runtime/frequency/src/lib.rs 290-301.

Simplifications: how high a fee in tokens is, and how much of it is paid back, is given with the transaction. Nothing
but tokens keeps an account alive. There are no tips, and transactions do not expire. Wrappers that change the signer
are left out.
-/

namespace Verif.Wallet

/-- Calls: those of the six pallets, of the time-release pallet, transfers of the balances pallet, batches, and the two
calls of the payment pallet. -/
inductive Call where
  | chain (c : Chain.Call)
  | release (c : TimeRelease.Call)
  /-- `transfer_allow_death`, and with `keep` `transfer_keep_alive` -/
  | transfer (keep : Bool) (dest : AccountId) (amount : Balance)
  | transferAll (keep : Bool) (dest : AccountId)
  | batch (k : Runtime.BatchKind) (calls : List Call)
  | payWithCapacity (c : Call)
  | payWithCapacityBatchAll (calls : List Call)

mutual
/-- The call with what filters and weights look at. -/
def Call.view : Call → Runtime.Call
  | .chain c => Tx.view c
  | .release .claim => .fn .timeReleaseClaim 0
  | .release (.claimFor _) => .fn .timeReleaseClaimFor 0
  | .release (.transfer ..) => .fn .timeReleaseTransfer 0
  | .release (.update ..) => .fn .timeReleaseUpdate 0
  | .transfer keep _ _ => .fn (if keep then .transferKeepAlive else .transferAllowDeath) 0
  | .transferAll _ _ => .fn .transferAll 0
  | .batch k calls => .batch k (viewL calls)
  | .payWithCapacity c => .payWithCapacity c.view
  | .payWithCapacityBatchAll calls => .payWithCapacityBatchAll (viewL calls)
/-- The same for lists of calls. -/
def viewL : List Call → List Runtime.Call
  | [] => []
  | c :: cs => c.view :: viewL cs
end

/-- Configuration of the runtime. -/
structure Config where
  tokens : Tokens.Config
  payment : TxPayment.Config
  mainnet : Bool

mutual
/-- Dispatch of a call by a signer through the filter of the origin, as `Tx.exec`; `none` is an error. -/
def exec (cfg : Config) (env : TimeRelease.Env) (flt : Runtime.Filter) (who : AccountId) (c : Call) (s : Tokens.State) :
    Option Tokens.State :=
  if flt c.view then
    match c with
      | .chain c => (Chain.dispatch cfg.tokens.chain (Tokens.bal s) s.chain (.signed who) c).map
          (fun ch => Tokens.sync { s with chain := ch } who)
      | .release c => (TimeRelease.dispatch cfg.tokens.release env s.ledger (some who) c).toOption.map
          (fun p => { s with ledger := p.1 })
      | .transfer keep dest amount => Tokens.transfer cfg.tokens env keep s who dest amount
      | .transferAll keep dest => Tokens.transfer cfg.tokens env keep s who dest
          (Tokens.reducible cfg.tokens env keep (TimeRelease.acct s.ledger who))
      | .batch k calls => execL cfg env k (k.filter flt) who calls s
      | .payWithCapacity c => exec cfg env flt who c s
      | .payWithCapacityBatchAll calls =>
        if calls.length ≤ Runtime.maxCapacityBatch then
          execL cfg env .batchAll (Runtime.BatchKind.batchAll.filter flt) who calls s
        else none
  else none
/-- A list of calls, as `Tx.execL`. -/
def execL (cfg : Config) (env : TimeRelease.Env) (k : Runtime.BatchKind) (flt : Runtime.Filter) (who : AccountId)
    (calls : List Call) (s : Tokens.State) : Option Tokens.State :=
  match calls with
  | [] => some s
  | c :: cs => match exec cfg env flt who c s with
    | some s' => execL cfg env k flt who cs s'
    | none => match k with
      | .batch => some s
      | .batchAll => none
      | .forceBatch => execL cfg env k flt who cs s
end

/-- A signed transaction: signer, number, call, encoded length; the fee in tokens if it is to be paid with tokens, and
what is paid back of it after the dispatch; what the model of the time-release pallet leaves open. -/
structure Signed where
  who : AccountId
  nonce : Nat
  call : Call
  len : Nat
  fee : Balance
  back : Balance
  env : TimeRelease.Env

/-- The pallets with the tokens, and the numbers of the accounts. -/
structure State where
  tokens : Tokens.State
  nonces : SMap AccountId Nat

/-- The number of an account: the default if it does not exist. -/
def nonceOf (s : State) (who : AccountId) : Nat := (s.nonces.get who).getD 0

/-- An account exists as long as it has tokens. -/
def existing (s : Tokens.State) (who : AccountId) : Bool :=
  decide (0 < (TimeRelease.acct s.ledger who).free + (TimeRelease.acct s.ledger who).reserved)

/-- `ChargeFrqTransactionPayment::pre_dispatch`, pallets/frequency-tx-payment/src/lib.rs 372-430 and 493-503. -/
def pay (cfg : Config) (s : Tokens.State) (t : Signed) : Option Tokens.State :=
  match TxPayment.charge cfg.payment s.chain.msa (Tokens.bal s t.who) s.chain.capacity t.who t.len t.call.view with
  | some r => r.toOption.map (fun c => { s with chain := { s.chain with capacity := c } })
  | none => if Runtime.paysNo t.call.view then some s else Tokens.fee cfg.tokens s t.who t.fee

/-- Whether a transaction is paid with tokens. -/
def inTokens (c : Call) : Bool :=
  match c with
  | .payWithCapacity _ | .payWithCapacityBatchAll _ => false
  | c => !Runtime.paysNo c.view

/-- `CheckFreeExtrinsicUse` and `HandlesSignedExtension` look at the outermost call only. -/
def extensions (cfg : Config) (s : Chain.State) (who : AccountId) : Call → Bool
  | .chain c => Chain.extensions cfg.tokens.chain s who c
  | _ => true

/-- `CheckNonce::pre_dispatch`, runtime/common/src/extensions/check_nonce.rs 80-117: the number has to be the next one,
and is used up unless the call is free and the account does not exist. -/
def checkNonce (s : State) (t : Signed) : Option (SMap AccountId Nat) :=
  if t.nonce = nonceOf s t.who then
    some (if Runtime.paysNo t.call.view && !existing s.tokens t.who then s.nonces else s.nonces.insert t.who (t.nonce + 1))
  else none

/-- The extensions in their order: the state in which the call is dispatched, if the transaction is included. -/
def takeIn (cfg : Config) (s : State) (t : Signed) : Option State := do
  let nonces ← checkNonce s t
  let tokens ← pay cfg s.tokens t
  if extensions cfg tokens.chain t.who t.call then some ⟨tokens, nonces⟩ else none

/-- `post_dispatch`, lib.rs 506-540: of a fee in tokens a part may be paid back, if the account still exists. -/
def settle (s : Tokens.State) (t : Signed) : Tokens.State :=
  if inTokens t.call then (Tokens.refund s t.who (min t.back t.fee)).getD s else s

/-- An account that was closed is forgotten, with its number. -/
def forget (before after : Tokens.State) (who : AccountId) (nonces : SMap AccountId Nat) : SMap AccountId Nat :=
  if existing before who && !existing after who then nonces.erase who else nonces

/-- A transaction: if it is included its call is dispatched, and what fails is undone except for number and payment. -/
def submit (cfg : Config) (s : State) (t : Signed) : State :=
  match takeIn cfg s t with
  | none => s
  | some s1 =>
    let after := settle ((exec cfg t.env (Runtime.contains cfg.mainnet) t.who t.call s1.tokens).getD s1.tokens) t
    ⟨after, forget s1.tokens after t.who s1.nonces⟩

/-- What happens: time passes, the runtime is upgraded, council or root decide, or a transaction is submitted. -/
inductive Event where
  | newBlock
  | tick (n : Nat)
  | upgrade (known : List (SchemaId × Bytes))
  | council (c : Chain.Call)
  | root (env : TimeRelease.Env) (c : TimeRelease.Call)
  | submit (t : Signed)

/-- Its effect. -/
def apply (cfg : Config) (s : State) : Event → State
  | .newBlock => { s with tokens := Tokens.apply cfg.tokens s.tokens .newBlock }
  | .tick n => { s with tokens := Tokens.apply cfg.tokens s.tokens (.tick n) }
  | .upgrade known => { s with tokens := Tokens.apply cfg.tokens s.tokens (.upgrade known) }
  | .council c => { s with tokens := Tokens.apply cfg.tokens s.tokens (.call .council c) }
  | .root env c => { s with tokens := Tokens.apply cfg.tokens s.tokens (.release env none c) }
  | .submit t => submit cfg s t

/-- A history. -/
def run (cfg : Config) (s : State) (h : List Event) : State := h.foldl (apply cfg) s

/-- The chain after its genesis. -/
def genesis (maxBytes : Nat) (ledger : TimeRelease.State) : State := ⟨Tokens.genesis maxBytes ledger, ∅⟩

end Verif.Wallet
