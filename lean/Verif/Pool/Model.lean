import Verif.Whole.Model
import Verif.Scale
/-!
# Waiting transactions

What the runtime tells the transaction pool about a transaction, by the `validate` functions of the transaction
extensions (`runtime/frequency/src/lib.rs` 289-300) and `validate_unsigned` of the passkey pallet: which tags it provides
and which ones it requires. And the pool itself, which is not part of the repository, from its published behaviour
(`sc-transaction-pool`, base pool): transactions whose required tags are provided by others are ready, others wait; a
transaction that provides a tag of a ready one either is refused or displaces it.

Simplifications: the priority is given with the transaction; limits of the size of the pool, bans, and tags of blocks
imported just now are left out; waiting transactions become ready one by one, the order among them is that of the list.
-/

namespace Verif.Pool

/-- The kinds of free calls of the msa pallet, each with a tag of its own. -/
inductive Kind where
  | delegator | provider | key | retire
  deriving DecidableEq, Repr

/-- `TAG_PREFIX`, pallets/msa/src/lib.rs 1640, 1665, 1694, 1733. -/
def Kind.tagPrefix : Kind → String
  | .delegator => "DelegatorDelegationRevocation"
  | .provider => "ProviderDelegationRevocation"
  | .key => "KeyRevocation"
  | .retire => "MSARetirement"

/-- The tags of the runtime: account and number, runtime/common/src/extensions/check_nonce.rs 132-137; and prefix and
account, pallets/msa/src/lib.rs 1648, 1675, 1714-1716, 1770. -/
inductive Tag where
  | number (who : AccountId) (n : Nat)
  | free (k : Kind) (who : AccountId)
  deriving DecidableEq, Repr

/-- The account of a tag. -/
def Tag.who : Tag → AccountId
  | .number who _ => who
  | .free _ who => who

/-- A tag as the pool sees it: the encoding of the pair. `account` gives the bytes of an account. -/
def Tag.bytes (account : AccountId → Bytes) : Tag → Bytes
  | .number who n => account who ++ Scale.u32 n
  | .free k who => Scale.vecU8 k.tagPrefix.toUTF8.toList ++ account who

/-- `ValidTransaction`, with the account of the transaction and what number it has. `mark` tells transactions apart, as
their hashes do. -/
structure Tx where
  mark : Nat
  who : AccountId
  number : Nat
  requires : List Tag
  provides : List Tag
  priority : Nat
  deriving DecidableEq, Repr

/-- The kind of a call that `CheckFreeExtrinsicUse::validate` gives a tag, pallets/msa/src/lib.rs 1856-1868. The
extension for handles gives none, pallets/handles/src/handles_signed_extension.rs 59. -/
def kindOf : Wrapped.Call → Option Kind
  | .leaf (.msa (.revokeDelegationByDelegator _)) => some .delegator
  | .leaf (.msa (.revokeDelegationByProvider _)) => some .provider
  | .leaf (.msa (.deleteMsaPublicKey _)) => some .key
  | .leaf (.msa .retireMsa) => some .retire
  | _ => none

/-- The tag that `CheckNonce::validate` requires, check_nonce.rs 133-137: that of the number before, if it is not the
next one of the account. -/
def before (s : Wrapped.State) (who : AccountId) (n : Nat) : List Tag :=
  if s.nonces who < n then [.number who (n - 1)] else []

/-- `validate` of the extensions for a signed transaction, in their order: `CheckNonce` (check_nonce.rs 119-146), the
payment (pallets/frequency-tx-payment/src/lib.rs 473-490), `CheckFreeExtrinsicUse` and `HandlesSignedExtension`. `none`:
the transaction is not valid. -/
def validate (cfg : Wrapped.Config) (s : Wrapped.State) (mark priority : Nat) (t : Wrapped.Signed) : Option Tx :=
  if s.nonces t.who ≤ t.nonce then do
    let tokens ← Wrapped.pay cfg s.world.tokens t
    if Wrapped.extensions cfg tokens.chain t.who t.call then
      some ⟨mark, t.who, t.nonce, before s t.who t.nonce,
        .number t.who t.nonce :: ((kindOf t.call).map (Tag.free · t.who)).toList, priority⟩
    else none
  else none

/-- `validate_unsigned` of the passkey pallet, pallets/passkey/src/lib.rs 152-169, with `filter_valid_calls` 189-196,
`validate_signatures` 198-206, `PasskeyNonce::validate` 248-256 and the payment 292-306. -/
def validatePasskey (cfg : Whole.Config) (s : Wrapped.State) (mark priority : Nat) (fee : Balance) (p : Whole.Payload) :
    Option Tx :=
  if cfg.wrapped.wallet.mainnet then none
  else if Runtime.passkeyContains p.call.view then
    if cfg.verify p.proof p.account (Msa.wrap p.publicKey) then
      if s.nonces p.account ≤ p.nonce then do
        let _ ← Tokens.fee cfg.wrapped.wallet.tokens s.world.tokens p.account fee
        some ⟨mark, p.account, p.nonce, before s p.account p.nonce, [.number p.account p.nonce], priority⟩
      else none
    else none
  else none

/-! ## The pool -/

/-- Transactions that may be put in a block, and those that wait for others. -/
structure Pool where
  ready : List Tx
  future : List Tx
  deriving DecidableEq, Repr

/-- An empty pool. -/
def Pool.empty : Pool := ⟨[], []⟩

/-- Whether what a transaction requires is provided by the ready ones. -/
def satisfied (r : List Tx) (t : Tx) : Bool := t.requires.all (fun g => r.any (fun u => u.provides.contains g))

/-- Whether two transactions provide a tag in common. -/
def clash (t u : Tx) : Bool := u.provides.any (fun g => t.provides.contains g)

/-- `remove_subtree_with_tag_filter`, after the transactions `gone` have been removed: with a transaction go those that
require a tag of it, unless the tags `keep` are all that it provided. -/
def dropTree (keep : List Tag) : Nat → List Tx → List Tx → List Tx
  | 0, _, r => r
  | n + 1, gone, r =>
    let next := fun u : Tx => gone.any (fun g => g.provides.any (fun x => !keep.contains x) &&
      g.provides.any (fun x => u.requires.contains x))
    dropTree keep n (r.filter next) (r.filter (fun u => !next u))

/-- `import` of the ready transactions: those that provide a tag of the new one are displaced if their priorities
together are lower; otherwise the new one is refused. -/
def addReady (r : List Tx) (t : Tx) : Option (List Tx) :=
  let old := r.filter (clash t)
  if old = [] then some (r ++ [t])
  else if (old.map Tx.priority).sum < t.priority then
    some (dropTree t.provides r.length old (r.filter (fun u => !clash t u)) ++ [t])
  else none

/-- Waiting transactions become ready; those that are refused are dropped. -/
def promote : Nat → Pool → Pool
  | 0, p => p
  | n + 1, p =>
    match p.future.find? (satisfied p.ready) with
    | none => p
    | some t => promote n ⟨(addReady p.ready t).getD p.ready, p.future.erase t⟩

/-- `import` of the pool. If a transaction that has become ready displaces the new one, all that became ready are
removed. -/
def Pool.add (p : Pool) (t : Tx) : Pool :=
  if t ∈ p.ready ∨ t ∈ p.future then p
  else if satisfied p.ready t then
    match addReady p.ready t with
    | none => p
    | some r =>
      let q := promote p.future.length ⟨r, p.future⟩
      if t ∈ q.ready then q
      else
        ⟨dropTree [] q.ready.length (q.ready.filter (fun u => decide (u ∉ p.ready)))
          (q.ready.filter (fun u => decide (u ∈ p.ready))), q.future⟩
  else ⟨p.ready, t :: p.future⟩

/-- Whatever else happens to a pool: transactions leave it, because they are in a block, no longer valid, or too
many. -/
def Pool.leave (p : Pool) (stays : Tx → Bool) : Pool := ⟨p.ready.filter stays, p.future.filter stays⟩

end Verif.Pool
