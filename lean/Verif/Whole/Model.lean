import Verif.Wrapped.Model
import Verif.Msa.Model
/-!
# The whole chain: signed transactions, passkey transactions and governance

The chain of `Wrapped` with the other ways in which calls get executed: transactions of the passkey pallet
(`pallets/passkey/src/lib.rs` and `types.rs`, configured in `runtime/frequency/src/lib.rs` 272-287 and 925-935; not part
of the main network, lib.rs 1221-1222), which have no signer, and the decisions of council and root and the runtime
upgrade of `Wallet`.

The fee of a passkey transaction is given with it, as that of a signed one. Nothing of it is paid back: the pallet
drops what `withdraw_fee` returns, lib.rs 313-328.
-/

namespace Verif.Whole

/-- `PasskeyPayload`, `VerifiablePasskeySignature` and `PasskeyCall`, types.rs 30-63. -/
structure Payload where
  publicKey : Bytes
  /-- signature, authenticator data and client data of the passkey -/
  signature : Bytes
  authenticatorData : Bytes
  clientDataJson : Bytes
  account : AccountId
  nonce : Nat
  /-- signature of the account on the public key of the passkey -/
  proof : Signature
  call : Wrapped.Call

/-- The configuration, with what is outside the repository: verification of account signatures
(`MultiSignature::verify`), and whether the passkey signed account, nonce and call. The code has no such check; it is
here to state what the property demands. -/
structure Config where
  wrapped : Wrapped.Config
  verify : Signature → AccountId → Bytes → Bool
  passkeyValid : Payload → Bool

/-- `PasskeyNonce::pre_dispatch`, lib.rs 258-266: `CheckNonce` for the account of the payload, with the dispatch info of
the inner call; runtime/common/src/extensions/check_nonce.rs 80-117. -/
def checkNonce (s : Wrapped.State) (p : Payload) : Option (AccountId → Nat) :=
  if p.nonce = s.nonces p.account then
    some (if Runtime.paysNo p.call.view && !Wallet.existing s.world.tokens p.account then s.nonces
      else Wrapped.put s.nonces p.account (p.nonce + 1))
  else none

/-- `pre_dispatch`, lib.rs 171-181, with `filter_valid_calls` 189-196, `validate_signatures` 198-206,
`check_account_signature` 218-232 and `ChargeTransactionPayment::pre_dispatch` 280-289. -/
def preDispatch (cfg : Config) (s : Wrapped.State) (fee : Balance) (p : Payload) : Option Wrapped.State :=
  if cfg.wrapped.wallet.mainnet then none
  else if Runtime.passkeyContains p.call.view then
    if cfg.verify p.proof p.account (Msa.wrap p.publicKey) then do
      let nonces ← checkNonce s p
      let tokens ← Tokens.fee cfg.wrapped.wallet.tokens s.world.tokens p.account fee
      some ⟨{ s.world with tokens := tokens, extrinsic := s.world.extrinsic + 1 }, nonces⟩
    else none
  else none

/-- A passkey transaction. `proxy`, lib.rs 127-143, dispatches the call for the account of the payload; what fails is
undone except for number and payment. -/
def passkey (cfg : Config) (s : Wrapped.State) (env : TimeRelease.Env) (fee : Balance) (p : Payload) : Wrapped.State :=
  match preDispatch cfg s fee p with
  | none => s
  | some s1 =>
    let w := (Wrapped.exec cfg.wrapped env (Wrapped.base cfg.wrapped) p.account p.call s1.world).getD s1.world
    ⟨w, Wrapped.forget s1.world.tokens w.tokens s1.nonces⟩

/-- What happens: what `Wrapped` has, a passkey transaction, decisions of council and root, a runtime upgrade. -/
inductive Event where
  | signed (e : Wrapped.Event)
  | passkey (env : TimeRelease.Env) (fee : Balance) (p : Payload)
  | council (c : Chain.Call)
  | root (env : TimeRelease.Env) (c : TimeRelease.Call)
  | upgrade (known : List (SchemaId × Bytes))

/-- A step of the chain with its tokens. -/
def onTokens (cfg : Config) (s : Wrapped.State) (x : Tokens.Step) : Wrapped.State :=
  { s with world := { s.world with tokens := Tokens.apply cfg.wrapped.wallet.tokens s.world.tokens x } }

/-- Its effect; governance as in `Wallet`. -/
def apply (cfg : Config) (s : Wrapped.State) : Event → Wrapped.State
  | .signed e => Wrapped.apply cfg.wrapped s e
  | .passkey env fee p => passkey cfg s env fee p
  | .council c => onTokens cfg s (.call .council c)
  | .root env c => onTokens cfg s (.release env none c)
  | .upgrade known => onTokens cfg s (.upgrade known)

/-- A history. -/
def run (cfg : Config) (s : Wrapped.State) (h : List Event) : Wrapped.State := h.foldl (apply cfg) s

end Verif.Whole
