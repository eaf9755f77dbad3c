import Verif.Nonce.Model
import Verif.Runtime.Calls
/-!
# The passkey pallet

`pallets/passkey/src/lib.rs` and `types.rs`, with `PasskeyCallFilter` of `runtime/frequency/src/lib.rs`. The
pallet is not part of the main network (lib.rs 1221-1222 of the runtime). The withdrawal of the token fee is
that of `pallet_transaction_payment`, outside the repository, and left open.
-/

namespace Verif.Passkey
open Runtime (Call)

/-- `PasskeyPayload`, `VerifiablePasskeySignature` and `PasskeyCall`, types.rs 30-63. -/
structure Payload where
  publicKey : Bytes
  /-- signature, authenticator data and client data of the passkey -/
  signature : Bytes
  authenticatorData : Bytes
  clientDataJson : Bytes
  account : AccountId
  nonce : Nat
  /-- signature of the account on the public key of the passkey -/
  proof : Signature
  call : Call

/-- What is outside the repository: verification of account signatures (`MultiSignature::verify`), validity
of a passkey signature on a call and nonce of an account, and whether an account can pay the fee of a call for
a given length. -/
structure Config where
  verify : Signature → AccountId → Bytes → Bool
  /-- public key, signature, authenticator data, client data, account, call, nonce. The code has no such check;
  it is here to state what the property demands. -/
  passkeyValid : Bytes → Bytes → Bytes → Bytes → AccountId → Call → Nat → Bool
  canPay : AccountId → Call → Nat → Bool

/-- `InvalidTransaction`. -/
inductive Err where
  | call | badSigner | nonce (e : Nonce.Err) | payment
  deriving DecidableEq, Repr

/-- The length for which the fee is computed, lib.rs 282 and 293: that of the encoded account id. -/
def feeLength (p : Payload) : Nat := (Scale.leBytes 32 p.account).length

/-- An error of the nonce check. -/
def checkNonce (x : Except Nonce.Err Nonce.Accounts) : Except Err Nonce.Accounts :=
  match x with
  | .ok a => .ok a
  | .error e => .error (.nonce e)

/-- `pre_dispatch`, lib.rs 171-181, with `filter_valid_calls` 189-196, `validate_signatures` 198-206,
`check_account_signature` 218-232, `PasskeyNonce::pre_dispatch` 258-266 and
`ChargeTransactionPayment::pre_dispatch` 280-289. -/
def preDispatch (cfg : Config) (s : Nonce.Accounts) (p : Payload) : Except Err Nonce.Accounts := do
  ensure (Runtime.passkeyContains p.call = true) .call
  ensure (cfg.verify p.proof p.account (Msa.wrap p.publicKey) = true) .badSigner
  let s ← checkNonce (Nonce.preDispatch s p.account p.nonce (!Runtime.paysNo p.call))
  ensure (cfg.canPay p.account p.call (feeLength p) = true) .payment
  pure s

/-- `proxy`, lib.rs 127-143: the calls executed, for the account of the payload with the base filter. -/
def executed (base : Runtime.Filter) (p : Payload) : List (AccountId × Call) :=
  Runtime.executed base base p.account p.call

end Verif.Passkey
