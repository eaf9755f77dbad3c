import Verif.Msa.Model
/-!
# The nonce check

`runtime/common/src/extensions/check_nonce.rs`. The account information is that of `frame_system`. Simplified:
nonces are unbounded, in the code they are of type `u32`.
-/

namespace Verif.Nonce

/-- `frame_system::AccountInfo` without the balances. -/
structure Account where
  nonce : Nat
  providers : Nat
  consumers : Nat
  sufficients : Nat
  deriving DecidableEq, Repr

/-- `AccountInfo::default`. -/
def Account.default : Account := ⟨0, 0, 0, 0⟩

/-- `frame_system::Account`. -/
abbrev Accounts := SMap AccountId Account

/-- `Account::get`. -/
def getAccount (s : Accounts) (who : AccountId) : Account := (s.get who).getD Account.default

/-- `InvalidTransaction`. -/
inductive Err where
  | stale | future
  deriving DecidableEq, Repr

/-- `existing_account`, check_nonce.rs 104-105. -/
def Account.existing (a : Account) : Bool := decide (0 < a.providers ∨ 0 < a.consumers ∨ 0 < a.sufficients)

/-- `CheckNonce::pre_dispatch`, check_nonce.rs 80-117; `pays` is `info.pays_fee == Pays::Yes`. -/
def preDispatch (s : Accounts) (who : AccountId) (nonce : Nat) (pays : Bool) : Except Err Accounts :=
  let a := getAccount s who
  if nonce ≠ a.nonce then .error (if nonce < a.nonce then .stale else .future)
  else if pays || a.existing then .ok (s.insert who { a with nonce := a.nonce + 1 })
  else .ok s

/-- What happens to accounts: a transaction, a change of the reference counters by other pallets, the removal
of the account (`frame_system` removes the entry, with the nonce, when the last reference goes). -/
inductive Op where
  | tx (who : AccountId) (nonce : Nat) (pays : Bool)
  | refs (who : AccountId) (providers consumers sufficients : Nat)
  | reap (who : AccountId)
  deriving DecidableEq, Repr

/-- Effect; a refused transaction changes nothing. -/
def apply (s : Accounts) : Op → Accounts
  | .tx who nonce pays => match preDispatch s who nonce pays with
    | .ok s' => s'
    | .error _ => s
  | .refs who p c f => s.insert who ⟨(getAccount s who).nonce, p, c, f⟩
  | .reap who => s.erase who

/-- State after a history. -/
def run (s : Accounts) (h : List Op) : Accounts := h.foldl apply s

/-- A signed transaction with a call of the msa pallet, as far as the two extensions and the msa pallet are
concerned: nonce check, `CheckFreeExtrinsicUse`, dispatch. The result says whether it was executed. -/
def submit (cfg : Msa.Config) (env : Msa.Env) (s : Accounts × Msa.State) (who : AccountId) (nonce : Nat)
    (pays : Bool) (c : Msa.Call) : (Accounts × Msa.State) × Bool :=
  match preDispatch s.1 who nonce pays, Msa.validate env s.2 who c with
  | .ok a, .ok _ => ((a, Msa.apply cfg s.2 ⟨env, .signed who, c⟩), true)
  | _, _ => (s, false)

end Verif.Nonce
