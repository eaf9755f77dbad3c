import Verif.Handles.Model
/-!
# Questions about handles that a node answers

pallets/handles/src/rpc/src/lib.rs. Texts of requests are Rust strings, so lists of characters here. The node asks the
runtime at its best block; `s` and `env` are the state and the environment there. Not modelled: that the call into the
runtime itself fails.
-/

namespace Verif.Handles

/-- `MAX_SUFFIXES_COUNT`, common/primitives/src/handles.rs 22. -/
def maxSuffixes : Nat := 100
/-- `DEFAULT_SUFFIX_COUNT`, common/primitives/src/handles.rs 24. -/
def defaultSuffixes : Nat := 1

/-- `HandlesRpcError`, lib.rs 70-75. -/
inductive RpcErr
  | invalidHandle
  deriving DecidableEq, Repr

/-- `get_handle_for_msa`, lib.rs 89-94: name, canonical name and suffix. -/
def rpcHandle (cfg : Config) (s : State) (m : MsaId) : Option (Bytes × Bytes × Nat) := handleForMsa cfg s m

/-- `get_next_suffixes`, lib.rs 96-111. -/
def rpcSuffixes (cfg : Config) (env : Env) (s : State) (text : Str) (count : Option Nat) : Except RpcErr (List Nat) :=
  let b := utf8Encode text
  if b.length ≤ bytesMax then .ok (nextSuffixes cfg env s b (min (count.getD defaultSuffixes) maxSuffixes))
  else .error .invalidHandle

/-- `get_msa_for_handle`, lib.rs 113-122. -/
def rpcMsa (cfg : Config) (s : State) (text : Str) : Except RpcErr (Option MsaId) :=
  let b := utf8Encode text
  if b.length ≤ displayMax then .ok (msaForHandle cfg s b) else .error .invalidHandle

/-- `validate_handle`, lib.rs 124-129: a text that is too long is replaced by the empty one. -/
def rpcValidate (cfg : Config) (text : Str) : Bool :=
  let b := utf8Encode text
  validateHandle cfg (if b.length ≤ bytesMax then b else [])

end Verif.Handles
