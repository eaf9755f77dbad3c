import Verif.Scale
/-!
# The query for missing nonces

`node/service/src/rpc/frequency_rpc.rs`. The transaction pool is modelled by what the query reads of it: the tags
each transaction provides. Simplified: nonces are unbounded, in the code they are of type `u32`.
-/

namespace Verif.NonceRpc

/-- A transaction of the pool: `InPoolTransaction::provides`. -/
structure PoolTx where
  provides : List Bytes

/-- `MAX_RETURNED_MISSING_NONCE_SIZE`, frequency_rpc.rs 27. -/
def maxReturned : Nat := 1000

/-- Encoding of an account (32 bytes) and a nonce, the tag that `CheckNonce::validate` provides. -/
def tag (account : Bytes) (nonce : Nat) : Bytes := account ++ Scale.u32 nonce

/-- The loop over ready transactions, frequency_rpc.rs 98-105. -/
def skipReady (account : Bytes) (nonce : Nat) (ready : List PoolTx) : Nat :=
  ready.foldl (fun cur tx => if tx.provides.head? = some (tag account cur) then cur + 1 else cur) nonce

/-- Nonce of a transaction of this account, frequency_rpc.rs 111-120. -/
def futureNonce (account : Bytes) (tx : PoolTx) : Option Nat :=
  match tx.provides.head? with
  | some t => if account <+: t then (Scale.decLe 4 (t.drop account.length)).map Prod.fst else none
  | none => none

/-- Insertion into a sorted list. -/
def insertNat (x : Nat) : List Nat → List Nat
  | [] => [x]
  | y :: ys => if x ≤ y then x :: y :: ys else y :: insertNat x ys

/-- `Vec::sort` on numbers, frequency_rpc.rs 122. -/
def sortNat (l : List Nat) : List Nat := l.foldr insertNat []

/-- The inner loop, frequency_rpc.rs 125-133, of `k` rounds: the result so far, the current nonce and whether the
limit was reached. -/
def fill (limit : Nat) : Nat → List Nat → Nat → List Nat × Nat × Bool
  | 0, acc, cur => (acc, cur, false)
  | k + 1, acc, cur =>
    if (acc ++ [cur]).length = limit then (acc ++ [cur], cur + 1, true) else fill limit k (acc ++ [cur]) (cur + 1)

/-- The outer loop, frequency_rpc.rs 124-137. -/
def scan (limit : Nat) : List Nat → List Nat → Nat → List Nat
  | [], acc, _ => acc
  | f :: fs, acc, cur =>
    match fill limit (f - cur) acc cur with
    | (acc, _, true) => acc
    | (acc, cur, false) => scan limit fs acc (cur + 1)

/-- `get_missing_nonces`, frequency_rpc.rs 83-140. -/
def getMissingNonces (account : Bytes) (nonce : Nat) (ready futures : List PoolTx) : List Nat :=
  scan maxReturned (sortNat (futures.filterMap (futureNonce account))) [] (skipReady account nonce ready)

end Verif.NonceRpc
