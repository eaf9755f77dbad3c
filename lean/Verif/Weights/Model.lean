import Verif.Whole.Model
/-!
# Weights of calls and of blocks

The chain of `Whole` with the weight of its blocks: `CheckWeight` of the framework, which is part of `SignedExtra`,
runtime/frequency/src/lib.rs 290-301, with the limits of runtime/frequency/src/lib.rs 395-415. A transaction whose
declared weight does not fit in what is left of the block is not included; after its dispatch the weight is corrected to
what was spent.

Only the first component of weights, the reference time in picoseconds, is modelled, and only the limit of the class
`Normal`: the limits of the second component and of the other classes would only exclude more transactions. Weights are
64-bit numbers that saturate. Those of the messages and the msa pallet are as in pallets/messages/src/weights.rs and
pallets/msa/src/weights.rs, those of other pallets are arbitrary. `max_weight` of `as_multi` is at least the weight of the call: with less the last approval fails,
and the others do what `approve_as_multi` does. What council and root decide is dispatched without transactions of
signers; it sends no messages and changes no keys.
-/

namespace Verif.Weights

open Verif.Wrapped (Call World Filter)
open Verif.Runtime (BatchKind)

/-- The greatest weight. -/
def maxWeight : Nat := 2 ^ 64 - 1

/-- `Weight::saturating_add`. -/
def satAdd (a b : Nat) : Nat := min (a + b) maxWeight

/-- `RocksDbWeight`, which runtime/frequency/src/lib.rs 456 sets: 25 microseconds for a read, 100 for a write. -/
def reads (n : Nat) : Nat := n * 25_000_000
/-- The same for writes. -/
def writes (n : Nat) : Nat := n * 100_000_000

/-- `add_onchain_message`, pallets/messages/src/weights.rs 52-62; `add_ipfs_message`, 69-77. -/
def message : Messages.Call → Nat
  | .onchain _ _ payload =>
    satAdd (satAdd (satAdd 29_247_111 (min (699 * payload.length) maxWeight)) (reads 3)) (writes 1)
  | .ipfs .. => satAdd (satAdd 29_152_000 (reads 2)) (writes 1)

/-- Calls of the msa pallet: pallets/msa/src/weights.rs 59-251, used by pallets/msa/src/lib.rs 426-894. -/
def account : Msa.Call → Nat
  | .create => satAdd (satAdd 12_726_000 (reads 3)) (writes 3)
  | .createSponsoredAccountWithDelegation _ _ p =>
    satAdd (satAdd (satAdd 101_474_765 (min (115_206 * p.schemaIds.length) maxWeight)) (reads 10)) (writes 7)
  | .createProvider _ => satAdd (satAdd 10_839_000 (reads 2)) (writes 1)
  | .grantDelegation _ _ p =>
    satAdd (satAdd (satAdd 91_787_134 (min (128_867 * p.schemaIds.length) maxWeight)) (reads 8)) (writes 4)
  | .revokeDelegationByDelegator _ => satAdd (satAdd 13_964_000 (reads 2)) (writes 1)
  | .addPublicKeyToMsa .. => satAdd (satAdd 144_951_000 (reads 8)) (writes 7)
  | .deleteMsaPublicKey _ => satAdd (satAdd 26_517_000 (reads 3)) (writes 2)
  | .revokeDelegationByProvider _ => satAdd (satAdd 13_692_000 (reads 2)) (writes 1)
  | .revokeSchemaPermissions _ ids =>
    satAdd (satAdd (satAdd 17_394_598 (min (107_947 * ids.length) maxWeight)) (reads 3)) (writes 1)
  | .retireMsa => satAdd (satAdd 19_128_000 (reads 2)) (writes 2)
  | .proposeToBeProvider _ => satAdd (satAdd 19_347_000 (reads 4)) (writes 4)
  | .createProviderViaGovernance .. => satAdd (satAdd 10_955_000 (reads 2)) (writes 1)

/-- `ExtrinsicBaseWeight`, runtime/common/src/weights/extrinsic_weights.rs 55-56. -/
def base : Nat := 59_307_000

/-- `NORMAL_DISPATCH_RATIO * MAXIMUM_BLOCK_WEIGHT`, runtime/common/src/constants.rs 64-69 and
runtime/frequency/src/lib.rs 403-405: three quarters of half a second. -/
def normalLimit : Nat := 375_000_000_000

/-- Classes of calls. -/
inductive Class where
  | normal | operational | mandatory
  deriving DecidableEq, Repr

/-- Weights and classes that the theorems do not depend on: of calls of other pallets that do not execute calls, and of
calls that execute calls what they add to those, as declared and as spent. -/
structure Prices where
  single : Call → Nat
  cls : Call → Class
  adds : Call → Nat
  keeps : Call → Nat
  /-- `pre_dispatch`, pallets/passkey/src/weights.rs 55-63 -/
  passkey : Nat

mutual
/-- The declared weight: wrappers add something to the weight of their calls. `pay_with_capacity` and
`pay_with_capacity_batch_all`, pallets/frequency-tx-payment/src/lib.rs 190-195 and 208-217; the others are of the
framework. -/
def weight (P : Prices) (c : Call) : Nat :=
  match c with
  | .leaf (.messages m) => message m
  | .leaf (.msa m) => account m
  | .proxy _ _ i => satAdd (P.adds c) (weight P i)
  | .proxyAnnounced _ _ _ i => satAdd (P.adds c) (weight P i)
  | .batch _ calls => satAdd (P.adds c) (weightL P calls)
  | .asDerivative _ i => satAdd (P.adds c) (weight P i)
  | .payWithCapacity i => satAdd (P.adds c) (weight P i)
  | .payWithCapacityBatchAll calls => satAdd (P.adds c) (weightL P calls)
  | .multiThreshold1 _ i => satAdd (P.adds c) (weight P i)
  | .multi _ _ i => satAdd (P.adds c) (weight P i)
  | c => P.single c
/-- The sum for a list of calls. -/
def weightL (P : Prices) : List Call → Nat
  | [] => 0
  | c :: cs => satAdd (weight P c) (weightL P cs)
end

mutual
/-- The class of a call: calls of the messages and the msa pallet are `Normal`, pallets/messages/src/lib.rs 198 and 250,
pallets/msa/src/lib.rs 426-894;
wrappers have the class of their call, except that batches are `Operational` if all their calls are and `Normal`
otherwise, and `as_multi` and `pay_with_capacity_batch_all` are `Normal`. -/
def cls (P : Prices) (c : Call) : Class :=
  match c with
  | .leaf (.messages _) => .normal
  | .leaf (.msa _) => .normal
  | .proxy _ _ i => cls P i
  | .proxyAnnounced _ _ _ i => cls P i
  | .batch _ calls => if allOperational P calls then .operational else .normal
  | .asDerivative _ i => cls P i
  | .payWithCapacity i => cls P i
  | .payWithCapacityBatchAll _ => .normal
  | .multiThreshold1 _ i => cls P i
  | .multi .. => .normal
  | c => P.cls c
/-- Whether all calls are `Operational`. -/
def allOperational (P : Prices) : List Call → Bool
  | [] => true
  | c :: cs => decide (cls P c = .operational) && allOperational P cs
end

mutual
/-- The weight that is spent: wrappers that report what their calls spent, and those that do not (`proxy`,
`proxy_announced`). The dispatch is that of `Wrapped.exec`. -/
def spent (P : Prices) (cfg : Wrapped.Config) (env : TimeRelease.Env) (flt : Filter) (who : AccountId) (c : Call)
    (w : World) : Nat :=
  if flt c then
    match c with
    | .batch k calls => satAdd (P.keeps c) (spentL P cfg env k (Wrapped.batchFilter k flt) who calls w)
    | .asDerivative index i => satAdd (P.keeps c) (spent P cfg env flt (cfg.derive who index) i w)
    -- the result of the call is passed on as it is
    | .payWithCapacity i => spent P cfg env flt who i w
    | .payWithCapacityBatchAll calls =>
      satAdd (P.keeps c) (spentL P cfg env .batchAll (Wrapped.batchFilter .batchAll flt) who calls w)
    | .multiThreshold1 others i => match Wrapped.members who others with
      | some all => satAdd (P.keeps c) (spent P cfg env (Wrapped.base cfg) (cfg.multi all 1) i w)
      | none => P.keeps c
    | .multi threshold others i => match Wrapped.operate cfg who w threshold others (cfg.hash i) with
      | some (id, w1, true) => satAdd (P.keeps c) (spent P cfg env (Wrapped.base cfg) id i w1)
      | _ => P.keeps c
    | c => weight P c
  else weight P c
/-- What a list of calls spends, as far as it is executed. -/
def spentL (P : Prices) (cfg : Wrapped.Config) (env : TimeRelease.Env) (k : BatchKind) (flt : Filter) (who : AccountId)
    (calls : List Call) (w : World) : Nat :=
  match calls with
  | [] => 0
  | c :: cs => match Wrapped.exec cfg env flt who c w with
    | some w' => satAdd (spent P cfg env flt who c w) (spentL P cfg env k flt who cs w')
    | none => match k with
      | .forceBatch => satAdd (spent P cfg env flt who c w) (spentL P cfg env k flt who cs w)
      | _ => spent P cfg env flt who c w
end

/-- The chain, and the weight of class `Normal` that its current block has used. -/
structure State where
  chain : Wrapped.State
  used : Nat

/-- `CheckWeight` before and after a dispatch: whether there is room, and what is used then. The weight spent counts up
to the weight declared. -/
def room (c : Class) (used declared spent : Nat) : Option Nat :=
  if c = .normal then
    if used + (base + declared) ≤ normalLimit then some (used + (base + min spent declared)) else none
  else some used

/-- A signed transaction. -/
def submit (P : Prices) (cfg : Wrapped.Config) (s : State) (t : Wrapped.Signed) : State :=
  match Wrapped.takeIn cfg s.chain t with
  | none => s
  | some s1 =>
    match room (cls P t.call) s.used (weight P t.call) (spent P cfg t.env (Wrapped.base cfg) t.who t.call s1.world) with
    | none => s
    | some used => ⟨Wrapped.submit cfg s.chain t, used⟩

/-- A passkey transaction: weight and class are declared in pallets/passkey/src/lib.rs 121-126; the result of the call is
passed on. -/
def passkey (P : Prices) (cfg : Whole.Config) (s : State) (env : TimeRelease.Env) (fee : Balance) (p : Whole.Payload) :
    State :=
  match Whole.preDispatch cfg s.chain fee p with
  | none => s
  | some s1 =>
    match room (cls P p.call) s.used (satAdd P.passkey (weight P p.call))
        (spent P cfg.wrapped env (Wrapped.base cfg.wrapped) p.account p.call s1.world) with
    | none => s
    | some used => ⟨Whole.passkey cfg s.chain env fee p, used⟩

/-- Events; a block begins with nothing used (it begins with more, which would leave less room). -/
def apply (P : Prices) (cfg : Whole.Config) (s : State) : Whole.Event → State
  | .signed (.submit t) => submit P cfg.wrapped s t
  | .signed .newBlock => ⟨Whole.apply cfg s.chain (.signed .newBlock), 0⟩
  | .passkey env fee p => passkey P cfg s env fee p
  | e => ⟨Whole.apply cfg s.chain e, s.used⟩

/-- A history. -/
def run (P : Prices) (cfg : Whole.Config) (s : State) (h : List Whole.Event) : State := h.foldl (apply P cfg) s

end Verif.Weights
