import Verif.Prelude
/-!
# Model of the MSA payload signature registry

Source: `pallets/msa/src/lib.rs` (`register_signature` 1380-1397, `enqueue_signature`
1400-1461, `mortality_block_limit` 1466-1469) and `pallets/msa/src/types.rs`
(`SignatureRegistryPointer`).
-/

namespace Verif.SigRegistry

/-- Errors the registry can return: `pallets/msa/src/lib.rs` 1384-1432. -/
inductive RegError
  | proofNotYetValid
  | proofHasExpired
  | signatureAlreadySubmitted
  | signatureRegistryLimitExceeded
  | signatureRegistryCorrupted
  deriving DecidableEq, Repr

/-- `SignatureRegistryPointer`, common/primitives/src/signatures or
`pallets/msa/src/lib.rs` 1406-1412 and 1449-1458. -/
structure Pointer where
  newest : Signature
  newestExpiresAt : BlockNumber
  oldest : Signature
  count : Nat
  deriving DecidableEq, Repr

/-- The two storage items `PayloadSignatureRegistryList` (lib.rs 209-219) and
`PayloadSignatureRegistryPointer` (lib.rs 221-227). -/
structure Registry where
  list : SMap Signature (BlockNumber × Signature)
  ptr : Option Pointer

/-- Empty registry at genesis. -/
def Registry.init : Registry := ⟨∅, none⟩

/-- `mortality_block_limit`, lib.rs 1466-1469. Simplified: no `u32` overflow. -/
def mortalityLimit (window : Nat) (current : BlockNumber) : BlockNumber := current + window

/-- `enqueue_signature`, lib.rs 1400-1461. `cap` is `T::MaxSignaturesStored::get().unwrap_or(0)`. -/
def enqueue (cap : Nat) (reg : Registry) (sig : Signature) (expires current : BlockNumber) :
    Except RegError Registry := do
  let pointer := reg.ptr.getD ⟨sig, expires, sig, 0⟩
  ensure (¬ (pointer.count ≠ 0 ∧ pointer.newest = sig)) .signatureAlreadySubmitted
  if pointer.count = cap then
    let (expireBlock, nextOldest) ←
      okOr (reg.list.get pointer.oldest) .signatureRegistryCorrupted
    ensure (current > expireBlock) .signatureRegistryLimitExceeded
    let list1 := reg.list.erase pointer.oldest
    let list2 := if pointer.count ≠ 0 then
      list1.insert pointer.newest (pointer.newestExpiresAt, sig) else list1
    pure ⟨list2, some ⟨sig, expires, nextOldest, pointer.count⟩⟩
  else
    let list2 := if pointer.count ≠ 0 then
      reg.list.insert pointer.newest (pointer.newestExpiresAt, sig) else reg.list
    pure ⟨list2, some ⟨sig, expires, pointer.oldest, pointer.count + 1⟩⟩

/-- `register_signature`, lib.rs 1380-1397. -/
def register (window cap : Nat) (reg : Registry) (current : BlockNumber) (sig : Signature) (expires : BlockNumber) :
    Except RegError Registry := do
  ensure (mortalityLimit window current > expires) .proofNotYetValid
  ensure (current < expires) .proofHasExpired
  ensure (reg.list.contains sig = false) .signatureAlreadySubmitted
  enqueue cap reg sig expires current

end Verif.SigRegistry
