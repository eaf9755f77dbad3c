import Verif.Offchain.Model
import Mathlib.Tactic.FinCases
import Mathlib.Data.Fintype.Basic
import Mathlib.Data.Fintype.Defs
/-!
# Off-chain storage keys never collide (C18)
-/

namespace Verif.Offchain

/-- Value of a string of decimal digits. -/
def undecimal (bs : Bytes) : Nat := bs.foldl (fun acc b => acc * 10 + (b.toNat - 48)) 0

theorem undecimal_decimal (n : Nat) : undecimal (decimal n) = n := by
  induction n using Nat.strongRecOn with
  | _ n ih =>
    unfold decimal
    split
    · rename_i h
      simp only [undecimal, List.foldl_cons, List.foldl_nil, UInt8.toNat_ofNat']
      omega
    · rename_i h
      have := ih (n / 10) (by omega)
      unfold undecimal at *
      rw [List.foldl_append, this]
      simp only [List.foldl_cons, List.foldl_nil, UInt8.toNat_ofNat']
      omega

theorem decimal_inj {m n : Nat} (h : decimal m = decimal n) : m = n := by
  rw [← undecimal_decimal m, h, undecimal_decimal]

/-- Everything the off-chain worker stores, named by what it is for. -/
inductive Slot
  | event (block i : Nat)
  | count (block : Nat)
  | keys (m : MsaId)
  | lock (m : MsaId)
  | fixed (i : Fin 4)
  deriving DecidableEq

/-- Arguments fit the Rust types (`u32` block, `u16` position). -/
def Slot.WT : Slot → Prop
  | .event block i => block < 2 ^ 32 ∧ i < 2 ^ 16
  | .count block => block < 2 ^ 32
  | _ => True

/-- The byte string used as storage key. -/
def Slot.bytes : Slot → Bytes
  | .event block i => eventKey block i
  | .count block => countKey block
  | .keys m => keysName m
  | .lock m => lockName m
  | .fixed i => fixedNames[i.val]'(by have := i.isLt; simp [fixedNames])

/-- C18: for all block numbers, event positions and account ids, distinct slots have distinct storage
keys (events, counters, key lists, locks and the four fixed names). -/
theorem C18_storage_keys_distinct (a b : Slot) (ha : a.WT) (hb : b.WT) (h : a.bytes = b.bytes) :
    a = b := by
  have hd : ∀ n, decimal n ≠ [] := by
    intro n e
    unfold decimal at e
    split at e <;> simp at e
  cases a with
  | event b1 i1 =>
    cases b with
    | event b2 i2 =>
      simp only [Slot.bytes, eventKey, Scale.u32, Scale.u16] at h
      have h := List.append_cancel_left h
      obtain ⟨h1, h2⟩ := List.append_inj h (by simp [Scale.length_leBytes])
      simp only [Slot.WT] at ha hb
      rw [Scale.leBytes_inj (k := 4) (by omega) (by omega) h1,
        Scale.leBytes_inj (k := 2) (by omega) (by omega) h2]
    | count b2 =>
      have := congrArg List.length h
      simp [Slot.bytes, eventKey, countKey, Scale.u32, Scale.u16, Scale.length_leBytes,
        blockEventPrefix, blockEventCountPrefix] at this
    | keys m => simp [Slot.bytes, eventKey, keysName, blockEventPrefix, keysPrefix] at h
    | lock m => simp [Slot.bytes, eventKey, lockName, blockEventPrefix, lockPrefix] at h
    | fixed i => fin_cases i <;> simp [Slot.bytes, eventKey, fixedNames, blockEventPrefix] at h
  | count b1 =>
    cases b with
    | event b2 i2 =>
      have := congrArg List.length h
      simp [Slot.bytes, eventKey, countKey, Scale.u32, Scale.u16, Scale.length_leBytes,
        blockEventPrefix, blockEventCountPrefix] at this
    | count b2 =>
      simp only [Slot.bytes, countKey, Scale.u32] at h
      have h := List.append_cancel_left h
      simp only [Slot.WT] at ha hb
      rw [Scale.leBytes_inj (k := 4) (by omega) (by omega) h]
    | keys m => simp [Slot.bytes, countKey, keysName, blockEventCountPrefix, keysPrefix] at h
    | lock m => simp [Slot.bytes, countKey, lockName, blockEventCountPrefix, lockPrefix] at h
    | fixed i => fin_cases i <;> simp [Slot.bytes, countKey, fixedNames, blockEventCountPrefix] at h
  | keys m1 =>
    cases b with
    | event b2 i2 => simp [Slot.bytes, eventKey, keysName, blockEventPrefix, keysPrefix] at h
    | count b2 => simp [Slot.bytes, countKey, keysName, blockEventCountPrefix, keysPrefix] at h
    | keys m2 =>
      simp only [Slot.bytes, keysName] at h
      rw [decimal_inj (List.append_cancel_left h)]
    | lock m2 => simp [Slot.bytes, lockName, keysName, lockPrefix, keysPrefix] at h
    | fixed i => fin_cases i <;> simp [Slot.bytes, keysName, fixedNames, keysPrefix] at h
  | lock m1 =>
    cases b with
    | event b2 i2 => simp [Slot.bytes, eventKey, lockName, blockEventPrefix, lockPrefix] at h
    | count b2 => simp [Slot.bytes, countKey, lockName, blockEventCountPrefix, lockPrefix] at h
    | keys m2 => simp [Slot.bytes, lockName, keysName, lockPrefix, keysPrefix] at h
    | lock m2 =>
      simp only [Slot.bytes, lockName] at h
      rw [decimal_inj (List.append_cancel_left h)]
    | fixed i => fin_cases i <;> simp [Slot.bytes, lockName, fixedNames, lockPrefix] at h
  | fixed i =>
    cases b with
    | event b2 i2 => fin_cases i <;> simp [Slot.bytes, eventKey, fixedNames, blockEventPrefix] at h
    | count b2 => fin_cases i <;> simp [Slot.bytes, countKey, fixedNames, blockEventCountPrefix] at h
    | keys m2 => fin_cases i <;> simp [Slot.bytes, keysName, fixedNames, keysPrefix] at h
    | lock m2 => fin_cases i <;> simp [Slot.bytes, lockName, fixedNames, lockPrefix] at h
    | fixed j =>
      fin_cases i <;> fin_cases j <;> first
        | rfl
        | (simp [Slot.bytes, fixedNames] at h)

/-- Event 6 of block 0x74 and the counter of a block differ although one prefix extends the other. -/
example : (Slot.event 116 6).WT ∧ (Slot.count 7).WT ∧
    (Slot.event 116 6).bytes ≠ (Slot.count 7).bytes ∧ decimal 2000000 = [50, 48, 48, 48, 48, 48, 48] := by
  refine ⟨⟨by decide, by decide⟩, by simp [Slot.WT], by decide, ?_⟩
  simp [decimal]

end Verif.Offchain
