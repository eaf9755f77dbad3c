import Verif.Utf8
import Verif.Hash.XxHash64
/-!
# Suffix sequences of handles

`generate_unique_suffixes`, pallets/handles/src/handles-utils/src/suffix.rs 30-44.
-/

namespace Verif.Handles

/-- State of `oorandom::Rand32`. -/
structure Rand32 where
  state : Nat
  inc : Nat
deriving DecidableEq

/-- `Rand32::rand_u32` (crate `oorandom`, not part of /repo; PCG32 as published). -/
def Rand32.next (r : Rand32) : Nat × Rand32 :=
  let rot := r.state >>> 59
  let x := (((r.state >>> 18) ^^^ r.state) >>> 27) % 2 ^ 32
  (((x >>> rot) ||| (x <<< (32 - rot))) % 2 ^ 32,
   { r with state := (r.state * 6364136223846793005 + r.inc) % 2 ^ 64 })

/-- `Rand32::new`. -/
def Rand32.new (seed : Nat) : Rand32 :=
  let r0 : Rand32 := ⟨0, ((1442695040888963407 <<< 1) % 2 ^ 64) ||| 1⟩
  let r1 := r0.next.2
  ({ r1 with state := (r1.state + seed) % 2 ^ 64 } : Rand32).next.2

/-- The rejection loop of `Rand32::rand_range`, with fuel (the loop of the crate is not bounded; each
iteration ends it with probability above one half). -/
def Rand32.reject : Nat → Rand32 → (width threshold m : Nat) → Nat × Rand32
  | 0, r, _, _, m => (m, r)
  | n + 1, r, width, threshold, m =>
    if m % 2 ^ 32 < threshold then
      let (x, r') := r.next
      reject n r' width threshold (x * width)
    else (m, r)

/-- `Rand32::rand_range(lo..hi)`. -/
def Rand32.range (r : Rand32) (lo hi : Nat) : Nat × Rand32 :=
  let width := hi - lo
  let (x, r1) := r.next
  let m := x * width
  if m % 2 ^ 32 < width then
    let (m, r2) := Rand32.reject 64 r1 width ((2 ^ 32 - width) % width) m
    ((m >>> 32) + lo, r2)
  else ((m >>> 32) + lo, r1)

/-- `generate_seed`, suffix.rs 62-68: hash of the name and four zero bytes. -/
def generateSeed (canonical : Str) : Nat := XxHash64.hash 0 (utf8Encode canonical ++ [0, 0, 0, 0])

/-- `Vec::swap`. -/
def swap (l : List Nat) (i j : Nat) : List Nat :=
  match l[i]?, l[j]? with
  | some a, some b => (l.set i b).set j a
  | _, _ => l

/-- The iterator of `generate_unique_suffixes`, suffix.rs 30-44, with `k` suffixes to go; `i = lo + k`
of the preceding line is the largest of them. `i + 1` is computed in `u16` in the code, so the largest
suffix must be below 65535, see `SuffixRange.Ok`. -/
def suffixes (lo : Nat) : Nat → Rand32 → List Nat → List Nat
  | 0, _, _ => []
  | k + 1, r, indices =>
    let (j, r') := r.range lo (lo + k + 1)
    let indices' := swap indices k (j - lo)
    (indices'[k]?.getD 0) :: suffixes lo k r' indices'

/-- `generate_unique_suffixes(min, max, canonical_base)`, suffix.rs 30-44, as the list of all its items. -/
def uniqueSuffixes (lo hi : Nat) (canonical : Str) : List Nat :=
  suffixes lo (hi + 1 - lo) (Rand32.new (generateSeed canonical)) (List.range' lo (hi + 1 - lo))

/-- The values asserted in handles-utils/src/tests/suffix_tests.rs 5-23. -/
example : generateSeed "abcdefg".toList = 15079896798642598352 ∧
    generateSeed "gfedcba".toList = 9497970330616778036 ∧
    (uniqueSuffixes 10 99 "abcdefg".toList).take 10 = [23, 65, 16, 53, 25, 75, 29, 26, 10, 87] ∧
    (uniqueSuffixes 10 99 "gfedcba".toList).take 10 = [64, 95, 99, 87, 44, 74, 20, 93, 43, 46] := by
  decide +kernel

theorem Rand32.next_lt (r : Rand32) : r.next.1 < 2 ^ 32 := Nat.mod_lt _ (by decide)

theorem shift_lt {x w : Nat} (hx : x < 2 ^ 32) (hw : 0 < w) : (x * w) >>> 32 < w := by
  rw [Nat.shiftRight_eq_div_pow]
  apply Nat.div_lt_of_lt_mul
  exact Nat.mul_lt_mul_of_pos_right hx hw

theorem Rand32.reject_lt (n : Nat) : ∀ (r : Rand32) (w t m : Nat), 0 < w → m >>> 32 < w →
    (Rand32.reject n r w t m).1 >>> 32 < w := by
  induction n with
  | zero => intro r w t m _ h; exact h
  | succ n ih =>
    intro r w t m hw h
    rw [Rand32.reject]
    split
    · exact ih _ _ _ _ hw (shift_lt r.next_lt hw)
    · exact h

/-- A drawn number is in the range asked for. -/
theorem Rand32.range_mem (r : Rand32) {lo hi : Nat} (h : lo < hi) :
    lo ≤ (r.range lo hi).1 ∧ (r.range lo hi).1 < hi := by
  have hw : 0 < hi - lo := by omega
  have h1 := shift_lt r.next_lt hw
  unfold Rand32.range
  simp only
  split
  · have h2 := Rand32.reject_lt 64 r.next.2 (hi - lo) ((2 ^ 32 - (hi - lo)) % (hi - lo)) _ hw h1
    simp only
    omega
  · simp only; omega

theorem length_swap (l : List Nat) (i j : Nat) : (swap l i j).length = l.length := by
  unfold swap
  split <;> simp

theorem swap_eq {l : List Nat} {i j : Nat} (hi : i < l.length) (hj : j < l.length) :
    swap l i j = (l.set i l[j]).set j l[i] := by
  unfold swap
  rw [List.getElem?_eq_getElem hi, List.getElem?_eq_getElem hj]

theorem swap_take {l : List Nat} {i j k : Nat} (hk : k ≤ l.length) (hi : i < k) (hj : j < k) :
    ((swap l i j).take k).Perm (l.take k) := by
  have hlen : (l.take k).length = k := by simp [hk]
  rw [swap_eq (by omega) (by omega), List.take_set, List.take_set]
  have := List.set_set_perm (as := l.take k) (i := i) (j := j) (by omega) (by omega)
  simpa using this

theorem suffixes_perm (lo : Nat) (k : Nat) : ∀ (r : Rand32) (l : List Nat), k ≤ l.length →
    (suffixes lo k r l).Perm (l.take k) := by
  induction k with
  | zero => intro r l _; simp [suffixes]
  | succ k ih =>
    intro r l hk
    rw [suffixes]
    obtain ⟨h1, h2⟩ := r.range_mem (lo := lo) (hi := lo + k + 1) (by omega)
    generalize hj : (r.range lo (lo + k + 1)) = p at h1 h2
    obtain ⟨j, r'⟩ := p
    simp only at h1 h2 ⊢
    have hl := length_swap l k (j - lo)
    have hp := swap_take (l := l) (i := k) (j := j - lo) hk (by omega) (by omega)
    have hrec := ih r' (swap l k (j - lo)) (by omega)
    refine List.Perm.trans ?_ hp
    rw [List.take_succ_eq_append_getElem (by omega), List.getElem?_eq_getElem (by omega)]
    simp only [Option.getD_some]
    exact (List.Perm.cons _ hrec).trans (List.perm_append_singleton _ _).symm

/-- All values from `lo` to `hi`, in some order. -/
theorem uniqueSuffixes_perm (lo hi : Nat) (c : Str) :
    (uniqueSuffixes lo hi c).Perm (List.range' lo (hi + 1 - lo)) := by
  have := suffixes_perm lo (hi + 1 - lo) (Rand32.new (generateSeed c)) (List.range' lo (hi + 1 - lo))
    (by simp)
  rwa [List.take_of_length_le (by simp)] at this

theorem uniqueSuffixes_nodup (lo hi : Nat) (c : Str) : (uniqueSuffixes lo hi c).Nodup :=
  (uniqueSuffixes_perm lo hi c).nodup_iff.2 List.nodup_range'

theorem mem_uniqueSuffixes (lo hi : Nat) (c : Str) (x : Nat) :
    x ∈ uniqueSuffixes lo hi c ↔ lo ≤ x ∧ x ≤ hi := by
  rw [(uniqueSuffixes_perm lo hi c).mem_iff, List.mem_range'_1]
  omega

theorem length_uniqueSuffixes (lo hi : Nat) (c : Str) : (uniqueSuffixes lo hi c).length = hi + 1 - lo := by
  rw [(uniqueSuffixes_perm lo hi c).length_eq]
  simp

end Verif.Handles
