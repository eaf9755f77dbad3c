import Verif.Prelude
/-!
# XxHash64

The hash function `twox_hash::XxHash64` used by `generate_seed` of the handle utilities
(pallets/handles/src/handles-utils/src/suffix.rs 46-52) and, in pairs, by the `twox_64`/`twox_128`
storage hashers. The crate is not part of /repo; this follows the published algorithm. It is checked
against the values asserted in handles-utils/src/tests/suffix_tests.rs 5-8, see `Verif.Handles.Suffix`.
-/

namespace Verif.XxHash64

/-- Constants of the algorithm. -/
def p1 : Nat := 11400714785074694791
/-- Constants of the algorithm. -/
def p2 : Nat := 14029467366897019727
/-- Constants of the algorithm. -/
def p3 : Nat := 1609587929392839161
/-- Constants of the algorithm. -/
def p4 : Nat := 9650029242287828579
/-- Constants of the algorithm. -/
def p5 : Nat := 2870177450012600261

/-- Wrap to 64 bits. -/
def w64 (x : Nat) : Nat := x % 2 ^ 64

/-- Rotate left. -/
def rotl (x r : Nat) : Nat := w64 ((x <<< r) ||| (x >>> (64 - r)))

/-- One round of an accumulator. -/
def round (acc input : Nat) : Nat := w64 (rotl (w64 (acc + input * p2)) 31 * p1)

/-- Little-endian value of bytes. -/
def le (bs : Bytes) : Nat := bs.foldr (fun b acc => b.toNat + 256 * acc) 0

/-- The four accumulators over whole stripes of 32 bytes; returns them with the rest of the input. The
first argument is fuel. -/
def stripes : Nat → Nat × Nat × Nat × Nat → Bytes → (Nat × Nat × Nat × Nat) × Bytes
  | 0, v, bs => (v, bs)
  | n + 1, (a, b, c, d), bs =>
    if bs.length < 32 then ((a, b, c, d), bs) else
    stripes n (round a (le (bs.take 8)), round b (le ((bs.drop 8).take 8)),
      round c (le ((bs.drop 16).take 8)), round d (le ((bs.drop 24).take 8))) (bs.drop 32)

/-- Merge an accumulator. -/
def mergeAcc (h v : Nat) : Nat := w64 ((h ^^^ round 0 v) * p1 + p4)

/-- Whole words of 8 bytes. -/
def words : Nat → Nat → Bytes → Nat × Bytes
  | 0, h, bs => (h, bs)
  | n + 1, h, bs =>
    if bs.length < 8 then (h, bs) else
    words n (w64 (rotl (h ^^^ round 0 (le (bs.take 8))) 27 * p1 + p4)) (bs.drop 8)

/-- At most one half word. -/
def half (h : Nat) (bs : Bytes) : Nat × Bytes :=
  if bs.length < 4 then (h, bs)
  else (w64 (rotl (h ^^^ w64 (le (bs.take 4) * p1)) 23 * p2 + p3), bs.drop 4)

/-- Remaining bytes. -/
def tail (h : Nat) (bs : Bytes) : Nat :=
  bs.foldl (fun h b => w64 (rotl (h ^^^ w64 (b.toNat * p5)) 11 * p1)) h

/-- Final mixing. -/
def avalanche (h : Nat) : Nat :=
  let h := w64 ((h ^^^ (h >>> 33)) * p2)
  let h := w64 ((h ^^^ (h >>> 29)) * p3)
  h ^^^ (h >>> 32)

/-- The hash of `bs` with the given seed. -/
def hash (seed : Nat) (bs : Bytes) : Nat :=
  let start : Nat × Bytes :=
    if bs.length < 32 then (w64 (seed + p5), bs)
    else
      let r := stripes bs.length (w64 (seed + p1 + p2), w64 (seed + p2), w64 seed, w64 (seed + 2 ^ 64 - p1)) bs
      let (a, b, c, d) := r.1
      let h := w64 (rotl a 1 + rotl b 7 + rotl c 12 + rotl d 18)
      (mergeAcc (mergeAcc (mergeAcc (mergeAcc h a) b) c) d, r.2)
  let r := words bs.length (w64 (start.1 + bs.length)) start.2
  let r := half r.1 r.2
  avalanche (tail r.1 r.2)

end Verif.XxHash64
