import Verif.Prelude
/-!
# Base 32

RFC 4648 with lower-case letters and without padding, prefixed by `b`: `multibase::encode(Base::Base32Lower, ..)`
as used in pallets/messages/src/types.rs 64. The crate is not part of the repository; this follows the RFC.
-/

namespace Verif.Base32

/-- The eight bits of a byte, most significant first. -/
def bitsOf (b : UInt8) : List Bool :=
  [b.toNat.testBit 7, b.toNat.testBit 6, b.toNat.testBit 5, b.toNat.testBit 4,
   b.toNat.testBit 3, b.toNat.testBit 2, b.toNat.testBit 1, b.toNat.testBit 0]

/-- The bits of a byte string. -/
def toBits (bs : Bytes) : List Bool := bs.flatMap bitsOf

/-- Value of a list of bits. -/
def val (l : List Bool) : Nat := l.foldl (fun a b => 2 * a + b.toNat) 0

/-- Groups of five bits, the last one filled with zeros. -/
def chunks5 : List Bool → List Nat
  | a :: b :: c :: d :: e :: r => val [a, b, c, d, e] :: chunks5 r
  | [a, b, c, d] => [val [a, b, c, d, false]]
  | [a, b, c] => [val [a, b, c, false, false]]
  | [a, b] => [val [a, b, false, false, false]]
  | [a] => [val [a, false, false, false, false]]
  | [] => []

/-- The alphabet: `a` to `z`, `2` to `7`. -/
def symbol (n : Nat) : UInt8 := if n < 26 then UInt8.ofNat (97 + n) else UInt8.ofNat (24 + n)

/-- Encoding with the multibase prefix `b`. -/
def encode (bs : Bytes) : Bytes := 98 :: (chunks5 (toBits bs)).map symbol

/-- Value of a symbol. -/
def value (b : UInt8) : Option Nat :=
  if 97 ≤ b.toNat ∧ b.toNat ≤ 122 then some (b.toNat - 97)
  else if 50 ≤ b.toNat ∧ b.toNat ≤ 55 then some (b.toNat - 24)
  else none

/-- Five bits of a number below 32. -/
def bits5 (n : Nat) : List Bool := [n.testBit 4, n.testBit 3, n.testBit 2, n.testBit 1, n.testBit 0]

/-- Bytes of a list of bits, an incomplete last one dropped. -/
def chunks8 : List Bool → Bytes
  | a :: b :: c :: d :: e :: f :: g :: h :: r => UInt8.ofNat (val [a, b, c, d, e, f, g, h]) :: chunks8 r
  | _ => []

/-- Decoding: the values of the symbols. -/
def values : Bytes → Option (List Nat)
  | [] => some []
  | b :: r => do
    let v ← value b
    let vs ← values r
    pure (v :: vs)

/-- Decoding. -/
def decode : Bytes → Option Bytes
  | [] => none
  | p :: r => if p = 98 then (values r).map (fun vs => chunks8 (vs.flatMap bits5)) else none

theorem bits5_val (a b c d e : Bool) : bits5 (val [a, b, c, d, e]) = [a, b, c, d, e] := by
  cases a <;> cases b <;> cases c <;> cases d <;> cases e <;> decide

theorem val5_lt (a b c d e : Bool) : val [a, b, c, d, e] < 32 := by
  cases a <;> cases b <;> cases c <;> cases d <;> cases e <;> decide

theorem chunks5_lt (l : List Bool) : ∀ n ∈ chunks5 l, n < 32 := by
  intro n hn
  fun_induction chunks5 l with
  | case1 a b c d e r ih =>
    rcases List.mem_cons.1 hn with rfl | hn
    · exact val5_lt ..
    · exact ih hn
  | case2 => simp only [List.mem_singleton] at hn; subst hn; exact val5_lt ..
  | case3 => simp only [List.mem_singleton] at hn; subst hn; exact val5_lt ..
  | case4 => simp only [List.mem_singleton] at hn; subst hn; exact val5_lt ..
  | case5 => simp only [List.mem_singleton] at hn; subst hn; exact val5_lt ..
  | case6 => simp at hn

theorem bits5_chunks5 (l : List Bool) : ∃ z, (chunks5 l).flatMap bits5 = l ++ z ∧ z.length < 5 := by
  fun_induction chunks5 l with
  | case1 a b c d e r ih =>
    obtain ⟨z, h, hl⟩ := ih
    exact ⟨z, by simp [List.flatMap_cons, bits5_val, h], hl⟩
  | case2 a b c d => exact ⟨[false], by simp [bits5_val], by simp⟩
  | case3 a b c => exact ⟨[false, false], by simp [bits5_val], by simp⟩
  | case4 a b => exact ⟨[false, false, false], by simp [bits5_val], by simp⟩
  | case5 a => exact ⟨[false, false, false, false], by simp [bits5_val], by simp⟩
  | case6 => exact ⟨[], by simp, by simp⟩

theorem value_symbol (n : Nat) (h : n < 32) : value (symbol n) = some n := by
  have : ∀ n : Fin 32, value (symbol n) = some n.val := by decide +kernel
  exact this ⟨n, h⟩

theorem values_map (l : List Nat) (h : ∀ n ∈ l, n < 32) : values (l.map symbol) = some l := by
  induction l with
  | nil => rfl
  | cons a r ih =>
    simp [values, value_symbol a (h a (by simp)), ih (fun n hn => h n (by simp [hn]))]

theorem val_bitsOf (b : UInt8) : UInt8.ofNat (val (bitsOf b)) = b := by
  have h : ∀ n : Fin 256, UInt8.ofNat (val (bitsOf (UInt8.ofNat n))) = UInt8.ofNat n := by decide +kernel
  have := h ⟨b.toNat, b.toNat_lt⟩
  simpa using this

theorem chunks8_toBits (bs : Bytes) (z : List Bool) (hz : z.length < 8) : chunks8 (toBits bs ++ z) = bs := by
  induction bs with
  | nil =>
    simp only [toBits, List.flatMap_nil, List.nil_append]
    unfold chunks8
    split
    · simp at hz
      omega
    · rfl
  | cons b r ih =>
    have : toBits (b :: r) ++ z = bitsOf b ++ (toBits r ++ z) := by simp [toBits, List.flatMap_cons]
    rw [this]
    simp only [bitsOf, List.cons_append, List.nil_append, chunks8]
    rw [ih]
    congr 1
    exact val_bitsOf b

/-- Decoding inverts encoding. -/
theorem decode_encode (bs : Bytes) : decode (encode bs) = some bs := by
  obtain ⟨z, h, hl⟩ := bits5_chunks5 (toBits bs)
  simp only [encode, decode, if_true, values_map _ (chunks5_lt _), Option.map_some, h]
  rw [chunks8_toBits _ _ (by omega)]

/-- The examples of RFC 4648, section 10, in lower case without padding. -/
example : encode [0x66] = 98 :: [109, 121] ∧
    encode [0x66, 0x6f, 0x6f, 0x62, 0x61, 0x72] = "bmzxw6ytboi".toList.map (fun c => UInt8.ofNat c.toNat) := by
  decide +kernel

end Verif.Base32
