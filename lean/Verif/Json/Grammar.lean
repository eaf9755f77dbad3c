import Verif.Utf8
/-!
# The grammar of JSON

RFC 8259, independently of any parser: which texts are JSON and what they denote. Numbers denote themselves. A value
has a bound on how deeply lists and objects are nested in it.
-/

namespace Verif.Json

/-- A JSON value, with numbers as written and all members of objects in order. -/
inductive Value where
  | null
  | bool (b : Bool)
  | num (text : Bytes)
  | str (s : Bytes)
  | arr (l : List Value)
  | obj (l : List (Bytes × Value))

/-- White space, section 2: space, line feed, tab, carriage return. -/
def White (w : Bytes) : Prop := ∀ b ∈ w, b = 32 ∨ b = 10 ∨ b = 9 ∨ b = 13

/-- Decimal digits. -/
def Digits (t : Bytes) : Prop := ∀ b ∈ t, 48 ≤ b.toNat ∧ b.toNat ≤ 57

/-- At least one decimal digit. -/
def Digits1 (t : Bytes) : Prop := t ≠ [] ∧ Digits t

/-- The integer part of a number, section 6: zero, or digits of which the first is not zero. -/
def IntText (t : Bytes) : Prop := t = [48] ∨ (Digits1 t ∧ t.head? ≠ some 48)

/-- The fraction: nothing, or a point and digits. -/
def FracText (t : Bytes) : Prop := t = [] ∨ ∃ u, t = 46 :: u ∧ Digits1 u

/-- The exponent: nothing, or `e` or `E`, perhaps a sign, and digits. -/
def ExpText (t : Bytes) : Prop :=
  t = [] ∨ ∃ e g u, t = e :: (g ++ u) ∧ (e = 101 ∨ e = 69) ∧ (g = [] ∨ g = [43] ∨ g = [45]) ∧ Digits1 u

/-- A number, section 6. -/
def NumText (t : Bytes) : Prop :=
  ∃ g i f e, t = g ++ (i ++ (f ++ e)) ∧ (g = [] ∨ g = [45]) ∧ IntText i ∧ FracText f ∧ ExpText e

/-- The sixteen hexadecimal digits, small and capital. -/
inductive HexDigit : UInt8 → Nat → Prop where
  | digit (n : Nat) : n < 10 → HexDigit (UInt8.ofNat (48 + n)) n
  | capital (n : Nat) : 10 ≤ n → n < 16 → HexDigit (UInt8.ofNat (55 + n)) n
  | small (n : Nat) : 10 ≤ n → n < 16 → HexDigit (UInt8.ofNat (87 + n)) n

/-- Four hexadecimal digits. -/
def Hex4 (t : Bytes) (n : Nat) : Prop :=
  ∃ a b c d i j k l, t = [a, b, c, d] ∧ HexDigit a i ∧ HexDigit b j ∧ HexDigit c k ∧ HexDigit d l ∧
    n = ((i * 16 + j) * 16 + k) * 16 + l

/-- The escapes of two characters, section 7, and what they stand for. -/
def shortEscapes : List (UInt8 × UInt8) :=
  [(34, 34), (92, 92), (47, 47), (98, 8), (102, 12), (110, 10), (114, 13), (116, 9)]

/-- What is between the quotation marks of a string, section 7, and what it denotes. -/
inductive StrText : Bytes → Bytes → Prop where
  | nil : StrText [] []
  | plain {b : UInt8} {t s : Bytes} : 32 ≤ b.toNat → b ≠ 34 → b ≠ 92 → StrText t s → StrText (b :: t) (b :: s)
  | short {e c : UInt8} {t s : Bytes} : (e, c) ∈ shortEscapes → StrText t s → StrText (92 :: e :: t) (c :: s)
  /-- `\u` and a number that is not a surrogate -/
  | code {h : Bytes} {n : Nat} {t s : Bytes} : Hex4 h n → ¬ (0xD800 ≤ n ∧ n ≤ 0xDFFF) → StrText t s →
      StrText (92 :: 117 :: (h ++ t)) (String.utf8EncodeChar (Char.ofNat n) ++ s)
  /-- two surrogates -/
  | pair {h g : Bytes} {n m : Nat} {t s : Bytes} : Hex4 h (0xD800 + n) → n < 1024 → Hex4 g (0xDC00 + m) → m < 1024 →
      StrText t s →
      StrText (92 :: 117 :: (h ++ 92 :: 117 :: (g ++ t)))
        (String.utf8EncodeChar (Char.ofNat (0x10000 + n * 1024 + m)) ++ s)

mutual
/-- A value, section 3, nested at most as deeply as the number says. Whether a number is acceptable is a parameter
(implementations may limit the range of numbers, section 6). -/
inductive Doc (inRange : Bytes → Bool) : Nat → Bytes → Value → Prop where
  | null (k : Nat) : Doc inRange k [110, 117, 108, 108] .null
  | true (k : Nat) : Doc inRange k [116, 114, 117, 101] (.bool true)
  | false (k : Nat) : Doc inRange k [102, 97, 108, 115, 101] (.bool false)
  | num (k : Nat) {t : Bytes} : NumText t → inRange t = true → Doc inRange k t (.num t)
  | str (k : Nat) {t : Bytes} {s : Str} : StrText t (utf8Encode s) →
      Doc inRange k (34 :: (t ++ [34])) (.str (utf8Encode s))
  | arr0 (k : Nat) {w : Bytes} : White w → Doc inRange (k + 1) (91 :: (w ++ [93])) (.arr [])
  | arr {k : Nat} {t : Bytes} {l : List Value} : Elems inRange k t l → Doc inRange (k + 1) (91 :: (t ++ [93])) (.arr l)
  | obj0 (k : Nat) {w : Bytes} : White w → Doc inRange (k + 1) (123 :: (w ++ [125])) (.obj [])
  | obj {k : Nat} {t : Bytes} {l : List (Bytes × Value)} : Members inRange k t l →
      Doc inRange (k + 1) (123 :: (t ++ [125])) (.obj l)

/-- The elements of a list, section 5. -/
inductive Elems (inRange : Bytes → Bool) : Nat → Bytes → List Value → Prop where
  | one {k : Nat} {w t w' : Bytes} {v : Value} : White w → Doc inRange k t v → White w' →
      Elems inRange k (w ++ (t ++ w')) [v]
  | cons {k : Nat} {w t w' t' : Bytes} {v : Value} {l : List Value} : White w → Doc inRange k t v → White w' →
      Elems inRange k t' l → Elems inRange k (w ++ (t ++ (w' ++ 44 :: t'))) (v :: l)

/-- The members of an object, section 4. -/
inductive Members (inRange : Bytes → Bool) : Nat → Bytes → List (Bytes × Value) → Prop where
  | one {k : Nat} {t : Bytes} {p : Bytes × Value} {w' : Bytes} : Member inRange k t p → White w' →
      Members inRange k (t ++ w') [p]
  | cons {k : Nat} {t w' t' : Bytes} {p : Bytes × Value} {l : List (Bytes × Value)} : Member inRange k t p →
      White w' → Members inRange k t' l → Members inRange k (t ++ (w' ++ 44 :: t')) (p :: l)

/-- A member of an object, section 4: a string, a colon, and a value. -/
inductive Member (inRange : Bytes → Bool) : Nat → Bytes → Bytes × Value → Prop where
  | mk {k : Nat} {w1 s w2 w3 t : Bytes} {key : Str} {v : Value} : White w1 → StrText s (utf8Encode key) → White w2 →
      White w3 → Doc inRange k t v →
      Member inRange k (w1 ++ 34 :: (s ++ 34 :: (w2 ++ 58 :: (w3 ++ t)))) (utf8Encode key, v)
end

end Verif.Json
