import Verif.Json.Grammar
/-!
# JSON as `serde_json` reads it

`serde_json::from_slice` (version 1.0.117, Cargo.lock 11694, without optional features), which
pallets/schemas/src/serde.rs 12 and pallets/schemas/src/lib.rs 752 use. The library is not part of the repository;
this file follows its published source (`de.rs` and `read.rs`). Two ways of reading matter here: values that the caller
asks for (`deserialize_any`), whose strings must be UTF-8 and whose depth is limited, and values that the caller
ignores (`ignore_value`), of which neither is checked.

Values (`Value`, and `Content` of serde) are those of Grammar.lean. Whether a number fits a floating point number is
left open (`inRange`).
-/

namespace Verif.Json

/-- An ASCII character as a byte. -/
def ch (c : Char) : UInt8 := c.toNat.toUInt8

/-- An ASCII text as bytes. -/
def lit (s : String) : Bytes := s.toList.map ch

/-- `parse_whitespace`, de.rs. -/
def isWs (b : UInt8) : Bool := b == 32 || b == 10 || b == 9 || b == 13

/-- `parse_whitespace`, de.rs. -/
def skipWs (b : Bytes) : Bytes := b.dropWhile isWs

/-- `parse_ident`, de.rs: the text must follow. -/
def eat : Bytes → Bytes → Option Bytes
  | [], b => some b
  | _ :: _, [] => none
  | x :: l, y :: b => if x = y then eat l b else none

/-- `b'0'..=b'9'`. -/
def isDigit (b : UInt8) : Bool := decide (48 ≤ b.toNat) && decide (b.toNat ≤ 57)

/-! ## Strings -/

/-- The table `HEX`, read.rs. -/
def hexVal (b : UInt8) : Option Nat :=
  if 48 ≤ b.toNat ∧ b.toNat ≤ 57 then some (b.toNat - 48)
  else if 65 ≤ b.toNat ∧ b.toNat ≤ 70 then some (b.toNat - 55)
  else if 97 ≤ b.toNat ∧ b.toNat ≤ 102 then some (b.toNat - 87)
  else none

/-- `decode_hex_escape`, read.rs. -/
def hex4 : Bytes → Option (Nat × Bytes)
  | a :: b :: c :: d :: r => do
    let a ← hexVal a
    let b ← hexVal b
    let c ← hexVal c
    let d ← hexVal d
    some (((a * 16 + b) * 16 + c) * 16 + d, r)
  | _ => none

/-- The character of a surrogate pair, `parse_escape` of read.rs. -/
def surrogate (n m : Nat) : Char := Char.ofNat ((n - 0xD800) * 1024 + (m - 0xDC00) + 0x10000)

/-- The escape `\u`, `parse_escape` of read.rs with validation: half of a surrogate pair is refused. -/
def unicode (r : Bytes) : Option (Bytes × Bytes) := do
  let (n, r) ← hex4 r
  if 0xDC00 ≤ n ∧ n ≤ 0xDFFF then none
  else if 0xD800 ≤ n ∧ n ≤ 0xDBFF then do
    let r ← eat [ch '\\', ch 'u'] r
    let (m, r) ← hex4 r
    if 0xDC00 ≤ m ∧ m ≤ 0xDFFF then
      some (String.utf8EncodeChar (surrogate n m), r)
    else none
  else some (String.utf8EncodeChar (Char.ofNat n), r)

/-- `parse_escape`, read.rs, after the backslash: what the escape stands for, and the rest. -/
def escape : Bytes → Option (Bytes × Bytes)
  | [] => none
  | c :: r =>
    if c = ch '"' ∨ c = ch '\\' ∨ c = ch '/' then some ([c], r)
    else if c = ch 'b' then some ([8], r)
    else if c = ch 'f' then some ([12], r)
    else if c = ch 'n' then some ([10], r)
    else if c = ch 'r' then some ([13], r)
    else if c = ch 't' then some ([9], r)
    else if c = ch 'u' then unicode r
    else none

/-- `parse_str_bytes`, read.rs, after the quotation mark: the string and the rest. Control characters are refused. The
number bounds the number of characters and escapes read. -/
def strBody : Nat → Bytes → Option (Bytes × Bytes)
  | 0, _ => none
  | _, [] => none
  | n + 1, c :: r =>
    if c = ch '"' then some ([], r)
    else if c = ch '\\' then do
      let (u, r) ← escape r
      let (s, r) ← strBody n r
      some (u ++ s, r)
    else if c.toNat < 32 then none
    else do
      let (s, r) ← strBody n r
      some (c :: s, r)

/-- `parse_str`, read.rs: the string must be UTF-8. -/
def parseStr (b : Bytes) : Option (Bytes × Bytes) := do
  let (s, r) ← strBody (b.length + 1) b
  if (utf8Decode s).isSome then some (s, r) else none

/-- `ignore_escape`, read.rs. -/
def ignoreEscape : Bytes → Option Bytes
  | [] => none
  | c :: r =>
    if c = ch '"' ∨ c = ch '\\' ∨ c = ch '/' ∨ c = ch 'b' ∨ c = ch 'f' ∨ c = ch 'n' ∨ c = ch 'r' ∨ c = ch 't' then
      some r
    else if c = ch 'u' then (hex4 r).map (·.2)
    else none

/-- `ignore_str`, read.rs: no check of the encoding. -/
def ignoreStr : Nat → Bytes → Option Bytes
  | 0, _ => none
  | _, [] => none
  | n + 1, c :: r =>
    if c = ch '"' then some r
    else if c = ch '\\' then do
      let r ← ignoreEscape r
      ignoreStr n r
    else if c.toNat < 32 then none
    else ignoreStr n r

/-! ## Numbers -/

/-- At least one digit; the rest. -/
def digits1 : Bytes → Option Bytes
  | c :: r => if isDigit c then some (r.dropWhile isDigit) else none
  | [] => none

/-- Integer part, `parse_integer`, de.rs: no superfluous zeros. -/
def intPart : Bytes → Option Bytes
  | c :: r =>
    if c = ch '0' then
      match r with
      | d :: _ => if isDigit d then none else some r
      | [] => some r
    else if isDigit c then some (r.dropWhile isDigit)
    else none
  | [] => none

/-- Fraction, `parse_decimal`, de.rs. -/
def fracPart : Bytes → Option Bytes
  | c :: r => if c = ch '.' then digits1 r else some (c :: r)
  | [] => some []

/-- Exponent, `parse_exponent`, de.rs. -/
def expPart : Bytes → Option Bytes
  | c :: r =>
    if c = ch 'e' ∨ c = ch 'E' then
      match r with
      | s :: r' => if s = ch '+' ∨ s = ch '-' then digits1 r' else digits1 r
      | [] => none
    else some (c :: r)
  | [] => some []

/-- What follows the sign of a number, if it has one. -/
def afterSign : Bytes → Bytes
  | c :: r => if c = ch '-' then r else c :: r
  | [] => []

/-- What follows a number. -/
def numEnd (b : Bytes) : Option Bytes := do
  let r ← intPart (afterSign b)
  let r ← fracPart r
  expPart r

/-- A number as written, and the rest. -/
def number (b : Bytes) : Option (Bytes × Bytes) := (numEnd b).map (fun r => (b.take (b.length - r.length), r))

/-! ## Values -/

mutual
/-- `deserialize_any`, de.rs: the first number bounds the work, every step of which reads a byte; the second is what is
left of the permitted depth (`remaining_depth`, 128 in the beginning), which must not become zero. -/
def value (inRange : Bytes → Bool) : Nat → Nat → Bytes → Option (Value × Bytes)
  | 0, _, _ => none
  | n + 1, d, b =>
    match skipWs b with
    | [] => none
    | c :: r =>
      if c = ch 'n' then (eat [ch 'u', ch 'l', ch 'l'] r).map (fun r => (.null, r))
      else if c = ch 't' then (eat [ch 'r', ch 'u', ch 'e'] r).map (fun r => (.bool true, r))
      else if c = ch 'f' then (eat [ch 'a', ch 'l', ch 's', ch 'e'] r).map (fun r => (.bool false, r))
      else if c = ch '-' ∨ isDigit c = true then
        (number (c :: r)).bind (fun p => if inRange p.1 then some (.num p.1, p.2) else none)
      else if c = ch '"' then (parseStr r).map (fun p => (.str p.1, p.2))
      else if c = ch '[' then
        if d ≤ 1 then none else (elements inRange n (d - 1) true r).map (fun p => (.arr p.1, p.2))
      else if c = ch '{' then
        if d ≤ 1 then none else (members inRange n (d - 1) true r).map (fun p => (.obj p.1, p.2))
      else none

/-- `SeqAccess`, de.rs: what follows `[`; the flag tells whether the next element is the first. -/
def elements (inRange : Bytes → Bool) : Nat → Nat → Bool → Bytes → Option (List Value × Bytes)
  | 0, _, _, _ => none
  | n + 1, d, first, b =>
    match skipWs b with
    | [] => none
    | c :: r =>
      if c = ch ']' then some ([], r)
      else if first = true then
        (value inRange n d (c :: r)).bind (fun p =>
          (elements inRange n d false p.2).map (fun q => (p.1 :: q.1, q.2)))
      else if c = ch ',' then
        (value inRange n d r).bind (fun p =>
          (elements inRange n d false p.2).map (fun q => (p.1 :: q.1, q.2)))
      else none

/-- `MapAccess`, de.rs: what follows `{`. -/
def members (inRange : Bytes → Bool) : Nat → Nat → Bool → Bytes → Option (List (Bytes × Value) × Bytes)
  | 0, _, _, _ => none
  | n + 1, d, first, b =>
    match skipWs b with
    | [] => none
    | c :: r =>
      if c = ch '}' then some ([], r)
      else if first = true then member inRange n d (c :: r)
      else if c = ch ',' then member inRange n d r
      else none

/-- A key, a colon, a value, and the other members. -/
def member (inRange : Bytes → Bool) : Nat → Nat → Bytes → Option (List (Bytes × Value) × Bytes)
  | 0, _, _ => none
  | n + 1, d, b =>
    (eat [ch '"'] (skipWs b)).bind (fun r =>
      (parseStr r).bind (fun k =>
        (eat [ch ':'] (skipWs k.2)).bind (fun r =>
          (value inRange n d r).bind (fun p =>
            (members inRange n d false p.2).map (fun q => ((k.1, p.1) :: q.1, q.2))))))
end

mutual
/-- `ignore_value`, de.rs, which keeps its own stack and so has no limit of depth. -/
def ignoreValue : Nat → Bytes → Option Bytes
  | 0, _ => none
  | n + 1, b =>
    match skipWs b with
    | [] => none
    | c :: r =>
      if c = ch 'n' then eat [ch 'u', ch 'l', ch 'l'] r
      else if c = ch 't' then eat [ch 'r', ch 'u', ch 'e'] r
      else if c = ch 'f' then eat [ch 'a', ch 'l', ch 's', ch 'e'] r
      else if c = ch '-' ∨ isDigit c = true then numEnd (c :: r)
      else if c = ch '"' then ignoreStr (r.length + 1) r
      else if c = ch '[' then ignoreElements n true r
      else if c = ch '{' then ignoreMembers n true r
      else none

/-- The loop of `ignore_value` within a list. -/
def ignoreElements : Nat → Bool → Bytes → Option Bytes
  | 0, _, _ => none
  | n + 1, first, b =>
    match skipWs b with
    | [] => none
    | c :: r =>
      if c = ch ']' then some r
      else if first = true then (ignoreValue n (c :: r)).bind (ignoreElements n false)
      else if c = ch ',' then (ignoreValue n r).bind (ignoreElements n false)
      else none

/-- The loop of `ignore_value` within an object. -/
def ignoreMembers : Nat → Bool → Bytes → Option Bytes
  | 0, _, _ => none
  | n + 1, first, b =>
    match skipWs b with
    | [] => none
    | c :: r =>
      if c = ch '}' then some r
      else if first = true then ignoreMember n (c :: r)
      else if c = ch ',' then ignoreMember n r
      else none

/-- A key, a colon, a value, and the other members. -/
def ignoreMember : Nat → Bytes → Option Bytes
  | 0, _ => none
  | n + 1, b =>
    (eat [ch '"'] (skipWs b)).bind (fun r =>
      (ignoreStr (r.length + 1) r).bind (fun r =>
        (eat [ch ':'] (skipWs r)).bind (fun r => (ignoreValue n r).bind (ignoreMembers n false))))
end

/-- Work enough for a text: no step is repeated without reading a byte more than twice. -/
def fuel (b : Bytes) : Nat := 3 * b.length + 3

/-- `Deserializer::end`, de.rs: nothing but white space follows. -/
def atEnd (b : Bytes) : Bool := (skipWs b).isEmpty

/-- `from_slice::<Value>`. -/
def fromSlice (inRange : Bytes → Bool) (b : Bytes) : Option Value :=
  (value inRange (fuel b) 128 b).bind (fun p => if atEnd p.2 then some p.1 else none)

/-- `validate_json_model`, pallets/schemas/src/serde.rs 11-18: an object. -/
def validateJsonModel (inRange : Bytes → Bool) (b : Bytes) : Bool :=
  match fromSlice inRange b with
  | some (.obj _) => true
  | _ => false

end Verif.Json
