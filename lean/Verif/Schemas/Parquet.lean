import Verif.Json.Model
import Verif.Schemas.Model
/-!
# Parquet models of schemas

The types of common/primitives/src/parquet and how `serde_json::from_slice::<ParquetModel>` reads them, as
`ensure_valid_model` (pallets/schemas/src/lib.rs 746-760) does. The derived implementations of `Deserialize` are macros
of the library serde; what they do is written out here.
-/

namespace Verif.Parquet

open Json

/-! ## Types -/

/-- `ParquetBaseType`, base.rs 7-22. -/
inductive Base where
  | boolean | int32 | int64 | float | double | byteArray | fixedLenByteArray
  deriving DecidableEq

/-- `ParquetTimeUnit`, temporal.rs 35-42. -/
inductive TimeUnit where
  | millis | micros | nanos
  deriving DecidableEq

/-- `ParquetType`, types.rs 13-22, with `ParquetStringType` (string.rs 9-14), `ParquetNumericType` (numeric.rs 7-30) and
`ParquetTemporalType` (temporal.rs 7-30). Numbers are `u8`. -/
inductive ColType where
  | base (b : Base)
  | string
  | uuid
  | integer (bitWidth : Nat) (sign : Bool)
  | decimal (scale precision : Nat)
  | date
  | interval
  | time (utc : Bool) (unit : TimeUnit)
  | timestamp (utc : Bool) (unit : TimeUnit)
  deriving DecidableEq

/-- `ColumnCompressionCodec`, column_compression_codec.rs 11-26. -/
inductive Codec where
  | uncompressed | snappy | gzip | lzo | brotli | zstd | lz4Raw
  deriving DecidableEq

/-- `ParquetColumn`, column.rs 10-19. -/
structure Column where
  /-- label, UTF-8 -/
  name : Bytes
  /-- type -/
  type : ColType
  /-- compression -/
  compression : Codec
  /-- bloom filter -/
  bloom : Bool
  deriving DecidableEq

/-! ## Names -/

/-- `char::to_ascii_uppercase`. -/
def upper (b : UInt8) : UInt8 := if 97 ≤ b.toNat ∧ b.toNat ≤ 122 then b - 32 else b

/-- `char::is_uppercase`, for ASCII. -/
def isUpper (b : UInt8) : Bool := decide (65 ≤ b.toNat) && decide (b.toNat ≤ 90)

/-- `rename_all = "UPPERCASE"` of serde. -/
def upperCase (s : Bytes) : Bytes := s.map upper

/-- `rename_all = "SCREAMING_SNAKE_CASE"` of serde: an underscore before every capital letter but the first, then upper
case. -/
def screaming : Bytes → Bytes
  | [] => []
  | c :: s => upper c :: s.flatMap (fun c => if isUpper c then [95, upper c] else [upper c])

/-- The variants of `ParquetBaseType` (base.rs 6-21) as JSON names them. -/
def bases : List (Bytes × Base) :=
  [("Boolean", .boolean), ("Int32", .int32), ("Int64", .int64), ("Float", .float), ("Double", .double),
    ("ByteArray", .byteArray), ("FixedLenByteArray", .fixedLenByteArray)].map (fun p => (screaming (lit p.1), p.2))

/-- The variants of `ColumnCompressionCodec` (column_compression_codec.rs 10-25) as JSON names them. -/
def codecs : List (Bytes × Codec) :=
  [("Uncompressed", .uncompressed), ("Snappy", .snappy), ("Gzip", .gzip), ("Lzo", .lzo), ("Brotli", .brotli),
    ("ZSTD", .zstd), ("Lz4Raw", .lz4Raw)].map (fun p => (screaming (lit p.1), p.2))

/-- The variants of `ParquetTimeUnit` (temporal.rs 34-41) as JSON names them. -/
def units : List (Bytes × TimeUnit) :=
  [("Millis", .millis), ("Micros", .micros), ("Nanos", .nanos)].map (fun p => (upperCase (lit p.1), p.2))

/-- The variants without content of `ParquetStringType` (string.rs 8-13) and `ParquetTemporalType` (temporal.rs 6-16) as
JSON names them. -/
def plains : List (Bytes × ColType) :=
  [("String", .string), ("UUID", .uuid), ("Date", .date), ("Interval", .interval)].map
    (fun p => (upperCase (lit p.1), p.2))

/-- `ParquetType` is `untagged` (types.rs 12): the first of its types that has the name. No name occurs twice. -/
def unitTypes : List (Bytes × ColType) := bases.map (fun p => (p.1, .base p.2)) ++ plains

/-! ## Reading types

`ParquetType` is read from an intermediate value (`Content` of serde) because it is `untagged`. -/

/-- `bool::deserialize`. -/
def asBool : Value → Option Bool
  | .bool b => some b
  | _ => none

/-- What decimal digits denote. -/
def digitsVal (t : Bytes) : Nat := t.foldl (fun a b => a * 10 + (b.toNat - 48)) 0

/-- `u8::deserialize`: an integer without sign, fraction and exponent, at most 255. -/
def asU8 : Value → Option Nat
  | .num t => if t.all isDigit && decide (digitsVal t ≤ 255) then some (digitsVal t) else none
  | _ => none

/-- A derived enumeration of variants without content: its name, or an object with the name and `null`. -/
def asUnit {α : Type} (names : List (Bytes × α)) : Value → Option α
  | .str s => names.lookup s
  | .obj [(s, .null)] => names.lookup s
  | _ => none

/-- The value of a field that must occur exactly once. -/
def field (l : List (Bytes × Value)) (k : Bytes) : Option Value :=
  match l.filter (fun p => p.1 == k) with
  | [p] => some p.2
  | _ => none

/-- A derived structure with two fields: a list of exactly two, or an object in which each occurs exactly once; other
members are ignored unless `deny` (`deny_unknown_fields`, which the code does not use). -/
def asPair {α β : Type} (deny : Bool) (k1 : Bytes) (f : Value → Option α) (k2 : Bytes) (g : Value → Option β) :
    Value → Option (α × β)
  | .arr [a, b] => (f a).bind (fun a => (g b).map (fun b => (a, b)))
  | .obj l =>
    if deny && l.any (fun p => !(p.1 == k1 || p.1 == k2)) then none
    else (field l k1).bind (fun a => (field l k2).bind (fun b => (f a).bind (fun a => (g b).map (fun b => (a, b)))))
  | _ => none

/-- `ParquetType::deserialize`, types.rs 11-22. -/
def asType (deny : Bool) (v : Value) : Option ColType :=
  match asUnit unitTypes v with
  | some t => some t
  | none =>
    match v with
    | .obj [(k, w)] =>
      if k = upperCase (lit "Integer") then
        (asPair deny (lit "bit_width") asU8 (lit "sign") asBool w).map (fun p => .integer p.1 p.2)
      else if k = upperCase (lit "Decimal") then
        (asPair deny (lit "scale") asU8 (lit "precision") asU8 w).map (fun p => .decimal p.1 p.2)
      else if k = upperCase (lit "Time") then
        (asPair deny (lit "is_adjusted_to_utc") asBool (lit "unit") (asUnit units) w).map (fun p => .time p.1 p.2)
      else if k = upperCase (lit "Timestamp") then
        (asPair deny (lit "is_adjusted_to_utc") asBool (lit "unit") (asUnit units) w).map
          (fun p => .timestamp p.1 p.2)
      else none
    | _ => none

/-! ## Reading columns

`ParquetColumn` is read directly from the text. -/

/-- A value, read as `f` says. Where the code reads directly from the text (`String`, `bool`,
`ColumnCompressionCodec`), it accepts the same texts. -/
def typed {α : Type} (inRange : Bytes → Bool) (n d : Nat) (f : Value → Option α) (b : Bytes) : Option (α × Bytes) :=
  (value inRange n d b).bind (fun p => (f p.1).map (fun a => (a, p.2)))

/-- `String::deserialize`. -/
def asStr : Value → Option Bytes
  | .str s => some s
  | _ => none

/-- The fields of a column read so far. -/
structure Fields where
  /-- `name` -/
  name : Option Bytes := none
  /-- `column_type` -/
  type : Option ColType := none
  /-- `compression` -/
  compression : Option Codec := none
  /-- `bloom_filter` -/
  bloom : Option Bool := none

/-- The value of the field `k`: a second value of a field is refused, that of an unknown field ignored, which
`deny_unknown_fields` would refuse. -/
def fieldValue (inRange : Bytes → Bool) (deny : Bool) (n d : Nat) (k : Bytes) (f : Fields) (b : Bytes) :
    Option (Fields × Bytes) :=
  if k = lit "name" then
    if f.name.isSome then none
    else (typed inRange n d asStr b).map (fun p => ({ f with name := some p.1 }, p.2))
  else if k = lit "column_type" then
    if f.type.isSome then none
    else (typed inRange n d (asType deny) b).map (fun p => ({ f with type := some p.1 }, p.2))
  else if k = lit "compression" then
    if f.compression.isSome then none
    else (typed inRange n d (asUnit codecs) b).map (fun p => ({ f with compression := some p.1 }, p.2))
  else if k = lit "bloom_filter" then
    if f.bloom.isSome then none
    else (typed inRange n d asBool b).map (fun p => ({ f with bloom := some p.1 }, p.2))
  else if deny then none
  else (ignoreValue n b).map (fun r => (f, r))

mutual
/-- `visit_map` of the derived `Deserialize` of `ParquetColumn`: what follows `{`. -/
def fields (inRange : Bytes → Bool) (deny : Bool) : Nat → Nat → Bool → Fields → Bytes → Option (Fields × Bytes)
  | 0, _, _, _, _ => none
  | n + 1, d, first, f, b =>
    match skipWs b with
    | [] => none
    | c :: r =>
      if c = ch '}' then some (f, r)
      else if first = true then fieldPart inRange deny n d f (c :: r)
      else if c = ch ',' then fieldPart inRange deny n d f r
      else none

/-- A key, a colon, a value, and the other members. -/
def fieldPart (inRange : Bytes → Bool) (deny : Bool) : Nat → Nat → Fields → Bytes → Option (Fields × Bytes)
  | 0, _, _, _ => none
  | n + 1, d, f, b =>
    (eat [ch '"'] (skipWs b)).bind (fun r =>
      (parseStr r).bind (fun k =>
        (eat [ch ':'] (skipWs k.2)).bind (fun r =>
          (fieldValue inRange deny n d k.1 f r).bind (fun q => fields inRange deny n d false q.1 q.2))))
end

/-- The column, if no field is missing. -/
def Fields.column (f : Fields) : Option Column :=
  match f.name, f.type, f.compression, f.bloom with
  | some n, some t, some c, some b => some ⟨n, t, c, b⟩
  | _, _, _, _ => none

/-- A comma. -/
def comma (b : Bytes) : Option Bytes := eat [ch ','] (skipWs b)

/-- `visit_seq` of the derived `Deserialize` of `ParquetColumn`: what follows `[`, exactly the four fields. -/
def tuple (inRange : Bytes → Bool) (deny : Bool) (n d : Nat) (b : Bytes) : Option (Column × Bytes) := do
  let (name, r) ← typed inRange n d asStr b
  let r ← comma r
  let (type, r) ← typed inRange n d (asType deny) r
  let r ← comma r
  let (compression, r) ← typed inRange n d (asUnit codecs) r
  let r ← comma r
  let (bloom, r) ← typed inRange n d asBool r
  let r ← eat [ch ']'] (skipWs r)
  some (⟨name, type, compression, bloom⟩, r)

/-- `ParquetColumn::deserialize`, `deserialize_struct` of de.rs. -/
def column (inRange : Bytes → Bool) (deny : Bool) (n d : Nat) (b : Bytes) : Option (Column × Bytes) :=
  match skipWs b with
  | [] => none
  | c :: r =>
    if c = ch '[' then tuple inRange deny n d r
    else if c = ch '{' then
      (fields inRange deny n d true {} r).bind (fun p => p.1.column.map (fun c => (c, p.2)))
    else none

/-- `Vec::<ParquetColumn>::deserialize`: what follows `[`. -/
def columns (inRange : Bytes → Bool) (deny : Bool) : Nat → Bool → Bytes → Option (List Column × Bytes)
  | 0, _, _ => none
  | n + 1, first, b =>
    match skipWs b with
    | [] => none
    | c :: r =>
      if c = ch ']' then some ([], r)
      else if first = true then
        (column inRange deny n 126 (c :: r)).bind (fun p =>
          (columns inRange deny n false p.2).map (fun q => (p.1 :: q.1, q.2)))
      else if c = ch ',' then
        (column inRange deny n 126 r).bind (fun p =>
          (columns inRange deny n false p.2).map (fun q => (p.1 :: q.1, q.2)))
      else none

/-- `serde_json::from_slice::<ParquetModel>`, parquet.rs 21. With `deny`, as it would be if all structures had
`deny_unknown_fields`. -/
def parse (inRange : Bytes → Bool) (deny : Bool) (b : Bytes) : Option (List Column) :=
  (eat [ch '['] (skipWs b)).bind (fun r =>
    (columns inRange deny (fuel b) true r).bind (fun p => if atEnd p.2 then some p.1 else none))

end Verif.Parquet

namespace Verif.Schemas

/-- `ensure_valid_model`, pallets/schemas/src/lib.rs 746-760. -/
def ensureValidModel (inRange : Bytes → Bool) : ModelType → Bytes → Bool
  | .parquet, b => (Parquet.parse inRange false b).isSome
  | .avroBinary, b => Json.validateJsonModel inRange b

/-- The model in the answer to `schemas_getBySchemaId` (pallets/schemas/src/rpc/src/lib.rs 100-105): a text
(`as_string::serialize`, common/primitives/src/utils.rs 86-90, by schema.rs 69); without one, the request fails. -/
def rpcModel (r : Response) : Option Str := utf8Decode r.model

end Verif.Schemas
