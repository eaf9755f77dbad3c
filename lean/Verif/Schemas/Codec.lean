import Verif.Schemas.Model
import Verif.Scale
import Mathlib.Data.Nat.Bitwise
/-!
# How schemas are stored

The bytes under which a schema is stored without its model, `SchemaInfo` of pallets/schemas/src/types.rs 40-52, with the flags of
common/primitives/src/schema.rs 44-60 and 112-134 and their codec, common/primitives/src/macros.rs 39-60. `BitFlags` of the library
`enumflags2` is a number of which only the bits of declared settings can be set. The number of declared settings is a parameter `n`:
releases of the chain differ in it. At this commit it is two.
-/

namespace Verif.Schemas.Codec

/-- `SchemaInfo` of a release, types.rs 42-52; the settings are the bits of a number. -/
structure Stored where
  modelType : ModelType
  location : Location
  settings : Nat
  hasName : Bool
  deriving DecidableEq, Repr

/-- `SchemaSettings::all_disabled`, schema.rs 114-116. -/
def disabled : Nat := 0

/-- `SchemaSettings::set`, schema.rs 126-128, of the setting declared at place `i`. -/
def set (v i : Nat) : Nat := v ||| 2 ^ i

/-- `SchemaSettings::is_enabled`, schema.rs 122-124. -/
def isEnabled (v i : Nat) : Bool := v &&& 2 ^ i = 2 ^ i

/-- `BitFlags::from_bits` where `n` settings are declared. -/
def fromBits (n v : Nat) : Option Nat := if v < 2 ^ n then some v else none

/-- The settings that `BitFlags::iter` goes through, lib.rs 706 and 728. -/
def enabled (n v : Nat) : List Nat := (List.range n).filter (isEnabled v)

/-- The index of a `ModelType`, schema.rs 23-28. -/
def modelByte : ModelType → UInt8
  | .avroBinary => 0
  | .parquet => 1

/-- `ModelType::decode`. -/
def readModel : Bytes → Option (ModelType × Bytes)
  | b :: rest => if b = 0 then some (.avroBinary, rest) else if b = 1 then some (.parquet, rest) else none
  | [] => none

/-- The index of a `PayloadLocation`, schema.rs 33-42. -/
def locationByte : Location → UInt8
  | .onChain => 0
  | .ipfs => 1
  | .itemized => 2
  | .paginated => 3

/-- `PayloadLocation::decode`. -/
def readLocation : Bytes → Option (Location × Bytes)
  | b :: rest =>
    if b = 0 then some (.onChain, rest) else if b = 1 then some (.ipfs, rest)
    else if b = 2 then some (.itemized, rest) else if b = 3 then some (.paginated, rest) else none
  | [] => none

/-- `bool::decode`. -/
def readBool : Bytes → Option (Bool × Bytes)
  | b :: rest => if b = 0 then some (false, rest) else if b = 1 then some (true, rest) else none
  | [] => none

/-- `Encode for SchemaSettings`, macros.rs 46-50. -/
def writeSettings (v : Nat) : Bytes := Scale.u16 v

/-- `Decode for SchemaSettings`, macros.rs 52-59. -/
def readSettings (n : Nat) (bs : Bytes) : Option (Nat × Bytes) := do
  let (v, rest) ← Scale.decLe 2 bs
  let v ← fromBits n v
  some (v, rest)

/-- `SchemaInfo::encode`: the fields in their order. -/
def write (i : Stored) : Bytes :=
  [modelByte i.modelType] ++ [locationByte i.location] ++ writeSettings i.settings ++ [if i.hasName then 1 else 0]

/-- `SchemaInfo::decode`. -/
def read (n : Nat) (bs : Bytes) : Option (Stored × Bytes) := do
  let (mt, bs) ← readModel bs
  let (loc, bs) ← readLocation bs
  let (v, bs) ← readSettings n bs
  let (b, bs) ← readBool bs
  some (⟨mt, loc, v, b⟩, bs)

/-- The place of a setting in the declaration, schema.rs 49-56. -/
def place : Setting → Nat
  | .appendOnly => 0
  | .signatureRequired => 1

/-- The number of settings declared at this commit. -/
def declared : Nat := 2

/-- The bits of the settings. -/
def bits (s : Settings) : Nat := (if s.appendOnly then 1 else 0) + (if s.signatureRequired then 2 else 0)

/-- What `add_schema` stores, lib.rs 691-694. -/
def ofInfo (i : Info) : Stored := ⟨i.modelType, i.location, bits i.settings, i.hasName⟩

end Verif.Schemas.Codec
