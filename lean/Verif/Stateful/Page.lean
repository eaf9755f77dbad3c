import Verif.Scale
/-!
# Model of the pages of the stateful-storage pallet

Source: `pallets/stateful-storage/src/types.rs`.
-/

namespace Verif.Stateful

/-- `Page`, types.rs 240-247. The bound of `data` is checked where a page is built or decoded. -/
structure Page where
  nonce : Nat
  data : Bytes
deriving DecidableEq

/-- `Page::default`. -/
def Page.default : Page := ⟨0, []⟩

/-- `Page::is_empty`, types.rs 260-262. -/
def Page.isEmpty (p : Page) : Bool := p.data.isEmpty

/-- `Page::get_hash`, types.rs 265-274, with `Hash for Page` (278-283): zero for an empty page, else
the hash of the nonce bytes followed by the data. `hash` stands for the upper 32 bits of XxHash64. -/
def Page.getHash (hash : Bytes → Nat) (p : Page) : Nat :=
  if p.isEmpty then 0 else hash (Scale.u16 p.nonce ++ p.data)

/-- Derived `Encode`, types.rs 237. -/
def Page.encode (p : Page) : Bytes := Scale.u16 p.nonce ++ Scale.vecU8 p.data

/-- Derived `Decode`, types.rs 237; `BoundedVec::decode` rejects too long data. -/
def decodePage (maxSize : Nat) (bs : Bytes) : Option Page :=
  match Scale.decLe 2 bs with
  | none => none
  | some (n, rest) =>
    match Scale.decVecU8 rest with
    | none => none
    | some (d, _) => if d.length ≤ maxSize then some ⟨n, d⟩ else none

/-- `ItemAction`, types.rs 53-66. -/
inductive ItemAction
  | add (data : Bytes)
  | delete (index : Nat)
deriving DecidableEq

/-- `PageError`, types.rs 77-87. -/
inductive PageError
  | errorParsing
  | invalidAction
  | arithmeticOverflow
  | pageSizeOverflow
deriving DecidableEq

/-- An item as stored: `ItemHeader` (types.rs 70-75, a little-endian `u16`) and the payload. -/
def encodeItem (d : Bytes) : Bytes := Scale.u16 d.length ++ d

/-- Loop of `try_parse`, types.rs 359-390. `bs` is `data[offset..]`, `count` the next item number.
The result lists the items with their numbers: the `BTreeMap` in key order. Recursion is on a bound of
the remaining length. -/
def tryParseAux (includeHeader : Bool) : Nat → Bytes → Nat → Except PageError (List (Nat × Bytes))
  | 0, bs, _ => if bs.isEmpty then .ok [] else .error .errorParsing
  | fuel + 1, bs, count =>
    if bs.isEmpty then .ok []
    else if bs.length < 2 then .error .errorParsing
    else
      let len := Scale.leVal (bs.take 2)
      if bs.length < 2 + len then .error .errorParsing
      else if 65535 < count + 1 then .error .arithmeticOverflow
      else
        match tryParseAux includeHeader fuel (bs.drop (2 + len)) (count + 1) with
        | .error e => .error e
        | .ok rest =>
          .ok ((count, if includeHeader then bs.take (2 + len) else (bs.take (2 + len)).drop 2) :: rest)

/-- `try_parse`, types.rs 359-390. -/
def tryParse (p : Page) (includeHeader : Bool) : Except PageError (List (Nat × Bytes)) :=
  tryParseAux includeHeader p.data.length p.data 0

/-- Loop over the actions in `apply_item_actions`, types.rs 324-344: the remaining parsed items and the
buffer of additions. -/
def applyActions : List ItemAction → List (Nat × Bytes) → Bytes →
    Except PageError (List (Nat × Bytes) × Bytes)
  | [], items, buf => .ok (items, buf)
  | .delete i :: rest, items, buf =>
    if items.any (fun x => x.1 == i) then applyActions rest (items.filter (fun x => x.1 != i)) buf
    else .error .invalidAction
  | .add d :: rest, items, buf =>
    if d.length ≤ 65535 then applyActions rest items (buf ++ encodeItem d) else .error .invalidAction

/-- `apply_item_actions`, types.rs 315-355; `maxSize` is `MaxItemizedPageSizeBytes`. The nonce of the
result is the default and is set by the caller. -/
def applyItemActions (maxSize : Nat) (p : Page) (actions : List ItemAction) : Except PageError Page := do
  let parsed ← tryParse p true
  let (items, buf) ← applyActions actions parsed []
  let data := (items.map Prod.snd).flatten ++ buf
  ensure (data.length ≤ maxSize) .pageSizeOverflow
  pure ⟨0, data⟩

end Verif.Stateful
