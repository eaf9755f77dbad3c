import Verif.Handles.Suffix
import Verif.Scale
/-!
# Handles pallet

Function by function model of pallets/handles/src/lib.rs and of the utilities in
pallets/handles/src/handles-utils/src. Weights, benchmarking and the RPC transport are left out.
Compatibility decomposition (NFKD), the combining-mark predicate (crate `unicode-normalization`) and the
table of confusable characters (generated by build.rs from a data file) are parameters: every theorem
holds for all of them. Signature verification is a parameter too.
-/

namespace Verif.Handles

/-- `Error`, lib.rs 156-189. -/
inductive Err
  | invalidHandleEncoding | invalidHandleByteLength | invalidHandleCharacterLength | handleIsNotAllowed
  | handleContainsBlockedCharacters | handleDoesNotConsistOfSupportedCharacterSets | suffixesExhausted
  | invalidMessageSourceAccount | invalidSignature | msaHandleAlreadyExists | msaHandleDoesNotExist
  | proofHasExpired | proofNotYetValid | handleWithinMortalityPeriod | invalidHandle
deriving DecidableEq

/-- What the pallet depends on. -/
structure Config where
  /-- `UnicodeNormalization::nfkd` -/
  nfkd : Str → Str
  /-- `is_combining_mark` -/
  isMark : Char → Bool
  /-- `CONFUSABLES.get(&c).map_or(c, ..)` -/
  confusable : Char → Char
  /-- `MultiSignature::verify` -/
  verify : Signature → AccountId → Bytes → Bool
  /-- `MortalityWindowSize` -/
  window : Nat

/-! ## Constants -/

/-- `HANDLE_CHARS_MIN`, common/primitives/src/handles.rs 13. -/
def charsMin : Nat := 3
/-- `HANDLE_CHARS_MAX`, handles.rs 17. -/
def charsMax : Nat := 20
/-- `HANDLE_BYTES_MAX`, handles.rs 19. -/
def bytesMax : Nat := 32
/-- Bound of `DisplayHandle`, handles.rs 33-34: 32 bytes, delimiter, five digits. -/
def displayMax : Nat := bytesMax + 5 + 1

/-! ## converter.rs -/

/-- `char::is_whitespace` (Unicode `White_Space`). -/
def isWhitespace (c : Char) : Bool :=
  let n := c.toNat
  (9 ≤ n && n ≤ 13) || n == 0x20 || n == 0x85 || n == 0xA0 || n == 0x1680 || (0x2000 ≤ n && n ≤ 0x200A) ||
    n == 0x2028 || n == 0x2029 || n == 0x202F || n == 0x205F || n == 0x3000

/-- `strip_unicode_whitespace`, converter.rs 105-110. -/
def stripWhitespace (s : Str) : Str := s.filter (fun c => !isWhitespace c)

/-- `strip_diacriticals`, converter.rs 66-71. -/
def stripDiacriticals (cfg : Config) (s : Str) : Str := (cfg.nfkd s).filter (fun c => !cfg.isMark c)

/-- `replace_confusables`, converter.rs 50-55. -/
def replaceConfusables (cfg : Config) (s : Str) : Str := s.map cfg.confusable

/-- `str::to_ascii_lowercase`. -/
def asciiLower (s : Str) : Str := s.map Char.toLower

/-- `convert_to_canonical`, converter.rs 34-39. -/
def canonical (cfg : Config) (s : Str) : Str :=
  asciiLower (replaceConfusables cfg (stripDiacriticals cfg (stripWhitespace s)))

/-- `str::split('.')`. -/
def splitDot : Str → List Str
  | [] => [[]]
  | c :: s =>
    if c = '.' then [] :: splitDot s
    else match splitDot s with
      | p :: ps => (c :: p) :: ps
      | [] => [[c]]

/-- Value of a string of decimal digits. -/
def decimalValue (s : Str) : Nat := s.foldl (fun acc c => acc * 10 + (c.toNat - '0'.toNat)) 0

/-- Without a leading plus sign. -/
def stripPlus : Str → Str
  | [] => []
  | c :: r => if c = '+' then r else c :: r

/-- `str::parse::<u16>`: an optional plus sign and at least one digit. -/
def parseU16 (s : Str) : Option Nat :=
  let d := stripPlus s
  if d ≠ [] ∧ d.all Char.isDigit = true ∧ decimalValue d ≤ 65535 then some (decimalValue d) else none

/-- `split_display_name`, converter.rs 83-94. -/
def splitDisplayName (s : Str) : Option (Str × Nat) :=
  match splitDot s with
  | [base, suffix] => (parseU16 suffix).map (fun n => (base, n))
  | _ => none

/-! ## validator.rs -/

/-- `RESERVED_WORDS`, validator.rs 12-13. -/
def reservedWords : List Str :=
  ["admin".toList, "everyone".toList, "all".toList, "administrator".toList, "mod".toList,
   "moderator".toList, "here".toList, "channel".toList]

/-- `BLOCKED_CHARACTERS`, validator.rs 16-17. -/
def blockedCharacters : List Char :=
  ['"', '#', '%', '(', ')', ',', '.', ':', ';', '<', '>', '@', '\\', '`', '{', '}']

/-- `is_reserved_handle`, validator.rs 37-39. -/
def isReserved (s : Str) : Bool := reservedWords.contains s

/-- `contains_blocked_characters`, validator.rs 50-52. The binary search in the sorted array is modelled
by membership. -/
def containsBlocked (s : Str) : Bool := s.any (fun c => blockedCharacters.contains c)

/-- `ALLOWED_UNICODE_CHARACTER_RANGES`, handles-utils/constants.rs 6-28. -/
def allowedRanges : List (Nat × Nat) :=
  [(0x0020, 0x007F), (0x0080, 0x00FF), (0x0100, 0x017F), (0x0370, 0x03FF), (0x0400, 0x04FF),
   (0x0500, 0x052F), (0x0590, 0x05FF), (0x0600, 0x06FF), (0x0900, 0x097F), (0x0980, 0x09FF),
   (0x0E00, 0x0E7F), (0x1100, 0x11FF), (0x1E00, 0x1EFF), (0x1F00, 0x1FFF), (0x3040, 0x309F),
   (0x30A0, 0x30FF), (0x3400, 0x4DBF), (0x4E00, 0x9FFF), (0xAC00, 0xD7AF), (0xF900, 0xFAFF),
   (0xFB50, 0xFDFF)]

/-- `consists_of_supported_unicode_character_sets`, validator.rs 64-68; `c as u16` truncates. -/
def supported (s : Str) : Bool :=
  s.all (fun c => allowedRanges.any (fun r => r.1 ≤ c.toNat % 65536 && c.toNat % 65536 ≤ r.2))

/-! ## Pallet -/

/-- `ClaimHandlePayload`, common/primitives/src/handles.rs 47-52. -/
structure Payload where
  baseHandle : Bytes
  expiration : BlockNumber
deriving DecidableEq

/-- SCALE encoding of the payload. -/
def Payload.encode (p : Payload) : Bytes := Scale.vecU8 p.baseHandle ++ Scale.u32 p.expiration

/-- `Event`, lib.rs 191-208. -/
inductive Event
  | claimed (msa : MsaId) (handle : Bytes)
  | retired (msa : MsaId) (handle : Bytes)
deriving DecidableEq

/-- Storage, lib.rs 116-154, with all events emitted so far. -/
structure State where
  /-- `CanonicalBaseHandleAndSuffixToMSAId` -/
  byName : SMap (Bytes × Nat) MsaId
  /-- `MSAIdToDisplayName` -/
  byMsa : SMap MsaId (Bytes × BlockNumber)
  /-- `CanonicalBaseHandleToSuffixIndex` -/
  index : SMap Bytes (Nat × Nat)
  events : List Event

/-- Empty storage. -/
def State.init : State := ⟨∅, ∅, ∅, []⟩

/-- Surroundings of a call: block number, account of a key, and the suffix range of the runtime. -/
structure Env where
  block : BlockNumber
  msaOf : AccountId → Option MsaId
  lo : Nat
  hi : Nat

/-- `get_canonical_string_vec_from_base_handle`, lib.rs 778-785: the canonical form and the key derived
from it, which is empty if the form does not fit. -/
def canonicalBase (cfg : Config) (base : Str) : Str × Bytes :=
  let c := canonical cfg base
  (c, if (utf8Encode c).length ≤ bytesMax then utf8Encode c else [])

/-- `get_next_suffix_index_for_canonical_handle`, lib.rs 227-248. -/
def nextSuffixIndex (env : Env) (s : State) (key : Bytes) : Except Err Nat :=
  match s.index.get key with
  | none => .ok 0
  | some (current, lo) =>
    if env.lo ≠ lo then .ok 0
    else if current + 1 ≤ 65535 then .ok (current + 1) else .error .suffixesExhausted

/-- `verify_signature_mortality`, lib.rs 262-271. -/
def verifyMortality (cfg : Config) (env : Env) (expires : BlockNumber) : Except Err Unit := do
  ensure (env.block + cfg.window > expires) .proofNotYetValid
  ensure (env.block < expires) .proofHasExpired

/-- `wrap_binary_data`: `<Bytes>` data `</Bytes>`. -/
def wrap (data : Bytes) : Bytes :=
  [0x3c, 0x42, 0x79, 0x74, 0x65, 0x73, 0x3e] ++ data ++ [0x3c, 0x2f, 0x42, 0x79, 0x74, 0x65, 0x73, 0x3e]

/-- `verify_signed_payload`, lib.rs 284-295. -/
def verifySigned (cfg : Config) (sig : Signature) (signer : AccountId) (payload : Bytes) : Except Err Unit :=
  ensure (cfg.verify sig signer (wrap payload) = true) .invalidSignature

/-- `verify_max_handle_byte_length`, lib.rs 305-308. -/
def verifyByteLength (handle : Bytes) : Except Err Unit :=
  ensure (handle.length ≤ bytesMax) .invalidHandleByteLength

/-- `generate_suffix_for_canonical_handle`, lib.rs 329-342. -/
def generateSuffix (env : Env) (c : Str) (cursor : Nat) : Except Err Nat :=
  okOr (uniqueSuffixes env.lo env.hi c)[cursor]? .suffixesExhausted

/-- `validate_base_handle`, lib.rs 657-679. -/
def validateBaseHandle (base : Bytes) : Except Err Str := do
  let str ← okOr (utf8Decode base) .invalidHandleEncoding
  ensure (charsMin ≤ str.length ∧ str.length ≤ charsMax) .invalidHandleCharacterLength
  ensure (isReserved str = false) .handleIsNotAllowed
  ensure (containsBlocked str = false) .handleContainsBlockedCharacters
  pure str

/-- `validate_canonical_handle_contains_characters_in_supported_ranges`, lib.rs 681-690. -/
def validateSupported (c : Str) : Except Err Unit :=
  ensure (supported c = true) .handleDoesNotConsistOfSupportedCharacterSets

/-- `validate_canonical_handle_length`, lib.rs 692-701. -/
def validateCanonicalLength (c : Str) : Except Err Unit :=
  ensure (charsMin ≤ c.length ∧ c.length ≤ charsMax) .invalidHandleCharacterLength

/-- `build_full_display_handle`, lib.rs 713-724. -/
def buildDisplay (base : Str) (suffix : Nat) : Except Err Bytes := do
  let full := utf8Encode base ++ utf8Encode ['.'] ++ utf8Encode (Nat.toDigits 10 suffix)
  ensure (full.length ≤ displayMax) .invalidHandleEncoding
  pure full

/-- `do_claim_handle`, lib.rs 605-654. -/
def doClaim (cfg : Config) (env : Env) (s : State) (m : MsaId) (p : Payload) : Except Err (State × Bytes) := do
  ensure (s.byMsa.get m = none) .msaHandleAlreadyExists
  let base ← validateBaseHandle p.baseHandle
  let c := canonicalBase cfg base
  validateSupported c.1
  validateCanonicalLength c.1
  let i ← nextSuffixIndex env s c.2
  let suffix ← generateSuffix env c.1 i
  let display ← buildDisplay base suffix
  pure ({ s with
    byName := s.byName.insert (c.2, suffix) m
    index := s.index.insert c.2 (i, env.lo)
    byMsa := s.byMsa.insert m (display, p.expiration) }, display)

/-- `do_retire_handle`, lib.rs 735-755. -/
def doRetire (cfg : Config) (s : State) (m : MsaId) : Except Err (State × Bytes) := do
  let h ← okOr (s.byMsa.get m) .msaHandleDoesNotExist
  let str ← okOr (utf8Decode h.1) .invalidHandleEncoding
  let parts ← okOr (splitDisplayName str) .invalidHandle
  let c := canonicalBase cfg parts.1
  pure ({ s with byMsa := s.byMsa.erase m, byName := s.byName.erase (c.2, parts.2) }, h.1)

/-- `claim_handle`, lib.rs 374-400. The origin may be anybody. -/
def claim (cfg : Config) (env : Env) (s : State) (key : AccountId) (sig : Signature) (p : Payload) :
    Except Err State := do
  verifyByteLength p.baseHandle
  let m ← okOr (env.msaOf key) .invalidMessageSourceAccount
  verifyMortality cfg env p.expiration
  verifySigned cfg sig key p.encode
  let r ← doClaim cfg env s m p
  pure { r.1 with events := r.1.events ++ [.claimed m r.2] }

/-- `retire_handle`, lib.rs 419-430. -/
def retire (cfg : Config) (env : Env) (s : State) (key : AccountId) : Except Err State := do
  let m ← okOr (env.msaOf key) .invalidMessageSourceAccount
  let r ← doRetire cfg s m
  pure { r.1 with events := r.1.events ++ [.retired m r.2] }

/-- `change_handle`, lib.rs 460-494. -/
def change (cfg : Config) (env : Env) (s : State) (key : AccountId) (sig : Signature) (p : Payload) :
    Except Err State := do
  verifyByteLength p.baseHandle
  let m ← okOr (env.msaOf key) .invalidMessageSourceAccount
  verifyMortality cfg env p.expiration
  verifySigned cfg sig key p.encode
  let _ ← okOr (s.byMsa.get m) .msaHandleDoesNotExist
  let r ← doRetire cfg s m
  let s1 : State := { r.1 with events := r.1.events ++ [.retired m r.2] }
  let r2 ← doClaim cfg env s1 m p
  pure { r2.1 with events := r2.1.events ++ [.claimed m r2.2] }

/-- `validate_retire_handle` of the transaction extension, handles_signed_extension.rs 39-60. -/
def validateRetire (env : Env) (s : State) (key : AccountId) : Except Err Unit := do
  let m ← okOr (env.msaOf key) .invalidMessageSourceAccount
  let h ← okOr (s.byMsa.get m) .msaHandleDoesNotExist
  ensure (env.block ≥ h.2) .handleWithinMortalityPeriod

/-! ## Queries -/

/-- `get_handle_for_msa`, lib.rs 507-523: base handle, canonical base and suffix. -/
def handleForMsa (cfg : Config) (s : State) (m : MsaId) : Option (Bytes × Bytes × Nat) := do
  let h ← s.byMsa.get m
  let str ← utf8Decode h.1
  let parts ← splitDisplayName str
  some (utf8Encode parts.1, (canonicalBase cfg parts.1).2, parts.2)

/-- The loop of `get_next_suffixes`, lib.rs 562-570, over the enumerated sequence. -/
def collectSuffixes (start count : Nat) : List (Nat × Nat) → List Nat → List Nat
  | [], acc => acc
  | (i, x) :: rest, acc =>
    let acc := if start ≤ i ∧ i < start + count then acc ++ [x] else acc
    if acc.length = count then acc else collectSuffixes start count rest acc

/-- Pairs of position and item. -/
def enumFrom (n : Nat) : List Nat → List (Nat × Nat)
  | [] => []
  | x :: l => (n, x) :: enumFrom (n + 1) l

/-- `get_next_suffixes`, lib.rs 540-572. -/
def nextSuffixes (cfg : Config) (env : Env) (s : State) (base : Bytes) (count : Nat) : List Nat :=
  let str := (utf8Decode base).getD []
  let c := canonicalBase cfg str
  let i := match nextSuffixIndex env s c.2 with
    | .ok i => i
    | .error _ => 0
  collectSuffixes i count (enumFrom 0 (uniqueSuffixes env.lo env.hi c.1)) []

/-- `get_msa_id_for_handle`, lib.rs 584-591. -/
def msaForHandle (cfg : Config) (s : State) (display : Bytes) : Option MsaId := do
  let parts ← splitDisplayName ((utf8Decode display).getD [])
  s.byName.get ((canonicalBase cfg parts.1).2, parts.2)

/-- `validate_handle`, lib.rs 761-775. -/
def validateHandle (cfg : Config) (base : Bytes) : Bool :=
  match validateBaseHandle base with
  | .ok str => (validateSupported (canonicalBase cfg str).1).isOk
  | .error _ => false

/-! ## Histories -/

/-- Operations. -/
inductive Op
  | claim (key : AccountId) (sig : Signature) (p : Payload)
  | change (key : AccountId) (sig : Signature) (p : Payload)
  /-- submitted as a transaction: the transaction extension runs first -/
  | retire (key : AccountId)
  /-- inside another call, for example a proxy call -/
  | retireWrapped (key : AccountId)

/-- An operation and its surroundings. -/
structure Step where
  env : Env
  op : Op

/-- Result of an operation. -/
def dispatch (cfg : Config) (s : State) (x : Step) : Except Err State :=
  match x.op with
  | .claim k sig p => claim cfg x.env s k sig p
  | .change k sig p => change cfg x.env s k sig p
  | .retire k => do
    validateRetire x.env s k
    retire cfg x.env s k
  | .retireWrapped k => retire cfg x.env s k

/-- Failing calls have no effect. -/
def apply (cfg : Config) (s : State) (x : Step) : State :=
  match dispatch cfg s x with
  | .ok s' => s'
  | .error _ => s

/-- State after a history. -/
def run (cfg : Config) (s : State) (h : List Step) : State := h.foldl (apply cfg) s

end Verif.Handles
