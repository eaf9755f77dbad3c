import Verif.Schemas.PropsModel
/-!
# Parquet models by their names (C115)
-/

namespace Verif.Parquet

open Json

/-! ## Specification

The names of the Parquet format (github.com/apache/parquet-format, `parquet.thrift` and `LogicalTypes.md`, to which the
comments of the code refer), and the form in which the tests of the pallet
(other_tests.rs 110-230) write columns. -/

/-- Types that are only a name. -/
inductive Named : ColType → String → Prop where
  | boolean : Named (.base .boolean) "BOOLEAN"
  | int32 : Named (.base .int32) "INT32"
  | int64 : Named (.base .int64) "INT64"
  | float : Named (.base .float) "FLOAT"
  | double : Named (.base .double) "DOUBLE"
  | byteArray : Named (.base .byteArray) "BYTE_ARRAY"
  | fixedLenByteArray : Named (.base .fixedLenByteArray) "FIXED_LEN_BYTE_ARRAY"
  | string : Named .string "STRING"
  | uuid : Named .uuid "UUID"
  | date : Named .date "DATE"
  | interval : Named .interval "INTERVAL"

/-- Units of time. -/
inductive UnitNamed : TimeUnit → String → Prop where
  | millis : UnitNamed .millis "MILLIS"
  | micros : UnitNamed .micros "MICROS"
  | nanos : UnitNamed .nanos "NANOS"

/-- Compressions. -/
inductive CodecNamed : Codec → String → Prop where
  | uncompressed : CodecNamed .uncompressed "UNCOMPRESSED"
  | snappy : CodecNamed .snappy "SNAPPY"
  | gzip : CodecNamed .gzip "GZIP"
  | lzo : CodecNamed .lzo "LZO"
  | brotli : CodecNamed .brotli "BROTLI"
  | zstd : CodecNamed .zstd "ZSTD"
  | lz4Raw : CodecNamed .lz4Raw "LZ4_RAW"

/-- A number up to 255, in decimal. -/
def Small (n : Nat) (v : Value) : Prop := n ≤ 255 ∧ v = .num ((Nat.toDigits 10 n).map ch)

/-- An object with these members, in any order. -/
def Obj (l : List (String × Value)) (v : Value) : Prop :=
  ∃ m, v = .obj m ∧ m.Perm (l.map (fun p => (lit p.1, p.2)))

/-- How a type is written. -/
inductive TypeDoc : ColType → Value → Prop where
  | named {t : ColType} {s : String} : Named t s → TypeDoc t (.str (lit s))
  | integer {n : Nat} {b : Bool} {x y : Value} : Small n x → Obj [("bit_width", x), ("sign", .bool b)] y →
      TypeDoc (.integer n b) (.obj [(lit "INTEGER", y)])
  | decimal {n m : Nat} {x x' y : Value} : Small n x → Small m x' → Obj [("scale", x), ("precision", x')] y →
      TypeDoc (.decimal n m) (.obj [(lit "DECIMAL", y)])
  | time {b : Bool} {u : TimeUnit} {s : String} {y : Value} : UnitNamed u s →
      Obj [("is_adjusted_to_utc", .bool b), ("unit", .str (lit s))] y → TypeDoc (.time b u) (.obj [(lit "TIME", y)])
  | timestamp {b : Bool} {u : TimeUnit} {s : String} {y : Value} : UnitNamed u s →
      Obj [("is_adjusted_to_utc", .bool b), ("unit", .str (lit s))] y →
      TypeDoc (.timestamp b u) (.obj [(lit "TIMESTAMP", y)])

/-- How a column is written. -/
def ColDoc (c : Column) (v : Value) : Prop :=
  ∃ t s, TypeDoc c.type t ∧ CodecNamed c.compression s ∧
    Obj [("name", .str c.name), ("column_type", t), ("compression", .str (lit s)), ("bloom_filter", .bool c.bloom)] v

/-- `b` is a JSON text that lists these columns. -/
def Lists (inRange : Bytes → Bool) (b : Bytes) (l : List Column) : Prop :=
  ∃ w t w' vs, b = w ++ (t ++ w') ∧ White w ∧ White w' ∧ Doc inRange 127 t (.arr vs) ∧ List.Forall₂ ColDoc l vs

/-- C115, in full: whatever columns a JSON text lists, it is accepted as a model and means them. -/
def C115_full : Prop :=
  ∀ inRange b l, Lists inRange b l → parse inRange false b = some l

/-! ## Types -/

theorem asUnit_unitTypes {t : ColType} {s : String} (h : Named t s) : asUnit unitTypes (.str (lit s)) = some t := by
  cases h <;> decide +kernel

theorem asUnit_units {t : TimeUnit} {s : String} (h : UnitNamed t s) : asUnit units (.str (lit s)) = some t := by
  cases h <;> decide +kernel

theorem asUnit_codecs {t : Codec} {s : String} (h : CodecNamed t s) (hz : t ≠ .zstd) :
    asUnit codecs (.str (lit s)) = some t := by
  cases h with
  | zstd => exact absurd rfl hz
  | _ => decide +kernel

theorem asU8_small {n : Nat} {v : Value} (h : Small n v) : asU8 v = some n := by
  obtain ⟨hn, rfl⟩ := h
  have : ∀ n < 256, asU8 (.num ((Nat.toDigits 10 n).map ch)) = some n := by decide +kernel
  exact this n (by omega)

theorem field_perm {m l : List (Bytes × Value)} (h : m.Perm l) {k : Bytes} {v : Value} (hl : field l k = some v) :
    field m k = some v := by
  unfold field at hl ⊢
  split at hl
  · rename_i p hp
    have := h.filter (fun p => p.1 == k)
    rw [hp, List.perm_singleton] at this
    rw [this]
    exact hl
  · cases hl

theorem asPair_obj {α β : Type} {k1 k2 : String} (hk : lit k1 ≠ lit k2) {f : Value → Option α} {g : Value → Option β}
    {x y v : Value} {a : α} {b : β} (hx : f x = some a) (hy : g y = some b) (h : Obj [(k1, x), (k2, y)] v) :
    asPair false (lit k1) f (lit k2) g v = some (a, b) := by
  obtain ⟨m, rfl, hm⟩ := h
  have h1 : field m (lit k1) = some x := field_perm hm (by simp [field, hk.symm])
  have h2 : field m (lit k2) = some y := field_perm hm (by simp [field, hk])
  simp [asPair, h1, h2, hx, hy]

theorem asType_doc {t : ColType} {v : Value} (h : TypeDoc t v) : asType false v = some t := by
  cases h with
  | named h => simp only [asType, asUnit_unitTypes h]
  | @integer n b x y h1 h2 =>
    have h0 : asUnit unitTypes (.obj [(lit "INTEGER", y)]) = none := by
      cases y <;> first | rfl | (show unitTypes.lookup (lit "INTEGER") = none; decide +kernel)
    have := asPair_obj (by decide) (asU8_small h1) (g := asBool) rfl h2
    rw [asType, h0]
    dsimp only
    rw [if_pos (by decide), this]
    rfl
  | @decimal n m x x' y h1 h2 h3 =>
    have h0 : asUnit unitTypes (.obj [(lit "DECIMAL", y)]) = none := by
      cases y <;> first | rfl | (show unitTypes.lookup (lit "DECIMAL") = none; decide +kernel)
    have := asPair_obj (by decide) (asU8_small h1) (asU8_small h2) h3
    rw [asType, h0]
    dsimp only
    rw [if_neg (by decide), if_pos (by decide), this]
    rfl
  | @time b u s y h1 h2 =>
    have h0 : asUnit unitTypes (.obj [(lit "TIME", y)]) = none := by
      cases y <;> first | rfl | (show unitTypes.lookup (lit "TIME") = none; decide +kernel)
    have := asPair_obj (by decide) (f := asBool) rfl (asUnit_units h1) h2
    rw [asType, h0]
    dsimp only
    rw [if_neg (by decide), if_neg (by decide), if_pos (by decide), this]
    rfl
  | @timestamp b u s y h1 h2 =>
    have h0 : asUnit unitTypes (.obj [(lit "TIMESTAMP", y)]) = none := by
      cases y <;> first | rfl | (show unitTypes.lookup (lit "TIMESTAMP") = none; decide +kernel)
    have := asPair_obj (by decide) (f := asBool) rfl (asUnit_units h1) h2
    rw [asType, h0]
    dsimp only
    rw [if_neg (by decide), if_neg (by decide), if_neg (by decide), if_pos (by decide), this]
    rfl

/-! ## Columns -/

/-- What a member of a column does to the fields read so far. -/
def stepField (f : Fields) (p : Bytes × Value) : Option Fields :=
  if p.1 = lit "name" then
    if f.name.isSome then none else (asStr p.2).map (fun x => { f with name := some x })
  else if p.1 = lit "column_type" then
    if f.type.isSome then none else (asType false p.2).map (fun x => { f with type := some x })
  else if p.1 = lit "compression" then
    if f.compression.isSome then none else (asUnit codecs p.2).map (fun x => { f with compression := some x })
  else if p.1 = lit "bloom_filter" then
    if f.bloom.isSome then none else (asBool p.2).map (fun x => { f with bloom := some x })
  else none

/-- The same where reading may have failed before. -/
def stepOpt (o : Option Fields) (p : Bytes × Value) : Option Fields := o.bind (fun f => stepField f p)

/-- The four fields of a column. -/
def Known (k : Bytes) : Prop := k = lit "name" ∨ k = lit "column_type" ∨ k = lit "compression" ∨ k = lit "bloom_filter"

theorem typed_complete {inRange : Bytes → Bool} {α : Type} {k n d : Nat} {t w r : Bytes} {v : Value}
    (g : Value → Option α) (h : Doc inRange k t v) (hd : k < d) (hw : White w) (hr : Ends r)
    (hn : 2 * (w ++ (t ++ r)).length < n) :
    typed inRange n d g (w ++ (t ++ r)) = (g v).map (fun a => (a, r)) := by
  rw [typed, (complete_all inRange n).1 k t v h d w r hd hw hr hn]
  rfl

theorem fieldValue_complete {inRange : Bytes → Bool} {k n d : Nat} {t w r : Bytes} {v : Value} {key : Bytes} {f : Fields}
    (hk : Known key) (h : Doc inRange k t v) (hd : k < d) (hw : White w) (hr : Ends r)
    (hn : 2 * (w ++ (t ++ r)).length < n) :
    fieldValue inRange false n d key f (w ++ (t ++ r)) = (stepField f (key, v)).map (fun f => (f, r)) := by
  simp only [fieldValue, stepField]
  rw [typed_complete asStr h hd hw hr hn, typed_complete (asType false) h hd hw hr hn,
    typed_complete (asUnit codecs) h hd hw hr hn, typed_complete asBool h hd hw hr hn]
  split
  · split
    · rfl
    · simp only [Option.map_map, Function.comp_def]
  split
  · split
    · rfl
    · simp only [Option.map_map, Function.comp_def]
  split
  · split
    · rfl
    · simp only [Option.map_map, Function.comp_def]
  split
  · split
    · rfl
    · simp only [Option.map_map, Function.comp_def]
  · rename_i h1 h2 h3 h4
    rcases hk with h | h | h | h
    · exact absurd h h1
    · exact absurd h h2
    · exact absurd h h3
    · exact absurd h h4

theorem fieldPart_skip (inRange : Bytes → Bool) (deny : Bool) (n d : Nat) (f : Fields) (b : Bytes) :
    fieldPart inRange deny n d f (skipWs b) = fieldPart inRange deny n d f b := by
  cases n with
  | zero => simp [fieldPart]
  | succ n => rw [fieldPart, fieldPart, skipWs_idem]

theorem fields_end {inRange : Bytes → Bool} {deny : Bool} {n d : Nat} {first : Bool} {f : Fields} {b r : Bytes}
    (h : skipWs b = 125 :: r) : fields inRange deny (n + 1) d first f b = some (f, r) := by
  rw [fields, h]; rfl

theorem fields_comma {inRange : Bytes → Bool} {deny : Bool} {n d : Nat} {f : Fields} {b r : Bytes}
    (h : skipWs b = 44 :: r) : fields inRange deny (n + 1) d false f b = fieldPart inRange deny n d f r := by
  rw [fields, h]; rfl

theorem fields_first {inRange : Bytes → Bool} {deny : Bool} {n d : Nat} {f : Fields} {b r : Bytes} {c : UInt8}
    (h : skipWs b = c :: r) (hc : c ≠ 125) :
    fields inRange deny (n + 1) d true f b = fieldPart inRange deny n d f b := by
  rw [fields, h]
  dsimp only
  rw [if_neg (show ¬ c = ch '}' from hc), if_pos rfl, ← h, fieldPart_skip]

/-- Reading the key and the colon. -/
theorem fieldPart_member {inRange : Bytes → Bool} {n d : Nat} {f : Fields} {w1 s w2 : Bytes} {key : Str}
    (g1 : White w1) (g2 : StrText s (utf8Encode key)) (g3 : White w2) (b : Bytes) :
    fieldPart inRange false (n + 1) d f (w1 ++ 34 :: (s ++ 34 :: (w2 ++ 58 :: b))) =
      (fieldValue inRange false n d (utf8Encode key) f b).bind (fun q => fields inRange false n d false q.1 q.2) := by
  rw [fieldPart, skipWs_head (by decide) g1]
  simp only [show ∀ b : Bytes, eat [ch '"'] (34 :: b) = some b from fun _ => rfl, Option.bind_some]
  rw [parseStr_complete g2]
  simp only [Option.bind_some]
  rw [skipWs_head (by decide) g3]
  simp only [show ∀ b : Bytes, eat [ch ':'] (58 :: b) = some b from fun _ => rfl, Option.bind_some]

theorem fieldPart_complete (inRange : Bytes → Bool) (n : Nat) : ∀ k t l, Members inRange k t l →
    (∀ p ∈ l, Known p.1) → ∀ (d : Nat) (f : Fields) (r : Bytes), k < d → 2 * (t ++ 125 :: r).length < n →
    fieldPart inRange false n d f (t ++ 125 :: r) = (l.foldl stepOpt (some f)).map (fun f => (f, r)) := by
  induction n using Nat.strong_induction_on with
  | _ n ih =>
  intro k t l h hl d f r hd hn
  have none_fold : ∀ l : List (Bytes × Value), l.foldl stepOpt none = none := by
    intro l
    induction l with
    | nil => rfl
    | cons p l ih => exact ih
  cases h with
  | one h1 h2 =>
    cases h1 with
    | mk g1 g2 g3 g4 g5 =>
      simp only [List.append_assoc, List.cons_append] at hn ⊢
      simp only [List.length_append, List.length_cons] at hn
      obtain ⟨n, rfl⟩ : ∃ m, n = m + 2 := ⟨n - 2, by omega⟩
      rw [fieldPart_member g1 g2 g3]
      have hk := hl _ List.mem_cons_self
      dsimp only at hk
      rw [fieldValue_complete hk g5 hd g4 (Ends.white h2 (by simp) _)
        (by simp only [List.length_append, List.length_cons]; omega)]
      simp only [List.foldl_cons, List.foldl_nil, stepOpt, Option.bind_some]
      cases stepField f _ with
      | none => rfl
      | some f' =>
        simp only [Option.map_some, Option.bind_some]
        rw [fields_end (skipWs_head (by decide) h2 _)]
  | cons h1 h2 h3 =>
    cases h1 with
    | mk g1 g2 g3 g4 g5 =>
      simp only [List.append_assoc, List.cons_append] at hn ⊢
      simp only [List.length_append, List.length_cons] at hn
      obtain ⟨n, rfl⟩ : ∃ m, n = m + 2 := ⟨n - 2, by omega⟩
      rw [fieldPart_member g1 g2 g3]
      have hk := hl _ List.mem_cons_self
      dsimp only at hk
      rw [fieldValue_complete hk g5 hd g4 (Ends.white h2 (by simp) _)
        (by simp only [List.length_append, List.length_cons]; omega)]
      simp only [List.foldl_cons]
      rw [show ∀ p, stepOpt (some f) p = stepField f p from fun _ => rfl]
      cases stepField f _ with
      | none => rw [none_fold]; rfl
      | some f' =>
        simp only [Option.map_some, Option.bind_some]
        rw [fields_comma (skipWs_head (by decide) h2 _)]
        exact ih n (by omega) _ _ _ h3 (fun p hp => hl p (by simp [hp])) d f' r hd
          (by simp only [List.length_append, List.length_cons]; omega)

theorem stepField_cases (p : Bytes × Value) :
    (∃ o : Option Bytes, ∀ f, stepField f p = if f.name.isSome then none else o.map (fun x => { f with name := some x })) ∨
    (∃ o : Option ColType, ∀ f, stepField f p = if f.type.isSome then none else o.map (fun x => { f with type := some x })) ∨
    (∃ o : Option Codec, ∀ f, stepField f p =
      if f.compression.isSome then none else o.map (fun x => { f with compression := some x })) ∨
    (∃ o : Option Bool, ∀ f, stepField f p = if f.bloom.isSome then none else o.map (fun x => { f with bloom := some x })) ∨
    (∀ f, stepField f p = none) := by
  by_cases h1 : p.1 = lit "name"
  · exact .inl ⟨asStr p.2, fun f => by rw [stepField, if_pos h1]⟩
  by_cases h2 : p.1 = lit "column_type"
  · exact .inr (.inl ⟨asType false p.2, fun f => by rw [stepField, if_neg h1, if_pos h2]⟩)
  by_cases h3 : p.1 = lit "compression"
  · exact .inr (.inr (.inl ⟨asUnit codecs p.2, fun f => by rw [stepField, if_neg h1, if_neg h2, if_pos h3]⟩))
  by_cases h4 : p.1 = lit "bloom_filter"
  · exact .inr (.inr (.inr (.inl
      ⟨asBool p.2, fun f => by rw [stepField, if_neg h1, if_neg h2, if_neg h3, if_pos h4]⟩)))
  · exact .inr (.inr (.inr (.inr fun f => by rw [stepField, if_neg h1, if_neg h2, if_neg h3, if_neg h4])))

theorem stepOpt_comm (o : Option Fields) (p q : Bytes × Value) : stepOpt (stepOpt o p) q = stepOpt (stepOpt o q) p := by
  cases o with
  | none => rfl
  | some f =>
    obtain ⟨x1, x2, x3, x4⟩ := f
    simp only [stepOpt, Option.bind_some]
    rcases stepField_cases p with ⟨a, ha⟩ | ⟨a, ha⟩ | ⟨a, ha⟩ | ⟨a, ha⟩ | ha <;>
    rcases stepField_cases q with ⟨b, hb⟩ | ⟨b, hb⟩ | ⟨b, hb⟩ | ⟨b, hb⟩ | hb <;>
    simp only [ha, hb, Option.bind_none, Option.bind_fun_none] <;>
    cases a <;> cases b <;> (try cases x1) <;> (try cases x2) <;> (try cases x3) <;> (try cases x4) <;>
    simp only [Option.map_none, Option.map_some, Option.isSome_none, Option.isSome_some, if_true, if_false,
      Option.bind_none, Option.bind_some, ha, hb, reduceIte, Bool.false_eq_true]

/-- The members of a column in any order give the column. -/
theorem fold_col {c : Column} {v : Value} (h : ColDoc c v) (hz : c.compression ≠ .zstd) :
    ∃ m, v = .obj m ∧ (∀ p ∈ m, Known p.1) ∧
      m.foldl stepOpt (some {}) = some ⟨some c.name, some c.type, some c.compression, some c.bloom⟩ := by
  obtain ⟨t, s, ht, hs, m, rfl, hm⟩ := h
  refine ⟨m, rfl, ?_, ?_⟩
  · intro p hp
    have := hm.mem_iff.1 hp
    simp only [List.map_cons, List.map_nil, List.mem_cons, List.not_mem_nil, or_false] at this
    rcases this with rfl | rfl | rfl | rfl
    · exact .inl rfl
    · exact .inr (.inl rfl)
    · exact .inr (.inr (.inl rfl))
    · exact .inr (.inr (.inr rfl))
  · rw [hm.foldl_eq' (fun x _ y _ z => stepOpt_comm z x y)]
    simp only [List.map_cons, List.map_nil, List.foldl_cons, List.foldl_nil, stepOpt, Option.bind_some]
    have k1 : lit "column_type" ≠ lit "name" := by decide
    have k2 : lit "compression" ≠ lit "name" := by decide
    have k3 : lit "bloom_filter" ≠ lit "name" := by decide
    have k4 : lit "compression" ≠ lit "column_type" := by decide
    have k5 : lit "bloom_filter" ≠ lit "column_type" := by decide
    have k6 : lit "bloom_filter" ≠ lit "compression" := by decide
    simp only [stepField, if_pos, k1, k2, k3, k4, k5, k6, if_false, Option.isSome_none, Bool.false_eq_true,
      asStr, asType_doc ht, asUnit_codecs hs hz, asBool, Option.map_some, Option.bind_some]

theorem column_complete {inRange : Bytes → Bool} {k n d : Nat} {w t r : Bytes} {v : Value} {c : Column}
    (hc : ColDoc c v) (hz : c.compression ≠ .zstd) (h : Doc inRange k t v) (hd : k ≤ d) (hw : White w)
    (hn : 2 * (w ++ (t ++ r)).length ≤ n) : column inRange false n d (w ++ (t ++ r)) = some (c, r) := by
  obtain ⟨m, rfl, hk, hf⟩ := fold_col hc hz
  cases h with
  | obj0 _ _ => cases hf
  | obj h =>
    simp only [List.append_assoc, List.cons_append, List.nil_append] at hn ⊢
    simp only [List.length_append, List.length_cons] at hn
    obtain ⟨n, rfl⟩ : ∃ a, n = a + 1 := ⟨n - 1, by omega⟩
    rw [column, skipWs_head (by decide) hw]
    dsimp only
    rw [if_neg (by decide), if_pos (by decide)]
    obtain ⟨x, u, hx, hx'⟩ := members_head h (125 :: r)
    rw [fields_first hx hx', fieldPart_complete inRange n _ _ _ h hk d _ r (by omega)
      (by simp only [List.length_append, List.length_cons]; omega), hf]
    rfl

theorem column_skip (inRange : Bytes → Bool) (deny : Bool) (n d : Nat) (b : Bytes) :
    column inRange deny n d (skipWs b) = column inRange deny n d b := by
  rw [column, column, skipWs_idem]

theorem columns_end {inRange : Bytes → Bool} {deny : Bool} {n : Nat} {f : Bool} {b r : Bytes} (h : skipWs b = 93 :: r) :
    columns inRange deny (n + 1) f b = some ([], r) := by
  rw [columns, h]; rfl

theorem columns_comma {inRange : Bytes → Bool} {deny : Bool} {n : Nat} {b r : Bytes} (h : skipWs b = 44 :: r) :
    columns inRange deny (n + 1) false b = (column inRange deny n 126 r).bind (fun p =>
      (columns inRange deny n false p.2).map (fun q => (p.1 :: q.1, q.2))) := by
  rw [columns, h]; rfl

theorem columns_first {inRange : Bytes → Bool} {deny : Bool} {n : Nat} {b r : Bytes} {c : UInt8}
    (h : skipWs b = c :: r) (hc : c ≠ 93) :
    columns inRange deny (n + 1) true b = (column inRange deny n 126 b).bind (fun p =>
      (columns inRange deny n false p.2).map (fun q => (p.1 :: q.1, q.2))) := by
  rw [columns, h]
  dsimp only
  rw [if_neg (show ¬ c = ch ']' from hc), if_pos rfl, ← h, column_skip]

theorem columns_complete (inRange : Bytes → Bool) (n : Nat) : ∀ t vs, Elems inRange 126 t vs → ∀ l,
    List.Forall₂ ColDoc l vs → (∀ c ∈ l, c.compression ≠ .zstd) → ∀ r, 2 * (t ++ 93 :: r).length < n →
    (column inRange false n 126 (t ++ 93 :: r)).bind (fun p =>
      (columns inRange false n false p.2).map (fun q => (p.1 :: q.1, q.2))) = some (l, r) := by
  induction n using Nat.strong_induction_on with
  | _ n ih =>
  intro t vs h l hl hz r hn
  cases h with
  | one h1 h2 h3 =>
    cases hl with
    | cons a1 a2 =>
      cases a2
      simp only [List.append_assoc] at hn ⊢
      rw [column_complete a1 (hz _ List.mem_cons_self) h2 (Nat.le_refl _) h1 (by omega)]
      obtain ⟨n, rfl⟩ : ∃ a, n = a + 1 := ⟨n - 1, by omega⟩
      simp only [Option.bind_some]
      rw [columns_end (skipWs_head (by decide) h3 _)]
      rfl
  | cons h1 h2 h3 h4 =>
    cases hl with
    | cons a1 a2 =>
      simp only [List.append_assoc, List.cons_append] at hn ⊢
      rw [column_complete a1 (hz _ List.mem_cons_self) h2 (Nat.le_refl _) h1 (by omega)]
      simp only [List.length_append, List.length_cons] at hn
      obtain ⟨n, rfl⟩ : ∃ a, n = a + 1 := ⟨n - 1, by omega⟩
      simp only [Option.bind_some]
      rw [columns_comma (skipWs_head (by decide) h3 _), ih n (by omega) _ _ h4 _ a2
        (fun c hc => hz c (List.mem_cons_of_mem _ hc)) r
        (by simp only [List.length_append, List.length_cons]; omega)]
      rfl

/-- C115, as far as it holds: the columns that a JSON text lists are what it means as a model, unless one of them is
compressed with `ZSTD`. -/
theorem C115_partial (inRange : Bytes → Bool) (b : Bytes) (l : List Column) (h : Lists inRange b l)
    (hz : ∀ c ∈ l, c.compression ≠ .zstd) : parse inRange false b = some l := by
  obtain ⟨w, t, w', vs, rfl, hw, hw', hd, hl⟩ := h
  have hend : atEnd w' = true := by rw [atEnd_iff]; exact hw'
  cases hd with
  | arr0 _ g =>
    cases hl
    simp only [List.append_assoc, List.cons_append, List.nil_append]
    rw [parse, skipWs_head (by decide) hw]
    simp only [show ∀ b : Bytes, eat [ch '['] (91 :: b) = some b from fun _ => rfl, Option.bind_some, fuel]
    rw [columns_end (skipWs_head (by decide) g _)]
    simp only [Option.bind_some, hend, if_true]
  | arr h =>
    simp only [List.append_assoc, List.cons_append, List.nil_append]
    rw [parse, skipWs_head (by decide) hw]
    simp only [show ∀ b : Bytes, eat [ch '['] (91 :: b) = some b from fun _ => rfl, Option.bind_some, fuel]
    obtain ⟨x, u, hx, hx'⟩ := elems_head h (93 :: w')
    rw [columns_first hx hx', columns_complete inRange _ _ _ h l hl hz w'
      (by simp only [List.length_append, List.length_cons]; omega)]
    simp only [Option.bind_some, hend, if_true]

/-- A column whose content is compressed with `ZSTD`. -/
def zstdColumn : Column := ⟨lit "a", .uuid, .zstd, true⟩

/-- A list of it. -/
def zstdText : Bytes :=
  lit "[{\"name\": \"a\", \"column_type\": \"UUID\", \"compression\": \"ZSTD\", \"bloom_filter\": true}]"

theorem zstd_lists : Lists (fun _ => true) zstdText [zstdColumn] := by
  have h : fromSlice (fun _ => true) zstdText = some (.arr [.obj [(lit "name", .str (lit "a")),
      (lit "column_type", .str (lit "UUID")), (lit "compression", .str (lit "ZSTD")),
      (lit "bloom_filter", .bool true)]]) := by with_unfolding_all rfl
  obtain ⟨w, t, w', hb, hw, hw', hd⟩ := (fromSlice_iff _ _ _).1 h
  exact ⟨w, t, w', _, hb, hw, hw', hd, .cons ⟨_, _, .named .uuid, .zstd, _, rfl, List.Perm.refl _⟩ .nil⟩

/-- C115 fails: a model with the compression `ZSTD` is refused, because its variant is written in capitals
(column_compression_codec.rs 21) and serde makes `Z_S_T_D` of it. -/
theorem C115_full_false : ¬ C115_full := by
  intro h
  have := h _ _ _ zstd_lists
  have h' : parse (fun _ => true) false zstdText = none := by decide +kernel
  rw [h'] at this
  cases this

/-- A model of two columns, with fields in different orders and a type with content. -/
example : parse (fun _ => true) false (lit ("[{\"name\":\"a\",\"compression\":\"LZ4_RAW\",\"bloom_filter\":false,"
    ++ "\"column_type\":{\"INTEGER\":{\"sign\":true,\"bit_width\":32}}},\n {\"column_type\":\"BYTE_ARRAY\","
    ++ "\"name\":\"b\",\"bloom_filter\":true,\"compression\":\"GZIP\"}]")) =
    some [⟨lit "a", .integer 32 true, .lz4Raw, false⟩, ⟨lit "b", .base .byteArray, .gzip, true⟩] := by
  decide +kernel

end Verif.Parquet
