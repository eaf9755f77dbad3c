import Verif.Json.Exact
import Verif.Schemas.Parquet
import Verif.Schemas.PropsAccept
/-!
# Which models are accepted (C114, C116)
-/

namespace Verif.Parquet

open Json

theorem reads_typed {α : Type} {inRange : Bytes → Bool} {n d : Nat} {f : Value → Option α} {b : Bytes}
    {p : α × Bytes} (h : typed inRange n d f b = some p) : Reads b p.2 := by
  simp only [typed, Option.bind_eq_some_iff, Option.map_eq_some_iff] at h
  obtain ⟨q, h1, a, h2, rfl⟩ := h
  exact reads_value h1

theorem reads_comma {b r : Bytes} (h : comma b = some r) : Reads b r :=
  (reads_ws b).trans (reads_eat_lit (by decide) h)

theorem reads_fieldValue {inRange : Bytes → Bool} {n d : Nat} {k : Bytes} {f : Fields} {b : Bytes}
    {p : Fields × Bytes} (h : fieldValue inRange true n d k f b = some p) : Reads b p.2 := by
  simp only [fieldValue] at h
  split at h
  · split at h
    · cases h
    · rw [Option.map_eq_some_iff] at h
      obtain ⟨q, h1, rfl⟩ := h
      exact reads_typed (p := q) h1
  split at h
  · split at h
    · cases h
    · rw [Option.map_eq_some_iff] at h
      obtain ⟨q, h1, rfl⟩ := h
      exact reads_typed (p := q) h1
  split at h
  · split at h
    · cases h
    · rw [Option.map_eq_some_iff] at h
      obtain ⟨q, h1, rfl⟩ := h
      exact reads_typed (p := q) h1
  split at h
  · split at h
    · cases h
    · rw [Option.map_eq_some_iff] at h
      obtain ⟨q, h1, rfl⟩ := h
      exact reads_typed (p := q) h1
  · simp at h

theorem reads_fields (inRange : Bytes → Bool) : ∀ n,
    (∀ d first f b p, fields inRange true n d first f b = some p → Reads b p.2) ∧
    (∀ d f b p, fieldPart inRange true n d f b = some p → Reads b p.2)
  | 0 => ⟨fun _ _ _ _ _ h => by simp [fields] at h, fun _ _ _ _ h => by simp [fieldPart] at h⟩
  | n + 1 => by
    obtain ⟨i1, i2⟩ := reads_fields inRange n
    refine ⟨?_, ?_⟩
    · intro d first f b p h
      rw [fields] at h
      have hw := reads_ws b
      split at h
      · cases h
      · rename_i c r hs
        rw [hs] at hw
        refine hw.trans ?_
        split at h
        · rename_i hc
          cases h
          exact .ch '}' (by decide) hc r
        split at h
        · exact i2 _ _ _ _ h
        split at h
        · rename_i hc
          exact (Reads.ch ',' (by decide) hc r).trans (i2 _ _ _ _ h)
        · cases h
    · intro d f b p h
      rw [fieldPart] at h
      simp only [Option.bind_eq_some_iff] at h
      obtain ⟨r1, h1, k, h2, r3, h3, q, h4, h5⟩ := h
      exact (reads_ws b).trans ((reads_eat_lit (by decide) h1).trans ((reads_parseStr h2).trans
        ((reads_ws _).trans ((reads_eat_lit (by decide) h3).trans
          ((reads_fieldValue h4).trans (i1 _ _ _ _ _ h5))))))

theorem reads_tuple {inRange : Bytes → Bool} {n d : Nat} {b : Bytes} {p : Column × Bytes}
    (h : tuple inRange true n d b = some p) : Reads b p.2 := by
  simp only [tuple, Option.bind_eq_bind, Option.bind_eq_some_iff, Option.some.injEq] at h
  obtain ⟨a1, h1, b1, g1, a2, h2, b2, g2, a3, h3, b3, g3, a4, h4, b4, g4, rfl⟩ := h
  exact (reads_typed h1).trans ((reads_comma g1).trans ((reads_typed h2).trans ((reads_comma g2).trans
    ((reads_typed h3).trans ((reads_comma g3).trans ((reads_typed h4).trans ((reads_ws _).trans
      (reads_eat_lit (by decide) g4))))))))

theorem reads_column {inRange : Bytes → Bool} {n d : Nat} {b : Bytes} {p : Column × Bytes}
    (h : column inRange true n d b = some p) : Reads b p.2 := by
  rw [column] at h
  have hw := reads_ws b
  split at h
  · cases h
  · rename_i c r hs
    rw [hs] at hw
    refine hw.trans ?_
    split at h
    · rename_i hc
      exact (Reads.ch '[' (by decide) hc r).trans (reads_tuple h)
    split at h
    · rename_i hc
      simp only [Option.bind_eq_some_iff, Option.map_eq_some_iff] at h
      obtain ⟨q, h1, a, h2, rfl⟩ := h
      exact (Reads.ch '{' (by decide) hc r).trans ((reads_fields inRange n).1 _ _ _ _ _ h1)
    · cases h

theorem reads_columns {inRange : Bytes → Bool} : ∀ {n : Nat} {first : Bool} {b : Bytes} {p : List Column × Bytes},
    columns inRange true n first b = some p → Reads b p.2
  | 0, _, _, _, h => by simp [columns] at h
  | n + 1, first, b, p, h => by
    rw [columns] at h
    have hw := reads_ws b
    split at h
    · cases h
    · rename_i c r hs
      rw [hs] at hw
      refine hw.trans ?_
      split at h
      · rename_i hc
        cases h
        exact .ch ']' (by decide) hc r
      split at h
      · simp only [Option.bind_eq_some_iff, Option.map_eq_some_iff] at h
        obtain ⟨q, h1, a, h2, rfl⟩ := h
        exact (reads_column h1).trans (reads_columns (p := a) h2)
      split at h
      · rename_i hc
        simp only [Option.bind_eq_some_iff, Option.map_eq_some_iff] at h
        obtain ⟨q, h1, a, h2, rfl⟩ := h
        exact (Reads.ch ',' (by decide) hc r).trans ((reads_column h1).trans (reads_columns (p := a) h2))
      · cases h

/-- Without unknown fields, an accepted model is UTF-8. -/
theorem utf8_parse {inRange : Bytes → Bool} {b : Bytes} {l : List Column} (h : parse inRange true b = some l) :
    Utf8 b := by
  simp only [parse, Option.bind_eq_some_iff] at h
  obtain ⟨r, h1, p, h2, h⟩ := h
  split at h
  · rename_i he
    exact (reads_ws b).utf8 ((reads_eat_lit (by decide) h1).utf8 ((reads_columns h2).utf8 (reads_atEnd he)))
  · cases h

end Verif.Parquet

namespace Verif.Schemas

open Json Parquet

/-! ## C114 -/

/-- The chain: the constants of the runtime (runtime/common/src/constants.rs) and the validator of the code. -/
def chainCfg (inRange : Bytes → Bool) : Config := ⟨8, 65500, 65000, 2, ensureValidModel inRange⟩

/-- C114, in full: whatever schema is registered, the query for it is answered with its model. -/
def C114_full : Prop :=
  ∀ inRange s, Reachable (chainCfg inRange) s → ∀ id r, getSchemaById s id = some r →
    ∃ t, rpcModel r = some t ∧ utf8Encode t = r.model

theorem rpcModel_of_utf8 {r : Response} (h : Utf8 r.model) : ∃ t, rpcModel r = some t ∧ utf8Encode t = r.model := by
  obtain ⟨t, ht⟩ := h
  exact ⟨t, by rw [rpcModel, ← ht, utf8Decode_encode], ht⟩

/-- C114, partial: every registered Avro schema is answered with its model. Missing: Parquet schemas with fields that
the code does not know. -/
theorem C114_avro_partial (inRange : Bytes → Bool) (s : State) (hr : Reachable (chainCfg inRange) s) (id : SchemaId)
    (r : Response) (h : getSchemaById s id = some r) (ha : r.modelType = .avroBinary) :
    ∃ t, rpcModel r = some t ∧ utf8Encode t = r.model := by
  refine rpcModel_of_utf8 ?_
  have hv := (C43_rules _ s hr id r h).1
  rw [ha] at hv
  simp only [chainCfg, ensureValidModel, validateJsonModel] at hv
  split at hv
  · rename_i hj
    exact utf8_fromSlice hj
  · cases hv

/-- C114, partial: a Parquet schema without unknown fields is answered with its model. -/
theorem C114_parquet_partial (r : Response) (inRange : Bytes → Bool) (h : (parse inRange true r.model).isSome = true) :
    ∃ t, rpcModel r = some t ∧ utf8Encode t = r.model := by
  obtain ⟨l, hl⟩ := Option.isSome_iff_exists.mp h
  exact rpcModel_of_utf8 (utf8_parse hl)

/-- A model with a field unknown to the code, whose text is `x` followed by a byte that occurs nowhere in UTF-8. -/
def badModel : Bytes :=
  lit "[{\"name\":\"a\",\"column_type\":\"DATE\",\"compression\":\"GZIP\",\"bloom_filter\":true,\"note\":\"x" ++
    [255] ++ lit "\"}]"

/-- The same without the byte. -/
def goodModel : Bytes :=
  lit "[{\"name\":\"a\",\"column_type\":\"DATE\",\"compression\":\"GZIP\",\"bloom_filter\":true}]"

/-- The schema is registered by an ordinary account. -/
def badState : State :=
  run (chainCfg (fun _ => true)) (.init 65500) [.call (.signed 7) (.createSchemaV3 badModel .parquet .onChain [] none)]

set_option maxRecDepth 10000 in
theorem badState_registered : (getSchemaById badState 1).map Response.model = some badModel := by
  decide +kernel

/-- C114 is false: a Parquet schema with text in another encoding in an unknown field is registered, and the query for
it fails forever. -/
theorem C114_full_false : ¬ C114_full := by
  intro h
  have h0 := badState_registered
  rw [Option.map_eq_some_iff] at h0
  obtain ⟨r, h1, h2⟩ := h0
  obtain ⟨t, h3, -⟩ := h (fun _ => true) badState ⟨_, _, rfl⟩ 1 r h1
  rw [rpcModel, h2] at h3
  have : utf8Decode badModel = none := by decide +kernel
  rw [this] at h3
  cases h3

example : (parse (fun _ => true) true goodModel).isSome = true ∧ (parse (fun _ => true) true badModel).isSome = false ∧
    (getSchemaById (run (chainCfg (fun _ => true)) (.init 65500)
      [.call (.signed 7) (.createSchemaV3 goodModel .parquet .onChain [] none),
        .call (.signed 7) (.createSchemaV3 (lit "{\"a\":[1,\"\\u00e9\\n\"]}") .avroBinary .onChain [] none)]) 2).map
      (fun r => (r.modelType, (rpcModel r).isSome)) = some (.avroBinary, true) := by
  decide +kernel

/-! ## C116 -/

/-- A text, with white space around it, that denotes a JSON object. -/
def JsonObject (inRange : Bytes → Bool) (b : Bytes) : Prop :=
  ∃ w t w' l, b = w ++ (t ++ w') ∧ White w ∧ White w' ∧ Doc inRange 127 t (.obj l)

theorem validateJsonModel_iff (inRange : Bytes → Bool) (b : Bytes) :
    validateJsonModel inRange b = true ↔ JsonObject inRange b := by
  constructor
  · intro h
    simp only [validateJsonModel] at h
    split at h
    · rename_i l hl
      obtain ⟨w, t, w', hb, hw, hw', ht⟩ := (fromSlice_iff inRange b _).mp hl
      exact ⟨w, t, w', l, hb, hw, hw', ht⟩
    · cases h
  · rintro ⟨w, t, w', l, hb, hw, hw', ht⟩
    rw [validateJsonModel, (fromSlice_iff inRange b _).mpr ⟨w, t, w', hb, hw, hw', ht⟩]

/-- C116: an account registers an Avro schema exactly if the model is a JSON object, is long and short enough, and
there is an id left. -/
theorem C116_registered_iff (inRange : Bytes → Bool) (s : State) (hr : Reachable (chainCfg inRange) s)
    (key : AccountId) (model : Bytes) (loc : Location) :
    (∃ s', dispatch (chainCfg inRange) s (.signed key) (.createSchemaV3 model .avroBinary loc [] none) = .ok s') ↔
      JsonObject inRange model ∧ 8 ≤ model.length ∧ model.length ≤ s.maxBytes ∧ model.length ≤ 65500 ∧
      (createdIds s).length < 65535 := by
  rw [C87_accepted_iff _ s hr]
  simp only [Permitted, RegOk, chainCfg, ensureValidModel, validateJsonModel_iff, List.length_nil, Nat.zero_le,
    List.not_mem_nil, false_implies, true_and, Option.mem_def, reduceCtorEq, implies_true, and_true]

/-- C116: whatever call registered it, the model of an Avro schema is a JSON object. -/
theorem C116_registered (inRange : Bytes → Bool) (s : State) (hr : Reachable (chainCfg inRange) s) (id : SchemaId)
    (r : Response) (h : getSchemaById s id = some r) (ha : r.modelType = .avroBinary) : JsonObject inRange r.model := by
  have hv := (C43_rules _ s hr id r h).1
  rw [ha] at hv
  exact (validateJsonModel_iff inRange r.model).mp hv

/-- C116: what a text denotes is unambiguous. -/
theorem C116_unambiguous (inRange : Bytes → Bool) (t : Bytes) (v v' : Value) (h : Doc inRange 127 t v)
    (h' : Doc inRange 127 t v') : v = v' := by
  have e := (fromSlice_iff inRange t v).mpr ⟨[], t, [], by simp, White.nil, White.nil, h⟩
  have e' := (fromSlice_iff inRange t v').mpr ⟨[], t, [], by simp, White.nil, White.nil, h'⟩
  rw [e] at e'
  exact Option.some.inj e'

/-- ` {"a":[1,"\u00e9"]}` is a JSON object; without the last character, with a comma too many, with a number that
begins with zero, or with half of a surrogate pair it is not. -/
example : JsonObject (fun _ => true) (lit " {\"a\":[1,\"\\u00e9\"]}") ∧
    ¬ JsonObject (fun _ => true) (lit "{\"a\":[1,\"\\u00e9\"]") ∧ ¬ JsonObject (fun _ => true) (lit "{\"a\":[1,]}") ∧
    ¬ JsonObject (fun _ => true) (lit "{\"a\":01}") ∧ ¬ JsonObject (fun _ => true) (lit "{\"a\":\"\\ud800\"}") ∧
    ¬ JsonObject (fun _ => true) (lit "[1]") := by
  simp only [← validateJsonModel_iff]
  decide +kernel


end Verif.Schemas
