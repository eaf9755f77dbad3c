import Verif.Schemas.Props
/-!
# Upgrade of the schema names to version 4

pallets/schemas/src/migration/v4.rs, which is in the list of the runtime (runtime/frequency/src/lib.rs 322).
-/

namespace Verif.Schemas

/-- `get_known_schemas`, migration/v4.rs 17-36: the table is filled on the main net only, which is told by the
hash of the genesis block. -/
def knownSchemas (mainNet : Bool) : List (SchemaId × Bytes) :=
  if mainNet then
    [(5, ascii "dsnp.update"), (6, ascii "dsnp.profile"), (7, ascii "dsnp.public-key-key-agreement"),
     (8, ascii "dsnp.public-follows"), (9, ascii "dsnp.private-follows"), (10, ascii "dsnp.private-connections")]
  else []

/-! ## What the property speaks about -/

/-- The names that the six schemas are to have. -/
def wanted : List (SchemaId × Name) :=
  [(5, ⟨ascii "dsnp", ascii "update"⟩), (6, ⟨ascii "dsnp", ascii "profile"⟩),
   (7, ⟨ascii "dsnp", ascii "public-key-key-agreement"⟩), (8, ⟨ascii "dsnp", ascii "public-follows"⟩),
   (9, ⟨ascii "dsnp", ascii "private-follows"⟩), (10, ⟨ascii "dsnp", ascii "private-connections"⟩)]

/-- A chain before the upgrade: any history of calls, at storage version 3. -/
def Before (cfg : Config) (s : State) : Prop := ∃ t, Reachable cfg t ∧ s = { t with version := 3 }

/-! ## Lemmas -/

theorem known_wanted : (knownSchemas true).map (fun e => (e.1, tryParse e.2 true)) =
    wanted.map (fun e => (e.1, .ok e.2)) := by decide +kernel

theorem known_short : ∀ e ∈ knownSchemas true, e.2.length ≤ 32 := by decide +kernel

/-- One entry of the table, with the name read. -/
def setName (s : State) (e : SchemaId × Name) : State :=
  match s.infos.get e.1 with
  | none => s
  | some info =>
    { s with names := s.names.insert e.2 [e.1], infos := s.infos.insert e.1 { info with hasName := true } }

theorem fold_setName (l : List (SchemaId × Bytes)) (w : List (SchemaId × Name)) (s : State)
    (h : l.map (fun e => (e.1, tryParse e.2 true)) = w.map (fun e => (e.1, .ok e.2)))
    (hs : ∀ e ∈ l, e.2.length ≤ 32) : l.foldl migrateOne s = w.foldl setName s := by
  induction l generalizing w s with
  | nil =>
    cases w with
    | nil => rfl
    | cons x xs => simp at h
  | cons a r ih =>
    cases w with
    | nil => simp at h
    | cons x xs =>
      simp only [List.map_cons, List.cons.injEq, Prod.mk.injEq] at h
      obtain ⟨⟨h1, h2⟩, h3⟩ := h
      rw [List.foldl_cons, List.foldl_cons]
      have : migrateOne s a = setName s x := by
        unfold migrateOne setName
        rw [h1]
        cases s.infos.get x.1 with
        | none => rfl
        | some i =>
          dsimp only
          rw [if_pos (hs a (by simp)), h2]
      rw [this]
      exact ih xs _ h3 (fun e he => hs e (by simp [he]))

/-- The schema of an entry exists before the entry exactly if it exists after it. -/
theorem setName_isSome (s : State) (e : SchemaId × Name) (id : SchemaId) :
    ((setName s e).infos.get id).isSome = (s.infos.get id).isSome := by
  unfold setName
  cases h : s.infos.get e.1 with
  | none => rfl
  | some i =>
    dsimp only
    rw [SMap.get_insert]
    by_cases he : e.1 = id
    · subst he; rw [if_pos rfl, h]; rfl
    · rw [if_neg he]

theorem setName_ids (s : State) (e : SchemaId × Name) (n : Name) :
    (setName s e).ids n = if (s.infos.get e.1).isSome = true ∧ e.2 = n then [e.1] else s.ids n := by
  unfold setName
  cases h : s.infos.get e.1 with
  | none => simp
  | some i =>
    dsimp only
    rw [ids_insert s e.2 n [e.1] _ rfl]
    by_cases he : e.2 = n
    · rw [if_pos he, if_pos ⟨rfl, he⟩]
    · rw [if_neg he, if_neg (fun hh => he hh.2)]

/-- The information on a schema after an entry. -/
theorem setName_infos (s : State) (e : SchemaId × Name) (id : SchemaId) :
    (setName s e).infos.get id =
      (s.infos.get id).map (fun i => { i with hasName := i.hasName || decide (e.1 = id) }) := by
  unfold setName
  cases h : s.infos.get e.1 with
  | none =>
    dsimp only
    cases h' : s.infos.get id with
    | none => rfl
    | some i =>
      have : e.1 ≠ id := by rintro rfl; rw [h] at h'; cases h'
      simp [this]
  | some j =>
    dsimp only
    rw [SMap.get_insert]
    by_cases he : e.1 = id
    · subst he; rw [if_pos rfl, h]; simp
    · rw [if_neg he]
      cases h' : s.infos.get id <;> simp [he]

theorem fold_isSome (w : List (SchemaId × Name)) (s : State) (id : SchemaId) :
    ((w.foldl setName s).infos.get id).isSome = (s.infos.get id).isSome := by
  induction w generalizing s with
  | nil => rfl
  | cons e r ih => rw [List.foldl_cons, ih, setName_isSome]

theorem fold_infos (w : List (SchemaId × Name)) (s : State) (id : SchemaId) :
    (w.foldl setName s).infos.get id =
      (s.infos.get id).map (fun i => { i with hasName := i.hasName || decide (id ∈ w.map (·.1)) }) := by
  induction w generalizing s with
  | nil => simp
  | cons e r ih =>
    rw [List.foldl_cons, ih, setName_infos]
    cases s.infos.get id with
    | none => rfl
    | some i =>
      simp only [Option.map_some, List.map_cons, List.mem_cons, Bool.decide_or, Bool.or_assoc,
        eq_comm (a := e.1)]

theorem fold_ids_other (w : List (SchemaId × Name)) (s : State) (n : Name)
    (h : ∀ e ∈ w, e.2 = n → (s.infos.get e.1).isSome = false) : (w.foldl setName s).ids n = s.ids n := by
  induction w generalizing s with
  | nil => rfl
  | cons e r ih =>
    rw [List.foldl_cons, ih, setName_ids, if_neg]
    · rintro ⟨h1, h2⟩
      rw [h e (by simp) h2] at h1; cases h1
    · intro e' he' hn
      rw [setName_isSome]
      exact h e' (by simp [he']) hn

theorem fold_ids (w : List (SchemaId × Name)) (s : State) (e : SchemaId × Name) (he : e ∈ w)
    (hd : (w.map (·.2)).Nodup) (hs : (s.infos.get e.1).isSome = true) : (w.foldl setName s).ids e.2 = [e.1] := by
  induction w generalizing s with
  | nil => cases he
  | cons x r ih =>
    rw [List.foldl_cons]
    rw [List.map_cons, List.nodup_cons] at hd
    rcases List.mem_cons.1 he with rfl | he
    · rw [fold_ids_other, setName_ids, if_pos ⟨hs, rfl⟩]
      intro e' he' hn
      exact absurd (hn ▸ List.mem_map_of_mem he') hd.1
    · exact ih _ he hd.2 (by rw [setName_isSome]; exact hs)

theorem fold_rest (w : List (SchemaId × Name)) (s : State) :
    (w.foldl setName s).payloads = s.payloads ∧ (w.foldl setName s).lastId = s.lastId ∧
    (w.foldl setName s).maxBytes = s.maxBytes ∧ (w.foldl setName s).events = s.events := by
  induction w generalizing s with
  | nil => exact ⟨rfl, rfl, rfl, rfl⟩
  | cons e r ih =>
    rw [List.foldl_cons]
    obtain ⟨h1, h2, h3, h4⟩ := ih (setName s e)
    rw [h1, h2, h3, h4]
    unfold setName
    cases s.infos.get e.1 <;> exact ⟨rfl, rfl, rfl, rfl⟩

theorem migrate_fold {s : State} (h : s.version < 4) :
    migrate s (knownSchemas true) = { wanted.foldl setName s with version := 4 } := by
  unfold migrate
  rw [if_pos h, fold_setName _ _ s known_wanted known_short]

theorem wanted_nodup : (wanted.map (·.2)).Nodup := by decide +kernel

theorem wanted_combined : ∀ e ∈ wanted, tryParse e.2.combined true = .ok e.2 ∧ tryParse e.2.combined false = .ok e.2 ∧
    e.2.combined.length ≤ 32 ∧ e.2.descriptor ≠ [] := by decide +kernel

/-! ## C102 -/

/-- C102: each of the six schemas that exists is afterwards the first and only version of its name. -/
theorem C102_known_names (s : State) (hv : s.version < 4) (e : SchemaId × Name) (he : e ∈ wanted)
    (hx : (getSchemaInfoById s e.1).isSome = true) :
    getSchemaVersions (migrate s (knownSchemas true)) e.2.combined = some [⟨e.2.combined, 1, e.1⟩] := by
  obtain ⟨_, h1, h2, h3⟩ := wanted_combined e he
  have hx' : (s.infos.get e.1).isSome = true := by
    unfold getSchemaInfoById at hx
    rwa [Option.isSome_map] at hx
  unfold getSchemaVersions
  rw [if_pos h2, h1]
  dsimp only
  rw [if_pos h3, migrate_fold hv]
  have : State.ids { wanted.foldl setName s with version := 4 } e.2 = [e.1] :=
    fold_ids wanted s e he wanted_nodup hx'
  rw [this]
  rfl

/-- C102: every other name lists what it listed before, also if its schema is missing. -/
theorem C102_other_names (s : State) (hv : s.version < 4) (b : Bytes) (n : Name) (hp : tryParse b true = .ok n)
    (hn : ∀ e ∈ wanted, e.2 = n → getSchemaInfoById s e.1 = none) :
    getSchemaVersions (migrate s (knownSchemas true)) b = getSchemaVersions s b := by
  unfold getSchemaVersions
  split
  · rename_i hl
    have hg := tryParse_strict hl hp
    have h' : tryParse b false = .ok n := by
      simp only [tryParse, bind_eq_ok_iff, ensure_eq_ok_iff] at hp ⊢
      obtain ⟨_, h1, _, h2, h3⟩ := hp
      refine ⟨(), h1, (), h2, ?_⟩
      unfold nameOfChunks at h3 ⊢
      split at h3
      · simp [bind_eq_ok_iff, ensure_eq_ok_iff] at h3
      · exact h3
      · cases h3
    rw [h']
    have hd : n.descriptor ≠ [] := by
      intro h0
      simp only [tryParse, bind_eq_ok_iff, ensure_eq_ok_iff] at hp
      obtain ⟨_, _, _, _, h3⟩ := hp
      unfold nameOfChunks at h3
      split at h3
      · simp [bind_eq_ok_iff, ensure_eq_ok_iff] at h3
      · simp only [bind_eq_ok_iff, checkDescriptor, ensure_eq_ok_iff, pure_eq_ok_iff] at h3
        obtain ⟨_, _, _, ⟨_, _, _, h4, _⟩, rfl⟩ := h3
        have h5 := congrArg List.length h0
        simp only [List.length_nil] at h5
        omega
      · cases h3
    dsimp only
    rw [if_pos hd, if_pos hd, migrate_fold hv]
    have : State.ids { wanted.foldl setName s with version := 4 } n = s.ids n := by
      refine fold_ids_other wanted s n ?_
      intro e he h
      have := hn e he h
      unfold getSchemaInfoById at this
      rw [Option.map_eq_none_iff] at this
      rw [this]; rfl
    rw [this]
  · rfl

/-- C102: no schema changes, and no id is issued or lost. -/
theorem C102_schemas_kept (s : State) (mainNet : Bool) (id : SchemaId) :
    getSchemaById (migrate s (knownSchemas mainNet)) id = getSchemaById s id ∧
    getSchemaInfoById (migrate s (knownSchemas mainNet)) id = getSchemaInfoById s id ∧
    ∀ ids, areAllSchemaIdsValid (migrate s (knownSchemas mainNet)) ids = areAllSchemaIdsValid s ids := by
  by_cases hv : s.version < 4
  · cases mainNet with
    | true =>
      obtain ⟨h1, h2, _, _⟩ := fold_rest wanted s
      rw [migrate_fold hv]
      refine ⟨?_, ?_, ?_⟩
      · unfold getSchemaById
        dsimp only
        rw [h1, fold_infos]
        cases s.infos.get id <;> cases s.payloads.get id <;> rfl
      · unfold getSchemaInfoById
        dsimp only
        rw [fold_infos]
        cases s.infos.get id <;> rfl
      · intro ids
        unfold areAllSchemaIdsValid
        dsimp only
        rw [h2]
    | false =>
      have : migrate s (knownSchemas false) = { s with version := 4 } := by
        unfold migrate; rw [if_pos hv]; rfl
      rw [this]
      exact ⟨rfl, rfl, fun _ => rfl⟩
  · have : migrate s (knownSchemas mainNet) = s := by unfold migrate; rw [if_neg hv]
    rw [this]
    exact ⟨rfl, rfl, fun _ => rfl⟩

/-- C102: on any other chain no name changes, and the upgrade has an effect only once. -/
theorem C102_elsewhere_and_once (s : State) (mainNet : Bool) :
    (∀ b, getSchemaVersions (migrate s (knownSchemas false)) b = getSchemaVersions s b) ∧
    migrate (migrate s (knownSchemas mainNet)) (knownSchemas mainNet) = migrate s (knownSchemas mainNet) := by
  constructor
  · intro b
    by_cases hv : s.version < 4
    · have : migrate s (knownSchemas false) = { s with version := 4 } := by
        unfold migrate; rw [if_pos hv]; rfl
      rw [this]; rfl
    · have : migrate s (knownSchemas false) = s := by unfold migrate; rw [if_neg hv]
      rw [this]
  · have hv : ¬ (migrate s (knownSchemas mainNet)).version < 4 := by
      unfold migrate
      split
      · simp
      · assumption
    rw [migrate.eq_def (migrate s (knownSchemas mainNet)), if_neg hv]

/-- C102, last clause of the full statement: afterwards governance can give a name to every schema that is
listed under none (here: a name that nobody has). It is false, see `C102_full_false`. -/
def C102_full : Prop := ∀ (cfg : Config) (s : State), Before cfg s → ∀ (id : SchemaId) (b : Bytes) (n : Name),
  (getSchemaInfoById s id).isSome = true →
  (∀ m, id ∉ (migrate s (knownSchemas true)).ids m) →
  b.length ≤ 32 → tryParse b true = .ok n → (migrate s (knownSchemas true)).ids n = [] →
  ∃ s', dispatch cfg (migrate s (knownSchemas true)) .council (.createName id b) = .ok s'

theorem createName_free {s : State} {id : SchemaId} {i : Info} {b : Bytes} {n : Name} (hg : s.infos.get id = some i)
    (hf : i.hasName = false) (hb : b.length ≤ 32) (hp : tryParse b true = .ok n) (h0 : s.ids n = []) (cfg : Config) :
    ∃ s', dispatch cfg s .council (.createName id b) = .ok s' := by
  simp only [dispatch, createName, parseAndVerify, addName, addVersion, bind_eq_ok_iff, ensure_eq_ok_iff,
    pure_eq_ok_iff, okOr_eq_ok_iff]
  exact ⟨_, (), rfl, (), hb, n, ⟨i, hg, (), hf, hp⟩, _, ⟨_, ⟨(), by rw [h0]; simp, (), by rw [h0]; simp, rfl⟩, rfl⟩, rfl⟩

/-- C102, last clause, if every one of the six names listed nothing but its own schema before. -/
theorem C102_nameable_partial (cfg : Config) (s : State) (hs : Before cfg s)
    (hclean : ∀ e ∈ wanted, ∀ id ∈ s.ids e.2, id = e.1) (id : SchemaId) (b : Bytes) (n : Name)
    (hx : (getSchemaInfoById s id).isSome = true)
    (hu : ∀ m, id ∉ (migrate s (knownSchemas true)).ids m)
    (hb : b.length ≤ 32) (hp : tryParse b true = .ok n) (h0 : (migrate s (knownSchemas true)).ids n = []) :
    ∃ s', dispatch cfg (migrate s (knownSchemas true)) .council (.createName id b) = .ok s' := by
  obtain ⟨t, ht, rfl⟩ := hs
  have hi := ht.inv
  have hv : ({ t with version := 3 } : State).version < 4 := by simp
  obtain ⟨i, hg⟩ : ∃ i, t.infos.get id = some i := by
    unfold getSchemaInfoById at hx
    rw [Option.isSome_map] at hx
    exact Option.isSome_iff_exists.1 hx
  have hids : ∀ m, (migrate { t with version := 3 } (knownSchemas true)).ids m =
      (wanted.foldl setName { t with version := 3 }).ids m := by
    intro m; rw [migrate_fold hv]; rfl
  have hginf : (migrate { t with version := 3 } (knownSchemas true)).infos.get id =
      some { i with hasName := i.hasName || decide (id ∈ wanted.map (·.1)) } := by
    rw [migrate_fold hv]
    show (wanted.foldl setName { t with version := 3 }).infos.get id = _
    rw [fold_infos]
    show (t.infos.get id).map _ = _
    rw [hg]; rfl
  refine createName_free hginf ?_ hb hp h0 cfg
  -- known schemas are listed
  have hk : id ∉ wanted.map (·.1) := by
    intro hmem
    obtain ⟨e, he, rfl⟩ := List.mem_map.1 hmem
    have := hu e.2
    rw [hids, fold_ids wanted _ e he wanted_nodup (by show (t.infos.get e.1).isSome = true; rw [hg]; rfl)] at this
    exact this (by simp)
  have hf : i.hasName = false := by
    by_contra hne
    simp only [Bool.not_eq_false] at hne
    obtain ⟨m, hm⟩ := hi.oneName id i hg hne
    have hmem : id ∈ t.ids m := (hm m).2 rfl
    have := hu m
    rw [hids, fold_ids_other] at this
    · exact this hmem
    · intro e he hn
      subst hn
      exact absurd (List.mem_map.2 ⟨e, he, (hclean e he id hmem).symm⟩) hk
  simp [hf, hk]

/-- Ten schemas without a name and an eleventh that took the name `dsnp.update`. -/
def exBefore : State :=
  { run exCfg (.init 1024)
      (List.replicate 10 (.call (.signed 7) (.createSchema (ascii "{\"x\":12}") .avroBinary .onChain)) ++
       [.call .council (.createViaGovernanceV2 9 (ascii "{\"x\":56}") .parquet .ipfs [] (some (ascii "dsnp.update"))),
        .call .council (.createName 1 (ascii "dsnp.graph"))]) with version := 3 }

example : getSchemaVersions exBefore (ascii "dsnp.update") = some [⟨ascii "dsnp.update", 1, 11⟩] ∧
    getSchemaVersions (migrate exBefore (knownSchemas true)) (ascii "dsnp.update") = some [⟨ascii "dsnp.update", 1, 5⟩] ∧
    getSchemaVersions (migrate exBefore (knownSchemas true)) (ascii "dsnp.profile") = some [⟨ascii "dsnp.profile", 1, 6⟩] ∧
    getSchemaVersions (migrate exBefore (knownSchemas true)) (ascii "DSNP.graph") = some [⟨ascii "dsnp.graph", 1, 1⟩] := by
  decide +kernel

theorem exBefore_before : Before exCfg exBefore := ⟨_, ⟨1024, _, rfl⟩, rfl⟩

/-- The names of the example after the upgrade. -/
theorem exBefore_names : ∀ m, 11 ∉ (migrate exBefore (knownSchemas true)).ids m := by
  have hk : ∀ m ∈ (migrate exBefore (knownSchemas true)).names.keys,
      11 ∉ (migrate exBefore (knownSchemas true)).ids m := by decide +kernel
  intro m h
  refine hk m ?_ h
  unfold State.ids at h
  cases hg : (migrate exBefore (knownSchemas true)).names.get m with
  | none => rw [hg] at h; cases h
  | some l => exact (SMap.mem_keys_iff _ _).2 (by unfold SMap.contains; rw [hg]; rfl)

/-- C102 is false: the eleventh schema loses its name to schema 5, but it stays marked as named, so that no name
can ever be given to it. -/
theorem C102_full_false : ¬ C102_full := by
  intro h
  obtain ⟨s', h'⟩ := h exCfg exBefore exBefore_before 11 (ascii "dsnp.fresh") ⟨ascii "dsnp", ascii "fresh"⟩
    (by decide +kernel) exBefore_names (by decide +kernel) (by decide +kernel) (by decide +kernel)
  have : dispatch exCfg (migrate exBefore (knownSchemas true)) .council (.createName 11 (ascii "dsnp.fresh")) =
      .error .idAlreadyHasName := by
    have hg : (migrate exBefore (knownSchemas true)).infos.get 11 = some ⟨.parquet, .ipfs, ⟨false, false⟩, true⟩ := by
      decide +kernel
    have hl : (ascii "dsnp.fresh").length ≤ 32 := by decide +kernel
    simp only [dispatch, ensureGovernance, createName, parseAndVerify, hg, okOr, ensure, hl, if_true, bind,
      Except.bind, pure, Except.pure]
    rfl
  rw [this] at h'
  cases h'

/-- The hypothesis of `C102_nameable_partial` holds of a chain where nobody took one of the names. -/
example : ∀ e ∈ wanted, ∀ id ∈ ({ run exCfg (.init 1024) (exHist.drop 5) with version := 3 } : State).ids e.2,
    id = e.1 := by decide +kernel

end Verif.Schemas
