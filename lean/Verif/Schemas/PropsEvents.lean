import Verif.Schemas.Props
/-!
# Following the schema events

C147: whoever knows the schemas and their names at some point and follows `SchemaCreated`, `SchemaNameCreated` and
`SchemaMaxSizeChanged` from then on knows them later.
-/

namespace Verif.Schemas

/-! ## Specification -/

/-- What an observer has written down: the schemas, for every name its versions, and the limit on the size of models. -/
structure Book where
  schemas : List SchemaId
  versions : Bytes → List SchemaId
  limit : Nat

/-- The observer hears an event. -/
def Book.hear (b : Book) : Event → Book
  | .created _ id => { b with schemas := b.schemas ++ [id] }
  | .nameCreated id name => { b with versions := fun x => if x = name then b.versions x ++ [id] else b.versions x }
  | .maxSizeChanged n => { b with limit := n }

/-- And several ones. -/
def Book.follow (b : Book) (l : List Event) : Book := l.foldl Book.hear b

/-- The book of a new chain. -/
def Book.new (limit : Nat) : Book := ⟨[], fun _ => [], limit⟩

/-- The events between two states. -/
def since (s s' : State) : List Event := s'.events.drop s.events.length

/-- What is written down is what the queries of the chain answer. -/
structure Book.Right (b : Book) (s : State) : Prop where
  count : b.schemas.length = s.lastId
  schemas : ∀ id, id ∈ b.schemas ↔ (getSchemaById s id).isSome = true
  versions : ∀ q n, q.length ≤ 32 → tryParse q true = .ok n →
    (getSchemaVersions s q).map (·.map VersionResponse.id) = some (b.versions n.combined)
  limit : b.limit = s.maxBytes

/-- C147 in full. -/
def C147_full : Prop :=
  ∀ (cfg : Config) (s : State) (b : Book) (hist : List Step), b.Right s →
    (b.follow (since s (run cfg s hist))).Right (run cfg s hist)

/-! ## Proofs -/

theorem follow_append (b : Book) (l l' : List Event) : b.follow (l ++ l') = (b.follow l).follow l' := List.foldl_append ..

/-- A name that parses parses also without insisting on a descriptor. -/
theorem tryParse_lenient {q : Bytes} {n : Name} (h : tryParse q true = .ok n) : tryParse q false = .ok n := by
  simp only [tryParse, bind_eq_ok_iff, ensure_eq_ok_iff] at h ⊢
  obtain ⟨u, h1, v, h2, h3⟩ := h
  refine ⟨u, h1, v, h2, ?_⟩
  revert h3
  generalize splitDot (trim (q.map lower)) = l
  intro h3
  match l with
  | [] => exact h3
  | [_] => simp [nameOfChunks, ensure, bind, Except.bind] at h3
  | [_, _] => exact h3
  | _ :: _ :: _ :: _ => exact h3

theorem versionsFrom_ids (name : Bytes) (l : List SchemaId) : ∀ i, (versionsFrom name i l).map VersionResponse.id = l := by
  induction l with
  | nil => intro i; rfl
  | cons x l ih => intro i; simp [versionsFrom, ih]

theorem versions_query (s : State) {q : Bytes} {n : Name} (hq : q.length ≤ 32) (h : tryParse q true = .ok n) :
    (getSchemaVersions s q).map (·.map VersionResponse.id) = some (s.ids n) := by
  have hd : n.descriptor ≠ [] := (tryParse_strict hq h).desc.ne_nil (Nat.le_refl 1)
  simp only [getSchemaVersions, if_pos hq, tryParse_lenient h, if_pos hd, Option.map_some, toResponse, versionsFrom_ids]

/-- The same about stored lists. -/
structure Book.Stored (b : Book) (s : State) : Prop where
  count : b.schemas.length = s.lastId
  schemas : ∀ id, id ∈ b.schemas ↔ (getSchemaById s id).isSome = true
  versions : ∀ n, GoodName n → b.versions n.combined = s.ids n
  limit : b.limit = s.maxBytes

theorem right_iff (b : Book) (s : State) : b.Right s ↔ b.Stored s := by
  constructor
  · intro h
    refine ⟨h.count, h.schemas, fun n hn => ?_, h.limit⟩
    have := h.versions n.combined n hn.len (tryParse_combined hn true)
    rw [versions_query s hn.len (tryParse_combined hn true)] at this
    exact (Option.some.inj this).symm
  · intro h
    refine ⟨h.count, h.schemas, fun q n hq hp => ?_, h.limit⟩
    rw [versions_query s hq hp, h.versions n (tryParse_strict hq hp)]

theorem Book.Stored.named {b : Book} {s s' : State} {n : Name} {id : SchemaId} (h : b.Stored s) (hn : GoodName n)
    (e1 : s'.lastId = s.lastId) (e2 : s'.infos = s.infos) (e3 : s'.payloads = s.payloads) (e4 : s'.maxBytes = s.maxBytes)
    (e5 : s'.names = s.names.insert n (s.ids n ++ [id])) : (b.hear (.nameCreated id n.combined)).Stored s' := by
  refine ⟨by rw [e1]; exact h.count, fun x => ?_, fun m hm => ?_, by rw [e4]; exact h.limit⟩
  · rw [show getSchemaById s' x = getSchemaById s x by simp only [getSchemaById, e2, e3]]
    exact h.schemas x
  · rw [ids_insert s n m _ s' e5]
    show (if m.combined = n.combined then _ else _) = _
    by_cases e : n = m
    · subst e
      rw [if_pos rfl, if_pos rfl, h.versions n hn]
    · rw [if_neg e, if_neg (fun q => e (combined_inj hn hm q.symm)), h.versions m hm]

theorem Eff.stored {cfg : Config} {s s' : State} {x : Step} {b : Book} (he : Eff cfg s x s') (h : b.Stored s) :
    ∃ l, s'.events = s.events ++ l ∧ (b.follow l).Stored s' := by
  cases he with
  | none => exact ⟨[], by simp, h⟩
  | max o n => exact ⟨_, rfl, h.count, h.schemas, h.versions, rfl⟩
  | @create _ _ _ key model mt loc settings n hc hr =>
    refine ⟨createdEvents key (s.lastId + 1) n, by rw [hr.state], ?_⟩
    have hid : ∀ s1 : State, s1.infos = s.infos.insert (s.lastId + 1) ⟨mt, loc, settings.foldl Settings.set .none, n.isSome⟩ →
        s1.payloads = s.payloads.insert (s.lastId + 1) model → ∀ x, x ∈ b.schemas ++ [s.lastId + 1] ↔
          (getSchemaById s1 x).isSome = true := by
      intro s1 h1 h2 x
      simp only [getSchemaById, h1, h2, SMap.get_insert, List.mem_append, List.mem_singleton]
      by_cases e : s.lastId + 1 = x
      · simp [e]
      · rw [if_neg e, if_neg e]
        have := h.schemas x
        simp only [getSchemaById] at this
        rw [this]
        simp [Ne.symm e]
    have first : ∀ s1 : State, s1.lastId = s.lastId + 1 → s1.names = s.names → s1.maxBytes = s.maxBytes →
        s1.infos = s.infos.insert (s.lastId + 1) ⟨mt, loc, settings.foldl Settings.set .none, n.isSome⟩ →
        s1.payloads = s.payloads.insert (s.lastId + 1) model →
        (b.hear (.created key (s.lastId + 1))).Stored s1 := by
      intro s1 e1 e2 e3 e4 e5
      refine ⟨?_, hid s1 e4 e5, fun m hm => ?_, by rw [e3]; exact h.limit⟩
      · rw [e1]
        simp [Book.hear, h.count]
      · rw [show s1.ids m = s.ids m by simp only [State.ids, e2]]
        exact h.versions m hm
    cases n with
    | none =>
      rw [hr.state]
      exact first _ rfl rfl rfl rfl rfl
    | some m =>
      have h1 := first { s with
        lastId := s.lastId + 1
        infos := s.infos.insert (s.lastId + 1) ⟨mt, loc, settings.foldl Settings.set .none, true⟩
        payloads := s.payloads.insert (s.lastId + 1) model } rfl rfl rfl rfl rfl
      rw [hr.state]
      exact h1.named (hr.good m rfl) rfl rfl rfl rfl rfl
  | @name o id q _ n ho hp hn =>
    refine ⟨[.nameCreated id n.combined], by rw [hn.state], ?_⟩
    exact h.named hn.good (by rw [hn.state]) (by rw [hn.state]) (by rw [hn.state]) (by rw [hn.state]) (by rw [hn.state])

theorem Eff.version {cfg : Config} {s s' : State} {x : Step} (he : Eff cfg s x s') : s'.version = s.version := by
  cases he with
  | none => rfl
  | max => rfl
  | create _ hr => rw [hr.state]
  | name _ _ hn => rw [hn.state]

theorem stored_run (cfg : Config) (hist : List Step) : ∀ (s : State) (b : Book),
    (s.version = 4 ∨ ∀ known, .upgrade known ∉ hist) → b.Stored s →
    ∃ l, (run cfg s hist).events = s.events ++ l ∧ (b.follow l).Stored (run cfg s hist) := by
  induction hist with
  | nil => intro s b _ h; exact ⟨[], by simp [run], h⟩
  | cons x hist ih =>
    intro s b hv h
    have he : Eff cfg s x (apply cfg s x) := by
      rcases hv with hv | hv
      · exact apply_eff cfg s hv x
      · cases x with
        | call o c => exact apply_call_eff cfg s o c
        | upgrade known => exact absurd (List.mem_cons_self ..) (hv known)
    obtain ⟨l, h1, h2⟩ := he.stored h
    have hv' : (apply cfg s x).version = 4 ∨ ∀ known, .upgrade known ∉ hist := by
      rcases hv with hv | hv
      · left
        rw [he.version]; exact hv
      · exact .inr (fun known hm => hv known (List.mem_cons_of_mem _ hm))
    obtain ⟨l', h3, h4⟩ := ih (apply cfg s x) (b.follow l) hv' h2
    refine ⟨l ++ l', ?_, ?_⟩
    · show (run cfg (apply cfg s x) hist).events = _
      rw [h3, h1, List.append_assoc]
    · rw [follow_append]
      exact h4

/-! ## C147 -/

/-- C147 from any point on, if the storage is upgraded already, or is not upgraded. -/
theorem C147_follow_partial (cfg : Config) (s : State) (b : Book) (hist : List Step)
    (hv : s.version = 4 ∨ ∀ known, .upgrade known ∉ hist) (h : b.Right s) :
    (b.follow (since s (run cfg s hist))).Right (run cfg s hist) := by
  rw [right_iff] at h ⊢
  obtain ⟨l, h1, h2⟩ := stored_run cfg hist s b hv h
  rw [since, h1, List.drop_left]
  exact h2

/-- C147 on new chains, from the beginning, whatever upgrades happen. -/
theorem C147_new (cfg : Config) (limit : Nat) (hist : List Step) :
    ((Book.new limit).follow (run cfg (.init limit) hist).events).Right (run cfg (.init limit) hist) := by
  have h := C147_follow_partial cfg (.init limit) (Book.new limit) hist (.inl rfl)
    ((right_iff _ _).2 ⟨rfl, fun id => by simp [Book.new, getSchemaById, State.init], fun n _ => rfl, rfl⟩)
  exact h

/-- A chain with the storage version before, and one schema. -/
def exOld : State := run exCfg { State.init 1024 with version := 3 } [.call (.signed 8) (.createSchema (ascii "{\"x\":34}") .avroBinary .onChain)]

/-- C147 is false of the code: the upgrade of the schema names gives schemas names without events. -/
theorem C147_full_false : ¬ C147_full := by
  intro h
  have h1 : (Book.new 1024).follow exOld.events |>.Right exOld := by
    have := C147_follow_partial exCfg { State.init 1024 with version := 3 } (Book.new 1024)
      [.call (.signed 8) (.createSchema (ascii "{\"x\":34}") .avroBinary .onChain)] (.inr (by simp))
      ((right_iff _ _).2 ⟨rfl, fun id => by simp [Book.new, getSchemaById, State.init], fun n _ => rfl, rfl⟩)
    exact this
  have h2 := (h exCfg exOld _ [.upgrade [(1, ascii "dsnp.graph")]] h1).versions (ascii "dsnp.graph") ⟨ascii "dsnp", ascii "graph"⟩
    (by decide) (by decide +kernel)
  revert h2
  decide +kernel

/-- Hypotheses met, in the history of `exState`: three schemas, two names, one of them with two versions. -/
example : exState.events.length = 7 ∧
    (let b := (Book.new 1024).follow exState.events
     b.schemas = [1, 2, 3] ∧ b.versions (ascii "dsnp.update") = [1, 3] ∧ b.versions (ascii "dsnp.graph") = [2] ∧
     b.versions (ascii "Dsnp.Update") = [] ∧ b.limit = 7) := by
  decide +kernel

end Verif.Schemas
