import Verif.Schemas.Names
/-!
# Effects of the calls and the invariant of the schemas pallet
-/

namespace Verif.Schemas

/-- A successful registration. -/
structure Registered (cfg : Config) (s s' : State) (key : AccountId) (model : Bytes) (mt : ModelType)
    (loc : Location) (settings : List Setting) (n : Option Name) : Prop where
  decodable : model.length ≤ cfg.modelLimit ∧ settings.length ≤ cfg.maxSettings
  valid : cfg.validModel mt model = true
  min : cfg.minModelBytes ≤ model.length
  max : model.length ≤ s.maxBytes
  append : .appendOnly ∉ settings ∨ loc = .itemized
  room : s.lastId + 1 ≤ 65535
  good : ∀ m ∈ n, GoodName m
  fresh : ∀ m ∈ n, s.lastId + 1 ∉ s.ids m ∧ (s.ids m).length < 254
  state : s' =
    { maxBytes := s.maxBytes
      lastId := s.lastId + 1
      infos := s.infos.insert (s.lastId + 1) ⟨mt, loc, settings.foldl Settings.set .none, n.isSome⟩
      payloads := s.payloads.insert (s.lastId + 1) model
      names := match n with
        | none => s.names
        | some m => s.names.insert m (s.ids m ++ [s.lastId + 1])
      version := s.version
      events := s.events ++ createdEvents key (s.lastId + 1) n }

theorem create_ok {cfg s s' key model mt loc settings name}
    (h : create cfg s key model mt loc settings name = .ok s') :
    ∃ n, (n.isSome = name.isSome) ∧ (∀ b ∈ name, ∀ m ∈ n, tryParse b true = .ok m) ∧
      Registered cfg s s' key model mt loc settings n := by
  simp only [create, createSchemaFor, addSchema, nextId, bind_eq_ok_iff, ensure_eq_ok_iff, pure_eq_ok_iff] at h
  obtain ⟨_, ⟨h1, h2, h3⟩, ⟨s1, id, n⟩, ⟨_, h4, _, h5, _, h6, _, h7, n', h8, ⟨s2, id'⟩, ⟨id'', ⟨_, h9, rfl⟩, s3, h10, h11⟩,
    h12⟩, rfl⟩ := h
  simp only [Prod.mk.injEq] at h11 h12
  obtain ⟨rfl, rfl⟩ := h11
  obtain ⟨rfl, rfl, rfl⟩ := h12
  cases name with
  | none =>
    cases h8
    cases h10
    exact ⟨none, rfl, by simp, ⟨h1, h2⟩, h4, h5, h6, h7, h9, by simp, by simp, rfl⟩
  | some b =>
    simp only [parseOpt, bind_eq_ok_iff, pure_eq_ok_iff] at h8
    obtain ⟨m, h13, rfl⟩ := h8
    simp only [addNameOpt, addName, addVersion, bind_eq_ok_iff, pure_eq_ok_iff, ensure_eq_ok_iff] at h10
    obtain ⟨ids, ⟨_, h14, _, h15, rfl⟩, rfl⟩ := h10
    refine ⟨some m, rfl, ?_, ⟨h1, h2⟩, h4, h5, h6, h7, h9, ?_, ?_, rfl⟩
    · intro b' hb m' hm
      cases hb; cases hm
      exact h13
    · intro m' hm
      cases hm
      exact tryParse_strict (h3 b rfl) h13
    · intro m' hm
      cases hm
      exact ⟨h14, h15⟩

/-- A successful naming by governance. -/
structure Named (s s' : State) (id : SchemaId) (n : Name) : Prop where
  good : GoodName n
  info : ∃ i, s.infos.get id = some i ∧ i.hasName = false
  fresh : id ∉ s.ids n
  room : (s.ids n).length < 254
  state : s' = { s with names := s.names.insert n (s.ids n ++ [id]),
                        events := s.events ++ [.nameCreated id n.combined] }

theorem createName_ok {s s' id b} (h : createName s id b = .ok s') :
    ∃ n, tryParse b true = .ok n ∧ Named s s' id n := by
  simp only [createName, parseAndVerify, addName, addVersion, bind_eq_ok_iff, ensure_eq_ok_iff, pure_eq_ok_iff,
    okOr_eq_ok_iff] at h
  obtain ⟨_, h1, n, ⟨i, h2, _, h3, h4⟩, s1, ⟨ids, ⟨_, h5, _, h6, rfl⟩, rfl⟩, rfl⟩ := h
  exact ⟨n, h4, tryParse_strict h1 h4, ⟨i, h2, h3⟩, h5, h6, rfl⟩

/-- Effect of a step on a chain at storage version 4. -/
inductive Eff (cfg : Config) (s : State) : Step → State → Prop
  | none (st : Step) : Eff cfg s st s
  | max (o : Origin) (n : Nat) (h : n ≤ cfg.modelLimit) (ho : o = .root) :
    Eff cfg s (.call o (.setMaxBytes n)) { s with maxBytes := n, events := s.events ++ [.maxSizeChanged n] }
  | create {o : Origin} {c : Call} {s' key model mt loc settings n}
    (hc : ∀ id b, c ≠ .createName id b) (h : Registered cfg s s' key model mt loc settings n) :
    Eff cfg s (.call o c) s'
  | name {o : Origin} {id b s' n} (ho : ∀ k, o ≠ .signed k) (hp : tryParse b true = .ok n)
    (h : Named s s' id n) : Eff cfg s (.call o (.createName id b)) s'

theorem apply_call_eff (cfg : Config) (s : State) (o : Origin) (c : Call) :
    Eff cfg s (.call o c) (apply cfg s (.call o c)) := by
  cases hd : dispatch cfg s o c with
  | error e =>
    have : apply cfg s (.call o c) = s := by simp [apply, hd]
    rw [this]
    exact .none _
  | ok s' =>
    have : apply cfg s (.call o c) = s' := by simp [apply, hd]
    rw [this]
    cases c with
    | createSchema model mt loc =>
      simp only [dispatch, bind_eq_ok_iff] at hd
      obtain ⟨k, _, hd⟩ := hd
      obtain ⟨n, _, _, h⟩ := create_ok hd
      exact .create (by simp) h
    | createSchemaV2 model mt loc settings =>
      simp only [dispatch, bind_eq_ok_iff] at hd
      obtain ⟨k, _, hd⟩ := hd
      obtain ⟨n, _, _, h⟩ := create_ok hd
      exact .create (by simp) h
    | createSchemaV3 model mt loc settings name =>
      simp only [dispatch, bind_eq_ok_iff] at hd
      obtain ⟨k, _, hd⟩ := hd
      obtain ⟨n, _, _, h⟩ := create_ok hd
      exact .create (by simp) h
    | createViaGovernance key model mt loc settings =>
      simp only [dispatch, bind_eq_ok_iff] at hd
      obtain ⟨k, _, hd⟩ := hd
      obtain ⟨n, _, _, h⟩ := create_ok hd
      exact .create (by simp) h
    | createViaGovernanceV2 key model mt loc settings name =>
      simp only [dispatch, bind_eq_ok_iff] at hd
      obtain ⟨k, _, hd⟩ := hd
      obtain ⟨n, _, _, h⟩ := create_ok hd
      exact .create (by simp) h
    | setMaxBytes n =>
      simp only [dispatch, setMaxBytes, bind_eq_ok_iff, ensure_eq_ok_iff, pure_eq_ok_iff] at hd
      obtain ⟨_, h1, _, h2, rfl⟩ := hd
      refine .max o n h2 ?_
      cases o <;> simp [ensureRoot] at h1
      rfl
    | createName id b =>
      simp only [dispatch, bind_eq_ok_iff] at hd
      obtain ⟨_, h1, hd⟩ := hd
      obtain ⟨n, hp, h⟩ := createName_ok hd
      refine .name ?_ hp h
      rintro k rfl
      cases h1

theorem apply_eff (cfg : Config) (s : State) (hv : s.version = 4) (st : Step) : Eff cfg s st (apply cfg s st) := by
  cases st with
  | upgrade known =>
    have : apply cfg s (.upgrade known) = s := by simp [apply, migrate, hv]
    rw [this]
    exact .none _
  | call o c => exact apply_call_eff cfg s o c

/-- Ids announced by registration events, in order. -/
def createdIds (s : State) : List SchemaId :=
  s.events.filterMap (fun e => match e with | .created _ id => some id | _ => none)

/-- Id announced for a name. -/
def idNamed (name : Bytes) : Event → Option SchemaId
  | .nameCreated id b => if b = name then some id else none
  | _ => none

/-- Ids announced for a name, in order. -/
def namedIds (s : State) (name : Bytes) : List SchemaId := s.events.filterMap (idNamed name)

/-- The invariant. -/
structure Inv (cfg : Config) (s : State) : Prop where
  version : s.version = 4
  infos : ∀ id, (∃ i, s.infos.get id = some i) ↔ 1 ≤ id ∧ id ≤ s.lastId
  payloads : ∀ id, (∃ p, s.payloads.get id = some p) ↔ 1 ≤ id ∧ id ≤ s.lastId
  last : s.lastId ≤ 65535
  created : createdIds s = List.range' 1 s.lastId
  rules : ∀ id i p, s.infos.get id = some i → s.payloads.get id = some p →
    cfg.validModel i.modelType p = true ∧ cfg.minModelBytes ≤ p.length ∧ p.length ≤ cfg.modelLimit ∧
    (i.settings.appendOnly = true → i.location = .itemized)
  good : ∀ n, s.ids n ≠ [] → GoodName n
  nodup : ∀ n, (s.ids n).Nodup ∧ (s.ids n).length ≤ 254
  range : ∀ n, ∀ id ∈ s.ids n, 1 ≤ id ∧ id ≤ s.lastId
  order : ∀ n, GoodName n → s.ids n = namedIds s n.combined
  oneName : ∀ id i, s.infos.get id = some i → i.hasName = true →
    ∃ n, ∀ m, id ∈ s.ids m ↔ m = n

theorem inv_init (cfg : Config) (m : Nat) : Inv cfg (.init m) := by
  have h0 : ∀ n, (State.init m).ids n = [] := fun n => rfl
  refine ⟨rfl, ?_, ?_, by simp [State.init], rfl, ?_, ?_, ?_, ?_, ?_, ?_⟩
  · intro id
    constructor
    · rintro ⟨i, h⟩; cases h
    · intro h; simp [State.init] at h; omega
  · intro id
    constructor
    · rintro ⟨i, h⟩; cases h
    · intro h; simp [State.init] at h; omega
  · intro id i p h; cases h
  · intro n h; exact absurd (h0 n) h
  · intro n; simp [h0]
  · intro n; simp [h0]
  · intro n _; rfl
  · intro id i h; cases h

theorem ids_insert (s : State) (n m : Name) (l : List SchemaId) (s' : State)
    (h : s'.names = s.names.insert n l) : s'.ids m = if n = m then l else s.ids m := by
  unfold State.ids
  rw [h, SMap.get_insert]
  split <;> rfl

theorem settings_append (l : List Setting) (s : Settings) :
    (l.foldl Settings.set s).appendOnly = true → s.appendOnly = true ∨ .appendOnly ∈ l := by
  induction l generalizing s with
  | nil => intro h; exact .inl h
  | cons a r ih =>
    intro h
    rw [List.foldl_cons] at h
    rcases ih _ h with h | h
    · cases a
      · exact .inr (by simp)
      · exact .inl h
    · exact .inr (by simp [h])

theorem inv_create {cfg s s' key model mt loc settings n} (hi : Inv cfg s)
    (h : Registered cfg s s' key model mt loc settings n) : Inv cfg s' := by
  have hst := h.state
  have hlast : s'.lastId = s.lastId + 1 := by rw [hst]
  have hinf : s'.infos = s.infos.insert (s.lastId + 1) ⟨mt, loc, settings.foldl Settings.set .none, n.isSome⟩ := by rw [hst]
  have hpay : s'.payloads = s.payloads.insert (s.lastId + 1) model := by rw [hst]
  have hev : s'.events = s.events ++ createdEvents key (s.lastId + 1) n := by rw [hst]
  have hids : ∀ m, s'.ids m = if n = some m then s.ids m ++ [s.lastId + 1] else s.ids m := by
    intro m
    cases n with
    | none => rw [if_neg (by simp), hst]; rfl
    | some x =>
      have : s'.names = s.names.insert x (s.ids x ++ [s.lastId + 1]) := by rw [hst]
      rw [ids_insert s x m _ s' this]
      by_cases hx : x = m
      · subst hx; rw [if_pos rfl, if_pos rfl]
      · rw [if_neg hx, if_neg (by simpa using hx)]
  have hnew : s.infos.get (s.lastId + 1) = none := by
    cases hg : s.infos.get (s.lastId + 1) with
    | none => rfl
    | some i => have := (hi.infos _).1 ⟨i, hg⟩; omega
  refine ⟨by rw [hst]; exact hi.version, ?_, ?_, by rw [hlast]; exact h.room, ?_, ?_, ?_, ?_, ?_, ?_, ?_⟩
  · intro id
    rw [hinf, hlast, SMap.get_insert]
    by_cases e : s.lastId + 1 = id
    · rw [if_pos e]
      exact ⟨fun _ => by omega, fun _ => ⟨_, rfl⟩⟩
    · rw [if_neg e, hi.infos]
      omega
  · intro id
    rw [hpay, hlast, SMap.get_insert]
    by_cases e : s.lastId + 1 = id
    · rw [if_pos e]
      exact ⟨fun _ => by omega, fun _ => ⟨_, rfl⟩⟩
    · rw [if_neg e, hi.payloads]
      omega
  · rw [createdIds, hev, List.filterMap_append]
    show createdIds s ++ _ = _
    rw [hi.created, hlast, List.range'_concat]
    congr 1
    cases n <;> simp [createdEvents, Nat.add_comm]
  · intro id i p
    rw [hinf, hpay, SMap.get_insert, SMap.get_insert]
    by_cases e : s.lastId + 1 = id
    · rw [if_pos e, if_pos e]
      intro h1 h2
      cases h1; cases h2
      refine ⟨h.valid, h.min, h.decodable.1, ?_⟩
      intro ha
      rcases settings_append _ _ ha with ha | ha
      · cases ha
      · exact h.append.resolve_left (fun hn => hn ha)
    · rw [if_neg e, if_neg e]
      exact hi.rules id i p
  · intro m
    rw [hids]
    split
    · rename_i e; intro _; exact h.good m e
    · exact hi.good m
  · intro m
    rw [hids]
    split
    · rename_i e
      have := h.fresh m e
      have hn := hi.nodup m
      refine ⟨?_, by simp; omega⟩
      rw [List.nodup_append]
      refine ⟨hn.1, by simp, ?_⟩
      intro a ha b hb
      simp at hb
      subst hb
      rintro rfl
      exact this.1 ha
    · exact hi.nodup m
  · intro m id
    rw [hids, hlast]
    split
    · intro hm
      rw [List.mem_append, List.mem_singleton] at hm
      rcases hm with hm | hm
      · have := hi.range m id hm; omega
      · omega
    · intro hm
      have := hi.range m id hm; omega
  · intro m hm
    rw [hids, namedIds, hev, List.filterMap_append]
    show _ = namedIds s m.combined ++ _
    rw [← hi.order m hm]
    cases n with
    | none => simp [createdEvents, idNamed]
    | some x =>
      by_cases hx : x = m
      · subst hx; simp [createdEvents, idNamed, List.filterMap_cons]
      · have hc : x.combined ≠ m.combined := fun e => hx (combined_inj (h.good x rfl) hm e)
        simp [createdEvents, idNamed, hx, hc]
  · intro id i
    rw [hinf, SMap.get_insert]
    by_cases e : s.lastId + 1 = id
    · rw [if_pos e]
      intro h1 h2
      cases h1
      cases n with
      | none => cases h2
      | some x =>
        refine ⟨x, ?_⟩
        intro m
        rw [hids]
        by_cases hx : x = m
        · subst hx; simp [e]
        · rw [if_neg (by simpa using hx)]
          constructor
          · intro hm
            have := hi.range m id hm; omega
          · intro hm; exact absurd hm.symm hx
    · rw [if_neg e]
      intro h1 h2
      obtain ⟨y, hy⟩ := hi.oneName id i h1 h2
      refine ⟨y, ?_⟩
      intro m
      rw [hids, ← hy]
      split
      · simp [Ne.symm e]
      · rfl

theorem inv_name {cfg s s' id n} (hi : Inv cfg s) (h : Named s s' id n) : Inv cfg s' := by
  have hst := h.state
  have hids : ∀ m, s'.ids m = if n = m then s.ids n ++ [id] else s.ids m := by
    intro m
    exact ids_insert s n m _ s' (by rw [hst])
  have hev : s'.events = s.events ++ [.nameCreated id n.combined] := by rw [hst]
  obtain ⟨i, hg, hf⟩ := h.info
  refine ⟨by rw [hst]; exact hi.version, ?_, ?_, by rw [hst]; exact hi.last, ?_, ?_, ?_, ?_, ?_, ?_, ?_⟩
  · rw [hst]; exact hi.infos
  · rw [hst]; exact hi.payloads
  · rw [createdIds, hev, List.filterMap_append]
    show createdIds s ++ _ = _
    rw [hi.created, hst]
    simp
  · rw [hst]; exact hi.rules
  · intro m
    rw [hids]
    split
    · rename_i e; intro _; exact e ▸ h.good
    · exact hi.good m
  · intro m
    rw [hids]
    split
    · have hn := hi.nodup n
      refine ⟨?_, by have := h.room; simp; omega⟩
      rw [List.nodup_append]
      refine ⟨hn.1, by simp, ?_⟩
      intro a ha b hb
      simp at hb
      subst hb
      rintro rfl
      exact h.fresh ha
    · exact hi.nodup m
  · intro m x
    have hl : s'.lastId = s.lastId := by rw [hst]
    rw [hids, hl]
    split
    · intro hm
      rw [List.mem_append, List.mem_singleton] at hm
      rcases hm with hm | rfl
      · exact hi.range n x hm
      · exact (hi.infos x).1 ⟨i, hg⟩
    · exact hi.range m x
  · intro m hm
    rw [hids, namedIds, hev, List.filterMap_append]
    show _ = namedIds s m.combined ++ _
    rw [← hi.order m hm]
    by_cases hx : n = m
    · subst hx; simp [idNamed]
    · have hc : n.combined ≠ m.combined := fun e => hx (combined_inj h.good hm e)
      simp [idNamed, hx, hc]
  · intro x j
    have hinf : s'.infos = s.infos := by rw [hst]
    rw [hinf]
    intro h1 h2
    obtain ⟨y, hy⟩ := hi.oneName x j h1 h2
    have hne : x ≠ id := by
      rintro rfl
      rw [hg] at h1
      cases h1
      rw [hf] at h2
      cases h2
    refine ⟨y, ?_⟩
    intro m
    rw [hids, ← hy]
    split
    · rename_i e
      subst e
      simp [hne]
    · rfl

theorem inv_apply {cfg s} (hi : Inv cfg s) (st : Step) : Inv cfg (apply cfg s st) := by
  have he := apply_eff cfg s hi.version st
  generalize apply cfg s st = s' at he
  cases he with
  | none => exact hi
  | max o n h ho =>
    refine ⟨hi.version, hi.infos, hi.payloads, hi.last, ?_, hi.rules, hi.good, hi.nodup, hi.range, ?_, hi.oneName⟩
    · have : createdIds { s with maxBytes := n, events := s.events ++ [.maxSizeChanged n] } = createdIds s := by
        simp [createdIds]
      rw [this]
      exact hi.created
    · intro m hm
      have := hi.order m hm
      unfold namedIds at this ⊢
      rw [List.filterMap_append]
      simp only [List.filterMap_cons, idNamed, List.filterMap_nil, List.append_nil]
      exact this
  | create hc h => exact inv_create hi h
  | name ho hp h => exact inv_name hi h

theorem inv_run {cfg} (hist : List Step) : ∀ {s}, Inv cfg s → Inv cfg (run cfg s hist) := by
  induction hist with
  | nil => intro s h; exact h
  | cons x rest ih =>
    intro s h
    have hrun : run cfg s (x :: rest) = run cfg (apply cfg s x) rest := rfl
    rw [hrun]
    exact ih (inv_apply h x)

end Verif.Schemas
