import Verif.Schemas.Props
/-!
# When schema calls succeed, and exactly what they then change
-/

namespace Verif.Schemas

/-! ## Specification -/

/-- Part of a name: between `lo` and `hi` lower-case letters and hyphens, with a letter at both ends. -/
def PartOk (lo hi : Nat) (b : Bytes) : Prop :=
  lo ≤ b.length ∧ b.length ≤ hi ∧ (∀ c ∈ b, (97 ≤ c.toNat ∧ c.toNat ≤ 122) ∨ c.toNat = 45) ∧
  b.head? ≠ some 45 ∧ b.getLast? ≠ some 45

/-- The text `b` spells the name with these two parts: up to letter case and white space around it, it is the
first, a dot, and the second. -/
def Spells (b ns d : Bytes) : Prop :=
  b.length ≤ 32 ∧ PartOk 3 30 ns ∧ PartOk 1 28 d ∧
  ∃ w x w', b = w ++ x ++ w' ∧ Blank w ∧ Blank w' ∧
    x.map lower = ns ++ ascii "." ++ d

/-- Full text of a name. -/
def full (ns d : Bytes) : Bytes := ns ++ ascii "." ++ d

/-- A registration is acceptable. -/
def RegOk (cfg : Config) (s : State) (model : Bytes) (mt : ModelType) (loc : Location) (settings : List Setting)
    (name : Option Bytes) : Prop :=
  cfg.validModel mt model = true ∧ cfg.minModelBytes ≤ model.length ∧ model.length ≤ s.maxBytes ∧
  model.length ≤ cfg.modelLimit ∧ settings.length ≤ cfg.maxSettings ∧
  (.appendOnly ∈ settings → loc = .itemized) ∧ (createdIds s).length < 65535 ∧
  ∀ b ∈ name, ∃ ns d, Spells b ns d ∧ (namedIds s (full ns d)).length < 254

/-- When a call should succeed. -/
def Permitted (cfg : Config) (s : State) : Origin → Call → Prop
  | .signed _, .createSchema model mt loc => RegOk cfg s model mt loc [] none
  | .signed _, .createSchemaV2 model mt loc settings => RegOk cfg s model mt loc settings none
  | .signed _, .createSchemaV3 model mt loc settings name => RegOk cfg s model mt loc settings name
  | .root, .createViaGovernance _ model mt loc settings => RegOk cfg s model mt loc settings none
  | .council, .createViaGovernance _ model mt loc settings => RegOk cfg s model mt loc settings none
  | .root, .createViaGovernanceV2 _ model mt loc settings name => RegOk cfg s model mt loc settings name
  | .council, .createViaGovernanceV2 _ model mt loc settings name => RegOk cfg s model mt loc settings name
  | .root, .setMaxBytes n => n ≤ cfg.modelLimit
  | .root, .createName id b => NamingOk s id b
  | .council, .createName id b => NamingOk s id b
  | _, _ => False
where
  /-- A later naming is acceptable: the schema was registered without a name, and is not a version of this one. -/
  NamingOk (s : State) (id : SchemaId) (b : Bytes) : Prop :=
    (∃ i, s.infos.get id = some i ∧ i.hasName = false) ∧
    ∃ ns d, Spells b ns d ∧ id ∉ namedIds s (full ns d) ∧ (namedIds s (full ns d)).length < 254

/-- The account in whose name a registration is made. -/
def registrant : Origin → Call → Option AccountId
  | .signed k, _ => some k
  | _, .createViaGovernance k _ _ _ _ => some k
  | _, .createViaGovernanceV2 k _ _ _ _ _ => some k
  | _, _ => none

/-- The name that a registration asks for. -/
def askedName : Call → Option Bytes
  | .createSchemaV3 _ _ _ _ name => name
  | .createViaGovernanceV2 _ _ _ _ _ name => name
  | _ => none

/-- The state after a registration: one more schema with the given content, one more version of the name. -/
structure Added (s s' : State) (key : AccountId) (model : Bytes) (mt : ModelType) (loc : Location)
    (settings : List Setting) (name : Option Bytes) : Prop where
  record : ∀ id, s'.infos.get id = if id = (createdIds s).length + 1 then
    some ⟨mt, loc, ⟨decide (.appendOnly ∈ settings), decide (.signatureRequired ∈ settings)⟩, name.isSome⟩
    else s.infos.get id
  model : ∀ id, s'.payloads.get id = if id = (createdIds s).length + 1 then some model else s.payloads.get id
  named : ∀ ns d, (∃ b ∈ name, Spells b ns d) →
    namedIds s' (full ns d) = namedIds s (full ns d) ++ [(createdIds s).length + 1]
  otherNames : ∀ ns d, PartOk 3 30 ns → PartOk 1 28 d → (¬ ∃ b ∈ name, Spells b ns d) →
    namedIds s' (full ns d) = namedIds s (full ns d)
  maxBytes : s'.maxBytes = s.maxBytes
  announced : ∃ rest, s'.events = s.events ++ .created key ((createdIds s).length + 1) :: rest

/-! ## Lemmas -/

theorem partOk_iff {lo hi b} : PartOk lo hi b ↔ GoodPart lo hi b := by
  constructor
  · rintro ⟨h1, h2, h3, h4⟩; exact ⟨h1, h2, h3, h4⟩
  · rintro ⟨h1, h2, h3, h4⟩; exact ⟨h1, h2, h3, h4⟩

theorem dropWhile_split (l : Bytes) : ∃ w, l = w ++ l.dropWhile isSpace ∧ ∀ c ∈ w, isSpace c = true := by
  induction l with
  | nil => exact ⟨[], rfl, by simp⟩
  | cons c r ih =>
    by_cases hc : isSpace c = true
    · obtain ⟨w, h1, h2⟩ := ih
      refine ⟨c :: w, ?_, ?_⟩
      · rw [List.dropWhile_cons, if_pos hc, List.cons_append, ← h1]
      · intro x hx
        rcases List.mem_cons.1 hx with rfl | hx
        · exact hc
        · exact h2 x hx
    · refine ⟨[], ?_, by simp⟩
      rw [List.dropWhile_cons, if_neg hc]
      rfl

theorem trim_split (l : Bytes) : ∃ w w', l = w ++ trim l ++ w' ∧ (∀ c ∈ w, isSpace c = true) ∧
    ∀ c ∈ w', isSpace c = true := by
  obtain ⟨w, h1, h2⟩ := dropWhile_split l
  obtain ⟨v, h3, h4⟩ := dropWhile_split (l.dropWhile isSpace).reverse
  refine ⟨w, v.reverse, ?_, h2, by simpa using h4⟩
  have : l.dropWhile isSpace = trim l ++ v.reverse := by
    unfold trim
    rw [← List.reverse_append, ← h3, List.reverse_reverse]
  rw [List.append_assoc, ← this]
  exact h1

theorem isSpace_comp : isSpace ∘ lower = isSpace := funext isSpace_lower

theorem trim_map (l : Bytes) : trim (l.map lower) = (trim l).map lower := by
  unfold trim
  rw [List.dropWhile_map, isSpace_comp, ← List.map_reverse, List.dropWhile_map, isSpace_comp, ← List.map_reverse]

theorem tryParse_iff {b ns d : Bytes} (hlen : b.length ≤ 32) :
    tryParse b true = .ok ⟨ns, d⟩ ↔ Spells b ns d := by
  constructor
  · intro h
    have hg := tryParse_strict hlen h
    refine ⟨hlen, partOk_iff.2 hg.ns, partOk_iff.2 hg.desc, ?_⟩
    obtain ⟨w, w', h1, h2, h3⟩ := trim_split b
    refine ⟨w, trim b, w', h1, (blank_iff w).2 h2, (blank_iff w').2 h3, ?_⟩
    simp only [tryParse, bind_eq_ok_iff, ensure_eq_ok_iff] at h
    obtain ⟨_, _, _, _, h4⟩ := h
    rw [← trim_map]
    generalize hs : splitDot (trim (b.map lower)) = chunks at h4
    unfold nameOfChunks at h4
    split at h4
    · simp [bind_eq_ok_iff, ensure_eq_ok_iff] at h4
    · simp only [bind_eq_ok_iff, pure_eq_ok_iff, Name.mk.injEq] at h4
      obtain ⟨_, _, _, _, rfl, rfl⟩ := h4
      exact splitDot_two_inv hs
    · cases h4
  · rintro ⟨_, h1, h2, w, x, w', rfl, h3, h4, h5⟩
    rw [C42_white_space true w x w' h3 h4]
    have hg : GoodName ⟨ns, d⟩ := by
      refine ⟨partOk_iff.1 h1, partOk_iff.1 h2, ?_⟩
      have : (Name.combined ⟨ns, d⟩).length = x.length := by
        rw [← List.length_map (f := lower) (as := x), h5]; rfl
      rw [this]
      simp only [List.length_append] at hlen
      omega
    have hlow : (Name.combined ⟨ns, d⟩).map lower = x.map lower := by
      rw [h5, ← List.map_id (ns ++ ascii "." ++ d)]
      apply List.map_congr_left
      intro c hc
      rcases hg.combined_chars c hc with hc | rfl
      · exact (partChar_facts c hc).2.1
      · rfl
    rw [← C42_case_insensitive true _ _ hlow]
    exact tryParse_combined hg true

theorem spells_good {b ns d} (h : Spells b ns d) : GoodName ⟨ns, d⟩ :=
  tryParse_strict h.1 ((tryParse_iff h.1).2 h)

theorem createdIds_length {cfg s} (hi : Inv cfg s) : (createdIds s).length = s.lastId := by
  rw [hi.created, List.length_range']

theorem create_iff {cfg s key model mt loc settings name} (hi : Inv cfg s) :
    (∃ s', create cfg s key model mt loc settings name = .ok s') ↔ RegOk cfg s model mt loc settings name := by
  have hcnt := createdIds_length hi
  have happ : (.appendOnly ∉ settings ∨ loc = .itemized) ↔ (.appendOnly ∈ settings → loc = .itemized) := by
    by_cases h : Setting.appendOnly ∈ settings <;> simp [h]
  unfold RegOk
  rw [hcnt, ← happ]
  constructor
  · rintro ⟨s', h⟩
    have hn : ∀ b ∈ name, b.length ≤ 32 := by
      simp only [create, bind_eq_ok_iff, ensure_eq_ok_iff] at h
      obtain ⟨_, ⟨_, _, h3⟩, _⟩ := h
      exact h3
    obtain ⟨n, hsome, hp, hr⟩ := create_ok h
    refine ⟨hr.valid, hr.min, hr.max, hr.decodable.1, hr.decodable.2, hr.append, by have := hr.room; omega, ?_⟩
    intro b hb
    cases n with
    | none => rw [hb] at hsome; cases hsome
    | some m =>
      obtain ⟨ns, d⟩ := m
      refine ⟨ns, d, (tryParse_iff (hn b hb)).1 (hp b hb _ rfl), ?_⟩
      have := (hr.fresh _ rfl).2
      rw [hi.order _ (hr.good _ rfl)] at this
      exact this
  · rintro ⟨h1, h2, h3, h4, h5, h6, h7, h8⟩
    simp only [create, createSchemaFor, addSchema, nextId, bind_eq_ok_iff, ensure_eq_ok_iff, pure_eq_ok_iff]
    cases name with
    | none =>
      exact ⟨_, (), ⟨h4, h5, by simp⟩, _, ⟨(), h1, (), h2, (), h3, (), h6, none, rfl, _, ⟨_, ⟨(), h7, rfl⟩, s, rfl, rfl⟩,
        rfl⟩, rfl⟩
    | some b =>
      obtain ⟨ns, d, hsp, hl⟩ := h8 b rfl
      have hg := spells_good hsp
      have hfull : full ns d = Name.combined ⟨ns, d⟩ := rfl
      rw [hfull, ← hi.order _ hg] at hl
      have hfresh : s.lastId + 1 ∉ s.ids ⟨ns, d⟩ := by
        intro hm
        have := (hi.range _ _ hm).2
        omega
      refine ⟨_, (), ⟨h4, h5, ?_⟩, _, ⟨(), h1, (), h2, (), h3, (), h6, some ⟨ns, d⟩, ?_, _,
        ⟨_, ⟨(), h7, rfl⟩, { s with names := s.names.insert ⟨ns, d⟩ (s.ids ⟨ns, d⟩ ++ [s.lastId + 1]) }, ?_, rfl⟩,
        rfl⟩, rfl⟩
      · intro b' hb'
        cases hb'
        exact hsp.1
      · simp only [parseOpt, bind_eq_ok_iff, pure_eq_ok_iff]
        exact ⟨_, (tryParse_iff hsp.1).2 hsp, rfl⟩
      · simp only [addNameOpt, addName, addVersion, bind_eq_ok_iff, ensure_eq_ok_iff, pure_eq_ok_iff]
        exact ⟨_, ⟨(), hfresh, (), hl, rfl⟩, rfl⟩

theorem createName_iff {cfg s id b} (hi : Inv cfg s) :
    (∃ s', createName s id b = .ok s') ↔ Permitted.NamingOk s id b := by
  unfold Permitted.NamingOk
  constructor
  · rintro ⟨s', h⟩
    have hn : b.length ≤ 32 := by
      simp only [createName, bind_eq_ok_iff, ensure_eq_ok_iff] at h
      exact h.choose_spec.1
    obtain ⟨⟨ns, d⟩, hp, hr⟩ := createName_ok h
    refine ⟨hr.info, ns, d, (tryParse_iff hn).1 hp, ?_⟩
    have h1 := hr.fresh
    have h2 := hr.room
    rw [hi.order _ hr.good] at h1 h2
    exact ⟨h1, h2⟩
  · rintro ⟨⟨i, h1, h2⟩, ns, d, hsp, h3, h4⟩
    have hg := spells_good hsp
    have hfull : full ns d = Name.combined ⟨ns, d⟩ := rfl
    rw [hfull, ← hi.order _ hg] at h3 h4
    simp only [createName, parseAndVerify, addName, addVersion, bind_eq_ok_iff, ensure_eq_ok_iff, pure_eq_ok_iff,
      okOr_eq_ok_iff]
    exact ⟨_, (), hsp.1, _, ⟨i, h1, (), h2, (tryParse_iff hsp.1).2 hsp⟩, _, ⟨_, ⟨(), h3, (), h4, rfl⟩, rfl⟩, rfl⟩

theorem settings_foldl (l : List Setting) (s : Settings) : l.foldl Settings.set s =
    ⟨s.appendOnly || decide (.appendOnly ∈ l), s.signatureRequired || decide (.signatureRequired ∈ l)⟩ := by
  induction l generalizing s with
  | nil => simp
  | cons a r ih =>
    rw [List.foldl_cons, ih]
    cases a <;> simp [Settings.set]

theorem added_of {cfg s s' key model mt loc settings name} (hi : Inv cfg s)
    (h : create cfg s key model mt loc settings name = .ok s') : Added s s' key model mt loc settings name := by
  have hcnt := createdIds_length hi
  have hlen : ∀ b ∈ name, b.length ≤ 32 := by
    simp only [create, bind_eq_ok_iff, ensure_eq_ok_iff] at h
    obtain ⟨_, ⟨_, _, h3⟩, _⟩ := h
    exact h3
  obtain ⟨n, hsome, hp, hr⟩ := create_ok h
  have hst := hr.state
  have hinf : s'.infos = s.infos.insert (s.lastId + 1) ⟨mt, loc, settings.foldl Settings.set .none, n.isSome⟩ := by
    rw [hst]
  have hpay : s'.payloads = s.payloads.insert (s.lastId + 1) model := by rw [hst]
  have hev : s'.events = s.events ++ createdEvents key (s.lastId + 1) n := by rw [hst]
  have hmax : s'.maxBytes = s.maxBytes := by rw [hst]
  have hnames : ∀ ns d, PartOk 3 30 ns → PartOk 1 28 d →
      ((∃ b ∈ name, Spells b ns d) → createdEvents key (s.lastId + 1) n = [.created key (s.lastId + 1), .nameCreated (s.lastId + 1) (full ns d)]) ∧
      ((¬ ∃ b ∈ name, Spells b ns d) → (createdEvents key (s.lastId + 1) n).filterMap (idNamed (full ns d)) = []) := by
    intro ns d h1 h2
    have key : (∃ b ∈ name, Spells b ns d) ↔ n = some ⟨ns, d⟩ := by
      constructor
      · rintro ⟨b, hb, hsp⟩
        cases n with
        | none => rw [hb] at hsome; cases hsome
        | some m =>
          have := hp b hb m rfl
          rw [(tryParse_iff hsp.1).2 hsp] at this
          cases this; rfl
      · rintro rfl
        cases name with
        | none => cases hsome
        | some b => exact ⟨b, rfl, (tryParse_iff (hlen b rfl)).1 (hp b rfl _ rfl)⟩
    rw [key]
    constructor
    · rintro rfl; rfl
    · intro hne
      cases n with
      | none => simp [createdEvents, idNamed]
      | some m =>
        have : m.combined ≠ full ns d := by
          intro e
          apply hne
          rw [combined_inj (hr.good m rfl) (m := ⟨ns, d⟩) ⟨partOk_iff.1 h1, partOk_iff.1 h2, ?_⟩ e]
          have := (hr.good m rfl).len
          rw [e] at this
          exact this
        simp [createdEvents, idNamed, this]
  refine ⟨fun id => ?_, fun id => ?_, fun ns d h => ?_, fun ns d h1 h2 h => ?_, hmax, ?_⟩
  · rw [hcnt, hinf]
    simp only [SMap.get_insert, settings_foldl, Settings.none, Bool.false_or, hsome, eq_comm (b := id)]
  · rw [hcnt, hpay]
    simp only [SMap.get_insert, eq_comm (b := id)]
  · rw [hcnt]
    obtain ⟨b, hb, hsp⟩ := h
    simp only [namedIds, hev, (hnames ns d hsp.2.1 hsp.2.2.1).1 ⟨b, hb, hsp⟩, List.filterMap_append]
    simp [List.filterMap_cons, idNamed]
  · simp only [namedIds, hev, List.filterMap_append, (hnames ns d h1 h2).2 h, List.append_nil]
  · rw [hcnt, hev]
    cases n with
    | none => exact ⟨[], rfl⟩
    | some m => exact ⟨[.nameCreated _ _], rfl⟩

/-! ## C87 -/

/-- C87: a call succeeds exactly if it is `Permitted`. -/
theorem C87_accepted_iff (cfg : Config) (s : State) (hr : Reachable cfg s) (o : Origin) (c : Call) :
    (∃ s', dispatch cfg s o c = .ok s') ↔ Permitted cfg s o c := by
  have hi := hr.inv
  cases o <;> cases c <;>
    simp only [dispatch, ensureSigned, ensureGovernance, ensureRoot, Permitted, bind_eq_ok_iff, Except.ok.injEq,
      exists_eq_left', reduceCtorEq, false_and, exists_false, setMaxBytes, ensure_eq_ok_iff, pure_eq_ok_iff,
      exists_and_left, exists_const, true_and, exists_eq', and_true] <;>
    first
    | exact create_iff hi
    | exact createName_iff hi

/-- C87: effect of a registration. -/
theorem C87_registration_effect (cfg : Config) (s s' : State) (hr : Reachable cfg s) (o : Origin) (c : Call)
    (model : Bytes) (mt : ModelType) (loc : Location) (settings : List Setting)
    (hc : registers c = some (model, mt, loc, settings)) (h : dispatch cfg s o c = .ok s') :
    ∃ key, registrant o c = some key ∧ Added s s' key model mt loc settings (askedName c) := by
  have hi := hr.inv
  cases o <;> cases c <;>
    simp only [registers, Option.some.injEq, Prod.mk.injEq, reduceCtorEq] at hc <;>
    obtain ⟨rfl, rfl, rfl, rfl⟩ := hc <;>
    simp only [dispatch, ensureSigned, ensureGovernance, bind_eq_ok_iff, Except.ok.injEq,
      exists_eq_left', reduceCtorEq, false_and, exists_false, exists_const] at h
  all_goals first
    | exact ⟨_, rfl, added_of hi h⟩
    | exact ⟨_, rfl, added_of hi h.2⟩

/-- C87: effect of a later naming: one more version of the name, nothing else. -/
theorem C87_naming_effect (cfg : Config) (s s' : State) (o : Origin) (id : SchemaId) (b : Bytes)
    (h : dispatch cfg s o (.createName id b) = .ok s') :
    (∀ i, s'.infos.get i = s.infos.get i) ∧ (∀ i, s'.payloads.get i = s.payloads.get i) ∧
    s'.maxBytes = s.maxBytes ∧ createdIds s' = createdIds s ∧
    ∀ ns d, PartOk 3 30 ns → PartOk 1 28 d →
      ((Spells b ns d → namedIds s' (full ns d) = namedIds s (full ns d) ++ [id]) ∧
       (¬ Spells b ns d → namedIds s' (full ns d) = namedIds s (full ns d))) := by
  have h0 : createName s id b = .ok s' := by
    simp only [dispatch, bind_eq_ok_iff] at h
    exact h.choose_spec.2
  have hlen : b.length ≤ 32 := by
    simp only [createName, bind_eq_ok_iff, ensure_eq_ok_iff] at h0
    exact h0.choose_spec.1
  obtain ⟨n, hp, hn⟩ := createName_ok h0
  have hst := hn.state
  subst hst
  refine ⟨fun _ => rfl, fun _ => rfl, rfl, by simp [createdIds], fun ns d h1 h2 => ?_⟩
  have key : Spells b ns d ↔ n = ⟨ns, d⟩ := by
    rw [← tryParse_iff hlen, hp, Except.ok.injEq]
  have : n.combined = full ns d ↔ n = ⟨ns, d⟩ := by
    constructor
    · intro e
      refine combined_inj hn.good ⟨partOk_iff.1 h1, partOk_iff.1 h2, ?_⟩ e
      have := hn.good.len
      rw [e] at this
      exact this
    · rintro rfl; rfl
  rw [key]
  constructor
  · intro e
    simp [namedIds, idNamed, this.2 e]
  · intro e
    simp [namedIds, idNamed, this, e]

/-- C87: effect of a change of the maximum. -/
theorem C87_maximum_effect (cfg : Config) (s s' : State) (o : Origin) (n : Nat)
    (h : dispatch cfg s o (.setMaxBytes n) = .ok s') :
    s'.maxBytes = n ∧ s'.infos = s.infos ∧ s'.payloads = s.payloads ∧ s'.names = s.names ∧ createdIds s' = createdIds s := by
  simp only [dispatch, setMaxBytes, bind_eq_ok_iff, pure_eq_ok_iff] at h
  obtain ⟨_, _, _, _, rfl⟩ := h
  exact ⟨rfl, rfl, rfl, rfl, by simp [createdIds]⟩

/-! ## Concrete cases -/

/-- ` DSNP.Graph-v ` spells `dsnp.graph-v`. -/
example : Spells (ascii " DSNP.Graph-v ") (ascii "dsnp") (ascii "graph-v") := by
  refine ⟨by decide +kernel, by unfold PartOk; decide +kernel, by unfold PartOk; decide +kernel, ascii " ",
    ascii "DSNP.Graph-v", ascii " ", ?_⟩
  decide +kernel

/-- In the example state, whose maximum is seven bytes, no registration is permitted; naming schema 2 once more
is, naming schema 1, which was registered with a name, is not. -/
example : ¬ Permitted exCfg exState (.signed 7) (.createSchema (ascii "{\"x\":12}") .avroBinary .onChain) ∧
    Permitted exCfg exState .council (.createName 2 (ascii "dsnp.edges")) ∧
    ¬ Permitted exCfg exState .council (.createName 1 (ascii "dsnp.edges")) ∧
    ¬ Permitted exCfg exState (.signed 7) (.createName 2 (ascii "dsnp.edges")) := by
  have hr : Reachable exCfg exState := ⟨1024, exHist, rfl⟩
  have key : ∀ o c, (dispatch exCfg exState o c).isOk = true ↔ Permitted exCfg exState o c := by
    intro o c
    rw [← C87_accepted_iff exCfg exState hr]
    cases dispatch exCfg exState o c with
    | ok s' => simp [Except.isOk, Except.toBool]
    | error e => simp [Except.isOk, Except.toBool]
  rw [← key, ← key, ← key, ← key]
  decide +kernel

end Verif.Schemas
