import Verif.Schemas.Lemmas
import Mathlib.Data.List.Induction
/-!
# Properties of the schemas pallet
-/

namespace Verif.Schemas

/-! ## Concrete history for the examples -/

/-- Bytes of an ASCII string. -/
def ascii (s : String) : Bytes := s.toList.map (fun c => UInt8.ofNat c.toNat)

/-- Constants of the runtime; models must start with a brace. -/
def exCfg : Config := ⟨8, 65500, 65000, 2, fun _ b => b.head? == some 123⟩

/-- Two schemas with the same name, one of them refused first, and one without a name that governance names
later. The upgrade and the call of a normal account to name a schema do nothing. -/
def exHist : List Step :=
  [.call (.signed 7) (.createSchemaV3 (ascii "{\"x\":12}") .avroBinary .itemized [.appendOnly] (some (ascii " Dsnp.Update"))),
   .call (.signed 8) (.createSchemaV3 (ascii "\"x\":1234") .avroBinary .onChain [] none),
   .call (.signed 8) (.createSchema (ascii "{\"x\":34}") .avroBinary .onChain),
   .call .council (.createViaGovernanceV2 9 (ascii "{\"x\":56}") .parquet .ipfs [.signatureRequired] (some (ascii "dsnp.update"))),
   .upgrade [(1, ascii "dsnp.other")],
   .call (.signed 8) (.createName 2 (ascii "dsnp.update")),
   .call .root (.createName 2 (ascii "DSNP.Graph")),
   .call .root (.setMaxBytes 7)]

/-- State after it. -/
def exState : State := run exCfg (.init 1024) exHist

/-- A reachable state. -/
def Reachable (cfg : Config) (s : State) : Prop := ∃ m hist, s = run cfg (.init m) hist

theorem Reachable.inv {cfg s} (h : Reachable cfg s) : Inv cfg s := by
  obtain ⟨m, hist, rfl⟩ := h
  exact inv_run hist (inv_init cfg m)

example : Reachable exCfg exState := ⟨1024, exHist, rfl⟩

/-! ## C39 -/

/-- C39: the ids announced by registrations are 1, 2, 3, ... in this order, and the schemas that can be
queried are exactly these. -/
theorem C39_ids_sequential (cfg : Config) (s : State) (hr : Reachable cfg s) :
    createdIds s = List.range' 1 (createdIds s).length ∧
    ∀ id, (getSchemaById s id).isSome = true ↔ id ∈ createdIds s := by
  have hi := hr.inv
  rw [hi.created, List.length_range']
  refine ⟨rfl, fun id => ?_⟩
  rw [List.mem_range'_1]
  have h1 := hi.infos id
  have h2 := hi.payloads id
  unfold getSchemaById
  cases h3 : s.infos.get id with
  | none =>
    rw [h3] at h1
    simp at h1 ⊢
    omega
  | some i =>
    cases h4 : s.payloads.get id with
    | none =>
      rw [h4] at h2
      simp at h2 ⊢
      omega
    | some p =>
      rw [h3] at h1
      simp at h1 ⊢
      omega

/-- What a registering call registers. -/
def registers : Call → Option (Bytes × ModelType × Location × List Setting)
  | .createSchema model mt loc => some (model, mt, loc, [])
  | .createSchemaV2 model mt loc settings => some (model, mt, loc, settings)
  | .createSchemaV3 model mt loc settings _ => some (model, mt, loc, settings)
  | .createViaGovernance _ model mt loc settings => some (model, mt, loc, settings)
  | .createViaGovernanceV2 _ model mt loc settings _ => some (model, mt, loc, settings)
  | .setMaxBytes _ => none
  | .createName _ _ => none

/-- C39: every registration, by whichever call, makes one new id known, and under it exactly what was
registered. -/
theorem C39_as_registered (cfg : Config) (s s' : State) (hr : Reachable cfg s) (o : Origin) (c : Call) (model : Bytes)
    (mt : ModelType) (loc : Location) (settings : List Setting) (hc : registers c = some (model, mt, loc, settings))
    (h : dispatch cfg s o c = .ok s') :
    ∃ id r, createdIds s' = createdIds s ++ [id] ∧ getSchemaById s id = none ∧ getSchemaById s' id = some r ∧
      r.id = id ∧ r.model = model ∧ r.modelType = mt ∧ r.location = loc ∧ ∀ x, x ∈ r.settings ↔ x ∈ settings := by
  have hi := hr.inv
  have hcreate : ∃ k name, create cfg s k model mt loc settings name = .ok s' := by
    cases c <;> simp only [registers, Option.some.injEq, Prod.mk.injEq, reduceCtorEq] at hc <;>
      obtain ⟨rfl, rfl, rfl, rfl⟩ := hc <;> simp only [dispatch, bind_eq_ok_iff] at h <;>
      obtain ⟨_, _, h⟩ := h <;> exact ⟨_, _, h⟩
  obtain ⟨k, name, h⟩ := hcreate
  obtain ⟨n, _, _, h⟩ := create_ok h
  have hi' := inv_create hi h
  have hst := h.state
  have hfold : ∀ (l : List Setting) (a : Settings) (x : Setting),
      x ∈ (l.foldl Settings.set a).toList ↔ x ∈ a.toList ∨ x ∈ l := by
    intro l
    induction l with
    | nil => intro a x; simp
    | cons y r ih =>
      intro a x
      rw [List.foldl_cons, ih]
      obtain ⟨a1, a2⟩ := a
      cases y <;> cases x <;> cases a1 <;> cases a2 <;> simp [Settings.set, Settings.toList]
  refine ⟨s.lastId + 1, ⟨s.lastId + 1, model, mt, loc, (settings.foldl Settings.set .none).toList⟩, ?_, ?_, ?_, rfl, rfl,
    rfl, rfl, ?_⟩
  · rw [hi.created, hi'.created, hst, List.range'_concat]
    simp [Nat.add_comm]
  · have : s.infos.get (s.lastId + 1) = none := by
      cases hg : s.infos.get (s.lastId + 1) with
      | none => rfl
      | some i => have := (hi.infos _).1 ⟨i, hg⟩; omega
    simp [getSchemaById, this]
  · rw [hst]
    simp [getSchemaById, SMap.get_insert_self]
  · intro x
    rw [hfold]
    simp [Settings.none, Settings.toList]

/-- C39: no other call makes an id known. -/
theorem C39_nothing_else_registers (cfg : Config) (s s' : State) (hr : Reachable cfg s) (o : Origin) (c : Call)
    (hc : registers c = none) (h : dispatch cfg s o c = .ok s') : createdIds s' = createdIds s := by
  have hi := hr.inv
  cases c with
  | setMaxBytes n =>
    simp only [dispatch, setMaxBytes, bind_eq_ok_iff, pure_eq_ok_iff] at h
    obtain ⟨_, _, _, _, rfl⟩ := h
    simp [createdIds]
  | createName id b =>
    have hi' := inv_apply hi (.call o (.createName id b))
    have ha : apply cfg s (.call o (.createName id b)) = s' := by simp [apply, h]
    have he := apply_eff cfg s hi.version (.call o (.createName id b))
    rw [ha] at he hi'
    rw [hi.created, hi'.created]
    cases he with
    | none => rfl
    | create hc' hreg => exact absurd rfl (hc' id b)
    | name ho hp hn => rw [hn.state]
  | _ => simp [registers] at hc

/-- C39: what is returned for an id never changes. -/
theorem C39_immutable (cfg : Config) (s : State) (hr : Reachable cfg s) (hist : List Step) (id : SchemaId)
    (r : Response) (h : getSchemaById s id = some r) : getSchemaById (run cfg s hist) id = some r := by
  have hi := hr.inv
  clear hr
  induction hist generalizing s with
  | nil => exact h
  | cons x rest ih =>
    have hrun : run cfg s (x :: rest) = run cfg (apply cfg s x) rest := rfl
    rw [hrun]
    refine ih _ ?_ (inv_apply hi x)
    have he := apply_eff cfg s hi.version x
    generalize apply cfg s x = s' at he
    cases he with
    | none => exact h
    | max => exact h
    | create hc hreg =>
      have hne : s.lastId + 1 ≠ id := by
        rintro rfl
        unfold getSchemaById at h
        cases hg : s.infos.get (s.lastId + 1) with
        | none => rw [hg] at h; cases h
        | some i => have := (hi.infos _).1 ⟨i, hg⟩; omega
      rw [hreg.state]
      unfold getSchemaById at h ⊢
      simp only [SMap.get_insert_ne _ hne]
      exact h
    | name ho hp hn => rw [hn.state]; exact h

example : createdIds exState = [1, 2, 3] ∧
    getSchemaById exState 1 = some ⟨1, ascii "{\"x\":12}", .avroBinary, .itemized, [.appendOnly]⟩ ∧
    getSchemaById exState 3 = some ⟨3, ascii "{\"x\":56}", .parquet, .ipfs, [.signatureRequired]⟩ ∧
    getSchemaById exState 4 = none := by decide +kernel

example : (dispatch exCfg (run exCfg (.init 1024) (exHist.take 4)) (.signed 7)
    (.createSchemaV3 (ascii "{\"x\":12}") .avroBinary .itemized [.appendOnly] none)).isOk = true := by decide +kernel

/-! ## C40 -/

theorem versionsFrom_map (b : Bytes) : ∀ (ids : List SchemaId) (i : Nat),
    (versionsFrom b i ids).map (·.id) = ids ∧ (versionsFrom b i ids).length = ids.length ∧
    (∀ r ∈ versionsFrom b i ids, r.name = b) ∧
    (i + ids.length ≤ 255 → (versionsFrom b i ids).map (·.version) = List.range' (i + 1) ids.length) := by
  intro ids
  induction ids with
  | nil => intro i; simp [versionsFrom]
  | cons x rest ih =>
    intro i
    obtain ⟨h1, h2, h3, h4⟩ := ih (i + 1)
    refine ⟨by simp [versionsFrom, h1], by simp [versionsFrom, h2], ?_, ?_⟩
    · intro r hr
      simp only [versionsFrom, List.mem_cons] at hr
      rcases hr with rfl | hr
      · rfl
      · exact h3 r hr
    · intro hl
      simp only [List.length_cons] at hl
      have := h4 (by omega)
      simp only [versionsFrom, List.map_cons, this, List.length_cons, List.range'_succ]
      rw [Nat.mod_eq_of_lt (by omega)]

/-- A query with a full name lists the ids of that name. -/
theorem getSchemaVersions_full {cfg s} (hi : Inv cfg s) {b : Bytes} {n : Name} (hlen : b.length ≤ 32)
    (h : tryParse b true = .ok n) :
    getSchemaVersions s b = some (toResponse n (namedIds s n.combined)) := by
  have hg := tryParse_strict hlen h
  have h' : tryParse b false = .ok n := by
    simp only [tryParse, bind_eq_ok_iff, ensure_eq_ok_iff] at h ⊢
    obtain ⟨_, h1, _, h2, h3⟩ := h
    refine ⟨(), h1, (), h2, ?_⟩
    unfold nameOfChunks at h3 ⊢
    split at h3
    · simp [bind_eq_ok_iff, ensure_eq_ok_iff] at h3
    · exact h3
    · cases h3
  unfold getSchemaVersions
  rw [if_pos hlen, h']
  simp only
  rw [if_pos (hg.desc.ne_nil (by omega)), hi.order n hg]

/-- C40: the query for a schema name lists the ids that were announced for this name, in that order, with
versions 1, 2, 3, ..., without repeating an id, at most 254 of them. -/
theorem C40_versions_gapless (cfg : Config) (s : State) (hr : Reachable cfg s) (b : Bytes) (n : Name)
    (hlen : b.length ≤ 32) (h : tryParse b true = .ok n) :
    ∃ vs, getSchemaVersions s b = some vs ∧ vs.map (·.id) = namedIds s n.combined ∧
      vs.map (·.version) = List.range' 1 vs.length ∧ (vs.map (·.id)).Nodup ∧ vs.length ≤ 254 ∧
      ∀ v ∈ vs, v.name = n.combined ∧ (getSchemaById s v.id).isSome = true := by
  have hi := hr.inv
  have hg := tryParse_strict hlen h
  have hnd := hi.nodup n
  rw [hi.order n hg] at hnd
  obtain ⟨h1, h2, h3, h4⟩ := versionsFrom_map n.combined (namedIds s n.combined) 0
  refine ⟨_, getSchemaVersions_full hi hlen h, h1, ?_, ?_, ?_, ?_⟩
  · show (versionsFrom _ _ _).map _ = List.range' 1 (versionsFrom _ _ _).length
    rw [h2]
    exact h4 (by omega)
  · show ((versionsFrom _ _ _).map _).Nodup
    rw [h1]
    exact hnd.1
  · show (versionsFrom _ _ _).length ≤ _
    rw [h2]
    exact hnd.2
  · intro v hv
    refine ⟨h3 v hv, ?_⟩
    have hv' : v.id ∈ s.ids n := by
      rw [hi.order n hg, ← h1]
      exact List.mem_map_of_mem hv
    have hr' := hi.range n v.id hv'
    rw [(C39_ids_sequential cfg s hr).2, hi.created, List.mem_range'_1]
    omega

/-- C40: a version once listed is listed for ever, for the same id. -/
theorem C40_versions_permanent (cfg : Config) (s : State) (hr : Reachable cfg s) (hist : List Step) (b : Bytes)
    (n : Name) (hlen : b.length ≤ 32) (h : tryParse b true = .ok n) (vs : List VersionResponse)
    (hq : getSchemaVersions s b = some vs) :
    ∃ more, getSchemaVersions (run cfg s hist) b = some (vs ++ more) := by
  have hi := hr.inv
  have hi' := inv_run hist hi
  rw [getSchemaVersions_full hi hlen h] at hq
  cases hq
  rw [getSchemaVersions_full hi' hlen h]
  have hpre : ∃ t, (run cfg s hist).events = s.events ++ t := by
    clear hr hi'
    induction hist generalizing s with
    | nil => exact ⟨[], by simp [run]⟩
    | cons x rest ih =>
      have hrun : run cfg s (x :: rest) = run cfg (apply cfg s x) rest := rfl
      rw [hrun]
      obtain ⟨t, ht⟩ := ih _ (inv_apply hi x)
      have he := apply_eff cfg s hi.version x
      have : ∃ u, (apply cfg s x).events = s.events ++ u := by
        generalize apply cfg s x = s' at he
        cases he with
        | none => exact ⟨[], by simp⟩
        | max => exact ⟨_, rfl⟩
        | create hc hreg => exact ⟨_, by rw [hreg.state]⟩
        | name ho hp hn => exact ⟨_, by rw [hn.state]⟩
      obtain ⟨u, hu⟩ := this
      exact ⟨u ++ t, by rw [ht, hu, List.append_assoc]⟩
  obtain ⟨t, ht⟩ := hpre
  have hids : namedIds (run cfg s hist) n.combined = namedIds s n.combined ++ t.filterMap (idNamed n.combined) := by
    unfold namedIds
    rw [ht, List.filterMap_append]
  have happ : ∀ (a c : List SchemaId) (i : Nat), versionsFrom n.combined i (a ++ c) =
      versionsFrom n.combined i a ++ versionsFrom n.combined (i + a.length) c := by
    intro a
    induction a with
    | nil => intro c i; simp [versionsFrom]
    | cons y r ih =>
      intro c i
      simp only [List.cons_append, versionsFrom, ih, List.length_cons]
      rw [show i + 1 + r.length = i + (r.length + 1) by omega]
  rw [hids]
  exact ⟨_, congrArg some (happ _ _ 0)⟩

/-- C40: the query for a namespace lists exactly what the queries for its names list. -/
theorem C40_namespace_query (cfg : Config) (s : State) (hr : Reachable cfg s) (b : Bytes) (ns : Bytes)
    (hlen : b.length ≤ 32) (h : tryParse b false = .ok ⟨ns, []⟩) :
    ∃ vs, getSchemaVersions s b = some vs ∧
      ∀ v, v ∈ vs ↔ ∃ n us, GoodName n ∧ n.namespace_ = ns ∧ getSchemaVersions s n.combined = some us ∧ v ∈ us := by
  have hi := hr.inv
  refine ⟨_, by unfold getSchemaVersions; rw [if_pos hlen, h]; simp only; rw [if_neg (by simp)], ?_⟩
  intro v
  simp only [List.mem_flatMap, List.mem_filter, decide_eq_true_eq]
  constructor
  · rintro ⟨n, ⟨hk, hn⟩, hv⟩
    have hne : s.ids n ≠ [] := by
      intro e
      rw [e] at hv
      simp [toResponse, versionsFrom] at hv
    have hg := hi.good n hne
    refine ⟨n, _, hg, hn, getSchemaVersions_full hi hg.len (tryParse_combined hg true), ?_⟩
    rw [← hi.order n hg]
    exact hv
  · rintro ⟨n, us, hg, hn, hq, hv⟩
    rw [getSchemaVersions_full hi hg.len (tryParse_combined hg true)] at hq
    cases hq
    rw [← hi.order n hg] at hv
    refine ⟨n, ⟨?_, hn⟩, hv⟩
    rw [SMap.mem_keys_iff]
    cases hgn : s.names.get n with
    | none =>
      have : s.ids n = [] := by simp [State.ids, hgn]
      rw [this] at hv
      simp [toResponse, versionsFrom] at hv
    | some l => exact (SMap.contains_iff _ _).2 ⟨l, hgn⟩

example : getSchemaVersions exState (ascii "dsnp.UPDATE ") =
      some [⟨ascii "dsnp.update", 1, 1⟩, ⟨ascii "dsnp.update", 2, 3⟩] ∧
    (getSchemaVersions exState (ascii "dsnp")).map List.length = some 3 := by decide +kernel

/-! ## C41 -/

/-- C41, partial: a schema registered with a name is, whatever happens afterwards, listed under
exactly one name. Missing: schemas that governance names, see `C41_governance_names_twice`. -/
theorem C41_one_name_partial (cfg : Config) (s : State) (hr : Reachable cfg s) (k : AccountId) (model : Bytes)
    (mt : ModelType) (loc : Location) (settings : List Setting) (b : Bytes) (s' : State)
    (h : dispatch cfg s (.signed k) (.createSchemaV3 model mt loc settings (some b)) = .ok s') (hist : List Step) :
    ∃ id n, createdIds s' = createdIds s ++ [id] ∧ tryParse b true = .ok n ∧
      ∀ m, GoodName m → (id ∈ namedIds (run cfg s' hist) m.combined ↔ m = n) := by
  have hi := hr.inv
  simp only [dispatch, ensureSigned, bind_eq_ok_iff] at h
  obtain ⟨k', hk, h0⟩ := h
  cases hk
  obtain ⟨n, h1, h2, h⟩ := create_ok h0
  clear h0
  have hi' := inv_create hi h
  cases n with
  | none => cases h1
  | some n =>
    have hst := h.state
    refine ⟨s.lastId + 1, n, ?_, h2 b rfl n rfl, ?_⟩
    · rw [hi.created, hi'.created, hst, List.range'_concat]
      simp [Nat.add_comm]
    have hin : s.lastId + 1 ∈ s'.ids n := by
      rw [ids_insert s n n _ s' (by rw [hst]), if_pos rfl]
      simp
    have hinf : ∃ i, s'.infos.get (s.lastId + 1) = some i ∧ i.hasName = true := by
      rw [hst]
      exact ⟨_, SMap.get_insert_self _ _ _, rfl⟩
    clear h hst h1 h2 hr hi
    have key : (∃ i, (run cfg s' hist).infos.get (s.lastId + 1) = some i ∧ i.hasName = true) ∧
        s.lastId + 1 ∈ (run cfg s' hist).ids n := by
      induction hist generalizing s' with
      | nil => exact ⟨hinf, hin⟩
      | cons x rest ih =>
        have hrun : run cfg s' (x :: rest) = run cfg (apply cfg s' x) rest := rfl
        rw [hrun]
        refine ih _ (inv_apply hi' x) ?_ ?_
        · have he := apply_eff cfg s' hi'.version x
          generalize apply cfg s' x = s1 at he
          cases he with
          | none => exact hin
          | max => exact hin
          | @create o c _ key model mt loc settings n' hc hreg =>
            cases n' with
            | none => rw [hreg.state]; exact hin
            | some m =>
              rw [ids_insert s' m n _ s1 (by rw [hreg.state])]
              split
              · rename_i e; subst e; simp [hin]
              · exact hin
          | @name o id b s1 m ho hp hn =>
            rw [ids_insert s' m n _ s1 (by rw [hn.state])]
            split
            · rename_i e; subst e; simp [hin]
            · exact hin
        · have he := apply_eff cfg s' hi'.version x
          generalize apply cfg s' x = s1 at he
          cases he with
          | none => exact hinf
          | max => exact hinf
          | create hc hreg =>
            have := (hi'.range n _ hin).2
            rw [hreg.state]
            simp only
            rw [SMap.get_insert_ne _ (by omega)]
            exact hinf
          | name ho hp hn => rw [hn.state]; exact hinf
    have hi2 := inv_run hist hi'
    obtain ⟨⟨i, hg, hn⟩, hin2⟩ := key
    obtain ⟨y, hy⟩ := hi2.oneName _ i hg hn
    have hyn : n = y := (hy n).1 hin2
    subst hyn
    intro m hm
    rw [← hi2.order m hm]
    exact hy m

/-- Hypotheses met. -/
example : (dispatch exCfg exState (.signed 7)
    (.createSchemaV3 (ascii "{\"x\":12}") .avroBinary .itemized [] (some (ascii "dsnp.news")))).isOk = false ∧
    (dispatch exCfg (run exCfg exState [.call .root (.setMaxBytes 8)]) (.signed 7)
    (.createSchemaV3 (ascii "{\"x\":12}") .avroBinary .itemized [] (some (ascii "dsnp.news")))).isOk = true := by
  decide +kernel

/-- Some call of the history, not signed by an account, succeeded in giving the schema the name. -/
def NamedByGovernance (cfg : Config) (max : Nat) (hist : List Step) (id : SchemaId) (n : Name) : Prop :=
  ∃ pre o b post, hist = pre ++ .call o (.createName id b) :: post ∧ (∀ k, o ≠ .signed k) ∧ tryParse b true = .ok n ∧
    (dispatch cfg (run cfg (.init max) pre) o (.createName id b)).isOk = true

/-- C41, partial: every name of a schema that has two was given by a call of governance that names this schema. So a
schema has one name at most unless governance names it twice. Missing: that governance cannot, see
`C41_governance_names_twice`. -/
theorem C41_two_names_by_governance_partial (cfg : Config) (max : Nat) (hist : List Step) (id : SchemaId) (n m : Name)
    (hgn : GoodName n) (hgm : GoodName m) (hne : n ≠ m)
    (hn : id ∈ namedIds (run cfg (.init max) hist) n.combined)
    (hm : id ∈ namedIds (run cfg (.init max) hist) m.combined) :
    NamedByGovernance cfg max hist id n := by
  have key : ∀ h : List Step, id ∈ (run cfg (.init max) h).ids n →
      (∃ i, (run cfg (.init max) h).infos.get id = some i ∧ i.hasName = true) ∨
      NamedByGovernance cfg max h id n := by
    intro h
    induction h using List.reverseRecOn with
    | nil => intro h; cases h
    | append_singleton h x ih =>
      have hrun : run cfg (.init max) (h ++ [x]) = apply cfg (run cfg (.init max) h) x := by simp [run]
      have hi : Inv cfg (run cfg (.init max) h) := inv_run h (inv_init cfg max)
      have he := apply_eff cfg _ hi.version x
      have hap : ∀ s1, apply cfg (run cfg (.init max) h) x = s1 → s1 ≠ run cfg (.init max) h → ∀ o c, x = .call o c →
          (dispatch cfg (run cfg (.init max) h) o c).isOk = true := by
        intro s1 h1 h2 o c hx
        subst hx
        cases hd : dispatch cfg (run cfg (.init max) h) o c with
        | ok _ => rfl
        | error e => rw [apply, hd] at h1; exact absurd h1.symm h2
      rw [hrun]
      have up : NamedByGovernance cfg max h id n →
          NamedByGovernance cfg max (h ++ [x]) id n := by
        rintro ⟨pre, o, b, post, e, h1, h2, h3⟩
        exact ⟨pre, o, b, post ++ [x], by rw [e]; simp, h1, h2, h3⟩
      generalize hs1 : apply cfg (run cfg (.init max) h) x = s1 at he
      intro hin
      cases he with
      | none => exact (ih hin).imp_right up
      | max => exact (ih hin).imp_right up
      | @create o c _ key model mt loc settings n' hc hreg =>
        have hst := hreg.state
        have hold : id ∈ (run cfg (.init max) h).ids n →
            (∃ i, s1.infos.get id = some i ∧ i.hasName = true) ∨ NamedByGovernance cfg max (h ++ [.call o c]) id n := fun hin => by
          have hr := (hi.range n _ hin).2
          refine (ih hin).imp (fun ⟨i, hg, hb⟩ => ⟨i, ?_, hb⟩) up
          rw [hst]
          simp only
          rw [SMap.get_insert_ne _ (by omega)]
          exact hg
        cases n' with
        | none => rw [hst] at hin; exact hold hin
        | some n' =>
          rw [ids_insert _ n' n _ s1 (by rw [hst])] at hin
          split at hin
          · rename_i e; subst e
            rcases List.mem_append.1 hin with hin | hin
            · exact hold hin
            · left
              have := List.mem_singleton.1 hin
              rw [hst, this]
              exact ⟨_, SMap.get_insert_self _ _ _, rfl⟩
          · exact hold hin
      | @name o id' b s1 n' ho hp hnm =>
        have hst := hnm.state
        have hold : id ∈ (run cfg (.init max) h).ids n →
            (∃ i, s1.infos.get id = some i ∧ i.hasName = true) ∨ NamedByGovernance cfg max (h ++ [.call o (.createName id' b)]) id n := fun hin => by
          refine (ih hin).imp (fun ⟨i, hg, hb⟩ => ⟨i, ?_, hb⟩) up
          rw [hst]
          exact hg
        rw [ids_insert _ n' n _ s1 (by rw [hst])] at hin
        split at hin
        · rename_i e; subst e
          rcases List.mem_append.1 hin with hin | hin
          · exact hold hin
          · right
            have := List.mem_singleton.1 hin
            subst this
            refine ⟨h, o, b, [], rfl, ho, hp, hap s1 hs1 (fun e => ?_) _ _ rfl⟩
            have h1 := hnm.fresh
            rw [← e, ids_insert _ n' n' _ s1 (by rw [hst]), if_pos rfl] at h1
            simp at h1
        · exact hold hin
  have hi : Inv cfg (run cfg (.init max) hist) := inv_run hist (inv_init cfg max)
  rw [← hi.order n hgn] at hn
  rw [← hi.order m hgm] at hm
  rcases key hist hn with ⟨i, hg, hb⟩ | h
  · obtain ⟨y, hy⟩ := hi.oneName _ i hg hb
    exact absurd (((hy n).1 hn).trans ((hy m).1 hm).symm) hne
  · exact h

/-- Hypotheses met. -/
example : let hist : List Step := [.call (.signed 8) (.createSchema (ascii "{\"x\":34}") .avroBinary .onChain),
      .call .council (.createName 1 (ascii "dsnp.graph")), .call .council (.createName 1 (ascii "dsnp.edges"))]
    1 ∈ namedIds (run exCfg (.init 1024) hist) (ascii "dsnp.graph") ∧
    1 ∈ namedIds (run exCfg (.init 1024) hist) (ascii "dsnp.edges") := by
  decide +kernel

/-- C41 is false of the code: naming by governance does not record that the schema has a name now, so that
governance can give it another. -/
theorem C41_governance_names_twice :
    let s := run exCfg (.init 1024) [.call (.signed 8) (.createSchema (ascii "{\"x\":34}") .avroBinary .onChain),
      .call .council (.createName 1 (ascii "dsnp.graph")), .call .council (.createName 1 (ascii "dsnp.edges"))]
    getSchemaVersions s (ascii "dsnp.graph") = some [⟨ascii "dsnp.graph", 1, 1⟩] ∧
    getSchemaVersions s (ascii "dsnp.edges") = some [⟨ascii "dsnp.edges", 1, 1⟩] := by
  decide +kernel

/-! ## C42 -/

/-- C42: letter case does not matter. -/
theorem C42_case_insensitive (strict : Bool) (b b' : Bytes) (h : b.map lower = b'.map lower) :
    tryParse b strict = tryParse b' strict := by
  have hasc : (∀ c ∈ b, c.toNat < 128) ↔ ∀ c ∈ b', c.toNat < 128 := by
    have : ∀ l : Bytes, (∀ c ∈ l, c.toNat < 128) ↔ ∀ c ∈ l.map lower, c.toNat < 128 := by
      intro l
      simp only [List.mem_map, forall_exists_index, and_imp, forall_apply_eq_imp_iff₂]
      exact ⟨fun h c hc => (lower_ascii c).1 (h c hc), fun h c hc => (lower_ascii c).2 (h c hc)⟩
    rw [this, h, ← this]
  unfold tryParse
  rw [h]
  simp only [ensure, hasc]

/-- White space among ASCII characters: tab, line feed, vertical tab, form feed, carriage return, space. -/
def Blank (b : Bytes) : Prop := ∀ c ∈ b, c.toNat ∈ [9, 10, 11, 12, 13, 32]

instance (b : Bytes) : Decidable (Blank b) := by unfold Blank; infer_instance

theorem blank_iff (b : Bytes) : Blank b ↔ ∀ c ∈ b, isSpace c = true := by
  refine forall₂_congr fun c _ => ?_
  unfold isSpace
  simp only [Bool.or_eq_true, Bool.and_eq_true, decide_eq_true_eq, beq_iff_eq, List.mem_cons, List.not_mem_nil, or_false]
  omega

/-- C42: surrounding white space does not matter. -/
theorem C42_white_space (strict : Bool) (w b w' : Bytes) (h : Blank w) (h' : Blank w') :
    tryParse (w ++ b ++ w') strict = tryParse b strict := by
  rw [blank_iff] at h h'
  have hlow : ∀ {w : Bytes}, (∀ c ∈ w, isSpace c = true) → w.map lower = w := by
    intro w h
    conv_rhs => rw [← List.map_id w]
    exact List.map_congr_left (fun c hc => (isSpace_ascii c (h c hc)).2)
  have hasc : (∀ c ∈ w ++ b ++ w', c.toNat < 128) ↔ ∀ c ∈ b, c.toNat < 128 := by
    constructor
    · intro hh c hc; exact hh c (by simp [hc])
    · intro hh c hc
      simp only [List.mem_append] at hc
      rcases hc with (hc | hc) | hc
      · exact (isSpace_ascii c (h c hc)).1
      · exact hh c hc
      · exact (isSpace_ascii c (h' c hc)).1
  unfold tryParse
  rw [List.map_append, List.map_append, hlow h, hlow h', trim_spaces h h']
  simp only [ensure, hasc]

/-- C42: the name made of the parsed parts parses back to the same parts, and the parts are well-formed. -/
theorem C42_round_trip (b : Bytes) (n : Name) (hlen : b.length ≤ 32) (h : tryParse b true = .ok n) :
    tryParse (n.namespace_ ++ ascii "." ++ n.descriptor) true = .ok n ∧
    3 ≤ n.namespace_.length ∧ n.namespace_.length ≤ 30 ∧ 1 ≤ n.descriptor.length ∧ n.descriptor.length ≤ 28 ∧
    ∀ p ∈ [n.namespace_, n.descriptor], (∀ c ∈ p, (97 ≤ c.toNat ∧ c.toNat ≤ 122) ∨ c.toNat = 45) ∧
      p.head? ≠ some 45 ∧ p.getLast? ≠ some 45 := by
  have hg := tryParse_strict hlen h
  refine ⟨tryParse_combined hg true, hg.ns.lo, hg.ns.hi, hg.desc.lo, hg.desc.hi, ?_⟩
  intro p hp
  simp only [List.mem_cons, List.not_mem_nil, or_false] at hp
  rcases hp with rfl | rfl
  · exact ⟨hg.ns.chars, hg.ns.ends⟩
  · exact ⟨hg.desc.chars, hg.desc.ends⟩

example : (tryParse (ascii "\tDSNP.pUblic-key ") true).toOption = some ⟨ascii "dsnp", ascii "public-key"⟩ ∧
    (tryParse (ascii "dsnp.-x") true).isOk = false ∧ (tryParse (ascii "d s.xyz") true).isOk = false ∧
    (tryParse (ascii "dsnp") true).isOk = false ∧ (tryParse (ascii "dsnp.a.b") true).isOk = false := by
  decide +kernel

/-! ## C43 -/

/-- C43: in every reachable state, every registered schema was accepted by the validator, respects the
minimum and the hard limit, and is append-only only if itemized. -/
theorem C43_rules (cfg : Config) (s : State) (hr : Reachable cfg s) (id : SchemaId) (r : Response)
    (h : getSchemaById s id = some r) :
    cfg.validModel r.modelType r.model = true ∧ cfg.minModelBytes ≤ r.model.length ∧
    r.model.length ≤ cfg.modelLimit ∧ (.appendOnly ∈ r.settings → r.location = .itemized) := by
  have hi := hr.inv
  unfold getSchemaById at h
  split at h
  · rename_i i p h1 h2
    cases h
    obtain ⟨a, b, c, d⟩ := hi.rules id i p h1 h2
    refine ⟨a, b, c, ?_⟩
    intro hm
    apply d
    simp only [Settings.toList, List.mem_append] at hm
    rcases hm with hm | hm
    · by_contra hf; simp [hf] at hm
    · split at hm <;> simp at hm
  · cases h

/-- C43: whichever call registers a schema, its length is at most the governance maximum of that time. -/
theorem C43_governance_maximum (cfg : Config) (s : State) (hr : Reachable cfg s) (st : Step) (id : SchemaId)
    (r : Response) (h0 : getSchemaById s id = none) (h : getSchemaById (apply cfg s st) id = some r) :
    r.model.length ≤ s.maxBytes := by
  have hi := hr.inv
  have he := apply_eff cfg s hi.version st
  generalize apply cfg s st = s' at he h
  cases he with
  | none => rw [h0] at h; cases h
  | max =>
    have : getSchemaById s id = some r := h
    rw [h0] at this
    cases this
  | create hc hreg =>
    by_cases e : s.lastId + 1 = id
    · subst e
      rw [hreg.state] at h
      simp only [getSchemaById, SMap.get_insert_self] at h
      cases h
      exact hreg.max
    · rw [hreg.state] at h
      simp only [getSchemaById, SMap.get_insert_ne _ e] at h
      have : getSchemaById s id = some r := h
      rw [h0] at this
      cases this
  | name ho hp hn =>
    rw [hn.state] at h
    have : getSchemaById s id = some r := h
    rw [h0] at this
    cases this

/-- C43: only root changes the governance maximum, and never above the hard limit. -/
theorem C43_maximum_set_by_root (cfg : Config) (s : State) (hr : Reachable cfg s) (st : Step)
    (h : (apply cfg s st).maxBytes ≠ s.maxBytes) :
    ∃ n, st = .call .root (.setMaxBytes n) ∧ (apply cfg s st).maxBytes = n ∧ n ≤ cfg.modelLimit := by
  have he := apply_eff cfg s hr.inv.version st
  generalize apply cfg s st = s' at he h
  cases he with
  | none => exact absurd rfl h
  | max o n hn ho => subst ho; exact ⟨n, rfl, rfl, hn⟩
  | create hc hreg => rw [hreg.state] at h; exact absurd rfl h
  | name ho hp hn => rw [hn.state] at h; exact absurd rfl h

/-- Refused: too long, too short, not accepted, append-only outside itemized; by the wrong caller. -/
example : let s := State.init 9
    ∀ c ∈ [Call.createSchemaV2 (ascii "{\"x\":1234}") .avroBinary .onChain [],
      .createSchemaV2 (ascii "{\"x\":1}") .avroBinary .onChain [], .createSchemaV2 (ascii "[\"x\":12]") .avroBinary .onChain [],
      .createSchemaV2 (ascii "{\"x\":12}") .avroBinary .paginated [.appendOnly], .setMaxBytes 100,
      .createViaGovernance 1 (ascii "{\"x\":12}") .avroBinary .onChain []],
    (dispatch exCfg s (.signed 1) c).isOk = false := by decide +kernel

example : (apply exCfg exState (.call .root (.setMaxBytes 65500))).maxBytes = 65500 ∧
    (apply exCfg exState (.call .root (.setMaxBytes 65501))).maxBytes = 7 := by decide +kernel

/-! ## C44 -/

theorem register_many (cfg : Config) (model : Bytes) (hv : cfg.validModel .avroBinary model = true)
    (hmin : cfg.minModelBytes ≤ model.length) (hmax : model.length ≤ cfg.modelLimit) (n : Nat) (hn : n ≤ 65535) :
    let s := run cfg (.init cfg.modelLimit) (List.replicate n (.call (.signed 1) (.createSchema model .avroBinary .onChain)))
    s.lastId = n ∧ s.maxBytes = cfg.modelLimit := by
  induction n with
  | zero => exact ⟨rfl, rfl⟩
  | succ n ih =>
    have ih := ih (by omega)
    simp only at ih ⊢
    have hrun : ∀ (s : State) (l : List Step) (x : Step), run cfg s (l ++ [x]) = apply cfg (run cfg s l) x := by
      intro s l x; simp [run]
    rw [List.replicate_succ', hrun]
    generalize run cfg (.init cfg.modelLimit) (List.replicate n _) = s at ih ⊢
    obtain ⟨h1, h2⟩ := ih
    have : dispatch cfg s (.signed 1) (.createSchema model .avroBinary .onChain) = .ok
        { s with lastId := s.lastId + 1,
                 infos := s.infos.insert (s.lastId + 1) ⟨.avroBinary, .onChain, .none, false⟩,
                 payloads := s.payloads.insert (s.lastId + 1) model,
                 events := s.events ++ [.created 1 (s.lastId + 1)] } := by
      simp only [dispatch, ensureSigned, create, createSchemaFor, parseOpt, addSchema, nextId, addNameOpt, bind,
        Except.bind, ensure, pure, Except.pure, createdEvents]
      rw [if_pos ⟨hmax, by simp, by simp⟩]
      simp only
      rw [if_pos hv]
      simp only
      rw [if_pos hmin]
      simp only
      rw [if_pos (by rw [h2]; exact hmax)]
      simp only
      rw [if_pos (by simp)]
      simp only
      rw [if_pos (by omega)]
      rfl
    simp only [apply, this]
    exact ⟨by rw [h1], h2⟩

/-- C44 is false of the code, whatever limit below 65535 is configured: the limit is never looked at, and as
soon as there is one acceptable model, more schemas than the limit can be registered. -/
theorem C44_limit_not_enforced (cfg : Config) (model : Bytes) (hv : cfg.validModel .avroBinary model = true)
    (hmin : cfg.minModelBytes ≤ model.length) (hmax : model.length ≤ cfg.modelLimit)
    (hlim : cfg.maxRegistrations < 65535) :
    ∃ s, Reachable cfg s ∧ (createdIds s).length > cfg.maxRegistrations := by
  refine ⟨_, ⟨cfg.modelLimit, List.replicate (cfg.maxRegistrations + 1)
    (.call (.signed 1) (.createSchema model .avroBinary .onChain)), rfl⟩, ?_⟩
  · have h := (register_many cfg model hv hmin hmax (cfg.maxRegistrations + 1) (by omega)).1
    have hi := inv_run (List.replicate (cfg.maxRegistrations + 1)
      (.call (.signed 1) (.createSchema model .avroBinary .onChain))) (inv_init cfg cfg.modelLimit)
    rw [hi.created, List.length_range']
    omega

/-- Hypotheses met by the constants of the runtime. -/
example : exCfg.validModel .avroBinary (ascii "{\"x\":12}") = true ∧ exCfg.maxRegistrations < 65535 ∧
    exCfg.minModelBytes ≤ (ascii "{\"x\":12}").length := by decide +kernel

/-- C44, partial: at most 65535 schemas exist, and a registration in a full state fails with the count
overflow error unless an earlier check fails. Missing: the configured limit. -/
theorem C44_hard_limit_partial (cfg : Config) (s : State) (hr : Reachable cfg s) :
    (createdIds s).length ≤ 65535 ∧
    ((createdIds s).length = 65535 → ∀ model mt loc settings name,
      addSchema s model mt loc settings name = .error .schemaCountOverflow) := by
  have hi := hr.inv
  rw [hi.created, List.length_range']
  refine ⟨hi.last, ?_⟩
  intro hfull model mt loc settings name
  simp only [addSchema, nextId, bind, Except.bind, ensure]
  rw [if_neg (by omega)]

/-- The full state is reachable. -/
example : ∃ s, Reachable exCfg s ∧ (createdIds s).length = 65535 := by
  refine ⟨_, ⟨exCfg.modelLimit, List.replicate 65535 (.call (.signed 1)
    (.createSchema (ascii "{\"x\":12}") .avroBinary .onChain)), rfl⟩, ?_⟩
  have h := (register_many exCfg (ascii "{\"x\":12}") (by decide +kernel) (by decide +kernel) (by decide +kernel)
    65535 (by omega)).1
  have hi := inv_run (List.replicate 65535 (.call (.signed 1) (.createSchema (ascii "{\"x\":12}") .avroBinary .onChain)))
    (inv_init exCfg exCfg.modelLimit)
  rw [hi.created, List.length_range']
  exact h

/-! ## C45 -/

/-- C45, partial: for lists without the id 0, the check accepts exactly the lists of registered ids. Missing:
the id 0, see `C45_zero_accepted`. -/
theorem C45_ids_exist_partial (cfg : Config) (s : State) (hr : Reachable cfg s) (ids : List SchemaId) (h0 : 0 ∉ ids) :
    areAllSchemaIdsValid s ids = true ↔ ∀ id ∈ ids, (getSchemaById s id).isSome = true := by
  have hi := hr.inv
  simp only [areAllSchemaIdsValid, List.all_eq_true, decide_eq_true_eq]
  constructor
  · intro h id hid
    rw [(C39_ids_sequential cfg s hr).2, hi.created, List.mem_range'_1]
    have := h id hid
    have : id ≠ 0 := fun e => h0 (e ▸ hid)
    omega
  · intro h id hid
    have := h id hid
    rw [(C39_ids_sequential cfg s hr).2, hi.created, List.mem_range'_1] at this
    omega

example : areAllSchemaIdsValid exState [1, 3] = true ∧ areAllSchemaIdsValid exState [1, 4] = false := by decide +kernel

/-- C45 is false of the code: in every state the id 0 is accepted, though no schema ever has it. -/
theorem C45_zero_accepted (cfg : Config) (s : State) (hr : Reachable cfg s) :
    areAllSchemaIdsValid s [0] = true ∧ getSchemaById s 0 = none := by
  refine ⟨by simp [areAllSchemaIdsValid], ?_⟩
  have h := (C39_ids_sequential cfg s hr).2 0
  rw [hr.inv.created, List.mem_range'_1] at h
  cases hg : getSchemaById s 0 with
  | none => rfl
  | some r => rw [hg] at h; simp at h

end Verif.Schemas
