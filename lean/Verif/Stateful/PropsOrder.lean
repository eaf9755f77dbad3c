import Verif.Stateful.PropsEffect
/-!
# C137: storage calls to different places can come in any order
-/

namespace Verif.Stateful

/-! ## Specification -/

/-- The place a call writes to: the items of an account and schema, or one page. -/
def Step.place (x : Step) : Option Loc := (x.call.owner x.env).map (fun m => x.call.update.loc m x.call.schema)

/-- No two calls write to the same place. -/
def PlacesDiffer (h : List Step) : Prop := h.Pairwise (fun x y => ∀ l, x.place = some l → y.place ≠ some l)

/-! ## A call sees and changes its place only -/

/-- The page an update leaves, from what is read at its place. -/
def Update.leaves (cfg : Config) (r : Except Err (Option Page)) : Update → Except Err (Option Page)
  | .items h a => do
    let existing := (← r).getD .default
    ensure (h = existing.getHash cfg.hash) .stalePageState
    match applyItemActions cfg.maxItemizedPage existing a with
    | .error .errorParsing => .error .corruptedState
    | .error _ => .error .invalidItemAction
    | .ok p =>
      let p : Page := ⟨(existing.nonce + 1) % 65536, p.data⟩
      if p.isEmpty then pure none else pure (some p)
  | .upsert _ h d => do
    let existing := (← r).getD .default
    ensure (h = existing.getHash cfg.hash) .stalePageState
    pure (some ⟨(existing.nonce + 1) % 65536, d⟩)
  | .delete _ h => do
    match ← r with
    | some existing => do
      ensure (h = existing.getHash cfg.hash) .stalePageState
      pure none
    | none => pure none

theorem exec_leaves (cfg : Config) (st : Store) (m : MsaId) (s : SchemaId) (u : Update) :
    u.exec cfg st m s = (u.leaves cfg (readAt cfg st (u.loc m s))).map (put cfg st (u.loc m s)) := by
  cases u with
  | items h a =>
    simp only [Update.exec, Update.loc, Update.leaves, updateItemized, readAt]
    cases getItemizedPage cfg st m s with
    | error e => rfl
    | ok old =>
      simp only [bind, Except.bind, ensure]
      split
      · rfl
      · cases applyItemActions cfg.maxItemizedPage (old.getD .default) a with
        | error e => cases e <;> rfl
        | ok p => dsimp only; split <;> rfl
  | upsert p h d =>
    simp only [Update.exec, Update.loc, Update.leaves, updatePaginated, readAt]
    cases getPaginatedPage cfg st m s p with
    | error e => rfl
    | ok old =>
      simp only [bind, Except.bind, ensure]
      split <;> rfl
  | delete p h =>
    simp only [Update.exec, Update.loc, Update.leaves, deletePaginated, readAt]
    cases hr : getPaginatedPage cfg st m s p with
    | error e => rfl
    | ok old =>
      cases old with
      | none => exact congrArg Except.ok (erase_absent (cfg := cfg) (l := .page m s p) hr).symm
      | some q =>
        simp only [bind, Except.bind, ensure]
        split <;> rfl

/-- The checks that do not look at the storage, and the account written to. -/
def Step.checks (cfg : Config) (x : Step) : Except Err MsaId :=
  match x.call with
  | .applyItemActions owner schema _ actions => do
    ensure (actionsFit cfg actions = true) .undecodable
    let key ← okOr x.who .badOrigin
    let caller ← checkMsaAndGrants x.env key owner schema
    checkSchemaForWrite x.env schema .itemized (decide (caller = owner)) (isPruning actions)
    pure owner
  | .upsertPage owner schema pageId _ payload => do
    ensure (payload.length ≤ cfg.maxPaginatedPage) .undecodable
    let key ← okOr x.who .badOrigin
    ensure (pageId ≤ cfg.maxPageId) .pageIdExceedsMaxAllowed
    let caller ← checkMsaAndGrants x.env key owner schema
    checkSchemaForWrite x.env schema .paginated (decide (caller = owner)) false
    pure owner
  | .deletePage owner schema pageId _ => do
    let key ← okOr x.who .badOrigin
    ensure (pageId ≤ cfg.maxPageId) .pageIdExceedsMaxAllowed
    let caller ← checkMsaAndGrants x.env key owner schema
    checkSchemaForWrite x.env schema .paginated (decide (caller = owner)) true
    pure owner
  | .applyItemActionsWithSignature key proof p => do
    ensure (actionsFit cfg p.actions = true) .undecodable
    let _ ← okOr x.who .badOrigin
    checkPayloadExpiration cfg x.env.block p.expiration
    checkSignature cfg proof key p.encode
    let owner ← ownerOf x.env key p.msaId
    checkSchemaForWrite x.env p.schemaId .itemized true (isPruning p.actions)
    pure owner
  | .upsertPageWithSignature key proof p => do
    ensure (p.payload.length ≤ cfg.maxPaginatedPage) .undecodable
    let _ ← okOr x.who .badOrigin
    ensure (p.pageId ≤ cfg.maxPageId) .pageIdExceedsMaxAllowed
    checkPayloadExpiration cfg x.env.block p.expiration
    checkSignature cfg proof key p.encode
    let owner ← ownerOf x.env key p.msaId
    checkSchemaForWrite x.env p.schemaId .paginated true false
    pure owner
  | .deletePageWithSignature key proof p => do
    let _ ← okOr x.who .badOrigin
    ensure (p.pageId ≤ cfg.maxPageId) .pageIdExceedsMaxAllowed
    checkPayloadExpiration cfg x.env.block p.expiration
    checkSignature cfg proof key p.encode
    let owner ← ownerOf x.env key p.msaId
    checkSchemaForWrite x.env p.schemaId .paginated true true
    pure owner

theorem dispatch_checks (cfg : Config) (st : Store) (x : Step) :
    dispatch cfg x.env st x.who x.call =
      x.checks cfg >>= fun m => x.call.update.exec cfg st m x.call.schema := by
  obtain ⟨env, who, call⟩ := x
  cases call <;>
    simp only [dispatch, Step.checks, Call.update, Call.schema, Update.exec, bind_assoc, pure_bind]

theorem checks_place {cfg : Config} {x : Step} {m : MsaId} (h : x.checks cfg = .ok m) :
    x.place = some (x.call.update.loc m x.call.schema) := by
  obtain ⟨env, who, call⟩ := x
  unfold Step.place
  suffices call.owner env = some m by
    show (call.owner env).map _ = _
    rw [this]; rfl
  cases call with
  | applyItemActions | upsertPage | deletePage =>
    simp only [Step.checks, bind_eq_ok_iff, pure_eq_ok_iff] at h
    simp only [Call.owner]
    grind
  | applyItemActionsWithSignature =>
    simp only [Step.checks, bind_eq_ok_iff, pure_eq_ok_iff] at h
    obtain ⟨_, _, _, _, _, _, _, _, o, ho, _, _, rfl⟩ := h
    exact (ownerOf_ok ho).1
  | upsertPageWithSignature =>
    simp only [Step.checks, bind_eq_ok_iff, pure_eq_ok_iff] at h
    obtain ⟨_, _, _, _, _, _, _, _, _, _, o, ho, _, _, rfl⟩ := h
    exact (ownerOf_ok ho).1
  | deletePageWithSignature =>
    simp only [Step.checks, bind_eq_ok_iff, pure_eq_ok_iff] at h
    obtain ⟨_, _, _, _, _, _, _, _, o, ho, _, _, rfl⟩ := h
    exact (ownerOf_ok ho).1

/-- A call without a place fails, whatever is stored; otherwise what it does depends on what is read at its place. -/
theorem dispatch_local (cfg : Config) (x : Step) :
    (∃ e, ∀ st, dispatch cfg x.env st x.who x.call = .error e) ∨
    ∃ (l : Loc) (f : Except Err (Option Page) → Except Err (Option Page)), x.place = some l ∧
      ∀ st, dispatch cfg x.env st x.who x.call = (f (readAt cfg st l)).map (put cfg st l) := by
  cases h : x.checks cfg with
  | error e =>
    left
    exact ⟨e, fun st => by rw [dispatch_checks, h]; rfl⟩
  | ok m =>
    right
    refine ⟨_, fun r => x.call.update.leaves cfg r, checks_place h, fun st => ?_⟩
    rw [dispatch_checks, h]
    exact exec_leaves ..

/-- What an error or its absence tells. -/
theorem errOf_map {α β : Type} (f : α → β) (r : Except Err α) : errOf (r.map f) = errOf r := by cases r <;> rfl

/-- Other places are not changed. -/
theorem apply_elsewhere {cfg : Config} (hc : HashOk cfg) (st : Store) {x : Step} (hx : StepOk cfg x) {l : Loc}
    (hl : l.InRange cfg) (hne : x.place ≠ some l) : readAt cfg (apply cfg st x) l = readAt cfg st l := by
  unfold apply
  rcases dispatch_local cfg x with ⟨e, he⟩ | ⟨k, f, hp, hf⟩
  · rw [he]
  · rw [hf]
    cases f (readAt cfg st k) with
    | error => rfl
    | ok v =>
      have hk : k.InRange cfg := by
        unfold Step.place at hp
        obtain ⟨m, hm, rfl⟩ := Option.map_eq_some_iff.1 hp
        exact hx m hm
      exact readAt_put_ne hc st v hk hl (fun e => hne (by rw [hp, e]))

theorem run_elsewhere {cfg : Config} (hc : HashOk cfg) {l : Loc} (hl : l.InRange cfg) (h : List Step)
    (hx : ∀ x ∈ h, StepOk cfg x) (hne : ∀ x ∈ h, x.place ≠ some l) (st : Store) :
    readAt cfg (run cfg st h) l = readAt cfg st l := by
  induction h generalizing st with
  | nil => rfl
  | cons x h ih =>
    show readAt cfg (run cfg (apply cfg st x) h) l = _
    rw [ih (fun y hy => hx y (.tail _ hy)) (fun y hy => hne y (.tail _ hy)),
      apply_elsewhere hc st (hx x (.head _)) hl (hne x (.head _))]

/-- What is read at the place of a call afterwards depends on what was read there before. -/
theorem apply_here {cfg : Config} {st st' : Store} {x : Step} {l : Loc} (hp : x.place = some l)
    (h : readAt cfg st l = readAt cfg st' l) : readAt cfg (apply cfg st x) l = readAt cfg (apply cfg st' x) l := by
  unfold apply
  rcases dispatch_local cfg x with ⟨e, he⟩ | ⟨k, f, hk, hf⟩
  · rw [he, he]; exact h
  · obtain rfl : k = l := by rw [hk] at hp; exact Option.some.inj hp
    rw [hf, hf, h]
    cases f (readAt cfg st' k) with
    | error => exact h
    | ok v =>
      show readAt cfg (put cfg st k v) k = readAt cfg (put cfg st' k v) k
      rw [readAt_eq, readAt_eq, get_put, get_put, if_pos rfl, if_pos rfl]

theorem PlacesDiffer.perm {h h' : List Step} (ha : PlacesDiffer h) (hp : h.Perm h') : PlacesDiffer h' :=
  hp.pairwise ha (fun h l e e' => h l e' e)

theorem PlacesDiffer.split {a b : List Step} {x : Step} (ha : PlacesDiffer (a ++ x :: b)) {l : Loc} (hl : x.place = some l) :
    (∀ y ∈ a, y.place ≠ some l) ∧ ∀ y ∈ b, y.place ≠ some l := by
  unfold PlacesDiffer at ha
  rw [List.pairwise_append] at ha
  obtain ⟨_, h2, h3⟩ := ha
  exact ⟨fun y hy e => h3 y hy x (.head _) l e hl, fun y hy => (List.pairwise_cons.1 h2).1 y hy l hl⟩

/-- The outcome of a call is that on the store before all of them. -/
theorem outcome_first {cfg : Config} (hc : HashOk cfg) {a b : List Step} {x : Step} (ha : PlacesDiffer (a ++ x :: b))
    (hok : ∀ y ∈ a ++ x :: b, StepOk cfg y) (st : Store) :
    errOf (dispatch cfg x.env (run cfg st a) x.who x.call) = errOf (dispatch cfg x.env st x.who x.call) := by
  rcases dispatch_local cfg x with ⟨e, he⟩ | ⟨l, f, hp, hf⟩
  · rw [he, he]
  · have hl : l.InRange cfg := by
      unfold Step.place at hp
      obtain ⟨m, hm, rfl⟩ := Option.map_eq_some_iff.1 hp
      exact hok x (by simp) m hm
    rw [hf, hf, errOf_map, errOf_map,
      run_elsewhere hc hl a (fun y hy => hok y (by simp [hy])) (ha.split hp).1]

/-- What is read afterwards at the place of one of the calls. -/
theorem read_one {cfg : Config} (hc : HashOk cfg) {a b : List Step} {x : Step} {l : Loc} (ha : PlacesDiffer (a ++ x :: b))
    (hok : ∀ y ∈ a ++ x :: b, StepOk cfg y) (hl : l.InRange cfg) (hp : x.place = some l) (st : Store) :
    readAt cfg (run cfg st (a ++ x :: b)) l = readAt cfg (apply cfg st x) l := by
  have e : run cfg st (a ++ x :: b) = run cfg (apply cfg (run cfg st a) x) b := by simp [run]
  rw [e, run_elsewhere hc hl b (fun y hy => hok y (by simp [hy])) (ha.split hp).2]
  exact apply_here hp (run_elsewhere hc hl a (fun y hy => hok y (by simp [hy])) (ha.split hp).1 st)

/-! ## C137 -/

/-- C137, outcomes: in whatever order calls come that write to different places, each of them succeeds in the one
order if it does in the other, and otherwise fails with the same error. -/
theorem C137_outcomes (cfg : Config) (hc : HashOk cfg) (st : Store) (h h' : List Step) (hp : h.Perm h') (ha : PlacesDiffer h)
    (hok : ∀ x ∈ h, StepOk cfg x) (a b a' b' : List Step) (x : Step) (e : h = a ++ x :: b) (e' : h' = a' ++ x :: b') :
    errOf (dispatch cfg x.env (run cfg st a) x.who x.call) = errOf (dispatch cfg x.env (run cfg st a') x.who x.call) := by
  have ha' := ha.perm hp
  have hok' : ∀ y ∈ h', StepOk cfg y := fun y hy => hok y (hp.mem_iff.2 hy)
  subst e e'
  rw [outcome_first hc ha hok, outcome_first hc ha' hok']

/-- C137, contents: and the same is read at every place afterwards. -/
theorem C137_contents (cfg : Config) (hc : HashOk cfg) (st : Store) (h h' : List Step) (hp : h.Perm h') (ha : PlacesDiffer h)
    (hok : ∀ x ∈ h, StepOk cfg x) (l : Loc) (hl : l.InRange cfg) :
    readAt cfg (run cfg st h) l = readAt cfg (run cfg st h') l := by
  have ha' := ha.perm hp
  have hok' : ∀ y ∈ h', StepOk cfg y := fun y hy => hok y (hp.mem_iff.2 hy)
  by_cases hx : ∃ x ∈ h, x.place = some l
  · obtain ⟨x, hm, hpl⟩ := hx
    obtain ⟨a, b, rfl⟩ := List.append_of_mem hm
    obtain ⟨a', b', rfl⟩ := List.append_of_mem (hp.mem_iff.1 hm)
    rw [read_one hc ha hok hl hpl, read_one hc ha' hok' hl hpl]
  · have hn : ∀ x ∈ h, x.place ≠ some l := fun x hm e => hx ⟨x, hm, e⟩
    rw [run_elsewhere hc hl h hok hn, run_elsewhere hc hl h' hok' (fun x hm => hn x (hp.mem_iff.2 hm))]

/-! ## A concrete case -/

/-- Three calls to different places: items added, a page written, a page deleted (with a stale hash). -/
def exCalls : List Step :=
  [⟨exEnv, some 22, .applyItemActions 1 1 (hashOf exCfg (some ⟨1, encodeItems [[5, 6], [7]]⟩)) [.add [3]]⟩,
   ⟨exEnv, some 11, .upsertPage 1 2 0 0 [2]⟩,
   ⟨exEnv, some 11, .deletePage 1 2 3 7⟩]

theorem exCalls_ok : ∀ x ∈ exCalls, StepOk exCfg x := by
  intro x hx owner ho
  simp only [exCalls, List.mem_cons, List.not_mem_nil, or_false] at hx
  rcases hx with rfl | rfl | rfl <;> · simp only [Call.owner, Option.some.injEq] at ho; subst ho; decide

theorem exCalls_apart : PlacesDiffer exCalls := by
  simp only [PlacesDiffer, exCalls, List.pairwise_cons, Step.place, Call.owner, Option.map_some, Call.update, Update.loc,
    Call.schema]
  simp

/-- The first two succeed, the third is refused, also in the opposite order. -/
example : readAt exCfg (run exCfg exStore exCalls.reverse) (.page 1 2 0) =
      readAt exCfg (run exCfg exStore exCalls) (.page 1 2 0) ∧
    readAt exCfg (run exCfg exStore exCalls) (.page 1 2 0) = .ok (some ⟨1, [2]⟩) ∧
    itemsAt exCfg (run exCfg exStore exCalls) 1 1 = [[5, 6], [7], [3]] ∧
    itemsAt exCfg (run exCfg exStore exCalls.reverse) 1 1 = [[5, 6], [7], [3]] ∧
    readAt exCfg (run exCfg exStore exCalls) (.page 1 2 3) = .ok (some ⟨1, [1]⟩) :=
  ⟨(C137_contents exCfg exCfg_ok.toHashOk exStore exCalls _ (List.reverse_perm _).symm exCalls_apart exCalls_ok _
    (by decide)).symm, by decide, by decide, by decide, by decide⟩

/-- For calls to the same place the order matters: only the first of two writes succeeds. -/
example :
    let x : Step := ⟨exEnv, some 11, .upsertPage 1 2 0 0 [2]⟩
    let y : Step := ⟨exEnv, some 11, .upsertPage 1 2 0 0 [4]⟩
    readAt exCfg (run exCfg exStore [x, y]) (.page 1 2 0) = .ok (some ⟨1, [2]⟩) ∧
    readAt exCfg (run exCfg exStore [y, x]) (.page 1 2 0) = .ok (some ⟨1, [4]⟩) := by decide

end Verif.Stateful
