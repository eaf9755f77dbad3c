import Verif.Stateful.Invariant
/-!
# Properties of the stateful-storage pallet
-/

namespace Verif.Stateful

/-! ## Specification -/

/-- The hash a client sees for what is stored at a place: zero when there is nothing. -/
def hashOf (cfg : Config) : Option Page → Nat
  | none => 0
  | some p => if p.data = [] then 0 else cfg.hash (Scale.u16 p.nonce ++ p.data)

/-- The items stored for an account under a schema, as a list. -/
def itemsAt (cfg : Config) (st : Store) (m : MsaId) (s : SchemaId) : List Bytes :=
  match readAt cfg st (.items m s) with
  | .ok (some p) =>
    match tryParse p false with
    | .ok l => l.map Prod.snd
    | .error _ => []
  | _ => []

/-- The call is submitted by a key of account `m`. -/
def SubmittedBy (x : Step) (m : MsaId) : Prop := ∃ key, x.who = some key ∧ x.env.msaOf key = some m

/-- The call is submitted by a key of a provider that holds a grant of `m` for `s` now. -/
def SubmittedByProvider (x : Step) (m : MsaId) (s : SchemaId) : Prop :=
  ∃ key provider, x.who = some key ∧ x.env.msaOf key = some provider ∧
    x.env.granted provider m s = true

/-- The call carries an unexpired valid signature over its payload by a key of account `m`. -/
def SignedFor (cfg : Config) (x : Step) (m : MsaId) : Prop :=
  ∃ key sig e, x.env.msaOf key = some m ∧ x.env.block < e ∧ e < x.env.block + cfg.window ∧
    ((∃ p, x.call = .applyItemActionsWithSignature key sig p ∧ p.expiration = e ∧
        cfg.verify sig key (wrap p.encode) = true) ∨
     (∃ p, x.call = .upsertPageWithSignature key sig p ∧ p.expiration = e ∧
        cfg.verify sig key (wrap p.encode) = true) ∨
     (∃ p, x.call = .deletePageWithSignature key sig p ∧ p.expiration = e ∧
        cfg.verify sig key (wrap p.encode) = true))

/-- The page hash has no collisions and never is zero. -/
structure IdealHash (cfg : Config) : Prop where
  inj : ∀ a b, cfg.hash a = cfg.hash b → a = b
  pos : ∀ a, cfg.hash a ≠ 0

/-- The error of a result. -/
def errOf {α : Type} : Except Err α → Option Err
  | .error e => some e
  | .ok _ => none

/-! ## Concrete configuration for the examples -/

/-- Pad or cut to `n` bytes. -/
def pad (n : Nat) (b : Bytes) : Bytes := (b ++ List.replicate n 0).take n

/-- A small configuration with toy hash functions. -/
def exCfg : Config where
  maxItemizedPage := 40
  maxBlob := 8
  maxActions := 5
  maxPaginatedPage := 8
  maxPageId := 3
  window := 100
  hash b := b.foldl (fun a x => a * 257 + x.toNat + 1) 0 + 1
  keyHasher := pad 16
  blake := pad 16
  twox64 := pad 8
  verify sig key _ := sig == key
  accounts := 2 ^ 64

theorem length_pad (n : Nat) (b : Bytes) : (pad n b).length = n := by
  simp [pad]

theorem pad_inj {n k : Nat} {a b : Bytes} (ha : a.length = k) (hb : b.length = k) (hk : k ≤ n)
    (h : pad n a = pad n b) : a = b := by
  have h1 : (pad n a).take k = (pad n b).take k := by rw [h]
  simp only [pad, List.take_take, Nat.min_eq_left hk] at h1
  rw [List.take_append_of_le_length (by omega), List.take_append_of_le_length (by omega),
    List.take_of_length_le (by omega), List.take_of_length_le (by omega)] at h1
  exact h1

theorem treePrefix_inj {m m' : Nat} (hm : m < 2 ^ 64) (hm' : m' < 2 ^ 64)
    (h : treePrefix m = treePrefix m') : m = m' := by
  have := List.append_inj_left' h rfl
  exact Scale.leBytes_inj (by omega) (by omega) this

theorem exCfg_ok : CfgOk exCfg where
  keyLen := length_pad 16
  blakeLen := length_pad 16
  twoxLen := length_pad 8
  blakeInj m m' hm hm' h := treePrefix_inj hm hm'
    (pad_inj (k := 10) (by simp [treePrefix, Scale.u64, Scale.length_leBytes])
      (by simp [treePrefix, Scale.u64, Scale.length_leBytes]) (by omega) h)
  kinds := by decide
  itemizedSmall := by decide
  paginatedSmall := by decide
  pageIdSmall := by decide

/-- Account 1 has key 11, provider 2 has key 22 and a grant for all schemas; schema 1 is itemized, 2
paginated, 3 itemized and append-only, 4 paginated and needs signatures. -/
def exEnv : Env where
  block := 10
  msaOf k := if k = 11 then some 1 else if k = 22 then some 2 else none
  granted p m _ := p == 2 && m == 1
  schema s :=
    if s = 1 then some ⟨.itemized, []⟩
    else if s = 2 then some ⟨.paginated, []⟩
    else if s = 3 then some ⟨.itemized, [.appendOnly]⟩
    else if s = 4 then some ⟨.paginated, [.signatureRequired]⟩
    else none

theorem exEnv_msaOf {k o} (h : exEnv.msaOf k = some o) : o = 1 ∨ o = 2 := by
  simp only [exEnv] at h
  split at h
  · simp_all
  · split at h <;> simp_all

/-- The provider adds items, the owner signs a page, the provider deletes an item. -/
def exHist : List Step :=
  [⟨exEnv, some 22, .applyItemActions 1 1 0 [.add [5, 6], .add [7]]⟩,
   ⟨exEnv, some 22, .upsertPageWithSignature 11 11 ⟨none, 4, 1, 0, 50, [8, 9]⟩⟩,
   ⟨exEnv, some 11, .upsertPage 1 2 3 0 [1]⟩,
   ⟨exEnv, some 22, .applyItemActions 1 3 0 [.add [1]]⟩]

instance (cfg : Config) : DecidablePred (Loc.InRange cfg) := fun l =>
  match l with
  | .items m s => inferInstanceAs (Decidable (m < cfg.accounts ∧ s < 2 ^ 16))
  | .page m s p => inferInstanceAs (Decidable (m < cfg.accounts ∧ s < 2 ^ 16 ∧ p < 2 ^ 16))

theorem exHist_ok : ∀ x ∈ exHist, StepOk exCfg x := by
  intro x hx o ho
  simp only [exHist, List.mem_cons, List.not_mem_nil, or_false] at hx
  rcases hx with rfl | rfl | rfl | rfl
  · simp only [Call.owner, Option.some.injEq] at ho
    subst ho; decide
  · simp only [Call.owner] at ho
    rcases exEnv_msaOf ho with rfl | rfl <;> decide
  · simp only [Call.owner, Option.some.injEq] at ho
    subst ho; decide
  · simp only [Call.owner, Option.some.injEq] at ho
    subst ho; decide

/-- The state after this history. -/
def exStore : Store := run exCfg ∅ exHist

theorem exStore_reachable : Reachable exCfg exStore := ⟨exHist, exHist_ok, rfl⟩

/-- All four calls took effect. -/
example : itemsAt exCfg exStore 1 1 = [[5, 6], [7]] ∧ itemsAt exCfg exStore 1 3 = [[1]] ∧
    readAt exCfg exStore (.page 1 4 1) = .ok (some ⟨1, [8, 9]⟩) ∧
    readAt exCfg exStore (.page 1 2 3) = .ok (some ⟨1, [1]⟩) := by decide

/-! ## C21: optimistic concurrency -/

theorem getHash_getD (cfg : Config) (v : Option Page) :
    (v.getD .default).getHash cfg.hash = hashOf cfg v := by
  cases v with
  | none => rfl
  | some p =>
    simp only [Option.getD_some, Page.getHash, hashOf, Page.isEmpty, List.isEmpty_iff]

/-- C21, full statement: an update of any kind whose target hash is not the hash of what is stored reports
a stale state. -/
def C21_full : Prop :=
  ∀ (cfg : Config) (st : Store) (m : MsaId) (s : SchemaId) (old : Option Page) (h : Nat),
    (readAt cfg st (.items m s) = .ok old → h ≠ hashOf cfg old → ∀ actions,
      updateItemized cfg st m s h actions = .error .stalePageState) ∧
    (∀ p, readAt cfg st (.page m s p) = .ok old → h ≠ hashOf cfg old → ∀ payload,
      updatePaginated cfg st m s p h payload = .error .stalePageState) ∧
    (∀ p, readAt cfg st (.page m s p) = .ok old → h ≠ hashOf cfg old →
      deletePaginated cfg st m s p h = .error .stalePageState)

/-- C21. Missing: the deletion of a page that does not exist, which succeeds for every hash. -/
theorem C21_stale_update_reported_partial (cfg : Config) (st : Store) (m : MsaId) (s : SchemaId)
    (old : Option Page) (h : Nat) :
    (readAt cfg st (.items m s) = .ok old → h ≠ hashOf cfg old → ∀ actions,
      updateItemized cfg st m s h actions = .error .stalePageState) ∧
    (∀ p, readAt cfg st (.page m s p) = .ok old → h ≠ hashOf cfg old → ∀ payload,
      updatePaginated cfg st m s p h payload = .error .stalePageState) ∧
    (∀ p, readAt cfg st (.page m s p) = .ok old → old ≠ none → h ≠ hashOf cfg old →
      deletePaginated cfg st m s p h = .error .stalePageState) := by
  refine ⟨fun hr hh actions => ?_, fun p hr hh payload => ?_, fun p hr hn hh => ?_⟩
  · rw [← getHash_getD] at hh
    simp only [readAt] at hr
    simp only [updateItemized, bind_eq_error_iff, hr, Except.ok.injEq, exists_eq_left', reduceCtorEq,
      false_or, ensure_eq_error_iff]
    exact .inl ⟨hh, trivial⟩
  · rw [← getHash_getD] at hh
    simp only [readAt] at hr
    simp only [updatePaginated, bind_eq_error_iff, hr, Except.ok.injEq, exists_eq_left', reduceCtorEq,
      false_or, ensure_eq_error_iff]
    exact .inl ⟨hh, trivial⟩
  · rw [← getHash_getD] at hh
    simp only [readAt] at hr
    cases old with
    | none => exact absurd rfl hn
    | some q =>
      simp only [deletePaginated, bind_eq_error_iff, hr, Except.ok.injEq, exists_eq_left', reduceCtorEq,
        false_or, ensure_eq_error_iff]
      exact .inl ⟨hh, trivial⟩

/-- C21 is false of the code: deleting a page that does not exist succeeds whatever the hash. -/
theorem C21_full_false : ¬ C21_full := by
  intro hf
  have := (hf exCfg ∅ 1 2 none 7).2.2 3 (by decide) (by decide)
  exact absurd (congrArg errOf this) (by decide)

/-- C21, the second half in full: a call whose target hash is not the hash of what is stored at its
location leaves the whole store as it was; it fails, unless it deletes a page that does not exist. -/
theorem C21_stale_call_no_effect (cfg : Config) (st : Store) (x : Step) (owner : MsaId)
    (old : Option Page) (ho : x.call.owner x.env = some owner)
    (hr : readAt cfg st (x.call.update.loc owner x.call.schema) = .ok old)
    (hh : x.call.update.targetHash ≠ hashOf cfg old) :
    apply cfg st x = st ∧
    ((∃ e, dispatch cfg x.env st x.who x.call = .error e) ∨
      (old = none ∧ ∃ p h, x.call.update = .delete p h)) := by
  unfold apply
  cases hd : dispatch cfg x.env st x.who x.call with
  | error e => exact ⟨rfl, .inl ⟨e, rfl⟩⟩
  | ok st' =>
    obtain ⟨o, ha⟩ := dispatch_accepted hd
    have : o = owner := by have := ha.howner.symm.trans ho; simpa using this
    subst this
    obtain ⟨old', new, h1, h2, h3⟩ := exec_ok ha.exec
    have : old' = old := by have := h1.symm.trans hr; simpa using this
    subst this
    generalize hu : x.call.update = u at *
    rw [← getHash_getD] at hh
    cases h2 with
    | items e => exact absurd e hh
    | cleared e => exact absurd e hh
    | upsert e => exact absurd e hh
    | delete e1 e2 => subst e1; exact absurd e2 hh
    | @absent p h e =>
      subst e
      refine ⟨?_, .inr ⟨rfl, p, h, rfl⟩⟩
      simp only
      rw [h3]
      exact erase_absent h1

/-- Hypotheses met: a write with the hash of an earlier state. -/
example : errOf (dispatch exCfg exEnv exStore (some 11) (.upsertPage 1 2 3 0 [2])) =
      some .stalePageState ∧
    errOf (dispatch exCfg exEnv exStore (some 11) (.deletePage 1 2 3 7)) =
      some .stalePageState ∧
    errOf (dispatch exCfg exEnv exStore (some 22) (.applyItemActions 1 1 0 [.delete 0])) =
      some .stalePageState := by decide

/-! ## C25: isolation -/

/-- C25: a call changes at most what is read at its own location: everything at any other account,
schema, page or storage kind stays the same. -/
theorem C25_other_locations_unchanged (cfg : Config) (hc : CfgOk cfg) (st : Store)
    (hst : Reachable cfg st) (x : Step) (hx : StepOk cfg x) (l : Loc) (hl : l.InRange cfg)
    (hne : ∀ owner, x.call.owner x.env = some owner → x.call.update.loc owner x.call.schema ≠ l) :
    readAt cfg (apply cfg st x) l = readAt cfg st l := by
  rcases readAt_apply hc (hst.storeOk hc) hx hl with h | ⟨o, _, _, ha, he, _⟩
  · exact h
  · exact absurd he.symm (hne o ha.howner)

/-- The location of each call, spelled out: the account named (or that of the signing key), the schema
named, the page named, and the storage kind of the call. -/
theorem C25_locations (k : AccountId) (sig : Signature) (m : MsaId) (s : SchemaId) (h p : Nat)
    (a : List ItemAction) (d : Bytes) (q1 : ItemizedPayload) (q2 : UpsertPayload) (q3 : DeletePayload) :
    (Call.applyItemActions m s h a).update.loc m s = .items m s ∧
    (Call.upsertPage m s p h d).update.loc m s = .page m s p ∧
    (Call.deletePage m s p h).update.loc m s = .page m s p ∧
    (Call.applyItemActionsWithSignature k sig q1).update.loc m q1.schemaId = .items m q1.schemaId ∧
    (Call.upsertPageWithSignature k sig q2).update.loc m q2.schemaId = .page m q2.schemaId q2.pageId ∧
    (Call.deletePageWithSignature k sig q3).update.loc m q3.schemaId = .page m q3.schemaId q3.pageId :=
  ⟨rfl, rfl, rfl, rfl, rfl, rfl⟩

/-- Hypotheses met, and the call changes something elsewhere. -/
example :
    let x : Step := ⟨exEnv, some 11, .deletePage 1 2 3 (hashOf exCfg (some ⟨1, [1]⟩))⟩
    readAt exCfg (apply exCfg exStore x) (.page 1 2 3) = .ok none ∧
    readAt exCfg (apply exCfg exStore x) (.page 1 4 1) = .ok (some ⟨1, [8, 9]⟩) ∧
    readAt exCfg (apply exCfg exStore x) (.items 1 1) = readAt exCfg exStore (.items 1 1) := by decide

/-! ## C23, C24: authority -/

theorem signedFor_of {cfg : Config} {x : Step} {owner : MsaId} {k sig bytes e}
    (hs : x.call.signature = some (k, sig, bytes, e))
    (h : x.env.msaOf k = some owner ∧ cfg.verify sig k (wrap bytes) = true ∧
      x.env.block < e ∧ e < x.env.block + cfg.window) : SignedFor cfg x owner := by
  obtain ⟨h1, h2, h3, h4⟩ := h
  obtain ⟨env, who, call⟩ := x
  cases call <;> simp only [Call.signature, Option.some.injEq, Prod.mk.injEq, reduceCtorEq] at hs
  · obtain ⟨rfl, rfl, rfl, rfl⟩ := hs
    exact ⟨_, _, _, h1, h3, h4, .inl ⟨_, rfl, rfl, h2⟩⟩
  · obtain ⟨rfl, rfl, rfl, rfl⟩ := hs
    exact ⟨_, _, _, h1, h3, h4, .inr (.inl ⟨_, rfl, rfl, h2⟩)⟩
  · obtain ⟨rfl, rfl, rfl, rfl⟩ := hs
    exact ⟨_, _, _, h1, h3, h4, .inr (.inr ⟨_, rfl, rfl, h2⟩)⟩

theorem loc_msa_schema (u : Update) (m : MsaId) (s : SchemaId) :
    (u.loc m s).msa = m ∧ (u.loc m s).schema = s := by
  cases u <;> exact ⟨rfl, rfl⟩

/-- C24: whatever is read at a location changes only by a call that a key of the account submits, that
a key of a provider with a current grant for the schema submits, or that carries a valid unexpired
signature by a key of the account. -/
theorem C24_change_needs_authority (cfg : Config) (hc : CfgOk cfg) (st : Store)
    (hst : Reachable cfg st) (x : Step) (hx : StepOk cfg x) (l : Loc) (hl : l.InRange cfg)
    (hch : readAt cfg (apply cfg st x) l ≠ readAt cfg st l) :
    SubmittedBy x l.msa ∨ SubmittedByProvider x l.msa l.schema ∨ SignedFor cfg x l.msa := by
  rcases readAt_apply hc (hst.storeOk hc) hx hl with h | ⟨o, _, _, ha, rfl, _⟩
  · exact absurd h hch
  · rw [(loc_msa_schema _ _ _).1, (loc_msa_schema _ _ _).2]
    cases hsig : x.call.signature with
    | none =>
      obtain ⟨key, caller, h1, h2, h3⟩ := ha.direct hsig
      by_cases e : caller = o
      · subst e; exact .inl ⟨key, h1, h2⟩
      · exact .inr (.inl ⟨key, caller, h1, h2, h3 e⟩)
    | some q =>
      obtain ⟨k, sig, bytes, e⟩ := q
      exact .inr (.inr (signedFor_of hsig (ha.signed k sig bytes e hsig)))

/-- C23: under a schema that requires signatures, a grant is not enough. -/
theorem C23_signature_required (cfg : Config) (hc : CfgOk cfg) (st : Store)
    (hst : Reachable cfg st) (x : Step) (hx : StepOk cfg x) (l : Loc) (hl : l.InRange cfg)
    (hreq : ∀ info, x.env.schema l.schema = some info → .signatureRequired ∈ info.settings)
    (hch : readAt cfg (apply cfg st x) l ≠ readAt cfg st l) :
    SubmittedBy x l.msa ∨ SignedFor cfg x l.msa := by
  rcases readAt_apply hc (hst.storeOk hc) hx hl with h | ⟨o, _, _, ha, rfl, _⟩
  · exact absurd h hch
  · rw [(loc_msa_schema _ _ _).1]
    rw [(loc_msa_schema _ _ _).2] at hreq
    cases hsig : x.call.signature with
    | none =>
      obtain ⟨info, i1, _, _, i4⟩ := ha.info
      exact .inl (i4 (hreq info i1) hsig)
    | some q =>
      obtain ⟨k, sig, bytes, e⟩ := q
      exact .inr (signedFor_of hsig (ha.signed k sig bytes e hsig))

/-- Hypotheses met: each of the three kinds of authority changes something; the provider is refused
under schema 4, and a stranger everywhere. -/
example :
    readAt exCfg (apply exCfg exStore ⟨exEnv, some 22, .upsertPage 1 2 0 0 [2]⟩) (.page 1 2 0) =
      .ok (some ⟨1, [2]⟩) ∧
    readAt exCfg (apply exCfg exStore ⟨exEnv, some 11, .upsertPage 1 4 0 0 [2]⟩) (.page 1 4 0) =
      .ok (some ⟨1, [2]⟩) ∧
    readAt exCfg (apply exCfg exStore ⟨exEnv, some 99, .upsertPageWithSignature 11 11
      ⟨some 1, 4, 0, 0, 50, [2]⟩⟩) (.page 1 4 0) = .ok (some ⟨1, [2]⟩) ∧
    errOf (dispatch exCfg exEnv exStore (some 22) (.upsertPage 1 4 0 0 [2])) =
      some .unsupportedOperationForSchema ∧
    errOf (dispatch exCfg exEnv exStore (some 99) (.upsertPage 1 2 0 0 [2])) =
      some .invalidMessageSourceAccount := by decide

/-! ## C29: mortality -/

/-- C29: a call that carries a signature for a payload with expiration `e` is accepted at block `n` only
when `n < e < n + window`. -/
theorem C29_accepted_in_window (cfg : Config) (env : Env) (st st' : Store) (who : Option AccountId)
    (k : AccountId) (sig : Signature) (q1 : ItemizedPayload) (q2 : UpsertPayload) (q3 : DeletePayload) :
    (dispatch cfg env st who (.applyItemActionsWithSignature k sig q1) = .ok st' →
      env.block < q1.expiration ∧ q1.expiration < env.block + cfg.window) ∧
    (dispatch cfg env st who (.upsertPageWithSignature k sig q2) = .ok st' →
      env.block < q2.expiration ∧ q2.expiration < env.block + cfg.window) ∧
    (dispatch cfg env st who (.deletePageWithSignature k sig q3) = .ok st' →
      env.block < q3.expiration ∧ q3.expiration < env.block + cfg.window) := by
  refine ⟨fun h => ?_, fun h => ?_, fun h => ?_⟩ <;>
  · obtain ⟨o, ha⟩ := dispatch_accepted h
    exact (ha.signed _ _ _ _ rfl).2.2

/-- C29: inside the window the expiration is no reason to refuse: whether a signed payload is accepted
does not depend on the block, apart from the window (and the other pallets). -/
theorem C29_window_exact (cfg : Config) (env : Env) (b : BlockNumber) (st : Store)
    (who : Option AccountId) (k : AccountId) (sig : Signature) (q : UpsertPayload)
    (h1 : env.block < q.expiration) (h2 : q.expiration < env.block + cfg.window)
    (h3 : b < q.expiration) (h4 : q.expiration < b + cfg.window) :
    dispatch cfg env st who (.upsertPageWithSignature k sig q) =
      dispatch cfg { env with block := b } st who (.upsertPageWithSignature k sig q) := by
  have e1 : checkPayloadExpiration cfg env.block q.expiration = .ok () := by
    simp [checkPayloadExpiration, bind_eq_ok_iff, ensure_eq_ok_iff, h1, h2]
  have e2 : checkPayloadExpiration cfg b q.expiration = .ok () := by
    simp [checkPayloadExpiration, bind_eq_ok_iff, ensure_eq_ok_iff, h3, h4]
  simp only [dispatch, e1, e2]
  rfl

/-- Both boundaries: block 10, window 100. -/
example :
    let d (e : Nat) := dispatch exCfg exEnv exStore (some 99)
      (.upsertPageWithSignature 11 11 ⟨none, 4, 0, 0, e, [2]⟩)
    errOf (d 10) = some .proofHasExpired ∧ (d 11).isOk = true ∧ (d 109).isOk = true ∧
      errOf (d 110) = some .proofNotYetValid := by decide

/-! ## C27, C71: limits, no corrupted state -/

/-- C27: whatever is stored, in every reachable state, is a page within the limits of its kind: its size
is at most the maximum of the kind, the id of a paginated page is at most the maximum. -/
theorem C27_limits (cfg : Config) (hc : CfgOk cfg) (st : Store) (hst : Reachable cfg st)
    (m : MsaId) (hm : m < cfg.accounts) (s : SchemaId) (hs : s < 2 ^ 16) :
    (∀ p, readAt cfg st (.items m s) = .ok (some p) → p.data.length ≤ cfg.maxItemizedPage) ∧
    (∀ id p, id < 2 ^ 16 → readAt cfg st (.page m s id) = .ok (some p) →
      p.data.length ≤ cfg.maxPaginatedPage ∧ id ≤ cfg.maxPageId) := by
  have hok := hst.storeOk hc
  refine ⟨fun p hp => ?_, fun id p hid hp => ?_⟩
  · obtain ⟨v, h1, h2⟩ := hok.read hc (l := .items m s) ⟨hm, hs⟩
    have := hp.symm.trans h1
    simp only [Except.ok.injEq] at this
    subst this
    exact (h2 p rfl).2.1
  · obtain ⟨v, h1, h2⟩ := hok.read hc (l := .page m s id) ⟨hm, hs, hid⟩
    have := hp.symm.trans h1
    simp only [Except.ok.injEq] at this
    subst this
    exact ⟨(h2 p rfl).2.1, (h2 p rfl).2.2⟩

/-- C71: in every reachable state every read succeeds, itemized pages parse, and no call or query ever
reports corrupted state. -/
theorem C71_never_corrupted (cfg : Config) (hc : CfgOk cfg) (st : Store) (hst : Reachable cfg st) :
    (∀ l, Loc.InRange cfg l → ∃ v, readAt cfg st l = .ok v) ∧
    (∀ env m s, m < cfg.accounts → s < 2 ^ 16 → getItemizedStorage cfg env st m s ≠ .error .corruptedState) ∧
    (∀ env m s, getPaginatedStorage cfg env st m s ≠ .error .corruptedState) ∧
    (∀ x, StepOk cfg x → dispatch cfg x.env st x.who x.call ≠ .error .corruptedState) := by
  have hok := hst.storeOk hc
  have hparse : ∀ m s v, m < cfg.accounts → s < 2 ^ 16 → getItemizedPage cfg st m s = .ok v →
      ∃ items, Fit items ∧ items.length ≤ 65535 ∧
        v.getD .default = ⟨(v.getD Page.default).nonce, encodeItems items⟩ := by
    intro m s v hm hs hv
    obtain ⟨v', h1, h2⟩ := hok.read hc (l := .items m s) ⟨hm, hs⟩
    simp only [readAt] at h1
    have := hv.symm.trans h1
    simp only [Except.ok.injEq] at this
    subst this
    obtain ⟨items, f1, f2, f3⟩ := items_of_ok hc h2
    exact ⟨items, f1, f2, by rw [← f3]⟩
  have hread : ∀ l, Loc.InRange cfg l → ∃ v, readAt cfg st l = .ok v := by
    intro l hl
    obtain ⟨v, h1, _⟩ := hok.read hc hl
    exact ⟨v, h1⟩
  refine ⟨hread, ?_, ?_, ?_⟩
  · intro env m s hm hs h
    simp only [getItemizedStorage, checkSchemaForRead, bind_eq_error_iff, bind_eq_ok_iff,
      okOr_eq_error_iff, okOr_eq_ok_iff, ensure_eq_error_iff, ensure_eq_ok_iff, pure_eq_error_iff,
      pure_eq_ok_iff, reduceCtorEq, and_false, exists_false, or_false, false_or] at h
    obtain ⟨_, _, h⟩ := h
    rcases h with h | ⟨v, h1, h2⟩
    · obtain ⟨v, hv⟩ := hread (.items m s) ⟨hm, hs⟩
      simp only [readAt] at hv
      rw [hv] at h; simp at h
    · obtain ⟨items, f1, f2, f3⟩ := hparse m s v hm hs h1
      rw [f3, C19_parse_of_encoded _ _ f1 f2] at h2
      simp [pure, Except.pure] at h2
  · intro env m s h
    simp only [getPaginatedStorage, checkSchemaForRead, bind_eq_error_iff, bind_eq_ok_iff,
      okOr_eq_error_iff, okOr_eq_ok_iff, ensure_eq_error_iff, ensure_eq_ok_iff, pure_eq_error_iff,
      pure_eq_ok_iff, reduceCtorEq, and_false, exists_false, or_false, false_or] at h
  · have key : ∀ owner u s, (Update.loc owner s u).InRange cfg →
        Update.exec cfg st owner s u ≠ .error .corruptedState := by
      intro owner u s hr h
      obtain ⟨v, hv⟩ := hread _ hr
      cases u with
      | items th a =>
        simp only [Update.loc, readAt] at hv
        simp only [Update.exec, updateItemized, bind_eq_error_iff, hv, Except.ok.injEq,
          exists_eq_left', reduceCtorEq, false_or, ensure_eq_error_iff, ensure_eq_ok_iff,
          and_false] at h
        obtain ⟨_, _, h⟩ := h
        obtain ⟨items, f1, f2, f3⟩ := hparse owner s v hr.1 hr.2 hv
        rw [f3] at h
        have hne : applyItemActions cfg.maxItemizedPage ⟨(v.getD Page.default).nonce, encodeItems items⟩ a
            ≠ .error .errorParsing := by
          have hp := tryParseAux_encode true items (encodeItems items).length 0 f1 (le_refl _) (by omega)
          simp only [applyItemActions, tryParse, hp, bind_eq_error_iff, Except.ok.injEq, exists_eq_left',
            reduceCtorEq, false_or, ensure_eq_error_iff, pure_eq_error_iff, and_false, exists_false,
            or_false, ne_eq]
          rintro h
          have : ∀ a l b, applyActions a l b ≠ .error .errorParsing := by
            intro a
            induction a with
            | nil => intro l b; simp [applyActions]
            | cons y ys ih =>
              intro l b
              cases y with
              | add d => simp only [applyActions]; split
                         · exact ih _ _
                         · simp
              | delete i => simp only [applyActions]; split
                            · exact ih _ _
                            · simp
          exact this _ _ _ h
        split at h
        · exact hne (by assumption)
        · simp at h
        · split at h <;> simp [pure, Except.pure] at h
      | upsert p th d =>
        simp only [Update.loc, readAt] at hv
        simp only [Update.exec, updatePaginated, bind_eq_error_iff, hv, Except.ok.injEq,
          exists_eq_left', reduceCtorEq, false_or, ensure_eq_error_iff, ensure_eq_ok_iff,
          and_false, pure_eq_error_iff, exists_false] at h
      | delete p th =>
        simp only [Update.loc, readAt] at hv
        simp only [Update.exec, deletePaginated, bind_eq_error_iff, hv, Except.ok.injEq,
          exists_eq_left', reduceCtorEq, false_or] at h
        cases v with
        | none => simp [pure, Except.pure] at h
        | some q =>
          simp only [bind_eq_error_iff, ensure_eq_error_iff, reduceCtorEq, and_false, ensure_eq_ok_iff,
            false_or, pure_eq_error_iff, exists_false] at h
    intro x hx h
    obtain ⟨env, who, call⟩ := x
    cases call with
    | applyItemActions m s th a =>
      simp only [dispatch, bind_eq_error_iff, ensure_eq_error_iff, okOr_eq_error_iff, checkMsaAndGrants,
        checkSchemaForWrite, checkSchemaForRead, reduceCtorEq, and_false, false_or, pure_eq_error_iff,
        exists_false, or_false] at h
      obtain ⟨_, _, _, _, _, _, _, _, h⟩ := h
      exact key m (.items th a) s (hx m rfl) h
    | upsertPage m s p th d =>
      simp only [dispatch, bind_eq_error_iff, ensure_eq_error_iff, okOr_eq_error_iff, checkMsaAndGrants,
        checkSchemaForWrite, checkSchemaForRead, reduceCtorEq, and_false, false_or, pure_eq_error_iff,
        exists_false, or_false] at h
      obtain ⟨_, _, _, _, _, _, _, _, _, _, h⟩ := h
      exact key m (.upsert p th d) s (hx m rfl) h
    | deletePage m s p th =>
      simp only [dispatch, bind_eq_error_iff, ensure_eq_error_iff, okOr_eq_error_iff, checkMsaAndGrants,
        checkSchemaForWrite, checkSchemaForRead, reduceCtorEq, and_false, false_or, pure_eq_error_iff,
        exists_false, or_false] at h
      obtain ⟨_, _, _, _, _, _, _, _, h⟩ := h
      exact key m (.delete p th) s (hx m rfl) h
    | applyItemActionsWithSignature k sig q =>
      simp only [dispatch, bind_eq_error_iff, ensure_eq_error_iff, okOr_eq_error_iff, ownerOf,
        checkSchemaForWrite, checkSchemaForRead, checkSignature, checkPayloadExpiration, bind_eq_ok_iff,
        okOr_eq_ok_iff, reduceCtorEq, and_false, false_or,
        pure_eq_error_iff, pure_eq_ok_iff, exists_false, or_false] at h
      obtain ⟨_, _, _, _, _, _, _, _, _, ⟨o, ho, _, _, rfl⟩, _, _, h⟩ := h
      exact key o (.items q.targetHash q.actions) q.schemaId (hx o ho) h
    | upsertPageWithSignature k sig q =>
      simp only [dispatch, bind_eq_error_iff, ensure_eq_error_iff, okOr_eq_error_iff, ownerOf,
        checkSchemaForWrite, checkSchemaForRead, checkSignature, checkPayloadExpiration, bind_eq_ok_iff,
        okOr_eq_ok_iff, reduceCtorEq, and_false, false_or,
        pure_eq_error_iff, pure_eq_ok_iff, exists_false, or_false] at h
      obtain ⟨_, _, _, _, _, _, _, _, _, _, _, ⟨o, ho, _, _, rfl⟩, _, _, h⟩ := h
      exact key o (.upsert q.pageId q.targetHash q.payload) q.schemaId (hx o ho) h
    | deletePageWithSignature k sig q =>
      simp only [dispatch, bind_eq_error_iff, ensure_eq_error_iff, okOr_eq_error_iff, ownerOf,
        checkSchemaForWrite, checkSchemaForRead, checkSignature, checkPayloadExpiration, bind_eq_ok_iff,
        okOr_eq_ok_iff, reduceCtorEq, and_false, false_or,
        pure_eq_error_iff, pure_eq_ok_iff, exists_false, or_false] at h
      obtain ⟨_, _, _, _, _, _, _, _, _, ⟨o, ho, _, _, rfl⟩, _, _, h⟩ := h
      exact key o (.delete q.pageId q.targetHash) q.schemaId (hx o ho) h

/-- Hypotheses met: a page of exactly the maximum size is accepted, one byte more is not; page 4 is
refused. -/
example : CfgOk exCfg ∧ Reachable exCfg exStore ∧
    (dispatch exCfg exEnv exStore (some 11) (.upsertPage 1 2 0 0 [1, 2, 3, 4, 5, 6, 7, 8])).isOk = true ∧
    (dispatch exCfg exEnv exStore (some 11) (.upsertPage 1 2 0 0 [1, 2, 3, 4, 5, 6, 7, 8, 9])).isOk =
      false ∧
    errOf (dispatch exCfg exEnv exStore (some 11) (.upsertPage 1 2 4 0 [1])) =
      some .pageIdExceedsMaxAllowed :=
  ⟨exCfg_ok, exStore_reachable, by decide, by decide, by decide⟩

/-! ## C22: append-only -/

theorem itemsAt_eq {cfg : Config} {st : Store} {m s} {v : Option Page} {items : List Bytes}
    (hv : readAt cfg st (.items m s) = .ok v) (hf : Fit items) (hn : items.length ≤ 65535)
    (hd : (v.getD .default).data = encodeItems items) : itemsAt cfg st m s = items := by
  unfold itemsAt
  rw [hv]
  cases v with
  | none =>
    have := encodeItems_eq_nil.1 hd.symm
    subst this; rfl
  | some p =>
    obtain ⟨n, d⟩ := p
    simp only [Option.getD_some] at hd
    subst hd
    simp only [C19_parse_of_encoded n items hf hn]
    have hsnd : ∀ (n : Nat) (xs : List Bytes), (number n xs).map Prod.snd = xs := by
      intro n xs
      induction xs generalizing n with
      | nil => rfl
      | cons x xs ih => simp [number, ih]
    exact hsnd 0 items

theorem deletedPos_nil {a : List ItemAction} (h : isPruning a = false) : deletedPos a = [] := by
  induction a with
  | nil => rfl
  | cons x xs ih =>
    cases x with
    | add d => exact ih (by simpa [isPruning] using h)
    | delete i => simp [isPruning] at h

theorem survivors_nil (n : Nat) (items : List Bytes) : survivors [] n items = items := by
  induction items generalizing n with
  | nil => rfl
  | cons d items ih => simp [survivors, ih]

/-- C22: under a schema whose information carries the append-only setting throughout, the item list of
an account at any later time begins with the item list at any earlier time. -/
theorem C22_append_only (cfg : Config) (hc : CfgOk cfg) (st : Store) (hst : Reachable cfg st)
    (m : MsaId) (hm : m < cfg.accounts) (s : SchemaId) (hs : s < 2 ^ 16) (hist : List Step)
    (hx : ∀ x ∈ hist, StepOk cfg x)
    (ha : ∀ x ∈ hist, ∀ info, x.env.schema s = some info → .appendOnly ∈ info.settings) :
    itemsAt cfg st m s <+: itemsAt cfg (run cfg st hist) m s := by
  induction hist generalizing st with
  | nil => exact List.prefix_refl _
  | cons x rest ih =>
    have hrun : run cfg st (x :: rest) = run cfg (apply cfg st x) rest := rfl
    rw [hrun]
    have hx0 := hx x (by simp)
    have hst' : Reachable cfg (apply cfg st x) := hst.run (hist := [x]) (by simpa using hx0)
    refine List.IsPrefix.trans ?_ (ih _ hst' (fun y hy => hx y (List.mem_cons_of_mem _ hy))
      (fun y hy => ha y (List.mem_cons_of_mem _ hy)))
    rcases readAt_apply hc (hst.storeOk hc) hx0 (l := .items m s) ⟨hm, hs⟩ with
      h | ⟨o, old, new, hacc, hloc, hold, hpok, hchg, hnew⟩
    · unfold itemsAt; rw [h]; exact List.prefix_refl _
    · obtain ⟨items, f1, f2, f3⟩ := items_of_ok hc hpok
      rw [itemsAt_eq hold f1 f2 f3]
      obtain ⟨info, i1, _, i3, _⟩ := hacc.info
      generalize hu : x.call.update = u at *
      cases u with
      | upsert p h d => simp [Update.loc] at hloc
      | delete p h => simp [Update.loc] at hloc
      | items th a =>
        simp only [Update.loc, Loc.items.injEq] at hloc
        have hpr := i3 (ha x (by simp) info (by rw [hloc.2]; exact i1))
        simp only [Update.deleting] at hpr
        have he : (old.getD Page.default) = ⟨(old.getD Page.default).nonce, encodeItems items⟩ := by
          rw [← f3]
        cases hchg with
        | @items _ _ p hh haa hne =>
          rw [he, C20_actions_exact _ _ _ f1 f2, deletedPos_nil hpr, survivors_nil] at haa
          obtain ⟨_, _, a3, a4, _, a6⟩ := haa
          have hfit : Fit (items ++ addedItems a) := by
            intro y hy
            rcases List.mem_append.1 hy with hy | hy
            · exact f1 y hy
            · exact a3 y hy
          have hlen : (items ++ addedItems a).length ≤ 65535 := by
            have := encodeItems_length (items ++ addedItems a)
            have := hc.itemizedSmall
            omega
          rw [itemsAt_eq hnew hfit hlen (by simpa using a6)]
          exact List.prefix_append _ _
        | @cleared _ _ p hh haa hne =>
          rw [he, C20_actions_exact _ _ _ f1 f2, deletedPos_nil hpr, survivors_nil] at haa
          obtain ⟨_, _, _, _, _, a6⟩ := haa
          rw [hne] at a6
          have := encodeItems_eq_nil.1 a6.symm
          simp only [List.append_eq_nil_iff] at this
          rw [this.1]
          exact List.nil_prefix

/-- Hypotheses met: adding under the append-only schema 3 works, deleting does not. -/
example :
    let h := hashOf exCfg (some ⟨1, encodeItems [[1]]⟩)
    itemsAt exCfg (run exCfg exStore [⟨exEnv, some 22, .applyItemActions 1 3 h [.add [2], .add []]⟩]) 1 3 =
      [[1], [2], []] ∧
    errOf (dispatch exCfg exEnv exStore (some 11) (.applyItemActions 1 3 h [.delete 0])) =
      some .unsupportedOperationForSchema := by decide

end Verif.Stateful
