import Verif.Stateful.Model
import Verif.Stateful.PropsPage
/-!
# Lemmas about the stateful-storage model
-/

namespace Verif.Stateful

/-! ## Locations -/

/-- A place where a page can be stored. -/
inductive Loc
  | items (m : MsaId) (s : SchemaId)
  | page (m : MsaId) (s : SchemaId) (p : Nat)
deriving DecidableEq

/-- Account of a location. -/
def Loc.msa : Loc → MsaId
  | .items m _ => m
  | .page m _ _ => m

/-- Schema of a location. -/
def Loc.schema : Loc → SchemaId
  | .items _ s => s
  | .page _ s _ => s

/-- Storage kind of a location. -/
def Loc.kind : Loc → Kind
  | .items _ _ => .itemized
  | .page _ _ _ => .paginated

/-- The account is one of those considered, the other ids are values of their types (`u16`). -/
def Loc.InRange (cfg : Config) : Loc → Prop
  | .items m s => m < cfg.accounts ∧ s < 2 ^ 16
  | .page m s p => m < cfg.accounts ∧ s < 2 ^ 16 ∧ p < 2 ^ 16

/-- Raw storage key of a location. -/
def Loc.raw (cfg : Config) : Loc → Bytes × Bytes
  | .items m s => (childTree cfg m .itemized, itemKey cfg s)
  | .page m s p => (childTree cfg m .paginated, pageKey cfg s p)

/-- Size limit of a location. -/
def Loc.maxSize (cfg : Config) : Loc → Nat
  | .items _ _ => cfg.maxItemizedPage
  | .page _ _ _ => cfg.maxPaginatedPage

/-- What the pallet reads at a location. -/
def readAt (cfg : Config) (st : Store) : Loc → Except Err (Option Page)
  | .items m s => getItemizedPage cfg st m s
  | .page m s p => getPaginatedPage cfg st m s p

/-- Assumptions on the hash functions: output lengths, no collision of Blake2-128 between the prefixes
of two of the accounts considered, and different hashes of the two storage names. -/
structure HashOk (cfg : Config) : Prop where
  keyLen : ∀ b, (cfg.keyHasher b).length = 16
  blakeLen : ∀ b, (cfg.blake b).length = 16
  twoxLen : ∀ b, (cfg.twox64 b).length = 8
  blakeInj : ∀ m m', m < cfg.accounts → m' < cfg.accounts → cfg.blake (treePrefix m) = cfg.blake (treePrefix m') →
    m = m'
  kinds : cfg.twox64 Kind.itemized.prefix ≠ cfg.twox64 Kind.paginated.prefix

theorem childTree_inj {cfg : Config} (h : HashOk cfg) {m m' : MsaId} {k k' : Kind} (hm : m < cfg.accounts)
    (hm' : m' < cfg.accounts) (he : childTree cfg m k = childTree cfg m' k') : m = m' ∧ k = k' := by
  unfold childTree at he
  have h1 := List.append_inj he (by simp [h.blakeLen, h.twoxLen])
  have h2 := List.append_inj h1.1 (by simp [h.blakeLen])
  refine ⟨h.blakeInj m m' hm hm' h2.1, ?_⟩
  have h3 := h1.2
  cases k <;> cases k'
  · rfl
  · exact absurd h3 h.kinds
  · exact absurd h3.symm h.kinds
  · rfl

theorem u16_inj {a b : Nat} (ha : a < 2 ^ 16) (hb : b < 2 ^ 16) (h : Scale.u16 a = Scale.u16 b) : a = b :=
  Scale.leBytes_inj (by omega) (by omega) h

theorem itemKey_inj {cfg : Config} (h : HashOk cfg) {s s' : SchemaId} (hs : s < 2 ^ 16) (hs' : s' < 2 ^ 16)
    (he : itemKey cfg s = itemKey cfg s') : s = s' := by
  have := List.append_inj he (by simp [h.keyLen])
  exact u16_inj hs hs' this.2

theorem length_u16 (n : Nat) : (Scale.u16 n).length = 2 := by simp [Scale.u16, Scale.length_leBytes]

theorem pageKey_inj {cfg : Config} (h : HashOk cfg) {s s' : SchemaId} {p p' : Nat} (hs : s < 2 ^ 16)
    (hs' : s' < 2 ^ 16) (hp : p < 2 ^ 16) (hp' : p' < 2 ^ 16)
    (he : pageKey cfg s p = pageKey cfg s' p') : s = s' ∧ p = p' := by
  unfold pageKey at he
  have h1 := List.append_inj he (by simp [h.keyLen])
  have h2 := List.append_inj h1.2 (by simp [length_u16])
  exact ⟨u16_inj hs hs' h2.1, u16_inj hp hp' h2.2⟩

theorem raw_inj {cfg : Config} (h : HashOk cfg) {l l' : Loc} (hl : l.InRange cfg) (hl' : l'.InRange cfg)
    (he : l.raw cfg = l'.raw cfg) : l = l' := by
  cases l with
  | items m s =>
    cases l' with
    | items m' s' =>
      simp only [Loc.raw, Prod.mk.injEq] at he
      simp only [Loc.InRange] at hl hl'
      rw [(childTree_inj h hl.1 hl'.1 he.1).1, itemKey_inj h hl.2 hl'.2 he.2]
    | page m' s' p' =>
      simp only [Loc.raw, Prod.mk.injEq] at he
      simp only [Loc.InRange] at hl hl'
      exact absurd (childTree_inj h hl.1 hl'.1 he.1).2 (by simp)
  | page m s p =>
    cases l' with
    | items m' s' =>
      simp only [Loc.raw, Prod.mk.injEq] at he
      simp only [Loc.InRange] at hl hl'
      exact absurd (childTree_inj h hl.1 hl'.1 he.1).2 (by simp)
    | page m' s' p' =>
      simp only [Loc.raw, Prod.mk.injEq] at he
      simp only [Loc.InRange] at hl hl'
      obtain ⟨e1, e2⟩ := pageKey_inj h hl.2.1 hl'.2.1 hl.2.2 hl'.2.2 he.2
      rw [(childTree_inj h hl.1 hl'.1 he.1).1, e1, e2]

/-! ## Encoding of pages -/

theorem decodePage_encode {p : Page} {maxSize : Nat} (hn : p.nonce < 65536) (hd : p.data.length ≤ maxSize)
    (hm : maxSize < 2 ^ 32) : decodePage maxSize p.encode = some p := by
  unfold decodePage Page.encode
  have h1 := Scale.decLe_leBytes 2 p.nonce (by omega) (Scale.vecU8 p.data)
  have h2 := Scale.decVecU8_vecU8 p.data (by omega) []
  rw [List.append_nil] at h2
  unfold Scale.u16
  rw [h1]
  simp only [h2, if_pos hd]

/-! ## Raw reads -/

theorem readAt_eq (cfg : Config) (st : Store) (l : Loc) :
    readAt cfg st l = match st.get (l.raw cfg) with
      | none => .ok none
      | some v => match decodePage (l.maxSize cfg) v with
        | some p => .ok (some p)
        | none => .error .corruptedState := by
  cases l <;> rfl

/-- What is written at a location: a page or nothing. -/
def put (cfg : Config) (st : Store) (l : Loc) : Option Page → Store
  | some p => st.insert (l.raw cfg) p.encode
  | none => st.erase (l.raw cfg)

theorem get_put (cfg : Config) (st : Store) (l : Loc) (v : Option Page) (k : Bytes × Bytes) :
    (put cfg st l v).get k = if l.raw cfg = k then v.map Page.encode else st.get k := by
  cases v with
  | none => simp only [put, SMap.get_erase, Option.map_none]
  | some p => simp only [put, SMap.get_insert, Option.map_some]

theorem readAt_put_ne {cfg : Config} (h : HashOk cfg) (st : Store) {l l' : Loc} (v : Option Page)
    (hl : l.InRange cfg) (hl' : l'.InRange cfg) (hne : l ≠ l') : readAt cfg (put cfg st l v) l' = readAt cfg st l' := by
  rw [readAt_eq, readAt_eq, get_put, if_neg (fun e => hne (raw_inj h hl hl' e))]

theorem readAt_put_same {cfg : Config} (st : Store) (l : Loc) (v : Option Page)
    (hv : ∀ p ∈ v, p.nonce < 65536 ∧ p.data.length ≤ l.maxSize cfg) (hm : l.maxSize cfg < 2 ^ 32) :
    readAt cfg (put cfg st l v) l = .ok v := by
  rw [readAt_eq, get_put, if_pos rfl]
  cases v with
  | none => rfl
  | some p =>
    have := hv p rfl
    simp only [Option.map_some, decodePage_encode this.1 this.2 hm]

/-! ## The three kinds of update -/

/-- An update of one account and schema. -/
inductive Update
  | items (targetHash : Nat) (actions : List ItemAction)
  | upsert (pageId targetHash : Nat) (payload : Bytes)
  | delete (pageId targetHash : Nat)

/-- The update function behind it. -/
def Update.exec (cfg : Config) (st : Store) (m : MsaId) (s : SchemaId) : Update → Except Err Store
  | .items h a => updateItemized cfg st m s h a
  | .upsert p h d => updatePaginated cfg st m s p h d
  | .delete p h => deletePaginated cfg st m s p h

/-- Location of an update. -/
def Update.loc (m : MsaId) (s : SchemaId) : Update → Loc
  | .items _ _ => .items m s
  | .upsert p _ _ => .page m s p
  | .delete p _ => .page m s p

/-- Target hash of an update. -/
def Update.targetHash : Update → Nat
  | .items h _ => h
  | .upsert _ h _ => h
  | .delete _ h => h

/-- Whether the update deletes something. -/
def Update.deleting : Update → Bool
  | .items _ a => isPruning a
  | .upsert _ _ _ => false
  | .delete _ _ => true

/-- The bounds that the types and the page id check put on an update. -/
def Update.Bounded (cfg : Config) : Update → Prop
  | .items _ a => actionsFit cfg a = true
  | .upsert p _ d => d.length ≤ cfg.maxPaginatedPage ∧ p ≤ cfg.maxPageId
  | .delete p _ => p ≤ cfg.maxPageId

/-- Update asked for by a call. -/
def Call.update : Call → Update
  | .applyItemActions _ _ h a => .items h a
  | .upsertPage _ _ p h d => .upsert p h d
  | .deletePage _ _ p h => .delete p h
  | .applyItemActionsWithSignature _ _ p => .items p.targetHash p.actions
  | .upsertPageWithSignature _ _ p => .upsert p.pageId p.targetHash p.payload
  | .deletePageWithSignature _ _ p => .delete p.pageId p.targetHash

/-- Schema of a call. -/
def Call.schema : Call → SchemaId
  | .applyItemActions _ s _ _ => s
  | .upsertPage _ s _ _ _ => s
  | .deletePage _ s _ _ => s
  | .applyItemActionsWithSignature _ _ p => p.schemaId
  | .upsertPageWithSignature _ _ p => p.schemaId
  | .deletePageWithSignature _ _ p => p.schemaId

/-- Account whose storage a call addresses. -/
def Call.owner (env : Env) : Call → Option MsaId
  | .applyItemActions m _ _ _ => some m
  | .upsertPage m _ _ _ _ => some m
  | .deletePage m _ _ _ => some m
  | .applyItemActionsWithSignature k _ _ => env.msaOf k
  | .upsertPageWithSignature k _ _ => env.msaOf k
  | .deletePageWithSignature k _ _ => env.msaOf k

/-- Signer, signature, signed bytes and expiration that a call carries. -/
def Call.signature : Call → Option (AccountId × Signature × Bytes × BlockNumber)
  | .applyItemActionsWithSignature k s p => some (k, s, p.encode, p.expiration)
  | .upsertPageWithSignature k s p => some (k, s, p.encode, p.expiration)
  | .deletePageWithSignature k s p => some (k, s, p.encode, p.expiration)
  | _ => none

/-- The storage kind an update addresses, as payload location. -/
def Update.location : Update → Location
  | .items _ _ => .itemized
  | _ => .paginated

theorem checkSchemaForWrite_ok {env s l a b u} (h : checkSchemaForWrite env s l a b = .ok u) :
    ∃ info, env.schema s = some info ∧ info.location = l ∧
      (.signatureRequired ∈ info.settings → a = true) ∧ (.appendOnly ∈ info.settings → b = false) := by
  simp only [checkSchemaForWrite, checkSchemaForRead, bind_eq_ok_iff, okOr_eq_ok_iff, ensure_eq_ok_iff,
    pure_eq_ok_iff] at h
  obtain ⟨_, ⟨info, h1, _, h2, rfl⟩, _, h3, h4⟩ := h
  exact ⟨info, h1, h2, h3, h4⟩

theorem checkMsaAndGrants_ok {env key owner s caller} (h : checkMsaAndGrants env key owner s = .ok caller) :
    env.msaOf key = some caller ∧ (caller ≠ owner → env.granted caller owner s = true) := by
  simp only [checkMsaAndGrants, bind_eq_ok_iff, okOr_eq_ok_iff, ensure_eq_ok_iff, pure_eq_ok_iff] at h
  obtain ⟨c, h1, _, h2, rfl⟩ := h
  exact ⟨h1, h2⟩

theorem ownerOf_ok {env key e owner} (h : ownerOf env key e = .ok owner) :
    env.msaOf key = some owner ∧ ∀ x ∈ e, owner = x := by
  simp only [ownerOf, bind_eq_ok_iff, okOr_eq_ok_iff, ensure_eq_ok_iff, pure_eq_ok_iff] at h
  obtain ⟨c, h1, _, h2, rfl⟩ := h
  exact ⟨h1, h2⟩

theorem checkPayloadExpiration_ok {cfg : Config} {b e u} (h : checkPayloadExpiration cfg b e = .ok u) :
    b < e ∧ e < b + cfg.window := by
  simp only [checkPayloadExpiration, bind_eq_ok_iff, ensure_eq_ok_iff] at h
  obtain ⟨_, h1, h2⟩ := h
  exact ⟨h1, h2⟩

/-- Everything a successful call has checked and done. -/
structure Accepted (cfg : Config) (env : Env) (st : Store) (who : Option AccountId) (call : Call)
    (st' : Store) (owner : MsaId) : Prop where
  howner : call.owner env = some owner
  exec : call.update.exec cfg st owner call.schema = .ok st'
  bounded : call.update.Bounded cfg
  signer : ∃ key, who = some key
  info : ∃ info, env.schema call.schema = some info ∧ info.location = call.update.location ∧
    (.appendOnly ∈ info.settings → call.update.deleting = false) ∧
    (.signatureRequired ∈ info.settings → call.signature = none →
      ∃ key, who = some key ∧ env.msaOf key = some owner)
  direct : call.signature = none → ∃ key caller, who = some key ∧ env.msaOf key = some caller ∧
    (caller ≠ owner → env.granted caller owner call.schema = true)
  signed : ∀ k sig bytes e, call.signature = some (k, sig, bytes, e) →
    env.msaOf k = some owner ∧ cfg.verify sig k (wrap bytes) = true ∧
      env.block < e ∧ e < env.block + cfg.window

theorem dispatch_accepted {cfg env st who call st'} (h : dispatch cfg env st who call = .ok st') :
    ∃ owner, Accepted cfg env st who call st' owner := by
  cases call with
  | applyItemActions m s th a =>
    simp only [dispatch, bind_eq_ok_iff, ensure_eq_ok_iff, okOr_eq_ok_iff] at h
    obtain ⟨_, h1, key, h2, caller, h3, _, h4, h5⟩ := h
    obtain ⟨g1, g2⟩ := checkMsaAndGrants_ok h3
    obtain ⟨info, i1, i2, i3, i4⟩ := checkSchemaForWrite_ok h4
    refine ⟨m, rfl, h5, h1, ⟨key, h2⟩, ⟨info, i1, i2, i4, fun hs _ => ?_⟩,
      fun _ => ⟨key, caller, h2, g1, g2⟩, by simp [Call.signature]⟩
    have := i3 hs
    simp only [decide_eq_true_eq] at this
    subst this
    exact ⟨key, h2, g1⟩
  | upsertPage m s p th d =>
    simp only [dispatch, bind_eq_ok_iff, ensure_eq_ok_iff, okOr_eq_ok_iff] at h
    obtain ⟨_, h1, key, h2, _, hp, caller, h3, _, h4, h5⟩ := h
    obtain ⟨g1, g2⟩ := checkMsaAndGrants_ok h3
    obtain ⟨info, i1, i2, i3, i4⟩ := checkSchemaForWrite_ok h4
    refine ⟨m, rfl, h5, ⟨h1, hp⟩, ⟨key, h2⟩, ⟨info, i1, i2, i4, fun hs _ => ?_⟩,
      fun _ => ⟨key, caller, h2, g1, g2⟩, by simp [Call.signature]⟩
    have := i3 hs
    simp only [decide_eq_true_eq] at this
    subst this
    exact ⟨key, h2, g1⟩
  | deletePage m s p th =>
    simp only [dispatch, bind_eq_ok_iff, ensure_eq_ok_iff, okOr_eq_ok_iff] at h
    obtain ⟨key, h2, _, hp, caller, h3, _, h4, h5⟩ := h
    obtain ⟨g1, g2⟩ := checkMsaAndGrants_ok h3
    obtain ⟨info, i1, i2, i3, i4⟩ := checkSchemaForWrite_ok h4
    refine ⟨m, rfl, h5, hp, ⟨key, h2⟩, ⟨info, i1, i2, i4, fun hs _ => ?_⟩,
      fun _ => ⟨key, caller, h2, g1, g2⟩, by simp [Call.signature]⟩
    have := i3 hs
    simp only [decide_eq_true_eq] at this
    subst this
    exact ⟨key, h2, g1⟩
  | applyItemActionsWithSignature key sig p =>
    simp only [dispatch, bind_eq_ok_iff, ensure_eq_ok_iff, okOr_eq_ok_iff, checkSignature] at h
    obtain ⟨_, h1, who', h2, _, h3, _, h4, owner, h5, _, h6, h7⟩ := h
    obtain ⟨e1, e2⟩ := checkPayloadExpiration_ok h3
    obtain ⟨o1, _⟩ := ownerOf_ok h5
    obtain ⟨info, i1, i2, i3, i4⟩ := checkSchemaForWrite_ok h6
    refine ⟨owner, o1, h7, h1, ⟨who', h2⟩, ⟨info, i1, i2, i4, by simp [Call.signature]⟩,
      by simp [Call.signature], ?_⟩
    intro k s b e he
    simp only [Call.signature, Option.some.injEq, Prod.mk.injEq] at he
    obtain ⟨rfl, rfl, rfl, rfl⟩ := he
    exact ⟨o1, h4, e1, e2⟩
  | upsertPageWithSignature key sig p =>
    simp only [dispatch, bind_eq_ok_iff, ensure_eq_ok_iff, okOr_eq_ok_iff, checkSignature] at h
    obtain ⟨_, h1, who', h2, _, hp, _, h3, _, h4, owner, h5, _, h6, h7⟩ := h
    obtain ⟨e1, e2⟩ := checkPayloadExpiration_ok h3
    obtain ⟨o1, _⟩ := ownerOf_ok h5
    obtain ⟨info, i1, i2, i3, i4⟩ := checkSchemaForWrite_ok h6
    refine ⟨owner, o1, h7, ⟨h1, hp⟩, ⟨who', h2⟩, ⟨info, i1, i2, i4, by simp [Call.signature]⟩,
      by simp [Call.signature], ?_⟩
    intro k s b e he
    simp only [Call.signature, Option.some.injEq, Prod.mk.injEq] at he
    obtain ⟨rfl, rfl, rfl, rfl⟩ := he
    exact ⟨o1, h4, e1, e2⟩
  | deletePageWithSignature key sig p =>
    simp only [dispatch, bind_eq_ok_iff, ensure_eq_ok_iff, okOr_eq_ok_iff, checkSignature] at h
    obtain ⟨who', h2, _, hp, _, h3, _, h4, owner, h5, _, h6, h7⟩ := h
    obtain ⟨e1, e2⟩ := checkPayloadExpiration_ok h3
    obtain ⟨o1, _⟩ := ownerOf_ok h5
    obtain ⟨info, i1, i2, i3, i4⟩ := checkSchemaForWrite_ok h6
    refine ⟨owner, o1, h7, hp, ⟨who', h2⟩, ⟨info, i1, i2, i4, by simp [Call.signature]⟩,
      by simp [Call.signature], ?_⟩
    intro k s b e he
    simp only [Call.signature, Option.some.injEq, Prod.mk.injEq] at he
    obtain ⟨rfl, rfl, rfl, rfl⟩ := he
    exact ⟨o1, h4, e1, e2⟩

/-- What an update does to its location: the page found, the page left. -/
inductive Change (cfg : Config) (old : Option Page) : Update → Option Page → Prop
  | items {h a p} (hh : h = (old.getD .default).getHash cfg.hash)
      (ha : applyItemActions cfg.maxItemizedPage (old.getD .default) a = .ok p) (hne : p.data ≠ []) :
      Change cfg old (.items h a) (some ⟨((old.getD .default).nonce + 1) % 65536, p.data⟩)
  | cleared {h a p} (hh : h = (old.getD .default).getHash cfg.hash)
      (ha : applyItemActions cfg.maxItemizedPage (old.getD .default) a = .ok p) (he : p.data = []) :
      Change cfg old (.items h a) none
  | upsert {p h d} (hh : h = (old.getD .default).getHash cfg.hash) :
      Change cfg old (.upsert p h d) (some ⟨((old.getD .default).nonce + 1) % 65536, d⟩)
  | delete {p h q} (ho : old = some q) (hh : h = q.getHash cfg.hash) : Change cfg old (.delete p h) none
  | absent {p h} (ho : old = none) : Change cfg old (.delete p h) none

theorem erase_absent {cfg : Config} {st : Store} {l : Loc} (h : readAt cfg st l = .ok none) :
    put cfg st l none = st := by
  have : st.get (l.raw cfg) = none := by
    rw [readAt_eq] at h
    split at h
    · assumption
    · split at h <;> simp at h
  exact SMap.erase_eq_self _ this

theorem exec_ok {cfg st m s u st'} (h : Update.exec cfg st m s u = .ok st') :
    ∃ old new, readAt cfg st (u.loc m s) = .ok old ∧ Change cfg old u new ∧
      st' = put cfg st (u.loc m s) new := by
  cases u with
  | items th a =>
    simp only [Update.exec, updateItemized, bind_eq_ok_iff, ensure_eq_ok_iff] at h
    obtain ⟨old, h1, _, h2, h3⟩ := h
    split at h3
    · simp at h3
    · simp at h3
    · rename_i p hp
      by_cases he : p.data = []
      · refine ⟨old, none, h1, .cleared h2 hp he, ?_⟩
        rw [if_pos (by simp [Page.isEmpty, he])] at h3
        exact (pure_eq_ok_iff.1 h3).symm
      · refine ⟨old, _, h1, .items h2 hp he, ?_⟩
        rw [if_neg (by simp [Page.isEmpty, he])] at h3
        exact (pure_eq_ok_iff.1 h3).symm
  | upsert p th d =>
    simp only [Update.exec, updatePaginated, bind_eq_ok_iff, ensure_eq_ok_iff, pure_eq_ok_iff] at h
    obtain ⟨old, h1, _, h2, h3⟩ := h
    exact ⟨old, _, h1, .upsert h2, h3.symm⟩
  | delete p th =>
    simp only [Update.exec, deletePaginated, bind_eq_ok_iff] at h
    obtain ⟨old, h1, h2⟩ := h
    cases old with
    | none =>
      simp only [pure_eq_ok_iff] at h2
      subst h2
      exact ⟨none, none, h1, .absent rfl, (erase_absent (cfg := cfg) (l := .page m s p) h1).symm⟩
    | some q =>
      simp only [bind_eq_ok_iff, ensure_eq_ok_iff, pure_eq_ok_iff] at h2
      obtain ⟨_, h3, h4⟩ := h2
      exact ⟨some q, none, h1, .delete rfl h3, h4.symm⟩

end Verif.Stateful
