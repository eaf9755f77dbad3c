import Verif.Chain.Props
import Mathlib.Data.List.Infix
/-!
# C171: calls to different pallets can come in any order
-/

namespace Verif.Chain

/-! ## Specification -/

/-- The parts of the state that calls of the block change. -/
inductive Part where
  | msa | schemas | messages | handles | storage | capacity
  deriving DecidableEq

/-- The part that a call belongs to. -/
def Call.part : Call → Part
  | .msa _ => .msa
  | .schemas _ => .schemas
  | .messages _ => .messages
  | .handles _ => .handles
  | .storage _ => .storage
  | .capacity _ => .capacity

/-- The part that a step changes; payments with capacity belong to the capacities. -/
def Step.part : Step → Option Part
  | .newBlock | .upgrade _ => none
  | .call _ _ c | .submit _ _ c => some c.part
  | .charge _ _ => some .capacity

/-- The keys whose accounts a call acts for. -/
def Call.keys (who : Option AccountId) : Call → List AccountId
  | .messages _ => who.toList
  | .handles (.claim k _ _) | .handles (.change k _ _) => [k]
  | .handles .retire => who.toList
  | .storage (.applyItemActions ..) | .storage (.upsertPage ..) | .storage (.deletePage ..) => who.toList
  | .storage (.applyItemActionsWithSignature k _ _) | .storage (.upsertPageWithSignature k _ _)
  | .storage (.deletePageWithSignature k _ _) => [k]
  | _ => []

/-- The same for a step. -/
def Step.keys : Step → List AccountId
  | .call _ o c => c.keys o.signer
  | .submit _ who c => c.keys (some who)
  | .charge k _ => [k]
  | _ => []

/-- The account that a call acts on behalf of. -/
def Call.behalf : Call → Option MsaId
  | .messages (.onchain d _ _) => d
  | .storage (.applyItemActions owner ..) | .storage (.upsertPage owner ..) | .storage (.deletePage owner ..) => some owner
  | _ => none

/-- The same for a step. -/
def Step.behalf : Step → Option MsaId
  | .call _ _ c | .submit _ _ c => c.behalf
  | _ => none

/-- The provider that tokens are staked for. -/
def Call.target : Call → Option MsaId
  | .capacity (.stake t _) => some t
  | _ => none

/-- The same for a step. -/
def Step.target : Step → Option MsaId
  | .call _ _ c | .submit _ _ c => c.target
  | _ => none

/-- The schema that messages or data are stored under. -/
def Call.schema : Call → Option SchemaId
  | .messages (.ipfs k _ _) | .messages (.onchain _ k _) => some k
  | .storage (.applyItemActions _ k _ _) | .storage (.upsertPage _ k _ _ _) | .storage (.deletePage _ k _ _) => some k
  | .storage (.applyItemActionsWithSignature _ _ p) => some p.schemaId
  | .storage (.upsertPageWithSignature _ _ p) => some p.schemaId
  | .storage (.deletePageWithSignature _ _ p) => some p.schemaId
  | _ => none

/-- The schemas that grants are given for or taken away. -/
def Call.grants : Call → List SchemaId
  | .msa (.grantDelegation _ _ p) | .msa (.createSponsoredAccountWithDelegation _ _ p) => p.schemaIds
  | .msa (.revokeSchemaPermissions _ ids) => ids
  | _ => []

/-- The call of a step. -/
def Step.call? : Step → Option Call
  | .call _ _ c | .submit _ _ c => some c
  | _ => none

/-- The accounts pallet says the same about what a call of another pallet is about: whose its keys are, the delegation between
them and the account it acts on behalf of, the provider that tokens are staked for. -/
structure AgreeMsa (y : Step) (m m' : Msa.State) : Prop where
  keys : ∀ k ∈ y.keys, m.keyToMsa.get k = m'.keyToMsa.get k
  delegation : ∀ d, y.behalf = some d → ∀ k ∈ y.keys, ∀ p, m.keyToMsa.get k = some p →
    m.delegations.get (d, p) = m'.delegations.get (d, p)
  target : ∀ t, y.target = some t → m.providers.get t = m'.providers.get t

/-- So does the schemas pallet: what its schema is, and which of the schemas exist that it gives grants for. -/
structure AgreeSchemas (y : Step) (a b : Schemas.State) : Prop where
  schema : ∀ c k, y.call? = some c → c.schema = some k → Schemas.getSchemaInfoById a k = Schemas.getSchemaInfoById b k
  grants : ∀ c, y.call? = some c → ∀ k ∈ c.grants, (k ≤ a.lastId ↔ k ≤ b.lastId)

/-- The calls of a part. -/
def ofPart (p : Part) (h : List Step) : List Step := h.filter (fun x => x.part = some p)

/-- No call changes what a call of another pallet is about. -/
structure Undisturbed (cfg : Config) (s : State) (h : List Step) : Prop where
  accounts : ∀ y ∈ h, y.part ≠ some .msa → ∀ q, q <+: ofPart .msa h → AgreeMsa y s.msa (run cfg s q).msa
  schemas : ∀ y ∈ h, y.part ≠ some .schemas → ∀ q, q <+: ofPart .schemas h → AgreeSchemas y s.schemas (run cfg s q).schemas
  /-- who gives up an account has a handle before just when they have one afterwards -/
  handles : ∀ bal who, .submit bal who (.msa .retireMsa) ∈ h → ∀ q, q <+: ofPart .handles h → ∀ q', q' <+: ofPart .msa h →
    ∀ m, msaOf (run cfg s q') who = some m →
      (Handles.handleForMsa cfg.handles s.handles m).isSome = (Handles.handleForMsa cfg.handles (run cfg s q).handles m).isSome

/-! ## A step depends on its own part and what it is about -/

/-- What is in a part. -/
def Part.Same (p : Part) (s t : State) : Prop :=
  match p with
  | .msa => s.msa = t.msa
  | .schemas => s.schemas = t.schemas
  | .messages => s.messages = t.messages
  | .handles => s.handles = t.handles
  | .storage => s.storage = t.storage
  | .capacity => s.capacity = t.capacity

theorem grant_congr {cfg : Config} {s t : State} (hb : s.block = t.block) {p d : MsaId}
    (h : s.msa.delegations.get (d, p) = t.msa.delegations.get (d, p)) (k : SchemaId) (b : BlockNumber) :
    grant cfg s p d k b = grant cfg t p d k b := by
  unfold grant Msa.ensureValidSchemaGrant Msa.ensureValidDelegation
  have hb' : (msaEnv cfg s).block = (msaEnv cfg t).block := hb
  rw [h, hb']

theorem messages_congr {cfg : Messages.Config} {env env' : Messages.Env} {s : Messages.State} {key : AccountId} {c : Messages.Call}
    (h1 : env.msaOf key = env'.msaOf key) (h2 : ∀ k, (Call.messages c).schema = some k → env.location k = env'.location k)
    (h3 : ∀ d k x, c = .onchain (some d) k x → ∀ p, env.msaOf key = some p → ∀ b, env.grant p d k b = env'.grant p d k b) :
    Messages.dispatch cfg env s key c = Messages.dispatch cfg env' s key c := by
  cases c with
  | ipfs k cid len => simp only [Messages.dispatch, Messages.addIpfs, h1, h2 k rfl]
  | onchain o k x =>
    simp only [Messages.dispatch, Messages.addOnchain, ← h1, h2 k rfl]
    cases hp : env.msaOf key with
    | none => rfl
    | some p =>
      cases o with
      | none => rfl
      | some d =>
        have e : Messages.authorOf env s p k (some d) = Messages.authorOf env' s p k (some d) := by
          simp only [Messages.authorOf]
          rw [h3 d k x rfl p hp s.block]
        simp only [okOr, bind, Except.bind, e]

theorem storage_congr {cfg : Stateful.Config} {env env' : Stateful.Env} {s : Stateful.Store} {who : Option AccountId}
    {c : Stateful.Call} (h1 : ∀ k ∈ (Call.storage c).keys who, env.msaOf k = env'.msaOf k) (h2 : ∀ k, (Call.storage c).schema = some k → env.schema k = env'.schema k)
    (hb : env.block = env'.block)
    (h3 : ∀ d, (Call.storage c).behalf = some d → ∀ k ∈ (Call.storage c).keys who, ∀ p, env.msaOf k = some p →
      ∀ x, env.granted p d x = env'.granted p d x) :
    Stateful.dispatch cfg env s who c = Stateful.dispatch cfg env' s who c := by
  have hw : ∀ k, env.schema k = env'.schema k → ∀ b c d, Stateful.checkSchemaForWrite env k b c d =
      Stateful.checkSchemaForWrite env' k b c d := by
    intro k e b c d; simp only [Stateful.checkSchemaForWrite, Stateful.checkSchemaForRead, e]
  have hg : ∀ key owner x, env.msaOf key = env'.msaOf key →
      (∀ p, env.msaOf key = some p → env.granted p owner x = env'.granted p owner x) →
      Stateful.checkMsaAndGrants env key owner x = Stateful.checkMsaAndGrants env' key owner x := by
    intro key owner x e1 e2
    simp only [Stateful.checkMsaAndGrants, ← e1]
    cases hp : env.msaOf key with
    | none => rfl
    | some p =>
      simp only [okOr, bind, Except.bind]
      rw [e2 p hp]
  have ho : ∀ key x, env.msaOf key = env'.msaOf key → Stateful.ownerOf env key x = Stateful.ownerOf env' key x := by
    intro key x e; simp only [Stateful.ownerOf, e]
  cases c with
  | applyItemActions owner k t l =>
    cases who with
    | none => rfl
    | some key =>
      simp only [Stateful.dispatch, okOr, bind, Except.bind, hw k (h2 k rfl)]
      rw [hg key owner k (h1 key (by simp [Call.keys])) (fun p hp => h3 owner rfl key (by simp [Call.keys]) p hp k)]
  | upsertPage owner k i t l =>
    cases who with
    | none => rfl
    | some key =>
      simp only [Stateful.dispatch, okOr, bind, Except.bind, hw k (h2 k rfl)]
      rw [hg key owner k (h1 key (by simp [Call.keys])) (fun p hp => h3 owner rfl key (by simp [Call.keys]) p hp k)]
  | deletePage owner k i t =>
    cases who with
    | none => rfl
    | some key =>
      simp only [Stateful.dispatch, okOr, bind, Except.bind, hw k (h2 k rfl)]
      rw [hg key owner k (h1 key (by simp [Call.keys])) (fun p hp => h3 owner rfl key (by simp [Call.keys]) p hp k)]
  | applyItemActionsWithSignature key proof p =>
    simp only [Stateful.dispatch, hw p.schemaId (h2 _ rfl), hb, ho key _ (h1 key (by simp [Call.keys]))]
  | upsertPageWithSignature key proof p =>
    simp only [Stateful.dispatch, hw p.schemaId (h2 _ rfl), hb, ho key _ (h1 key (by simp [Call.keys]))]
  | deletePageWithSignature key proof p =>
    simp only [Stateful.dispatch, hw p.schemaId (h2 _ rfl), hb, ho key _ (h1 key (by simp [Call.keys]))]

theorem handles_congr {cfg : Handles.Config} {env env' : Handles.Env} {s : Handles.State} {who : AccountId} {c : HandleCall}
    (h1 : ∀ k ∈ (Call.handles c).keys (some who), env.msaOf k = env'.msaOf k) (hb : env.block = env'.block)
    (hl : env.lo = env'.lo) (hh : env.hi = env'.hi) :
    Handles.dispatch cfg s ⟨env, c.op who⟩ = Handles.dispatch cfg s ⟨env', c.op who⟩ := by
  have hc : ∀ s m p, Handles.doClaim cfg env s m p = Handles.doClaim cfg env' s m p := by
    intro s m p
    unfold Handles.doClaim Handles.nextSuffixIndex Handles.generateSuffix
    rw [hl, hh]
  have hm : ∀ x, Handles.verifyMortality cfg env x = Handles.verifyMortality cfg env' x := by
    intro x; unfold Handles.verifyMortality; rw [hb]
  cases c with
  | claim k sig p =>
    have := h1 k (by simp [Call.keys])
    simp only [HandleCall.op, Handles.dispatch, Handles.claim, this, hc, hm]
  | change k sig p =>
    have := h1 k (by simp [Call.keys])
    simp only [HandleCall.op, Handles.dispatch, Handles.change, this, hc, hm]
  | retire =>
    have := h1 who (by simp [Call.keys])
    simp only [HandleCall.op, Handles.dispatch, Handles.retire, this]

theorem msa_congr {cfg : Msa.Config} {env env' : Msa.Env} {c : Msa.Call} (hb : env.block = env'.block)
    (hl : ∀ k ∈ (Call.msa c).grants, (k ≤ env.latestSchema ↔ k ≤ env'.latestSchema))
    (s : Msa.State) (o : Msa.Origin) : Msa.dispatch cfg env s o c = Msa.dispatch cfg env' s o c := by
  have hv : ∀ ids : List SchemaId, (∀ k ∈ ids, (k ≤ env.latestSchema ↔ k ≤ env'.latestSchema)) →
      Msa.ensureAllSchemaIdsAreValid cfg env ids = Msa.ensureAllSchemaIdsAreValid cfg env' ids := by
    intro ids h
    have : Msa.areAllSchemaIdsValid env ids = Msa.areAllSchemaIdsValid env' ids := by
      unfold Msa.areAllSchemaIdsValid
      rw [Bool.eq_iff_iff, List.all_eq_true, List.all_eq_true]
      constructor
      · intro g k hk; simpa using (h k hk).1 (by simpa using g k hk)
      · intro g k hk; simpa using (h k hk).2 (by simpa using g k hk)
    unfold Msa.ensureAllSchemaIdsAreValid
    rw [this]
  have hg : ∀ s sig e, Msa.registerSignature cfg env s sig e = Msa.registerSignature cfg env' s sig e := by
    intro s sig e; simp only [Msa.registerSignature, hb]
  have hr : ∀ s p d, Msa.revokeProvider env s p d = Msa.revokeProvider env' s p d := by
    intro s p d; simp only [Msa.revokeProvider, hb]
  cases c with
  | createSponsoredAccountWithDelegation dk proof p =>
    have := hv p.schemaIds hl
    simp only [Msa.dispatch, Msa.createSponsored, Msa.addProvider, hg, this]
  | grantDelegation dk proof p =>
    have := hv p.schemaIds hl
    simp only [Msa.dispatch, Msa.grantDelegation, Msa.upsertSchemaPermissions, Msa.upsertDelegation, hg, this, hb]
  | revokeSchemaPermissions p ids =>
    have := hv ids hl
    simp only [Msa.dispatch, Msa.revokeSchemaPermissions, Msa.revokePermissionsForSchemas, this, hb]
  | revokeDelegationByDelegator p => simp only [Msa.dispatch, Msa.revokeDelegationByDelegator, hr]
  | revokeDelegationByProvider p => simp only [Msa.dispatch, Msa.revokeDelegationByProvider, hr]
  | addPublicKeyToMsa a b c d => simp only [Msa.dispatch, Msa.addPublicKeyToMsa, hg]
  | _ => rfl

theorem validate_congr {env env' : Msa.Env} {c : Msa.Call} {who : AccountId} {s : Msa.State} (hb : env.block = env'.block)
    (hh : c = .retireMsa → ∀ m, s.keyToMsa.get who = some m → env.hasHandle m = env'.hasHandle m) :
    Msa.validate env s who c = Msa.validate env' s who c := by
  have hd : ∀ p d, Msa.ensureValidDelegation env s p d none = Msa.ensureValidDelegation env' s p d none := by
    intro p d; simp only [Msa.ensureValidDelegation, hb]
  cases c with
  | retireMsa =>
    have hh := hh rfl
    simp only [Msa.validate, Msa.ensureMsaCanRetire]
    cases hk : s.keyToMsa.get who with
    | none => simp only [Msa.ensureValidMsaKey, hk, Msa.mapErr, okOr, bind, Except.bind]
    | some m =>
      simp only [Msa.ensureValidMsaKey, hk, Msa.mapErr, okOr, bind, Except.bind, hd]
      rw [hh m hk]
  | revokeDelegationByDelegator p => simp only [Msa.validate, Msa.validateDelegationByDelegator, hd]
  | revokeDelegationByProvider p => simp only [Msa.validate, Msa.validateDelegationByProvider, hd]
  | _ => rfl

/-- A call changes its own part only. -/
theorem dispatch_frame {cfg : Config} {bal} {s t : State} {o : Origin} {c : Call} 
    (h : dispatch cfg bal s o c = some t) : t.block = s.block ∧ ∀ q, q ≠ c.part → q.Same t s := by
  cases c with
  | schemas c =>
    simp only [dispatch, Option.bind_eq_bind, Option.bind_eq_some_iff, Option.some.injEq] at h
    obtain ⟨k, -, m, -, rfl⟩ := h
    refine ⟨rfl, fun q hq => ?_⟩
    cases q <;> first | rfl | exact absurd rfl hq
  | msa c =>
    simp only [dispatch, Option.map_eq_some_iff] at h
    obtain ⟨m, -, rfl⟩ := h
    refine ⟨rfl, fun q hq => ?_⟩
    cases q <;> first | rfl | exact absurd rfl hq
  | messages c =>
    simp only [dispatch, Option.bind_eq_bind, Option.bind_eq_some_iff, Option.some.injEq] at h
    obtain ⟨k, -, m, -, rfl⟩ := h
    refine ⟨rfl, fun q hq => ?_⟩
    cases q <;> first | rfl | exact absurd rfl hq
  | handles c =>
    simp only [dispatch, Option.bind_eq_bind, Option.bind_eq_some_iff, Option.some.injEq] at h
    obtain ⟨k, -, m, -, rfl⟩ := h
    refine ⟨rfl, fun q hq => ?_⟩
    cases q <;> first | rfl | exact absurd rfl hq
  | storage c =>
    simp only [dispatch, Option.bind_eq_bind, Option.bind_eq_some_iff, Option.some.injEq] at h
    obtain ⟨m, -, rfl⟩ := h
    refine ⟨rfl, fun q hq => ?_⟩
    cases q <;> first | rfl | exact absurd rfl hq
  | capacity c =>
    simp only [dispatch, Option.bind_eq_bind, Option.bind_eq_some_iff, Option.some.injEq] at h
    obtain ⟨k, -, m, -, rfl⟩ := h
    refine ⟨rfl, fun q hq => ?_⟩
    cases q <;> first | rfl | exact absurd rfl hq

theorem Part.Same.refl (q : Part) (s : State) : q.Same s s := by cases q <;> rfl

theorem Part.Same.trans {q : Part} {s t u : State} (h : q.Same s t) (h' : q.Same t u) : q.Same s u := by
  cases q <;> exact Eq.trans h h'

theorem Part.Same.symm {q : Part} {s t : State} (h : q.Same s t) : q.Same t s := by
  cases q <;> exact Eq.symm h

theorem apply_frame (cfg : Config) (s : State) {x : Step} {p : Part} (hx : x.part = some p) :
    (apply cfg s x).block = s.block ∧ ∀ q, q ≠ p → q.Same (apply cfg s x) s := by
  have refl : s.block = s.block ∧ ∀ q : Part, q ≠ p → q.Same s s := ⟨rfl, fun q _ => .refl q s⟩
  cases x with
  | newBlock => cases hx
  | upgrade k => cases hx
  | call bal o c =>
    cases hx
    show ((dispatch cfg bal s o c).getD s).block = _ ∧
      ∀ q : Part, q ≠ c.part → q.Same ((dispatch cfg bal s o c).getD s) s
    cases h : dispatch cfg bal s o c with
    | none => exact refl
    | some t => exact dispatch_frame h
  | submit bal who c =>
    cases hx
    simp only [apply]
    split
    · cases h : dispatch cfg bal s (.signed who) c with
      | none => exact refl
      | some t => exact dispatch_frame h
    · exact refl
  | charge k fee =>
    cases hx
    show ((charge s k fee).getD s).block = _ ∧
      ∀ q : Part, q ≠ .capacity → q.Same ((charge s k fee).getD s) s
    cases h : charge s k fee with
    | none => exact refl
    | some t =>
      simp only [charge, Option.bind_eq_bind, Option.bind_eq_some_iff, Option.some.injEq] at h
      obtain ⟨m, -, u, -, rfl⟩ := h
      refine ⟨rfl, fun q hq => ?_⟩
      cases q <;> first | rfl | exact absurd rfl hq

/-- What a call does to its own part depends on this part and what the call is about. -/
theorem dispatch_both {cfg : Config} {bal} {s t : State} {o : Origin} {c : Call}
    (hb : s.block = t.block) (hp : c.part.Same s t)
    (ha : c.part ≠ .msa → AgreeMsa (.call bal o c) s.msa t.msa)
    (hs : c.part ≠ .schemas → AgreeSchemas (.call bal o c) s.schemas t.schemas) :
    c.part.Same ((dispatch cfg bal s o c).getD s) ((dispatch cfg bal t o c).getD t) ∧
      (dispatch cfg bal s o c).isSome = (dispatch cfg bal t o c).isSome := by
  cases c with
  | schemas c =>
    have hm : s.schemas = t.schemas := hp
    simp only [dispatch, hm]
    cases o.schemas with
    | none => exact ⟨hm, rfl⟩
    | some o =>
      simp only [Option.bind_eq_bind, Option.bind_some]
      cases Schemas.dispatch cfg.schemas t.schemas o c
      · exact ⟨hm, rfl⟩
      · exact ⟨rfl, rfl⟩
  | msa c =>
    have hm : s.msa = t.msa := hp
    have e : Msa.dispatch cfg.msa (msaEnv cfg s) s.msa o.msa c = Msa.dispatch cfg.msa (msaEnv cfg t) t.msa o.msa c := by
      rw [hm]
      exact msa_congr hb (fun k hk => (hs (by simp [Call.part])).grants _ rfl k hk) _ _
    simp only [dispatch, e]
    cases Msa.dispatch cfg.msa (msaEnv cfg t) t.msa o.msa c
    · exact ⟨hm, rfl⟩
    · exact ⟨rfl, rfl⟩
  | messages c =>
    have hm : s.messages = t.messages := hp
    have ha := ha (by simp [Call.part])
    have hs := hs (by simp [Call.part])
    simp only [dispatch]
    cases hk : o.signer with
    | none => exact ⟨hm, rfl⟩
    | some k =>
      have hkk : k ∈ (Step.call bal o (.messages c)).keys := by simp [Step.keys, Call.keys, hk]
      have e : Messages.dispatch cfg.messages (messagesEnv cfg s) s.messages k c =
          Messages.dispatch cfg.messages (messagesEnv cfg t) t.messages k c := by
        rw [hm]
        refine messages_congr (ha.keys k hkk) (fun k' hk' => by simp only [messagesEnv, hs.schema _ k' rfl hk']) ?_
        intro d k' x hc p hpp b
        subst hc
        exact grant_congr hb (ha.delegation d rfl k hkk p hpp) _ _
      simp only [Option.bind_eq_bind, Option.bind_some, e]
      cases Messages.dispatch cfg.messages (messagesEnv cfg t) t.messages k c
      · exact ⟨hm, rfl⟩
      · exact ⟨rfl, rfl⟩
  | handles c =>
    have hm : s.handles = t.handles := hp
    have ha := ha (by simp [Call.part])
    have hs := hs (by simp [Call.part])
    simp only [dispatch]
    cases hk : o.signer with
    | none => exact ⟨hm, rfl⟩
    | some k =>
      have e : Handles.dispatch cfg.handles s.handles ⟨handlesEnv cfg s, c.op k⟩ =
          Handles.dispatch cfg.handles t.handles ⟨handlesEnv cfg t, c.op k⟩ := by
        rw [hm]
        refine handles_congr (fun k' hk' => ha.keys k' ?_) hb rfl rfl
        simpa [Step.keys, hk] using hk'
      simp only [Option.bind_eq_bind, Option.bind_some, e]
      cases Handles.dispatch cfg.handles t.handles ⟨handlesEnv cfg t, c.op k⟩
      · exact ⟨hm, rfl⟩
      · exact ⟨rfl, rfl⟩
  | storage c =>
    have hm : s.storage = t.storage := hp
    have ha := ha (by simp [Call.part])
    have hs := hs (by simp [Call.part])
    have e : Stateful.dispatch cfg.storage (storageEnv cfg s) s.storage o.signer c =
        Stateful.dispatch cfg.storage (storageEnv cfg t) t.storage o.signer c := by
      rw [hm]
      refine storage_congr (fun k' hk' => ha.keys k' hk') (fun k' hk' => by simp only [storageEnv, hs.schema _ k' rfl hk']) hb ?_
      intro d hd k hk p hp x
      show grant cfg s p d x s.block = grant cfg t p d x t.block
      rw [grant_congr hb (ha.delegation d hd k hk p hp), hb]
    simp only [dispatch, e]
    cases Stateful.dispatch cfg.storage (storageEnv cfg t) t.storage o.signer c
    · exact ⟨hm, rfl⟩
    · exact ⟨rfl, rfl⟩
  | capacity c =>
    have hm : s.capacity = t.capacity := hp
    have ha := ha (by simp [Call.part])
    have hs := hs (by simp [Call.part])
    simp only [dispatch]
    cases hk : c.op o with
    | none => exact ⟨hm, rfl⟩
    | some op =>
      have e : Capacity.dispatch cfg.capacity s.capacity ⟨capacityEnv bal s, op⟩ =
          Capacity.dispatch cfg.capacity t.capacity ⟨capacityEnv bal t, op⟩ := by
        rw [hm]
        cases op with
        | stake who tg a =>
          have ht : c = .stake tg a := by
            cases o <;> cases c <;> simp [CapacityCall.op] at hk
            obtain ⟨_, rfl, rfl⟩ := hk
            rfl
          subst ht
          have e : Msa.isRegisteredProvider s.msa tg = Msa.isRegisteredProvider t.msa tg := by
            have := ha.target tg rfl
            simp only [Msa.isRegisteredProvider, SMap.contains, this]
          simp only [Capacity.dispatch, Capacity.stake, Capacity.ensureCanStake, capacityEnv, e]
          rfl
        | _ => rfl
      simp only [Option.bind_eq_bind, Option.bind_some, e]
      cases Capacity.dispatch cfg.capacity t.capacity ⟨capacityEnv bal t, op⟩
      · exact ⟨hm, rfl⟩
      · exact ⟨rfl, rfl⟩

theorem dispatch_part {cfg : Config} {bal} {s t : State} {o : Origin} {c : Call}
    (hb : s.block = t.block) (hp : c.part.Same s t)
    (ha : c.part ≠ .msa → AgreeMsa (.call bal o c) s.msa t.msa)
    (hs : c.part ≠ .schemas → AgreeSchemas (.call bal o c) s.schemas t.schemas) :
    c.part.Same ((dispatch cfg bal s o c).getD s) ((dispatch cfg bal t o c).getD t) :=
  (dispatch_both hb hp ha hs).1

theorem extensions_part {cfg : Config} {bal : AccountId → Balance} {s t : State} {who : AccountId} {c : Call} (hb : s.block = t.block)
    (hp : c.part.Same s t) (ha : c.part ≠ .msa → AgreeMsa (.submit bal who c) s.msa t.msa)
    (hh : c = .msa .retireMsa → ∀ m, msaOf s who = some m →
      (Handles.handleForMsa cfg.handles s.handles m).isSome = (Handles.handleForMsa cfg.handles t.handles m).isSome) :
    extensions cfg s who c = extensions cfg t who c := by
  cases c with
  | msa c =>
    have hm : s.msa = t.msa := hp
    simp only [extensions]
    rw [validate_congr (env := msaEnv cfg s) (env' := msaEnv cfg t) (s := s.msa) hb
      (fun e m hk => hh (by rw [e]) m hk), hm]
  | handles c =>
    cases c with
    | retire =>
      have hm : s.handles = t.handles := hp
      have hk : msaOf s who = msaOf t who := (ha (by simp [Call.part])).keys who (by simp [Step.keys, Call.keys])
      have h1 : (handlesEnv cfg s).msaOf who = (handlesEnv cfg t).msaOf who := hk
      have h2 : (handlesEnv cfg s).block = (handlesEnv cfg t).block := hb
      simp only [extensions]
      unfold Handles.validateRetire
      rw [h1, h2, hm]
    | _ => rfl
  | _ => rfl

theorem apply_part {cfg : Config} {s t : State} {x : Step} {p : Part} (hx : x.part = some p) (hb : s.block = t.block)
    (hp : p.Same s t) (ha : p ≠ .msa → AgreeMsa x s.msa t.msa) (hs : p ≠ .schemas → AgreeSchemas x s.schemas t.schemas)
    (hh : ∀ bal who, x = .submit bal who (.msa .retireMsa) → ∀ m, msaOf s who = some m →
      (Handles.handleForMsa cfg.handles s.handles m).isSome = (Handles.handleForMsa cfg.handles t.handles m).isSome) :
    p.Same (apply cfg s x) (apply cfg t x) := by
  cases x with
  | newBlock => cases hx
  | upgrade k => cases hx
  | call bal o c => cases hx; exact dispatch_part hb hp ha hs
  | submit bal who c =>
    cases hx
    have hd : c.part.Same ((dispatch cfg bal s (.signed who) c).getD s) ((dispatch cfg bal t (.signed who) c).getD t) :=
      dispatch_part hb hp (fun h => ⟨(ha h).keys, (ha h).delegation, (ha h).target⟩) (fun h => ⟨(hs h).schema, (hs h).grants⟩)
    have he : extensions cfg s who c = extensions cfg t who c :=
      extensions_part hb hp ha (fun e m hk => hh bal who (by rw [e]) m hk)
    simp only [apply, he]
    split
    · exact hd
    · exact hp
  | charge k fee =>
    cases hx
    have hm : s.capacity = t.capacity := hp
    have hk : msaOf s k = msaOf t k := (ha (by simp)).keys k (by simp [Step.keys])
    show ((charge s k fee).getD s).capacity = ((charge t k fee).getD t).capacity
    simp only [charge, hk, hm]
    cases msaOf t k with
    | none => exact hm
    | some m =>
      simp only [Option.bind_eq_bind, Option.bind_some]
      cases Capacity.withdrawFee t.capacity m fee
      · exact hm
      · rfl

/-! ## Lists -/

theorem run_end (cfg : Config) (s : State) (h : List Step) (x : Step) : run cfg s (h ++ [x]) = apply cfg (run cfg s h) x := by
  simp [run]

theorem run_frame (cfg : Config) (s : State) (p : Part) (h : List Step) (hh : ∀ x ∈ h, x.part = some p) :
    (run cfg s h).block = s.block ∧ ∀ q, q ≠ p → q.Same (run cfg s h) s := by
  induction h generalizing s with
  | nil => exact ⟨rfl, fun q _ => .refl q s⟩
  | cons x h ih =>
    obtain ⟨a1, a3⟩ := apply_frame cfg s (hh x List.mem_cons_self)
    obtain ⟨b1, b3⟩ := ih (apply cfg s x) (fun y hy => hh y (List.mem_cons_of_mem _ hy))
    exact ⟨b1.trans a1, fun q hq => (b3 q hq).trans (a3 q hq)⟩

theorem mem_ofPart {p : Part} {h : List Step} {x : Step} (hx : x ∈ ofPart p h) : x.part = some p := by
  simpa using (List.mem_filter.1 hx).2

/-- Every part is as if only the calls of this part had been made. -/
theorem run_parts {cfg : Config} {s : State} (h : List Step) (hp : ∀ x ∈ h, x.part ≠ none) (hu : Undisturbed cfg s h) :
    (run cfg s h).block = s.block ∧ ∀ p : Part, p.Same (run cfg s h) (run cfg s (ofPart p h)) := by
  induction h using List.reverseRecOn with
  | nil => exact ⟨rfl, fun p => .refl p s⟩
  | append_singleton h x ih =>
    have hpre : ∀ p, ofPart p h <+: ofPart p (h ++ [x]) := by
      intro p; unfold ofPart; rw [List.filter_append]; exact List.prefix_append _ _
    obtain ⟨h1, h3⟩ := ih (fun y hy => hp y (List.mem_append_left _ hy))
      ⟨fun y hy hm q hq => hu.accounts y (List.mem_append_left _ hy) hm q (hq.trans (hpre _)),
       fun y hy hm q hq => hu.schemas y (List.mem_append_left _ hy) hm q (hq.trans (hpre _)),
       fun bal who hy q hq q' hq' => hu.handles bal who (List.mem_append_left _ hy) q (hq.trans (hpre _)) q' (hq'.trans (hpre _))⟩
    have hxm : x ∈ h ++ [x] := by simp
    obtain ⟨p, hx⟩ := Option.ne_none_iff_exists'.1 (hp x hxm)
    obtain ⟨a1, a3⟩ := apply_frame cfg (run cfg s h) hx
    rw [run_end]
    refine ⟨a1.trans h1, fun q => ?_⟩
    by_cases hq : q = p
    · subst hq
      have e : ofPart q (h ++ [x]) = ofPart q h ++ [x] := by simp [ofPart, hx]
      rw [e, run_end]
      obtain ⟨b1, b3⟩ := run_frame cfg s q (ofPart q h) (fun y hy => mem_ofPart hy)
      refine apply_part hx (h1.trans b1.symm) (h3 q) (fun hm => ?_) (fun hm => ?_) (fun bal who hc m hk => ?_)
      · have hag := hu.accounts x hxm (by rw [hx]; simpa using hm) (ofPart .msa h) (hpre _)
        have c1 : (run cfg s h).msa = (run cfg s (ofPart .msa h)).msa := h3 .msa
        have c2 : (run cfg s (ofPart q h)).msa = s.msa := b3 .msa (Ne.symm hm)
        rw [c1, c2]
        exact ⟨fun k hk => (hag.keys k hk).symm,
          fun d hd k hk p' hp' => (hag.delegation d hd k hk p' (by rw [hag.keys k hk]; exact hp')).symm,
          fun tg ht => (hag.target tg ht).symm⟩
      · have hag := hu.schemas x hxm (by rw [hx]; simpa using hm) (ofPart .schemas h) (hpre _)
        have c1 : (run cfg s h).schemas = (run cfg s (ofPart .schemas h)).schemas := h3 .schemas
        have c2 : (run cfg s (ofPart q h)).schemas = s.schemas := b3 .schemas (Ne.symm hm)
        rw [c1, c2]
        exact ⟨fun c k hc hk => (hag.schema c k hc hk).symm, fun c hc k hk => (hag.grants c hc k hk).symm⟩
      · subst hc
        cases hx
        have c0 : (run cfg s h).msa = (run cfg s (ofPart .msa h)).msa := h3 .msa
        have c1 : (run cfg s h).handles = (run cfg s (ofPart .handles h)).handles := h3 .handles
        have c2 : (run cfg s (ofPart .msa h)).handles = s.handles := b3 .handles (by simp [Call.part])
        have := hu.handles bal who hxm (ofPart .handles h) (hpre _) (ofPart .msa h) (hpre _) m (by
          unfold msaOf at hk ⊢; rw [← c0]; exact hk)
        show _ = (Handles.handleForMsa cfg.handles (run cfg s (ofPart .msa h)).handles m).isSome
        rw [c1, c2, this]
    · have e : ofPart q (h ++ [x]) = ofPart q h := by
        have : ¬ p = q := fun e => hq e.symm
        simp [ofPart, hx, this]
      rw [e]
      exact (a3 q hq).trans (h3 q)

/-! ## Theorems -/

/-- C171: calls, transactions and payments with capacity within a block, where none changes what a call of another pallet is about.
In whatever way the calls of different pallets are mixed, as long as those of each pallet keep their order, the state afterwards is
the same. -/
theorem C171_order (cfg : Config) (s : State) (h h' : List Step) (hp : ∀ x ∈ h, x.part ≠ none) (hu : Undisturbed cfg s h)
    (hm : h.Perm h') (hs : ∀ p : Part, ofPart p h = ofPart p h') : run cfg s h = run cfg s h' := by
  obtain ⟨a1, a3⟩ := run_parts h hp hu
  obtain ⟨b1, b3⟩ := run_parts (cfg := cfg) (s := s) h' (fun x hx => hp x (hm.mem_iff.2 hx))
    ⟨fun y hy hy' q hq => hu.accounts y (hm.mem_iff.2 hy) hy' q (by rw [hs .msa]; exact hq),
     fun y hy hy' q hq => hu.schemas y (hm.mem_iff.2 hy) hy' q (by rw [hs .schemas]; exact hq),
     fun bal who hy q hq q' hq' => hu.handles bal who (hm.mem_iff.2 hy) q (by rw [hs .handles]; exact hq) q'
       (by rw [hs .msa]; exact hq')⟩
  have c : ∀ p : Part, p.Same (run cfg s h) (run cfg s h') := by
    intro p
    have := a3 p
    rw [hs p] at this
    exact this.trans (b3 p).symm
  have e1 : (run cfg s h).msa = (run cfg s h').msa := c .msa
  have e2 : (run cfg s h).messages = (run cfg s h').messages := c .messages
  have e3 : (run cfg s h).handles = (run cfg s h').handles := c .handles
  have e4 : (run cfg s h).storage = (run cfg s h').storage := c .storage
  have e5 : (run cfg s h).capacity = (run cfg s h').capacity := c .capacity
  have e6 : (run cfg s h).schemas = (run cfg s h').schemas := c .schemas
  have e7 := a1.trans b1.symm
  revert e1 e2 e3 e4 e5 e6 e7
  generalize run cfg s h = t
  generalize run cfg s h' = t'
  intro e1 e2 e3 e4 e5 e6 e7
  cases t; cases t'
  simp_all

/-- C171: each pallet is left as if only its own calls had been made. -/
theorem C171_alone (cfg : Config) (s : State) (h : List Step) (hp : ∀ x ∈ h, x.part ≠ none) (hu : Undisturbed cfg s h) :
    (run cfg s h).msa = (run cfg s (ofPart .msa h)).msa ∧ (run cfg s h).schemas = (run cfg s (ofPart .schemas h)).schemas ∧
    (run cfg s h).messages = (run cfg s (ofPart .messages h)).messages ∧
    (run cfg s h).handles = (run cfg s (ofPart .handles h)).handles ∧
    (run cfg s h).storage = (run cfg s (ofPart .storage h)).storage ∧
    (run cfg s h).capacity = (run cfg s (ofPart .capacity h)).capacity := by
  obtain ⟨-, a⟩ := run_parts h hp hu
  exact ⟨a .msa, a .schemas, a .messages, a .handles, a .storage, a .capacity⟩

/-- Before the example: account 3, of key 40, has been made as well. -/
def exStart : State := run exCfg (.init 1024) (exHist.take 10 ++ [.submit exBal 40 (.msa .create)])

/-- Calls of all pallets: provider 1 writes and posts for account 2, account 2 becomes a provider and takes a handle, account 3 is
given up, a schema is made, tokens are staked, capacity is used. -/
def exMixed : List Step :=
  [.submit exBal 10 (.storage (.upsertPage 2 2 0 0 [5])),
   .submit exBal 20 (.msa (.createProvider [66])),
   .submit exBal 30 (.capacity (.stake 1 100)),
   .submit exBal 20 (.handles (.claim 20 20 (Handles.pl "alice" 30))),
   .submit exBal 10 (.messages (.onchain (some 2) 1 [9])),
   .call exBal .council (.schemas (.createViaGovernance 10 (123 :: List.replicate 10 0) .avroBinary .onChain [])),
   .submit exBal 40 (.msa .retireMsa),
   .charge 10 1]

/-- The same calls in another order. -/
def exMixed' : List Step :=
  [.call exBal .council (.schemas (.createViaGovernance 10 (123 :: List.replicate 10 0) .avroBinary .onChain [])),
   .submit exBal 20 (.msa (.createProvider [66])),
   .submit exBal 40 (.msa .retireMsa),
   .submit exBal 10 (.messages (.onchain (some 2) 1 [9])),
   .submit exBal 20 (.handles (.claim 20 20 (Handles.pl "alice" 30))),
   .submit exBal 30 (.capacity (.stake 1 100)),
   .charge 10 1,
   .submit exBal 10 (.storage (.upsertPage 2 2 0 0 [5]))]

local instance {K V : Type} [DecidableEq K] [DecidableEq V] : DecidableEq (SMap K V) := fun a b =>
  decidable_of_iff (a.entries = b.entries) ⟨fun h => by cases a; cases b; cases h; rfl, congrArg _⟩

local instance : DecidableEq Msa.Delegation := fun a b =>
  decidable_of_iff (a.revokedAt = b.revokedAt ∧ a.perms = b.perms)
    ⟨fun h => by cases a; cases b; cases h.1; cases h.2; rfl, fun h => by rw [h]; exact ⟨rfl, rfl⟩⟩

theorem exMixed_undisturbed : Undisturbed exCfg exStart exMixed := by
  have e1 : ofPart .msa exMixed = [.submit exBal 20 (.msa (.createProvider [66])), .submit exBal 40 (.msa .retireMsa)] := rfl
  have e2 : ofPart .schemas exMixed =
      [.call exBal .council (.schemas (.createViaGovernance 10 (123 :: List.replicate 10 0) .avroBinary .onChain []))] := rfl
  have e3 : ofPart .handles exMixed = [.submit exBal 20 (.handles (.claim 20 20 (Handles.pl "alice" 30)))] := rfl
  refine ⟨fun y hy hp q hq => ?_, fun y hy hp q hq => ?_, fun bal who hy q hq q' hq' m hm => ?_⟩
  · rw [e1, ← List.mem_inits] at hq
    have k1 : ∀ q ∈ [Step.submit exBal 20 (.msa (.createProvider [66])), .submit exBal 40 (.msa .retireMsa)].inits,
        ∀ k ∈ [10, 20, 30], exStart.msa.keyToMsa.get k = (run exCfg exStart q).msa.keyToMsa.get k := by decide +kernel
    have k2 : ∀ q ∈ [Step.submit exBal 20 (.msa (.createProvider [66])), .submit exBal 40 (.msa .retireMsa)].inits,
        exStart.msa.delegations.get (2, 1) = (run exCfg exStart q).msa.delegations.get (2, 1) ∧
        exStart.msa.providers.get 1 = (run exCfg exStart q).msa.providers.get 1 := by decide +kernel
    have k3 : exStart.msa.keyToMsa.get 10 = some 1 := by decide +kernel
    simp only [exMixed, List.mem_cons, List.not_mem_nil, or_false] at hy
    rcases hy with rfl | rfl | rfl | rfl | rfl | rfl | rfl | rfl <;>
      first
      | exact absurd rfl hp
      | (refine ⟨fun k hk => k1 q hq k ?_, fun d hd k hk p hp' => ?_, fun t ht => ?_⟩
         · revert k; simp [Step.keys, Call.keys, Origin.signer]
         · first
           | (cases hd; done)
           | (simp [Step.keys, Call.keys] at hk
              cases hd
              subst hk
              rw [k3] at hp'
              cases hp'
              exact (k2 q hq).1)
         · first
           | (cases ht; done)
           | (cases ht; exact (k2 q hq).2))
  · rw [e2, ← List.mem_inits] at hq
    have k1 : ∀ q ∈ [Step.call exBal .council
          (.schemas (.createViaGovernance 10 (123 :: List.replicate 10 0) .avroBinary .onChain []))].inits,
        ∀ k ∈ [1, 2], Schemas.getSchemaInfoById exStart.schemas k = Schemas.getSchemaInfoById (run exCfg exStart q).schemas k := by
      decide +kernel
    simp only [exMixed, List.mem_cons, List.not_mem_nil, or_false] at hy
    rcases hy with rfl | rfl | rfl | rfl | rfl | rfl | rfl | rfl <;>
      first
      | exact absurd rfl hp
      | (refine ⟨fun c k hc hk => ?_, fun c hc k hk => ?_⟩
         · first
           | (cases hc; done)
           | (cases hc; cases hk; done)
           | (cases hc; cases hk; exact k1 q hq _ (by simp))
         · first
           | (cases hc; done)
           | (cases hc; exact absurd hk (by simp [Call.grants])))
  · simp [exMixed] at hy
    obtain ⟨rfl, rfl⟩ := hy
    rw [e1, ← List.mem_inits] at hq'
    rw [e3, ← List.mem_inits] at hq
    have k1 : ∀ q ∈ [Step.submit exBal 20 (.msa (.createProvider [66])), .submit exBal 40 (.msa .retireMsa)].inits,
        msaOf (run exCfg exStart q) 40 = some 3 ∨ msaOf (run exCfg exStart q) 40 = none := by decide +kernel
    have k2 : ∀ q ∈ [Step.submit exBal 20 (.handles (.claim 20 20 (Handles.pl "alice" 30)))].inits,
        (Handles.handleForMsa exCfg.handles exStart.handles 3).isSome =
          (Handles.handleForMsa exCfg.handles (run exCfg exStart q).handles 3).isSome := by decide +kernel
    rcases k1 q' hq' with h | h
    · rw [h] at hm; cases hm; exact k2 q hq
    · rw [h] at hm; cases hm

/-- Hypotheses met, and every one of these calls does something. -/
example : run exCfg exStart exMixed = run exCfg exStart exMixed' ∧
    Stateful.readAt exCfg.storage (run exCfg exStart exMixed).storage (.page 2 2 0) ≠
      Stateful.readAt exCfg.storage exStart.storage (.page 2 2 0) ∧
    msaOf exStart 40 = some 3 ∧ msaOf (run exCfg exStart exMixed) 40 = none ∧
    (run exCfg exStart exMixed).schemas.lastId = 3 ∧
    (Handles.handleForMsa exCfg.handles (run exCfg exStart exMixed).handles 2).isSome = true := by
  refine ⟨C171_order _ _ _ _ (by decide) exMixed_undisturbed ?_ (fun p => by cases p <;> rfl), by decide +kernel,
    by decide +kernel, by decide +kernel, by decide +kernel, by decide +kernel⟩
  unfold exMixed exMixed'
  generalize Step.submit exBal 10 (.storage (.upsertPage 2 2 0 0 [5])) = a
  generalize Step.submit exBal 20 (.msa (.createProvider [66])) = b
  generalize Step.submit exBal 30 (.capacity (.stake 1 100)) = c
  generalize Step.submit exBal 20 (.handles (.claim 20 20 (Handles.pl "alice" 30))) = d
  generalize Step.submit exBal 10 (.messages (.onchain (some 2) 1 [9])) = e
  generalize Step.call exBal .council (.schemas (.createViaGovernance 10 (123 :: List.replicate 10 0) .avroBinary .onChain [])) = f
  generalize Step.submit exBal 40 (.msa .retireMsa) = g
  generalize Step.charge 10 1 = i
  classical
  rw [List.perm_iff_count]
  intro x
  simp only [List.count_cons, List.count_nil]
  omega

/-- Where a call changes what another is about, their order matters: a provider posts for a user before and after the user has
consented. -/
example : (run exCfg (run exCfg (.init 1024) (exHist.take 6)) [.submit exBal 10 (.msa (.grantDelegation 20 20 ⟨1, [1, 2], 50⟩)),
      .submit exBal 10 (.messages (.onchain (some 2) 1 [7]))]).messages.index = 1 ∧
    (run exCfg (run exCfg (.init 1024) (exHist.take 6)) [.submit exBal 10 (.messages (.onchain (some 2) 1 [7])),
      .submit exBal 10 (.msa (.grantDelegation 20 20 ⟨1, [1, 2], 50⟩))]).messages.index = 0 := by
  decide +kernel

end Verif.Chain
