import Verif.Msa.AcceptLemmas
/-!
# When account calls succeed, and exactly what they then change
-/

namespace Verif.Msa

open SigRegistry (Rep)
open SigRegistry.Spec (Queue)

/-! ## Specification -/

/-- Number of accounts created so far. -/
def issued (s : State) : Nat := (createdIds s.events).length

/-- The keys that an account has according to its counter. -/
def countOf (s : State) (m : MsaId) : Nat := (s.keyCount.get m).getD 0

/-- An off-chain signature is accepted: unexpired, not too far from expiring, not remembered, and there is room
to remember it, possibly by forgetting the oldest one, which has expired. -/
def SigOk (cfg : Config) (q : Queue) (now : BlockNumber) (sig : Signature) (exp : BlockNumber) : Prop :=
  now < exp ∧ exp < now + cfg.window ∧ sig ∉ q.map Prod.fst ∧
  (q.length < cfg.maxSignatures ∨ ∃ o rest, q = o :: rest ∧ o.2 < now)

/-- The signatures remembered after that. -/
def remember (cfg : Config) (q : Queue) (sig : Signature) (exp : BlockNumber) : Queue :=
  (if q.length < cfg.maxSignatures then q else q.tail) ++ [(sig, exp)]

/-- A schema list is acceptable: not too long, and every schema exists. -/
def ListOk (cfg : Config) (env : Env) (ids : List SchemaId) : Prop :=
  ids.length ≤ cfg.maxGrants ∧ ∀ id ∈ ids, id ≤ env.latestSchema

/-- A name can be registered for the account of a key. -/
def NameOk (cfg : Config) (s : State) (key : AccountId) (name : Bytes) : Prop :=
  name.length ≤ cfg.maxNameSize ∧ ∃ m, s.keyToMsa.get key = some m ∧ s.providers.get m = none

/-- A delegation can be revoked. -/
def Revocable (s : State) (delegator provider : MsaId) : Prop :=
  ∃ d, s.delegations.get (delegator, provider) = some d ∧ d.revokedAt = 0

/-- The schemas that a delegation records. -/
def recorded (s : State) (delegator provider : MsaId) : Finset SchemaId :=
  ((s.delegations.get (delegator, provider)).getD .default).perms.keys.toFinset

/-- When a call should succeed, given the remembered signatures. Three kinds of fee-free calls by a key without
account succeed without effect; the checks of the transaction extension are `Submittable`. -/
def Permitted (cfg : Config) (env : Env) (s : State) (q : Queue) : Origin → Call → Prop
  | .signed who, .create => s.keyToMsa.get who = none ∧ issued s + 1 < 2 ^ 64
  | .signed who, .createSponsoredAccountWithDelegation dk proof p =>
    cfg.verify proof dk (wrap p.encode) = true ∧ SigOk cfg q env.block proof p.expiration ∧
    s.keyToMsa.get who = some p.authorizedMsaId ∧ s.providers.get p.authorizedMsaId ≠ none ∧
    s.keyToMsa.get dk = none ∧ issued s + 1 < 2 ^ 64 ∧ ListOk cfg env p.schemaIds
  | .signed who, .createProvider name => NameOk cfg s who name
  | .signed who, .grantDelegation dk proof p =>
    cfg.verify proof dk (wrap p.encode) = true ∧ SigOk cfg q env.block proof p.expiration ∧
    s.keyToMsa.get who = some p.authorizedMsaId ∧ s.providers.get p.authorizedMsaId ≠ none ∧
    ListOk cfg env p.schemaIds ∧ ∃ delegator, s.keyToMsa.get dk = some delegator ∧
      delegator ≠ p.authorizedMsaId ∧
      (recorded s delegator p.authorizedMsaId ∪ p.schemaIds.toFinset).card ≤ cfg.maxGrants
  | .signed who, .revokeDelegationByDelegator provider =>
    ∀ m, s.keyToMsa.get who = some m → Revocable s m provider
  | .signed who, .revokeDelegationByProvider delegator =>
    ∀ m, s.keyToMsa.get who = some m → Revocable s delegator m
  | .signed _, .addPublicKeyToMsa ok op np p =>
    cfg.verify op ok (wrap p.encode) = true ∧ cfg.verify np p.newPublicKey (wrap p.encode) = true ∧
    SigOk cfg q env.block op p.expiration ∧
    SigOk cfg (remember cfg q op p.expiration) env.block np p.expiration ∧
    s.keyToMsa.get ok = some p.msaId ∧ s.keyToMsa.get p.newPublicKey = none ∧
    countOf s p.msaId + 1 ≤ cfg.maxKeys
  | .signed who, .deleteMsaPublicKey key => s.keyToMsa.get who ≠ none → s.keyToMsa.get key ≠ none
  | .signed who, .revokeSchemaPermissions provider ids =>
    ListOk cfg env ids ∧ ∃ m d, s.keyToMsa.get who = some m ∧ s.delegations.get (m, provider) = some d ∧
      ∀ id ∈ ids, d.perms.get id ≠ none
  | .signed _, .retireMsa => True
  | .signed who, .proposeToBeProvider name => name.length ≤ cfg.maxNameSize ∧ s.keyToMsa.get who ≠ none
  | .governance, .createProviderViaGovernance key name => NameOk cfg s key name
  | _, _ => False

/-- A delegation is in force at a block. -/
def InForce (s : State) (delegator provider : MsaId) (block : BlockNumber) : Prop :=
  ∃ d, s.delegations.get (delegator, provider) = some d ∧ (d.revokedAt = 0 ∨ block ≤ d.revokedAt)

/-- What the transaction extension should demand of a directly submitted call. -/
def Submittable (env : Env) (s : State) (who : AccountId) : Call → Prop
  | .revokeDelegationByDelegator provider =>
    ∃ m, s.keyToMsa.get who = some m ∧ InForce s m provider env.block
  | .revokeDelegationByProvider delegator =>
    ∃ m, s.keyToMsa.get who = some m ∧ InForce s delegator m env.block
  | .deleteMsaPublicKey key =>
    who ≠ key ∧ ∃ m, s.keyToMsa.get who = some m ∧ s.keyToMsa.get key = some m
  | .retireMsa => ∃ m, s.keyToMsa.get who = some m ∧ s.providers.get m = none ∧ env.hasHandle m = false ∧
    countOf s m = 1 ∧ ∀ p, ¬ InForce s m p env.block
  | _ => True

/-- The account of a key after a successful call. -/
def keyAfter (s : State) : Origin → Call → AccountId → Option MsaId
  | .signed who, .create, k => if k = who then some (issued s + 1) else s.keyToMsa.get k
  | .signed _, .createSponsoredAccountWithDelegation dk _ _, k =>
    if k = dk then some (issued s + 1) else s.keyToMsa.get k
  | .signed _, .addPublicKeyToMsa _ _ _ p, k =>
    if k = p.newPublicKey then some p.msaId else s.keyToMsa.get k
  | .signed who, .deleteMsaPublicKey key, k =>
    if k = key ∧ s.keyToMsa.get who ≠ none then none else s.keyToMsa.get k
  | .signed who, .retireMsa, k => if k = who then none else s.keyToMsa.get k
  | _, _, k => s.keyToMsa.get k

/-- The counter of keys of an account after a successful call. A deletion counts down the account of the
caller, which for a wrapped call need not be the account of the key. -/
def countAfter (s : State) : Origin → Call → MsaId → Nat
  | .signed _, .create, m => if m = issued s + 1 then 1 else countOf s m
  | .signed _, .createSponsoredAccountWithDelegation _ _ _, m => if m = issued s + 1 then 1 else countOf s m
  | .signed _, .addPublicKeyToMsa _ _ _ p, m => if m = p.msaId then countOf s m + 1 else countOf s m
  | .signed who, .deleteMsaPublicKey _, m => if s.keyToMsa.get who = some m then countOf s m - 1 else countOf s m
  | .signed who, .retireMsa, m => if s.keyToMsa.get who = some m then countOf s m - 1 else countOf s m
  | _, _, m => countOf s m

/-- The registered name of a provider after a successful call. -/
def providerAfter (s : State) : Origin → Call → MsaId → Option Bytes
  | .signed who, .createProvider name, m => if s.keyToMsa.get who = some m then some name else s.providers.get m
  | .governance, .createProviderViaGovernance key name, m =>
    if s.keyToMsa.get key = some m then some name else s.providers.get m
  | _, _, m => s.providers.get m

/-- When a delegation was revoked (`some 0`: not), if it exists. -/
def revokedAt (s : State) (d p : MsaId) : Option BlockNumber := (s.delegations.get (d, p)).map (·.revokedAt)

/-- When a schema of a delegation was revoked (`some 0`: not), if it is recorded. -/
def schemaRevokedAt (s : State) (d p : MsaId) (k : SchemaId) : Option BlockNumber :=
  (s.delegations.get (d, p)).bind (fun x => x.perms.get k)

/-- `revokedAt` after a successful call. -/
def revokedAfter (env : Env) (s : State) : Origin → Call → MsaId → MsaId → Option BlockNumber
  | .signed _, .createSponsoredAccountWithDelegation _ _ pl, d, p =>
    if d = issued s + 1 ∧ p = pl.authorizedMsaId then some 0 else revokedAt s d p
  | .signed _, .grantDelegation dk _ pl, d, p =>
    if s.keyToMsa.get dk = some d ∧ p = pl.authorizedMsaId then some 0 else revokedAt s d p
  | .signed who, .revokeDelegationByDelegator provider, d, p =>
    if s.keyToMsa.get who = some d ∧ p = provider then some env.block else revokedAt s d p
  | .signed who, .revokeDelegationByProvider delegator, d, p =>
    if d = delegator ∧ s.keyToMsa.get who = some p then some env.block else revokedAt s d p
  | _, _, d, p => revokedAt s d p

/-- `schemaRevokedAt` after a successful call: a grant makes the listed schemas current and revokes the other
current ones; a revocation of schemas sets the block. -/
def schemaRevokedAfter (env : Env) (s : State) : Origin → Call → MsaId → MsaId → SchemaId → Option BlockNumber
  | .signed _, .createSponsoredAccountWithDelegation _ _ pl, d, p, k =>
    if d = issued s + 1 ∧ p = pl.authorizedMsaId then (if k ∈ pl.schemaIds then some 0 else none)
    else schemaRevokedAt s d p k
  | .signed _, .grantDelegation dk _ pl, d, p, k =>
    if s.keyToMsa.get dk = some d ∧ p = pl.authorizedMsaId then
      (if k ∈ pl.schemaIds then some 0
       else if schemaRevokedAt s d p k = some 0 then some env.block else schemaRevokedAt s d p k)
    else schemaRevokedAt s d p k
  | .signed who, .revokeSchemaPermissions provider ids, d, p, k =>
    if s.keyToMsa.get who = some d ∧ p = provider ∧ k ∈ ids then some env.block else schemaRevokedAt s d p k
  | _, _, d, p, k => schemaRevokedAt s d p k

/-! ## Lemmas -/

theorem specRegister_iff {cfg : Config} {q q' : Queue} {now sig exp} (hcap : 1 ≤ cfg.maxSignatures)
    (hb : q.length ≤ cfg.maxSignatures) :
    SigRegistry.Spec.register cfg.window cfg.maxSignatures q now sig exp = .ok q' ↔
      SigOk cfg q now sig exp ∧ q' = remember cfg q sig exp := by
  unfold SigRegistry.Spec.register SigOk remember
  by_cases h1 : exp < now + cfg.window
  swap
  · simp [h1]
  by_cases h2 : now < exp
  swap
  · simp [h1, h2]
  by_cases h3 : sig ∈ q.map Prod.fst
  · simp only [h1, h2, h3, not_true_eq_false, if_false, if_true, false_and, and_false]
    simp
  simp only [h1, h2, h3, not_true_eq_false, if_false, true_and, not_false_eq_true]
  by_cases h4 : q.length < cfg.maxSignatures
  · simp [h4, eq_comm]
  · simp only [h4, if_false, false_or]
    cases q with
    | nil => simp at h4; omega
    | cons o rest =>
      simp only [List.cons.injEq, List.tail_cons]
      constructor
      · intro h
        split at h
        · rename_i h5
          cases h
          exact ⟨⟨o, rest, ⟨rfl, rfl⟩, h5⟩, rfl⟩
        · simp at h
      · rintro ⟨⟨o', rest', ⟨rfl, rfl⟩, h5⟩, rfl⟩
        simp only [if_pos h5]

theorem register_iff {cfg : Config} (hcap : 2 ≤ cfg.maxSignatures) {reg : SigRegistry.Registry} {q : Queue}
    (hr : Rep cfg.maxSignatures reg q) {now sig exp} :
    (∃ reg', SigRegistry.register cfg.window cfg.maxSignatures reg now sig exp = .ok reg') ↔
      SigOk cfg q now sig exp := by
  have h := SigRegistry.register_refines (window := cfg.window) hcap hr now sig exp
  constructor
  · rintro ⟨reg', e⟩
    rw [e] at h
    obtain ⟨q', h, _⟩ := h
    exact ((specRegister_iff (by omega) hr.bounded).1 h).1
  · intro ha
    cases e : SigRegistry.register cfg.window cfg.maxSignatures reg now sig exp with
    | ok reg' => exact ⟨reg', rfl⟩
    | error err =>
      rw [e] at h
      rw [(specRegister_iff (by omega) hr.bounded).2 ⟨ha, rfl⟩] at h
      simp at h

theorem register_rep {cfg : Config} (hcap : 2 ≤ cfg.maxSignatures) {reg reg' : SigRegistry.Registry} {q : Queue}
    (hr : Rep cfg.maxSignatures reg q) {now sig exp}
    (e : SigRegistry.register cfg.window cfg.maxSignatures reg now sig exp = .ok reg') :
    Rep cfg.maxSignatures reg' (remember cfg q sig exp) := by
  have h := SigRegistry.register_refines (window := cfg.window) hcap hr now sig exp
  rw [e] at h
  obtain ⟨q', h, h'⟩ := h
  rw [((specRegister_iff (by omega) hr.bounded).1 h).2] at h'
  exact h'

theorem registerSignature_eq {cfg env s sig exp s'} : registerSignature cfg env s sig exp = .ok s' ↔
    ∃ r, SigRegistry.register cfg.window cfg.maxSignatures s.registry env.block sig exp = .ok r ∧
      { s with registry := r } = s' := by
  constructor
  · intro h
    obtain ⟨r, hr, rfl⟩ := registerSignature_ok h
    exact ⟨r, hr, rfl⟩
  · rintro ⟨r, hr, rfl⟩
    unfold registerSignature
    rw [hr]

theorem issued_eq {s : State} (h : IdInv s) : issued s = s.maxMsaId := by
  rw [issued, h.ids]; simp

theorem addKey_iff {cfg s m k} (h255 : cfg.maxKeys ≤ 255) {s' : State} :
    addKey cfg s m k = .ok s' ↔
      s.keyToMsa.get k = none ∧ countOf s m + 1 ≤ cfg.maxKeys ∧ s' = withKey s m k := by
  constructor
  · intro h
    obtain ⟨h1, _, h3, h4⟩ := addKey_ok h
    exact ⟨h1, h3, h4⟩
  · rintro ⟨h1, h2, rfl⟩
    simp only [addKey, bind_eq_ok_iff, ensure_eq_ok_iff, pure_eq_ok_iff]
    unfold countOf at h2
    exact ⟨(), h1, (), by omega, (), h2, rfl⟩

theorem contains_iff_ne {K V : Type} [DecidableEq K] (m : SMap K V) (k : K) :
    m.contains k = true ↔ m.get k ≠ none := by
  rw [SMap.contains, Option.isSome_iff_ne_none]

theorem createProviderFor_iff {cfg s m name} : (∃ s', createProviderFor cfg s m name = .ok s') ↔
    name.length ≤ cfg.maxNameSize ∧ s.providers.get m = none := by
  simp only [createProviderFor, bind_eq_ok_iff, ensure_eq_ok_iff, pure_eq_ok_iff]
  exact ⟨fun ⟨_, _, h1, _, h2, _⟩ => ⟨h1, h2⟩, fun ⟨h1, h2⟩ => ⟨_, (), h1, (), h2, rfl⟩⟩

theorem revokeProvider_iff {env s p d} : (∃ s', revokeProvider env s p d = .ok s') ↔ Revocable s d p := by
  simp only [revokeProvider, bind_eq_ok_iff, ensure_eq_ok_iff, okOr_eq_ok_iff, pure_eq_ok_iff, Revocable]
  exact ⟨fun ⟨_, x, h1, _, h2, _⟩ => ⟨x, h1, h2⟩, fun ⟨x, h1, h2⟩ => ⟨_, x, h1, (), h2, rfl⟩⟩

theorem deleteKeyForMsa_iff {s m k} (hc : ∀ n, s.keyCount.get m = some n → 1 ≤ n) :
    (∃ s', deleteKeyForMsa s m k = .ok s') ↔ s.keyToMsa.get k ≠ none := by
  simp only [deleteKeyForMsa, bind_eq_ok_iff, ensure_eq_ok_iff, Option.isSome_iff_ne_none]
  constructor
  · rintro ⟨_, _, h, _⟩; exact h
  · intro h
    cases hk : s.keyCount.get m with
    | none => exact ⟨_, (), h, rfl⟩
    | some n =>
      have := hc n hk
      match n, this with
      | 1, _ => exact ⟨_, (), h, rfl⟩
      | n + 2, _ => exact ⟨_, (), h, rfl⟩

theorem createSponsored_iff {cfg env s q who dk proof p} (hcap : 2 ≤ cfg.maxSignatures) (h1k : 1 ≤ cfg.maxKeys)
    (h255 : cfg.maxKeys ≤ 255) (hi : AInv cfg s q) :
    (∃ s', createSponsored cfg env s who dk proof p = .ok s') ↔
      Permitted cfg env s q (.signed who) (.createSponsoredAccountWithDelegation dk proof p) := by
  have hiss := issued_eq hi.ids
  have hcnt : countOf s (s.maxMsaId + 1) = 0 := by
    unfold countOf
    cases hk : s.keyCount.get (s.maxMsaId + 1) with
    | none => rfl
    | some n => have := (hi.counts _ _ hk).2; omega
  constructor
  · rintro ⟨s', h⟩
    obtain ⟨r, d, g1, g2, g3, g4, g5, g6, g7, g8, g9, g10, g11, _⟩ := createSponsored_ok h
    refine ⟨g1, (register_iff hcap hi.rep).1 ⟨r, g2⟩, g3, (contains_iff_ne _ _).1 g4, g6, ?_, g10, g11⟩
    rw [hiss]; exact g5
  · rintro ⟨g1, g2, g3, g4, g5, g6, g7⟩
    obtain ⟨r, hr⟩ := (register_iff hcap hi.rep).2 g2
    rw [hiss] at g6
    have hcard : (schemaSet Delegation.default ∪ p.schemaIds.toFinset).card ≤ cfg.maxGrants := by
      have : schemaSet Delegation.default = ∅ := rfl
      rw [this, Finset.empty_union]
      exact (List.toFinset_card_le _).trans g7.1
    obtain ⟨d, hd⟩ := (tryInsertSchemas_iff (d := .default) (Nat.zero_le _)).2 hcard
    have hn : s.delegations.get (s.maxMsaId + 1, p.authorizedMsaId) = none := by
      cases hk : s.delegations.get (s.maxMsaId + 1, p.authorizedMsaId) with
      | none => rfl
      | some x => have := hi.dels _ _ _ hk; omega
    simp only [createSponsored, verifySignature, ensureValidMsaKey, getNextMsaId, addProvider, isRegisteredProvider,
      bind_eq_ok_iff, ensure_eq_ok_iff, okOr_eq_ok_iff, pure_eq_ok_iff, registerSignature_eq, addKey_iff h255,
      ensureAllSchemaIdsAreValid_iff]
    refine ⟨_, (), g1, { s with registry := r }, ⟨r, hr, rfl⟩, _, g3, (), rfl, (),
      ensure_eq_ok_iff.2 ((contains_iff_ne _ _).2 g4), _,
      ⟨(), g6, rfl⟩, _, ⟨g5, ?_, rfl⟩, _, ⟨(), ?_, (), g7, d, hd, rfl⟩, rfl⟩
    · show countOf s (s.maxMsaId + 1) + 1 ≤ _
      omega
    · simp only [withKey, hn, Option.isNone_none]

theorem grantDelegation_iff {cfg env s q who dk proof p} (hcap : 2 ≤ cfg.maxSignatures) (hi : AInv cfg s q) :
    (∃ s', grantDelegation cfg env s who dk proof p = .ok s') ↔
      Permitted cfg env s q (.signed who) (.grantDelegation dk proof p) := by
  have hsz : ∀ key, ((s.delegations.get key).getD .default).perms.size ≤ cfg.maxGrants := by
    intro key
    cases hk : s.delegations.get key with
    | none => exact Nat.zero_le _
    | some x => exact hi.grants _ _ hk
  constructor
  · rintro ⟨s', h⟩
    obtain ⟨r, m, d, g1, g2, g3, g4, g5, g6, g7, _⟩ := grantDelegation_ok h
    obtain ⟨u1, u2, u3⟩ := (upsertDelegation_iff (hsz _)).1 ⟨d, g7⟩
    exact ⟨g1, (register_iff hcap hi.rep).1 ⟨r, g2⟩, g3, (contains_iff_ne _ _).1 g6, ⟨u1, u2⟩, m, g4, g5, u3⟩
  · rintro ⟨g1, g2, g3, g4, ⟨u1, u2⟩, m, g5, g6, u3⟩
    obtain ⟨r, hr⟩ := (register_iff hcap hi.rep).2 g2
    obtain ⟨d, hd⟩ := (upsertDelegation_iff (env := env) (hsz (m, p.authorizedMsaId))).2 ⟨u1, u2, u3⟩
    simp only [grantDelegation, verifySignature, ensureValidMsaKey, ensureValidRegisteredProvider,
      upsertSchemaPermissions, isRegisteredProvider, bind_eq_ok_iff, ensure_eq_ok_iff, okOr_eq_ok_iff,
      pure_eq_ok_iff, registerSignature_eq]
    exact ⟨_, (), g1, { s with registry := r }, ⟨r, hr, rfl⟩, (p.authorizedMsaId, m),
      ⟨_, g3, _, g5, (), g6, (), ensure_eq_ok_iff.2 ((contains_iff_ne _ _).2 g4), rfl⟩, (), rfl, d, hd, rfl⟩

theorem addPublicKeyToMsa_iff {cfg env s q ok op np p} {who : AccountId} (hcap : 2 ≤ cfg.maxSignatures)
    (h255 : cfg.maxKeys ≤ 255) (hi : AInv cfg s q) :
    (∃ s', addPublicKeyToMsa cfg env s ok op np p = .ok s') ↔
      Permitted cfg env s q (.signed who) (.addPublicKeyToMsa ok op np p) := by
  constructor
  · rintro ⟨s', h⟩
    obtain ⟨r1, r2, g1, g2, g3, g4, g5, g6, g7, _⟩ := addPublicKeyToMsa_ok h
    exact ⟨g1, g2, (register_iff hcap hi.rep).1 ⟨r1, g3⟩,
      (register_iff hcap (register_rep hcap hi.rep g3)).1 ⟨r2, g4⟩, g5, g6, g7⟩
  · rintro ⟨g1, g2, g3, g4, g5, g6, g7⟩
    obtain ⟨r1, hr1⟩ := (register_iff hcap hi.rep).2 g3
    obtain ⟨r2, hr2⟩ := (register_iff hcap (register_rep hcap hi.rep hr1)).2 g4
    simp only [addPublicKeyToMsa, verifySignature, ensureValidMsaKey, bind_eq_ok_iff, ensure_eq_ok_iff,
      okOr_eq_ok_iff, pure_eq_ok_iff, registerSignature_eq, addKey_iff h255]
    exact ⟨_, (), g1, (), g2, { s with registry := r1 }, ⟨r1, hr1, rfl⟩, { s with registry := r2 },
      ⟨r2, hr2, rfl⟩, _, g5, (), rfl, _, ⟨g6, g7, rfl⟩, rfl⟩

/-! ## C85 -/

/-- C85: after every history, a call, whether submitted or wrapped in another, succeeds exactly if it is
permitted. -/
theorem C85_accepted_iff (cfg : Config) (hcap : 2 ≤ cfg.maxSignatures) (h1k : 1 ≤ cfg.maxKeys)
    (h255 : cfg.maxKeys ≤ 255) (hist : List Step) (env : Env) (o : Origin) (c : Call) :
    let s := run cfg State.init hist
    (∃ s', dispatch cfg env s o c = .ok s') ↔ Permitted cfg env s (held cfg hist) o c := by
  intro s
  have hi : AInv cfg s (held cfg hist) := aInv_run cfg hcap hist
  generalize held cfg hist = q at *
  clear_value s
  have hgov : ∀ {α : Type} (f : AccountId → Except Err State),
      (∃ s', (do let who ← ensureSigned .governance; f who) = Except.ok s') ↔ False := by
    intro _ f
    simp [ensureSigned, bind_eq_ok_iff]
  have hsig : ∀ (who : AccountId) (f : AccountId → Except Err State),
      (∃ s', (do let who ← ensureSigned (.signed who); f who) = Except.ok s') ↔ ∃ s', f who = .ok s' := by
    intro who f
    simp [ensureSigned, bind_eq_ok_iff]
  have hkey : ∀ (k : AccountId) (m : MsaId), ensureValidMsaKey s k = .ok m ↔ s.keyToMsa.get k = some m :=
    fun _ _ => okOr_eq_ok_iff
  have hname : ∀ (k : AccountId) (name : Bytes),
      (∃ s', (do let m ← ensureValidMsaKey s k; createProviderFor cfg s m name) = Except.ok s') ↔
        NameOk cfg s k name := by
    intro k name
    simp only [bind_eq_ok_iff, hkey, NameOk]
    constructor
    · rintro ⟨s', m, h1, h2⟩
      obtain ⟨h3, h4⟩ := createProviderFor_iff.1 ⟨s', h2⟩
      exact ⟨h3, m, h1, h4⟩
    · rintro ⟨h3, m, h1, h4⟩
      obtain ⟨s', h2⟩ := createProviderFor_iff.2 ⟨h3, h4⟩
      exact ⟨s', m, h1, h2⟩
  cases o with
  | governance =>
    cases c with
    | createProviderViaGovernance key name => exact hname key name
    | _ => exact hgov (α := Unit) _
  | signed who =>
    cases c with
    | create =>
      refine (hsig who _).trans ?_
      have hiss := issued_eq hi.ids
      have hcnt : countOf s (s.maxMsaId + 1) = 0 := by
        unfold countOf
        cases hk : s.keyCount.get (s.maxMsaId + 1) with
        | none => rfl
        | some n => have := (hi.counts _ _ hk).2; omega
      simp only [create, getNextMsaId, bind_eq_ok_iff, ensure_eq_ok_iff, pure_eq_ok_iff, addKey_iff h255,
        Permitted, hiss]
      constructor
      · rintro ⟨_, _, ⟨_, h1, rfl⟩, _, ⟨h2, _, _⟩, _⟩
        exact ⟨h2, h1⟩
      · rintro ⟨h2, h1⟩
        exact ⟨_, _, ⟨(), h1, rfl⟩, _, ⟨h2, by omega, rfl⟩, rfl⟩
    | createSponsoredAccountWithDelegation dk proof p =>
      exact (hsig who _).trans (createSponsored_iff hcap h1k h255 hi)
    | createProvider name => exact (hsig who _).trans (hname who name)
    | grantDelegation dk proof p => exact (hsig who _).trans (grantDelegation_iff hcap hi)
    | revokeDelegationByDelegator provider =>
      refine (hsig who _).trans ?_
      simp only [revokeDelegationByDelegator, Permitted]
      cases hw : s.keyToMsa.get who with
      | none => simp
      | some m => simp only [Option.some.injEq, forall_eq']; exact revokeProvider_iff
    | revokeDelegationByProvider delegator =>
      refine (hsig who _).trans ?_
      simp only [revokeDelegationByProvider, Permitted]
      cases hw : s.keyToMsa.get who with
      | none => simp
      | some m => simp only [Option.some.injEq, forall_eq']; exact revokeProvider_iff
    | addPublicKeyToMsa ok op np p => exact (hsig who _).trans (addPublicKeyToMsa_iff hcap h255 hi)
    | deleteMsaPublicKey key =>
      refine (hsig who _).trans ?_
      simp only [deleteMsaPublicKey, Permitted]
      cases hw : s.keyToMsa.get who with
      | none => simp
      | some m =>
        have := deleteKeyForMsa_iff (k := key) (fun n hn => (hi.counts m n hn).1)
        simp only [bind_eq_ok_iff, pure_eq_ok_iff, ne_eq, reduceCtorEq, not_false_eq_true, forall_const]
        rw [← ne_eq, ← this]
        exact ⟨fun ⟨_, s1, h, _⟩ => ⟨s1, h⟩, fun ⟨s1, h⟩ => ⟨_, s1, h, rfl⟩⟩
    | revokeSchemaPermissions provider ids =>
      refine (hsig who _).trans ?_
      simp only [revokeSchemaPermissions, revokePermissionsForSchemas, bind_eq_ok_iff, hkey, okOr_eq_ok_iff,
        ensureAllSchemaIdsAreValid_iff, pure_eq_ok_iff, Permitted, ListOk]
      constructor
      · rintro ⟨_, m, h1, d, h2, _, h3, d', h4, _⟩
        exact ⟨h3, m, d, h1, h2, fun id hid => (contains_iff_ne _ _).1 (tryGetMutSchemas_iff.1 ⟨d', h4⟩ id hid)⟩
      · rintro ⟨h3, m, d, h1, h2, h5⟩
        obtain ⟨d', h4⟩ := (tryGetMutSchemas_iff (b := env.block)).2
          (fun id hid => (contains_iff_ne _ _).2 (h5 id hid))
        exact ⟨_, m, h1, d, h2, (), h3, d', h4, rfl⟩
    | retireMsa =>
      refine (hsig who _).trans ?_
      simp only [retireMsa, Permitted, iff_true]
      cases hw : s.keyToMsa.get who with
      | none => exact ⟨_, rfl⟩
      | some m =>
        obtain ⟨s1, h⟩ := (deleteKeyForMsa_iff (k := who) (fun n hn => (hi.counts m n hn).1)).2 (by rw [hw]; simp)
        simp only [bind_eq_ok_iff, pure_eq_ok_iff]
        exact ⟨_, s1, h, rfl⟩
    | proposeToBeProvider name =>
      refine (hsig who _).trans ?_
      simp only [proposeToBeProvider, bind_eq_ok_iff, ensure_eq_ok_iff, pure_eq_ok_iff, hkey, Permitted,
        Option.ne_none_iff_exists']
      exact ⟨fun ⟨_, _, h1, m, h2, _⟩ => ⟨h1, m, h2⟩, fun ⟨h1, m, h2⟩ => ⟨_, (), h1, m, h2, rfl⟩⟩
    | createProviderViaGovernance key name => simp [dispatch, Permitted]

/-- The checks of a delegation by the extension. -/
theorem validNow_iff {env s p d} :
    (∃ x, ensureValidDelegation env s p d none = .ok x) ↔ InForce s d p env.block := by
  simp only [ensureValidDelegation, bind_eq_ok_iff, okOr_eq_ok_iff, InForce]
  constructor
  · rintro ⟨x, info, h1, b, hb, h2⟩
    cases hb
    refine ⟨info, h1, ?_⟩
    split at h2
    · left; assumption
    · simp only [bind_eq_ok_iff, ensure_eq_ok_iff] at h2
      obtain ⟨_, h2, _⟩ := h2
      exact .inr h2
  · rintro ⟨info, h1, h2⟩
    refine ⟨info, info, h1, env.block, rfl, ?_⟩
    split
    · rfl
    · rename_i h0
      simp only [bind_eq_ok_iff, ensure_eq_ok_iff]
      exact ⟨(), h2.resolve_left h0, rfl⟩

theorem mapErr_iff {α : Type} {x : Except Err α} {e : Invalid} {a : α} : mapErr x e = .ok a ↔ x = .ok a := by
  cases x <;> simp [mapErr]

/-- C85: a directly submitted call passes the transaction extension exactly if it is submittable. -/
theorem C85_submitted_iff (env : Env) (s : State) (who : AccountId) (c : Call) :
    validate env s who c = .ok () ↔ Submittable env s who c := by
  have hkey : ∀ (k : AccountId) (m : MsaId) (e : Invalid),
      mapErr (ensureValidMsaKey s k) e = .ok m ↔ s.keyToMsa.get k = some m :=
    fun _ _ _ => mapErr_iff.trans okOr_eq_ok_iff
  cases c with
  | revokeDelegationByDelegator provider =>
    simp only [validate, validateDelegationByDelegator, bind_eq_ok_iff, hkey, mapErr_iff, pure_eq_ok_iff,
      Submittable, ← validNow_iff]
    exact ⟨fun ⟨m, h1, x, h2, _⟩ => ⟨m, h1, x, h2⟩, fun ⟨m, h1, x, h2⟩ => ⟨m, h1, x, h2, trivial⟩⟩
  | revokeDelegationByProvider delegator =>
    simp only [validate, validateDelegationByProvider, bind_eq_ok_iff, hkey, mapErr_iff, pure_eq_ok_iff,
      Submittable, ← validNow_iff]
    exact ⟨fun ⟨m, h1, x, h2, _⟩ => ⟨m, h1, x, h2⟩, fun ⟨m, h1, x, h2⟩ => ⟨m, h1, x, h2, trivial⟩⟩
  | deleteMsaPublicKey key =>
    simp only [validate, validateKeyDelete, bind_eq_ok_iff, hkey, ensure_eq_ok_iff, Submittable]
    constructor
    · rintro ⟨_, h1, m, h2, m', h3, rfl⟩; exact ⟨h1, m, h2, h3⟩
    · rintro ⟨h1, m, h2, h3⟩; exact ⟨(), h1, m, h2, m, h3, rfl⟩
  | retireMsa =>
    simp only [validate, ensureMsaCanRetire, bind_eq_ok_iff, hkey, ensure_eq_ok_iff, Submittable]
    have hact : ∀ m, ((s.delegations.keys.filter (fun k => k.1 == m)).any (fun k =>
        match ensureValidDelegation env s k.2 m none with
        | .ok _ => true
        | .error _ => false)) = false ↔ ∀ p, ¬ InForce s m p env.block := by
      intro m
      simp only [List.any_eq_false, List.mem_filter, beq_iff_eq]
      constructor
      · intro h p hf
        obtain ⟨x, hx⟩ := validNow_iff.2 hf
        obtain ⟨d, hd, _⟩ := hf
        have := h (m, p) ⟨(SMap.mem_keys_iff _ _).2 ((SMap.contains_iff _ _).2 ⟨d, hd⟩), rfl⟩
        simp [hx] at this
      · rintro h ⟨m', p⟩ ⟨_, e⟩
        cases hx : ensureValidDelegation env s p m none with
        | error e => simp
        | ok x => exact absurd (validNow_iff.1 ⟨x, hx⟩) (h p)
    have hprov : ∀ m, isRegisteredProvider s m = false ↔ s.providers.get m = none := by
      intro m
      simp [isRegisteredProvider, SMap.contains]
    simp only [hprov]
    exact ⟨fun ⟨m, h1, _, h2, _, h3, _, h4, h5⟩ => ⟨m, h1, h2, h3, h4, (hact m).1 h5⟩,
      fun ⟨m, h1, h2, h3, h4, h5⟩ => ⟨m, h1, (), h2, (), h3, (), h4, (hact m).2 h5⟩⟩
  | _ => simp [validate, Submittable]

theorem countOf_dec {s : State} {m m' : MsaId} (hc : ∀ n, s.keyCount.get m = some n → 1 ≤ n) :
    ((decCount s.keyCount m).get m').getD 0 = if m = m' then countOf s m' - 1 else countOf s m' := by
  unfold decCount countOf
  cases hk : s.keyCount.get m with
  | none =>
    simp only
    split
    · rename_i e; subst e; rw [hk]; rfl
    · rfl
  | some n =>
    have := hc n hk
    simp only
    by_cases e : m = m'
    · subst e
      rw [if_pos rfl, hk]
      split
      · rename_i h1; subst h1; simp
      · simp
    · rw [if_neg e]
      split
      · rw [SMap.get_erase_ne _ e]
      · rw [SMap.get_insert_ne _ e]

/-- C85: after a successful call, keys, counters, providers and delegations are exactly as specified; whatever
the call does not name is unchanged. -/
theorem C85_effect (cfg : Config) (hist : List Step) (env : Env) (o : Origin) (c : Call) (s' : State) :
    let s := run cfg State.init hist
    dispatch cfg env s o c = .ok s' →
    (∀ k, s'.keyToMsa.get k = keyAfter s o c k) ∧
    (∀ m, countOf s' m = countAfter s o c m) ∧
    (∀ m, s'.providers.get m = providerAfter s o c m) ∧
    (∀ d p, revokedAt s' d p = revokedAfter env s o c d p) ∧
    (∀ d p k, schemaRevokedAt s' d p k = schemaRevokedAfter env s o c d p k) := by
  intro s h
  obtain ⟨hid, hcnts, _⟩ : BoundInv s := boundInv_run cfg hist
  clear_value s
  have hiss := issued_eq hid
  have hcnt : (s.keyCount.get (s.maxMsaId + 1)).getD 0 = 0 := by
    cases hk : s.keyCount.get (s.maxMsaId + 1) with
    | none => rfl
    | some n => have := (hcnts _ _ hk).2; omega
  cases o with
  | governance =>
    cases c with
    | createProviderViaGovernance key name =>
      simp only [dispatch, createProviderViaGovernance, bind_eq_ok_iff] at h
      obtain ⟨m, hm, h⟩ := h
      obtain ⟨_, _, rfl⟩ := createProviderFor_ok h
      have hm := ensureValidMsaKey_ok hm
      refine ⟨fun _ => rfl, fun _ => rfl, fun m' => ?_, fun _ _ => rfl, fun _ _ _ => rfl⟩
      simp only [providerAfter, SMap.get_insert, hm, Option.some.injEq]
    | _ => simp [dispatch, ensureSigned, bind_eq_ok_iff] at h
  | signed who =>
    cases c with
    | create =>
      simp only [dispatch, ensureSigned, bind_eq_ok_iff, Except.ok.injEq, exists_eq_left'] at h
      obtain ⟨_, _, _, rfl⟩ := create_ok h
      refine ⟨fun k => ?_, fun m => ?_, fun _ => rfl, fun _ _ => rfl, fun _ _ _ => rfl⟩
      · simp only [keyAfter, hiss, withKey, SMap.get_insert, eq_comm (b := k)]
      · simp only [countAfter, countOf, hiss, withKey, SMap.get_insert, hcnt, eq_comm (b := m)]
        split <;> rfl
    | createSponsoredAccountWithDelegation dk proof p =>
      simp only [dispatch, ensureSigned, bind_eq_ok_iff, Except.ok.injEq, exists_eq_left'] at h
      obtain ⟨r, d, _, _, _, _, _, _, _, _, hd, _, _, rfl⟩ := createSponsored_ok h
      obtain ⟨hr, _, hg⟩ := tryInsertSchemas_ok hd
      refine ⟨fun k => ?_, fun m => ?_, fun _ => rfl, fun d' p' => ?_, fun d' p' k => ?_⟩
      · simp only [keyAfter, hiss, withKey, SMap.get_insert, eq_comm (b := k)]
      · simp only [countAfter, countOf, hiss, withKey, SMap.get_insert, hcnt, eq_comm (b := m)]
        split <;> rfl
      · simp only [revokedAfter, revokedAt, hiss, SMap.get_insert, Prod.mk.injEq, eq_comm (b := d'),
          eq_comm (b := p')]
        split
        · simp only [Option.map_some, hr]; rfl
        · rfl
      · simp only [schemaRevokedAfter, schemaRevokedAt, hiss, SMap.get_insert, Prod.mk.injEq, eq_comm (b := d'),
          eq_comm (b := p')]
        split
        · simp only [Option.bind_some, hg]; rfl
        · rfl
    | createProvider name =>
      simp only [dispatch, ensureSigned, createProvider, bind_eq_ok_iff, Except.ok.injEq, exists_eq_left'] at h
      obtain ⟨m, hm, h⟩ := h
      obtain ⟨_, _, rfl⟩ := createProviderFor_ok h
      have hm := ensureValidMsaKey_ok hm
      refine ⟨fun _ => rfl, fun _ => rfl, fun m' => ?_, fun _ _ => rfl, fun _ _ _ => rfl⟩
      simp only [providerAfter, SMap.get_insert, hm, Option.some.injEq]
    | grantDelegation dk proof p =>
      simp only [dispatch, ensureSigned, bind_eq_ok_iff, Except.ok.injEq, exists_eq_left'] at h
      obtain ⟨r, m, d, _, _, _, hm, _, _, hd, rfl⟩ := grantDelegation_ok h
      obtain ⟨_, _, hr, _, hg⟩ := upsertDelegation_ok hd
      refine ⟨fun _ => rfl, fun _ => rfl, fun _ => rfl, fun d' p' => ?_, fun d' p' k => ?_⟩
      · simp only [revokedAfter, revokedAt, SMap.get_insert, Prod.mk.injEq, hm, Option.some.injEq,
          eq_comm (b := p')]
        split
        · simp only [Option.map_some, hr]
        · rfl
      · simp only [schemaRevokedAfter, schemaRevokedAt, SMap.get_insert, Prod.mk.injEq, hm, Option.some.injEq,
          eq_comm (b := p')]
        split
        · rename_i e
          obtain ⟨rfl, rfl⟩ := e
          simp only [Option.bind_some, hg]
          have : ((s.delegations.get (m, p.authorizedMsaId)).getD .default).perms.get k =
              (s.delegations.get (m, p.authorizedMsaId)).bind (fun x => x.perms.get k) := by
            cases s.delegations.get (m, p.authorizedMsaId) <;> rfl
          simp only [this]
          congr
        · rfl
    | revokeDelegationByDelegator provider =>
      simp only [dispatch, ensureSigned, revokeDelegationByDelegator, bind_eq_ok_iff, Except.ok.injEq,
        exists_eq_left'] at h
      cases hw : s.keyToMsa.get who with
      | none =>
        rw [hw] at h
        cases h
        refine ⟨fun _ => rfl, fun _ => rfl, fun _ => rfl, fun d' p' => ?_, fun _ _ _ => rfl⟩
        simp [revokedAfter, hw]
      | some m =>
        rw [hw] at h
        obtain ⟨x, hx, _, rfl⟩ := revokeProvider_ok h
        refine ⟨fun _ => rfl, fun _ => rfl, fun _ => rfl, fun d' p' => ?_, fun d' p' k => ?_⟩
        · simp only [revokedAfter, revokedAt, SMap.get_insert, Prod.mk.injEq, hw, Option.some.injEq,
            eq_comm (b := p')]
          split <;> rfl
        · simp only [schemaRevokedAfter, schemaRevokedAt, SMap.get_insert]
          split
          · rename_i e; rw [← e, hx]; rfl
          · rfl
    | revokeDelegationByProvider delegator =>
      simp only [dispatch, ensureSigned, revokeDelegationByProvider, bind_eq_ok_iff, Except.ok.injEq,
        exists_eq_left'] at h
      cases hw : s.keyToMsa.get who with
      | none =>
        rw [hw] at h
        cases h
        refine ⟨fun _ => rfl, fun _ => rfl, fun _ => rfl, fun d' p' => ?_, fun _ _ _ => rfl⟩
        simp [revokedAfter, hw]
      | some m =>
        rw [hw] at h
        obtain ⟨x, hx, _, rfl⟩ := revokeProvider_ok h
        refine ⟨fun _ => rfl, fun _ => rfl, fun _ => rfl, fun d' p' => ?_, fun d' p' k => ?_⟩
        · simp only [revokedAfter, revokedAt, SMap.get_insert, Prod.mk.injEq, hw, Option.some.injEq,
            eq_comm (b := d')]
          split <;> rfl
        · simp only [schemaRevokedAfter, schemaRevokedAt, SMap.get_insert]
          split
          · rename_i e; rw [← e, hx]; rfl
          · rfl
    | addPublicKeyToMsa ok op np p =>
      simp only [dispatch, ensureSigned, bind_eq_ok_iff, Except.ok.injEq, exists_eq_left'] at h
      obtain ⟨r1, r2, _, _, _, _, _, _, _, rfl⟩ := addPublicKeyToMsa_ok h
      refine ⟨fun k => ?_, fun m => ?_, fun _ => rfl, fun _ _ => rfl, fun _ _ _ => rfl⟩
      · simp only [keyAfter, withKey, SMap.get_insert, eq_comm (b := k)]
      · simp only [countAfter, countOf, withKey, SMap.get_insert, eq_comm (b := m)]
        split
        · rename_i e; rw [e]; rfl
        · rfl
    | deleteMsaPublicKey key =>
      simp only [dispatch, ensureSigned, deleteMsaPublicKey, bind_eq_ok_iff, Except.ok.injEq,
        exists_eq_left'] at h
      cases hw : s.keyToMsa.get who with
      | none =>
        rw [hw] at h
        cases h
        refine ⟨fun k => ?_, fun m => ?_, fun _ => rfl, fun _ _ => rfl, fun _ _ _ => rfl⟩
        · simp [keyAfter, hw]
        · simp [countAfter, hw]
      | some m =>
        rw [hw] at h
        simp only [bind_eq_ok_iff, pure_eq_ok_iff] at h
        obtain ⟨s1, h, rfl⟩ := h
        obtain ⟨_, rfl⟩ := deleteKeyForMsa_ok h
        refine ⟨fun k => ?_, fun m' => ?_, fun _ => rfl, fun _ _ => rfl, fun _ _ _ => rfl⟩
        · simp only [keyAfter, hw, withoutKey, SMap.get_erase, eq_comm (b := k)]
          simp
        · simp only [countAfter, hw, Option.some.injEq]
          exact countOf_dec (fun n hn => (hcnts m n hn).1)
    | revokeSchemaPermissions provider ids =>
      simp only [dispatch, ensureSigned, revokeSchemaPermissions, revokePermissionsForSchemas, bind_eq_ok_iff,
        Except.ok.injEq, exists_eq_left', okOr_eq_ok_iff, pure_eq_ok_iff] at h
      obtain ⟨m, hm, d, hd, _, _, d', hd', rfl⟩ := h
      have hm := ensureValidMsaKey_ok hm
      obtain ⟨hr, _, hg, _⟩ := tryGetMutSchemas_ok hd'
      refine ⟨fun _ => rfl, fun _ => rfl, fun _ => rfl, fun d' p' => ?_, fun d' p' k => ?_⟩
      · simp only [revokedAfter, revokedAt, SMap.get_insert]
        split
        · rename_i e; rw [← e, hd, Option.map_some, Option.map_some, hr]
        · rfl
      · simp only [schemaRevokedAfter, schemaRevokedAt, SMap.get_insert, Prod.mk.injEq, hm, Option.some.injEq,
          eq_comm (b := p')]
        by_cases e : m = d' ∧ p' = provider
        · obtain ⟨rfl, rfl⟩ := e
          simp only [true_and, if_true, Option.bind_some, hg, hd]
        · rw [if_neg e, if_neg (fun h => e ⟨h.1, h.2.1⟩)]
    | retireMsa =>
      simp only [dispatch, ensureSigned, retireMsa, bind_eq_ok_iff, Except.ok.injEq,
        exists_eq_left'] at h
      cases hw : s.keyToMsa.get who with
      | none =>
        rw [hw] at h
        cases h
        refine ⟨fun k => ?_, fun m => ?_, fun _ => rfl, fun _ _ => rfl, fun _ _ _ => rfl⟩
        · simp only [keyAfter]
          split
          · rename_i e; rw [e, hw]
          · rfl
        · simp [countAfter, hw]
      | some m =>
        rw [hw] at h
        simp only [bind_eq_ok_iff, pure_eq_ok_iff] at h
        obtain ⟨s1, h, rfl⟩ := h
        obtain ⟨_, rfl⟩ := deleteKeyForMsa_ok h
        refine ⟨fun k => ?_, fun m' => ?_, fun _ => rfl, fun _ _ => rfl, fun _ _ _ => rfl⟩
        · simp only [keyAfter, withoutKey, SMap.get_erase, eq_comm (b := k)]
        · simp only [countAfter, hw, Option.some.injEq]
          exact countOf_dec (fun n hn => (hcnts m n hn).1)
    | proposeToBeProvider name =>
      simp only [dispatch, ensureSigned, proposeToBeProvider, bind_eq_ok_iff, Except.ok.injEq,
        exists_eq_left', pure_eq_ok_iff] at h
      obtain ⟨_, _, _, _, rfl⟩ := h
      exact ⟨fun _ => rfl, fun _ => rfl, fun _ => rfl, fun _ _ => rfl, fun _ _ _ => rfl⟩
    | createProviderViaGovernance key name => simp [dispatch] at h

/-! ## Concrete cases -/

/-- A grant by an account other than the provider's, and its effect: schema 7 becomes current, schema 5 stays
so, schema 6, no longer listed, is revoked at the block; a second grant by the same signature is not
`Permitted`, neither is one to oneself. -/
example : let s := run exCfg State.init exHistory
    let c := Call.grantDelegation 300 9 ⟨1, [5, 7], 70⟩
    (∃ s', dispatch exCfg (exEnv 5) s (.signed 100) c = .ok s') ∧
    schemaRevokedAfter (exEnv 5) s (.signed 100) c 3 1 7 = some 0 ∧
    schemaRevokedAfter (exEnv 5) s (.signed 100) c 3 1 5 = some 0 ∧
    schemaRevokedAfter (exEnv 5) s (.signed 100) c 3 1 6 = some 5 ∧
    ¬ Permitted exCfg (exEnv 5) s (held exCfg exHistory) (.signed 100) (.grantDelegation 300 3 ⟨1, [5, 7], 70⟩) ∧
    ¬ Permitted exCfg (exEnv 5) s (held exCfg exHistory) (.signed 100) (.grantDelegation 100 9 ⟨1, [5, 7], 70⟩) := by
  refine ⟨?_, by decide, by decide, by decide, ?_, ?_⟩
  · have : (dispatch exCfg (exEnv 5) (run exCfg State.init exHistory) (.signed 100)
        (.grantDelegation 300 9 ⟨1, [5, 7], 70⟩)).isOk = true := by decide
    match h : dispatch exCfg (exEnv 5) (run exCfg State.init exHistory) (.signed 100)
        (.grantDelegation 300 9 ⟨1, [5, 7], 70⟩) with
    | .ok s' => exact ⟨s', rfl⟩
    | .error e => rw [h] at this; cases this
  · rintro ⟨_, ⟨_, _, h, _⟩, _⟩
    exact h (by decide)
  · rintro ⟨_, _, _, _, _, m, h1, h2, _⟩
    have : (run exCfg State.init exHistory).keyToMsa.get 100 = some 1 := by decide
    rw [this] at h1
    cases h1
    exact h2 rfl

/-- Names: sixteen bytes are allowed for an account that is no provider yet, seventeen are not. -/
example : let s := run exCfg State.init exHistory
    Permitted exCfg (exEnv 5) s (held exCfg exHistory) (.signed 300) (.createProvider (List.replicate 16 65)) ∧
    ¬ Permitted exCfg (exEnv 5) s (held exCfg exHistory) (.signed 300) (.createProvider (List.replicate 17 65)) ∧
    ¬ Permitted exCfg (exEnv 5) s (held exCfg exHistory) (.signed 100) (.createProvider [66]) := by
  refine ⟨⟨by decide, 3, by decide, by decide⟩, fun h => absurd h.1 (by decide), ?_⟩
  rintro ⟨_, m, h1, h2⟩
  have : (run exCfg State.init exHistory).keyToMsa.get 100 = some 1 := by decide
  rw [this] at h1
  cases h1
  exact absurd h2 (by decide)

/-- Account 2 can retire, account 3, whose delegation is in force, cannot. -/
example : Submittable (exEnv 4) (run exCfg State.init (exHistory.take 6)) 201 .retireMsa ∧
    ¬ Submittable (exEnv 4) (run exCfg State.init (exHistory.take 6)) 300 .retireMsa := by
  rw [← C85_submitted_iff, ← C85_submitted_iff]
  decide

end Verif.Msa
