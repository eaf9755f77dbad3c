import Verif.Msa.Model
/-! # What a successful MSA call did: inversion lemmas -/

namespace Verif.Msa

open SigRegistry (Registry RegError)

theorem verifySignature_ok {cfg sig k p e u} (h : verifySignature cfg sig k p e = .ok u) :
    cfg.verify sig k (wrap p) = true := ensure_eq_ok_iff.1 h

theorem registerSignature_ok {cfg env s sig exp s'} (h : registerSignature cfg env s sig exp = .ok s') :
    ∃ r, SigRegistry.register cfg.window cfg.maxSignatures s.registry env.block sig exp = .ok r ∧
      s' = { s with registry := r } := by
  unfold registerSignature at h
  split at h
  · rename_i r hr
    simp only [Except.ok.injEq] at h
    exact ⟨r, hr, h.symm⟩
  · simp at h

theorem ensureValidMsaKey_ok {s k m} (h : ensureValidMsaKey s k = .ok m) :
    s.keyToMsa.get k = some m := okOr_eq_ok_iff.1 h

theorem ensureSigned_ok {o w} (h : ensureSigned o = .ok w) : o = .signed w := by
  cases o <;> simp_all [ensureSigned]

/-- State after a key was added to an account. -/
def withKey (s : State) (m : MsaId) (k : AccountId) : State :=
  { s with keyToMsa := s.keyToMsa.insert k m,
           keyCount := s.keyCount.insert m ((s.keyCount.get m).getD 0 + 1) }

theorem addKey_ok {cfg s m k s'} (h : addKey cfg s m k = .ok s') :
    s.keyToMsa.get k = none ∧ (s.keyCount.get m).getD 0 + 1 < 256 ∧
      (s.keyCount.get m).getD 0 + 1 ≤ cfg.maxKeys ∧ s' = withKey s m k := by
  simp only [addKey, bind_eq_ok_iff, ensure_eq_ok_iff, pure_eq_ok_iff] at h
  obtain ⟨_, h1, _, h2, _, h3, h4⟩ := h
  exact ⟨h1, h2, h3, h4.symm⟩

/-- Key counters after one key of `m` was removed. -/
def decCount (c : SMap MsaId Nat) (m : MsaId) : SMap MsaId Nat :=
  match c.get m with
  | none => c
  | some n => if n = 1 then c.erase m else c.insert m (n - 1)

/-- State after a key was removed on behalf of an account. -/
def withoutKey (s : State) (m : MsaId) (k : AccountId) : State :=
  { s with keyToMsa := s.keyToMsa.erase k, keyCount := decCount s.keyCount m }

theorem deleteKeyForMsa_ok {s m k s'} (h : deleteKeyForMsa s m k = .ok s') :
    (∃ m', s.keyToMsa.get k = some m') ∧ s' = withoutKey s m k := by
  simp only [deleteKeyForMsa, bind_eq_ok_iff, ensure_eq_ok_iff, Option.isSome_iff_exists] at h
  obtain ⟨_, h1, h2⟩ := h
  refine ⟨h1, ?_⟩
  unfold withoutKey decCount
  split at h2
  · rename_i hc
    simp only [pure_eq_ok_iff] at h2
    rw [hc, ← h2]; simp
  · simp [throw_eq_ok_iff] at h2
  · rename_i c hn hc
    simp only [pure_eq_ok_iff] at h2
    rw [hc, ← h2]
    simp; intro h0; exact absurd h0 hn
  · rename_i hc
    simp only [pure_eq_ok_iff] at h2
    rw [hc, ← h2]

theorem tryGetMutSchemas_ok {ids : List SchemaId} {b : BlockNumber} :
    ∀ {d d' : Delegation}, tryGetMutSchemas d ids b = .ok d' →
      d'.revokedAt = d.revokedAt ∧ d'.perms.size = d.perms.size ∧
      (∀ k, d'.perms.get k = if k ∈ ids then some b else d.perms.get k) ∧
      ∀ k ∈ ids, d.perms.contains k = true := by
  induction ids with
  | nil =>
    intro d d' h
    simp only [tryGetMutSchemas, pure_eq_ok_iff] at h
    subst h; simp
  | cons id ids ih =>
    intro d d' h
    simp only [tryGetMutSchemas, tryGetMutSchema, bind_eq_ok_iff, ensure_eq_ok_iff,
      pure_eq_ok_iff] at h
    obtain ⟨d1, ⟨_, hc, hd1⟩, h2⟩ := h
    obtain ⟨ih1, ih2, ih3, ih4⟩ := ih h2
    subst hd1
    obtain ⟨v, hv⟩ := (SMap.contains_iff _ _).1 hc
    refine ⟨ih1, ?_, ?_, ?_⟩
    · rw [ih2]; exact SMap.size_insert_of_some _ _ hv
    · intro k
      rw [ih3]
      simp only [SMap.get_insert, List.mem_cons]
      by_cases hk : k ∈ ids
      · simp [hk]
      · by_cases hk' : id = k
        · simp [hk, hk']
        · have : ¬ k = id := fun e => hk' e.symm
          simp [hk, hk', this]
    · intro k hk
      rcases List.mem_cons.1 hk with h | h
      · rw [h]; exact hc
      · have := ih4 k h
        rw [SMap.contains_iff] at this ⊢
        simp only [SMap.get_insert] at this
        by_cases hk' : id = k
        · subst hk'; exact ⟨v, hv⟩
        · simpa [hk'] using this

theorem tryInsertSchemas_ok {cfg : Config} {ids : List SchemaId} :
    ∀ {d d' : Delegation}, tryInsertSchemas cfg d ids = .ok d' →
      d'.revokedAt = d.revokedAt ∧ (d.perms.size ≤ cfg.maxGrants → d'.perms.size ≤ cfg.maxGrants) ∧
      (∀ k, d'.perms.get k = if k ∈ ids then some 0 else d.perms.get k) := by
  induction ids with
  | nil =>
    intro d d' h
    simp only [tryInsertSchemas, pure_eq_ok_iff] at h
    subst h; simp
  | cons id ids ih =>
    intro d d' h
    simp only [tryInsertSchemas, tryInsertSchema, bind_eq_ok_iff, ensure_eq_ok_iff,
      pure_eq_ok_iff] at h
    obtain ⟨d1, ⟨_, hc, hd1⟩, h2⟩ := h
    obtain ⟨ih1, ih2, ih3⟩ := ih h2
    subst hd1
    refine ⟨ih1, ?_, ?_⟩
    · intro hs
      apply ih2
      rcases hc with hc | hc
      · have := SMap.size_insert_le d.perms id 0
        simp only; omega
      · obtain ⟨v, hv⟩ := (SMap.contains_iff _ _).1 hc
        rw [SMap.size_insert_of_some _ _ hv]; exact hs
    · intro k
      rw [ih3]
      simp only [SMap.get_insert, List.mem_cons]
      by_cases hk : k ∈ ids
      · simp [hk]
      · by_cases hk' : id = k
        · simp [hk, hk']
        · have : ¬ k = id := fun e => hk' e.symm
          simp [hk, hk', this]

theorem ensureAllSchemaIdsAreValid_ok {cfg env ids u}
    (h : ensureAllSchemaIdsAreValid cfg env ids = .ok u) :
    ids.length ≤ cfg.maxGrants ∧ ∀ id ∈ ids, id ≤ env.latestSchema := by
  simp only [ensureAllSchemaIdsAreValid, bind_eq_ok_iff, ensure_eq_ok_iff, areAllSchemaIdsValid,
    List.all_eq_true, decide_eq_true_eq] at h
  obtain ⟨_, h1, h2⟩ := h
  exact ⟨h1, h2⟩

theorem upsertDelegation_ok {cfg env d ids d'} (h : upsertDelegation cfg env d ids = .ok d') :
    ids.length ≤ cfg.maxGrants ∧ (∀ id ∈ ids, id ≤ env.latestSchema) ∧ d'.revokedAt = 0 ∧
      (d.perms.size ≤ cfg.maxGrants → d'.perms.size ≤ cfg.maxGrants) ∧
      (∀ k, d'.perms.get k = if k ∈ ids then some 0 else
        if d.perms.get k = some 0 then some env.block else d.perms.get k) := by
  simp only [upsertDelegation, bind_eq_ok_iff, pure_eq_ok_iff] at h
  obtain ⟨_, h1, d1, h2, d2, h3, d3, h4, h5⟩ := h
  obtain ⟨h1a, h1b⟩ := ensureAllSchemaIdsAreValid_ok h1
  obtain ⟨_, hs2, hg2, _⟩ := tryGetMutSchemas_ok h2
  obtain ⟨_, hs3, hg3, _⟩ := tryGetMutSchemas_ok h3
  obtain ⟨_, hs4, hg4⟩ := tryInsertSchemas_ok h4
  subst h5
  refine ⟨h1a, h1b, rfl, ?_, ?_⟩
  · intro hs
    apply hs4; omega
  · intro k
    simp only [hg4, hg3, hg2, List.mem_filter, SMap.mem_keys_iff, Bool.and_eq_true,
      Bool.not_eq_eq_eq_not, Bool.not_true, beq_iff_eq, List.contains_eq_mem,
      decide_eq_false_iff_not]
    by_cases hk : k ∈ ids
    · simp only [hk, true_and, ↓reduceIte, not_true_eq_false, false_and, and_false]
      cases hc : d.perms.contains k <;> simp
    · simp only [hk, false_and, ↓reduceIte, not_false_eq_true, true_and]
      by_cases h0 : d.perms.get k = some 0
      · have : d.perms.contains k = true := (SMap.contains_iff _ _).2 ⟨_, h0⟩
        simp [h0, this]
      · simp [h0]

/-! ## Inversion of the dispatchables -/

theorem create_ok {cfg s who s'} (h : create cfg s who = .ok s') :
    s.maxMsaId + 1 < 2 ^ 64 ∧ s.keyToMsa.get who = none ∧
    (s.keyCount.get (s.maxMsaId + 1)).getD 0 + 1 ≤ cfg.maxKeys ∧
    s' = { withKey s (s.maxMsaId + 1) who with
      maxMsaId := s.maxMsaId + 1, events := s.events ++ [.created (s.maxMsaId + 1) who] } := by
  simp only [create, getNextMsaId, bind_eq_ok_iff, ensure_eq_ok_iff, pure_eq_ok_iff] at h
  obtain ⟨id, ⟨_, h1, h2⟩, s1, h3, h4⟩ := h
  subst h2
  obtain ⟨a1, a2, a3, a4⟩ := addKey_ok h3
  subst a4
  exact ⟨h1, a1, a3, h4.symm⟩

theorem createSponsored_ok {cfg env s pk dk proof p s'}
    (h : createSponsored cfg env s pk dk proof p = .ok s') :
    ∃ r d, cfg.verify proof dk (wrap p.encode) = true ∧
      SigRegistry.register cfg.window cfg.maxSignatures s.registry env.block proof p.expiration
        = .ok r ∧
      s.keyToMsa.get pk = some p.authorizedMsaId ∧ s.providers.contains p.authorizedMsaId = true ∧
      s.maxMsaId + 1 < 2 ^ 64 ∧ s.keyToMsa.get dk = none ∧
      (s.keyCount.get (s.maxMsaId + 1)).getD 0 + 1 ≤ cfg.maxKeys ∧
      s.delegations.get (s.maxMsaId + 1, p.authorizedMsaId) = none ∧
      tryInsertSchemas cfg .default p.schemaIds = .ok d ∧
      p.schemaIds.length ≤ cfg.maxGrants ∧ (∀ id ∈ p.schemaIds, id ≤ env.latestSchema) ∧
      s' = { withKey s (s.maxMsaId + 1) dk with
        maxMsaId := s.maxMsaId + 1, registry := r,
        delegations := s.delegations.insert (s.maxMsaId + 1, p.authorizedMsaId) d,
        events := s.events ++ [.created (s.maxMsaId + 1) dk] } := by
  simp only [createSponsored, getNextMsaId, addProvider, bind_eq_ok_iff, pure_eq_ok_iff] at h
  obtain ⟨_, h1, s1, h2, prov, h3, _, h4, _, h5, id, ⟨_, h6, h6'⟩, s2, h7, s3,
    ⟨_, h8, _, h9, d, h10, h11⟩, h12⟩ := h
  have h1 := verifySignature_ok h1
  obtain ⟨r, hr, h2'⟩ := registerSignature_ok h2
  subst h2'
  have h3 := ensureValidMsaKey_ok h3
  have h4 := ensure_eq_ok_iff.1 h4
  have h5 := ensure_eq_ok_iff.1 h5
  have h6 := ensure_eq_ok_iff.1 h6
  subst h6'
  obtain ⟨a1, a2, a3, a4⟩ := addKey_ok h7
  subst a4
  have h8 := ensure_eq_ok_iff.1 h8
  obtain ⟨h9, h9'⟩ := ensureAllSchemaIdsAreValid_ok h9
  subst h4
  subst h11
  simp only [withKey, Option.isNone_iff_eq_none] at h8
  exact ⟨r, d, h1, hr, h3, h5, h6, a1, a3, h8, h10, h9, h9', h12.symm⟩

theorem createProviderFor_ok {cfg s m name s'} (h : createProviderFor cfg s m name = .ok s') :
    name.length ≤ cfg.maxNameSize ∧ s.providers.get m = none ∧
      s' = { s with providers := s.providers.insert m name } := by
  simp only [createProviderFor, bind_eq_ok_iff, ensure_eq_ok_iff, pure_eq_ok_iff] at h
  obtain ⟨_, h1, _, h2, h3⟩ := h
  exact ⟨h1, h2, h3.symm⟩

theorem grantDelegation_ok {cfg env s pk dk proof p s'}
    (h : grantDelegation cfg env s pk dk proof p = .ok s') :
    ∃ r delegator d, cfg.verify proof dk (wrap p.encode) = true ∧
      SigRegistry.register cfg.window cfg.maxSignatures s.registry env.block proof p.expiration
        = .ok r ∧
      s.keyToMsa.get pk = some p.authorizedMsaId ∧ s.keyToMsa.get dk = some delegator ∧
      delegator ≠ p.authorizedMsaId ∧ s.providers.contains p.authorizedMsaId = true ∧
      upsertDelegation cfg env
        ((s.delegations.get (delegator, p.authorizedMsaId)).getD .default) p.schemaIds = .ok d ∧
      s' = { s with
        registry := r,
        delegations := s.delegations.insert (delegator, p.authorizedMsaId) d } := by
  simp only [grantDelegation, ensureValidRegisteredProvider, upsertSchemaPermissions,
    bind_eq_ok_iff, pure_eq_ok_iff] at h
  obtain ⟨_, h1, s1, h2, ⟨prov, del⟩, ⟨m, h3, m', h4, _, h5, _, h6, h7⟩, h8⟩ := h
  simp only [Prod.mk.injEq] at h7
  obtain ⟨h7a, h7b⟩ := h7
  subst h7a; subst h7b
  obtain ⟨_, h8, d, h9, h10⟩ := h8
  have h1 := verifySignature_ok h1
  obtain ⟨r, hr, h2'⟩ := registerSignature_ok h2
  subst h2'
  have h3 := ensureValidMsaKey_ok h3
  have h4 := ensureValidMsaKey_ok h4
  have h5 := ensure_eq_ok_iff.1 h5
  have h6 := ensure_eq_ok_iff.1 h6
  have h8 := ensure_eq_ok_iff.1 h8
  subst h8
  exact ⟨r, m', d, h1, hr, h3, h4, h5, h6, h9, h10.symm⟩

theorem revokeProvider_ok {env s p d s'} (h : revokeProvider env s p d = .ok s') :
    ∃ del, s.delegations.get (d, p) = some del ∧ del.revokedAt = 0 ∧
      s' = { s with delegations :=
        s.delegations.insert (d, p) { del with revokedAt := env.block } } := by
  simp only [revokeProvider, bind_eq_ok_iff, ensure_eq_ok_iff, okOr_eq_ok_iff, pure_eq_ok_iff] at h
  obtain ⟨del, h1, _, h2, h3⟩ := h
  exact ⟨del, h1, h2, h3.symm⟩

theorem addPublicKeyToMsa_ok {cfg env s ok op np p s'}
    (h : addPublicKeyToMsa cfg env s ok op np p = .ok s') :
    ∃ r1 r2, cfg.verify op ok (wrap p.encode) = true ∧
      cfg.verify np p.newPublicKey (wrap p.encode) = true ∧
      SigRegistry.register cfg.window cfg.maxSignatures s.registry env.block op p.expiration
        = .ok r1 ∧
      SigRegistry.register cfg.window cfg.maxSignatures r1 env.block np p.expiration = .ok r2 ∧
      s.keyToMsa.get ok = some p.msaId ∧ s.keyToMsa.get p.newPublicKey = none ∧
      (s.keyCount.get p.msaId).getD 0 + 1 ≤ cfg.maxKeys ∧
      s' = { withKey s p.msaId p.newPublicKey with
        registry := r2,
        events := s.events ++ [.added p.msaId p.newPublicKey] } := by
  simp only [addPublicKeyToMsa, bind_eq_ok_iff, pure_eq_ok_iff] at h
  obtain ⟨_, h1, _, h2, s1, h3, s2, h4, owner, h5, _, h6, s3, h7, h8⟩ := h
  have h1 := verifySignature_ok h1
  have h2 := verifySignature_ok h2
  obtain ⟨r1, hr1, h3'⟩ := registerSignature_ok h3
  subst h3'
  obtain ⟨r2, hr2, h4'⟩ := registerSignature_ok h4
  subst h4'
  have h5 := ensureValidMsaKey_ok h5
  have h6 := ensure_eq_ok_iff.1 h6
  subst h6
  obtain ⟨a1, a2, a3, a4⟩ := addKey_ok h7
  subst a4
  exact ⟨r1, r2, h1, h2, hr1, hr2, h5, a1, a3, h8.symm⟩

theorem deleteMsaPublicKey_ok {s who k s'} (h : deleteMsaPublicKey s who k = .ok s') :
    (s.keyToMsa.get who = none ∧ s' = s) ∨
    ∃ m m', s.keyToMsa.get who = some m ∧ s.keyToMsa.get k = some m' ∧
      s' = { withoutKey s m k with events := s.events ++ [.deleted m k] } := by
  unfold deleteMsaPublicKey at h
  split at h
  · rename_i m hm
    simp only [bind_eq_ok_iff, pure_eq_ok_iff] at h
    obtain ⟨s1, h1, h2⟩ := h
    obtain ⟨⟨m', hk⟩, h1⟩ := deleteKeyForMsa_ok h1
    subst h1
    exact Or.inr ⟨m, m', hm, hk, h2.symm⟩
  · rename_i hm
    simp only [Except.ok.injEq] at h
    exact Or.inl ⟨hm, h.symm⟩

theorem retireMsa_ok {s who s'} (h : retireMsa s who = .ok s') :
    (s.keyToMsa.get who = none ∧ s' = s) ∨
    ∃ m, s.keyToMsa.get who = some m ∧
      s' = { withoutKey s m who with events := s.events ++ [.deleted m who] } := by
  unfold retireMsa at h
  split at h
  · rename_i m hm
    simp only [bind_eq_ok_iff, pure_eq_ok_iff] at h
    obtain ⟨s1, h1, h2⟩ := h
    obtain ⟨_, h1⟩ := deleteKeyForMsa_ok h1
    subst h1
    exact Or.inr ⟨m, hm, h2.symm⟩
  · rename_i hm
    simp only [Except.ok.injEq] at h
    exact Or.inl ⟨hm, h.symm⟩

theorem revokeSchemaPermissions_ok {cfg env s who p ids s'}
    (h : revokeSchemaPermissions cfg env s who p ids = .ok s') :
    ∃ delegator d d', s.keyToMsa.get who = some delegator ∧
      s.delegations.get (delegator, p) = some d ∧ tryGetMutSchemas d ids env.block = .ok d' ∧
      s' = { s with delegations := s.delegations.insert (delegator, p) d' } := by
  simp only [revokeSchemaPermissions, revokePermissionsForSchemas, bind_eq_ok_iff, okOr_eq_ok_iff,
    pure_eq_ok_iff] at h
  obtain ⟨m, h1, d, h2, _, _, d', h4, h5⟩ := h
  exact ⟨m, d, d', ensureValidMsaKey_ok h1, h2, h4, h5.symm⟩

theorem proposeToBeProvider_ok {cfg s who name s'} (h : proposeToBeProvider cfg s who name = .ok s') :
    s' = s := by
  simp only [proposeToBeProvider, bind_eq_ok_iff, pure_eq_ok_iff] at h
  obtain ⟨_, _, _, _, h⟩ := h
  exact h.symm

/-- Everything a successful call can have done, one case per kind of change. The derived property
proofs go by cases on this relation. -/
inductive Eff (cfg : Config) (env : Env) (s : State) : Origin → Call → State → Prop
  | noop {o c} : Eff cfg env s o c s
  | create {who} (hid : s.maxMsaId + 1 < 2 ^ 64) (hk : s.keyToMsa.get who = none)
      (hc : (s.keyCount.get (s.maxMsaId + 1)).getD 0 + 1 ≤ cfg.maxKeys) :
      Eff cfg env s (.signed who) .create { withKey s (s.maxMsaId + 1) who with
        maxMsaId := s.maxMsaId + 1, events := s.events ++ [.created (s.maxMsaId + 1) who] }
  | sponsored {who dk proof p r d} (hv : cfg.verify proof dk (wrap p.encode) = true)
      (hr : SigRegistry.register cfg.window cfg.maxSignatures s.registry env.block proof p.expiration
        = .ok r)
      (hw : s.keyToMsa.get who = some p.authorizedMsaId)
      (hp : s.providers.contains p.authorizedMsaId = true)
      (hid : s.maxMsaId + 1 < 2 ^ 64) (hk : s.keyToMsa.get dk = none)
      (hc : (s.keyCount.get (s.maxMsaId + 1)).getD 0 + 1 ≤ cfg.maxKeys)
      (hn : s.delegations.get (s.maxMsaId + 1, p.authorizedMsaId) = none)
      (hd : tryInsertSchemas cfg .default p.schemaIds = .ok d)
      (hl : p.schemaIds.length ≤ cfg.maxGrants)
      (hs : ∀ id ∈ p.schemaIds, id ≤ env.latestSchema) :
      Eff cfg env s (.signed who) (.createSponsoredAccountWithDelegation dk proof p)
        { withKey s (s.maxMsaId + 1) dk with
          maxMsaId := s.maxMsaId + 1, registry := r,
          delegations := s.delegations.insert (s.maxMsaId + 1, p.authorizedMsaId) d,
          events := s.events ++ [.created (s.maxMsaId + 1) dk] }
  | provider {o c m name} (hl : name.length ≤ cfg.maxNameSize) (hn : s.providers.get m = none)
      (hk : ∃ k, s.keyToMsa.get k = some m ∧
        ((o = .signed k ∧ c = .createProvider name) ∨
          (o = .governance ∧ c = .createProviderViaGovernance k name))) :
      Eff cfg env s o c { s with providers := s.providers.insert m name }
  | grant {who dk proof p r delegator d} (hv : cfg.verify proof dk (wrap p.encode) = true)
      (hr : SigRegistry.register cfg.window cfg.maxSignatures s.registry env.block proof p.expiration
        = .ok r)
      (hw : s.keyToMsa.get who = some p.authorizedMsaId)
      (hdk : s.keyToMsa.get dk = some delegator)
      (hne : delegator ≠ p.authorizedMsaId)
      (hp : s.providers.contains p.authorizedMsaId = true)
      (hd : upsertDelegation cfg env
        ((s.delegations.get (delegator, p.authorizedMsaId)).getD .default) p.schemaIds = .ok d) :
      Eff cfg env s (.signed who) (.grantDelegation dk proof p)
        { s with
          registry := r,
          delegations := s.delegations.insert (delegator, p.authorizedMsaId) d }
  | revoke {who c delegator provider d}
      (hc : (c = .revokeDelegationByDelegator provider ∧ s.keyToMsa.get who = some delegator) ∨
        (c = .revokeDelegationByProvider delegator ∧ s.keyToMsa.get who = some provider))
      (hd : s.delegations.get (delegator, provider) = some d) (h0 : d.revokedAt = 0) :
      Eff cfg env s (.signed who) c
        { s with
          delegations :=
            s.delegations.insert (delegator, provider) { d with revokedAt := env.block } }
  | addKey {who ok op np p r1 r2} (hv1 : cfg.verify op ok (wrap p.encode) = true)
      (hv2 : cfg.verify np p.newPublicKey (wrap p.encode) = true)
      (hr1 : SigRegistry.register cfg.window cfg.maxSignatures s.registry env.block op p.expiration
        = .ok r1)
      (hr2 : SigRegistry.register cfg.window cfg.maxSignatures r1 env.block np p.expiration = .ok r2)
      (ho : s.keyToMsa.get ok = some p.msaId) (hk : s.keyToMsa.get p.newPublicKey = none)
      (hc : (s.keyCount.get p.msaId).getD 0 + 1 ≤ cfg.maxKeys) :
      Eff cfg env s (.signed who) (.addPublicKeyToMsa ok op np p)
        { withKey s p.msaId p.newPublicKey with
          registry := r2,
          events := s.events ++ [.added p.msaId p.newPublicKey] }
  | delete {who c m k m'} (hw : s.keyToMsa.get who = some m) (hk : s.keyToMsa.get k = some m')
      (hc : c = .deleteMsaPublicKey k ∨ (c = .retireMsa ∧ k = who)) :
      Eff cfg env s (.signed who) c
        { withoutKey s m k with events := s.events ++ [.deleted m k] }
  | revokeSchemas {who provider ids delegator d d'} (hw : s.keyToMsa.get who = some delegator)
      (hd : s.delegations.get (delegator, provider) = some d)
      (hm : tryGetMutSchemas d ids env.block = .ok d') :
      Eff cfg env s (.signed who) (.revokeSchemaPermissions provider ids)
        { s with delegations := s.delegations.insert (delegator, provider) d' }

theorem eff_of_dispatch {cfg env s o c s'} (h : dispatch cfg env s o c = .ok s') :
    Eff cfg env s o c s' := by
  cases c with
  | create =>
    simp only [dispatch, bind_eq_ok_iff] at h
    obtain ⟨who, ho, h⟩ := h
    have := ensureSigned_ok ho; subst this
    obtain ⟨h1, h2, h3, h4⟩ := create_ok h
    subst h4
    exact .create h1 h2 h3
  | createSponsoredAccountWithDelegation dk proof p =>
    simp only [dispatch, bind_eq_ok_iff] at h
    obtain ⟨who, ho, h⟩ := h
    have := ensureSigned_ok ho; subst this
    obtain ⟨r, d, h1, h2, h3, h4, h5, h6, h7, h8, h9, h10, h11, h12⟩ := createSponsored_ok h
    subst h12
    exact .sponsored h1 h2 h3 h4 h5 h6 h7 h8 h9 h10 h11
  | createProvider name =>
    simp only [dispatch, createProvider, bind_eq_ok_iff] at h
    obtain ⟨who, ho, m, hm, h⟩ := h
    have := ensureSigned_ok ho; subst this
    obtain ⟨h1, h2, h3⟩ := createProviderFor_ok h
    subst h3
    exact .provider h1 h2 ⟨who, ensureValidMsaKey_ok hm, Or.inl ⟨rfl, rfl⟩⟩
  | grantDelegation dk proof p =>
    simp only [dispatch, bind_eq_ok_iff] at h
    obtain ⟨who, ho, h⟩ := h
    have := ensureSigned_ok ho; subst this
    obtain ⟨r, del, d, h1, h2, h3, h4, h5, h6, h7, h8⟩ := grantDelegation_ok h
    subst h8
    exact .grant h1 h2 h3 h4 h5 h6 h7
  | revokeDelegationByDelegator provider =>
    simp only [dispatch, bind_eq_ok_iff] at h
    obtain ⟨who, ho, h⟩ := h
    have := ensureSigned_ok ho; subst this
    unfold revokeDelegationByDelegator at h
    split at h
    · rename_i m hm
      obtain ⟨d, h1, h2, h3⟩ := revokeProvider_ok h
      subst h3
      exact .revoke (Or.inl ⟨rfl, hm⟩) h1 h2
    · simp only [Except.ok.injEq] at h
      subst h; exact .noop
  | addPublicKeyToMsa ok op np p =>
    simp only [dispatch, bind_eq_ok_iff] at h
    obtain ⟨who, ho, h⟩ := h
    have := ensureSigned_ok ho; subst this
    obtain ⟨r1, r2, h1, h2, h3, h4, h5, h6, h7, h8⟩ := addPublicKeyToMsa_ok h
    subst h8
    exact .addKey h1 h2 h3 h4 h5 h6 h7
  | deleteMsaPublicKey key =>
    simp only [dispatch, bind_eq_ok_iff] at h
    obtain ⟨who, ho, h⟩ := h
    have := ensureSigned_ok ho; subst this
    rcases deleteMsaPublicKey_ok h with ⟨_, h⟩ | ⟨m, m', h1, h2, h3⟩
    · subst h; exact .noop
    · subst h3; exact .delete h1 h2 (Or.inl rfl)
  | revokeDelegationByProvider delegator =>
    simp only [dispatch, bind_eq_ok_iff] at h
    obtain ⟨who, ho, h⟩ := h
    have := ensureSigned_ok ho; subst this
    unfold revokeDelegationByProvider at h
    split at h
    · rename_i m hm
      obtain ⟨d, h1, h2, h3⟩ := revokeProvider_ok h
      subst h3
      exact .revoke (Or.inr ⟨rfl, hm⟩) h1 h2
    · simp only [Except.ok.injEq] at h
      subst h; exact .noop
  | revokeSchemaPermissions provider ids =>
    simp only [dispatch, bind_eq_ok_iff] at h
    obtain ⟨who, ho, h⟩ := h
    have := ensureSigned_ok ho; subst this
    obtain ⟨del, d, d', h1, h2, h3, h4⟩ := revokeSchemaPermissions_ok h
    subst h4
    exact .revokeSchemas h1 h2 h3
  | retireMsa =>
    simp only [dispatch, bind_eq_ok_iff] at h
    obtain ⟨who, ho, h⟩ := h
    have := ensureSigned_ok ho; subst this
    rcases retireMsa_ok h with ⟨_, h⟩ | ⟨m, h1, h3⟩
    · subst h; exact .noop
    · subst h3; exact .delete h1 h1 (Or.inr ⟨rfl, rfl⟩)
  | proposeToBeProvider name =>
    simp only [dispatch, bind_eq_ok_iff] at h
    obtain ⟨who, ho, h⟩ := h
    have := proposeToBeProvider_ok h; subst this
    exact .noop
  | createProviderViaGovernance key name =>
    simp only [dispatch] at h
    split at h
    · simp only [createProviderViaGovernance, bind_eq_ok_iff] at h
      obtain ⟨m, hm, h⟩ := h
      obtain ⟨h1, h2, h3⟩ := createProviderFor_ok h
      subst h3
      exact .provider h1 h2 ⟨key, ensureValidMsaKey_ok hm, Or.inr ⟨rfl, rfl⟩⟩
    · simp at h

theorem apply_eff (cfg : Config) (s : State) (st : Step) :
    Eff cfg st.env s st.origin st.call (apply cfg s st) := by
  unfold apply
  split
  · rename_i s' h; exact eff_of_dispatch h
  · exact .noop

/-- A property preserved by every successful call holds after every history. -/
theorem run_induction {cfg : Config} {P : State → Prop}
    (hstep : ∀ s st, P s → P (apply cfg s st)) :
    ∀ (h : List Step) (s : State), P s → P (run cfg s h) := by
  intro h
  induction h with
  | nil => intro s hs; exact hs
  | cons st rest ih => intro s hs; exact ih _ (hstep s st hs)

theorem applyTx_eq (cfg : Config) (s : State) (st : Step) :
    applyTx cfg s st = s ∨
      (applyTx cfg s st = apply cfg s st ∧
        ∀ who, st.origin = .signed who → validate st.env s who st.call = .ok ()) := by
  unfold applyTx
  split
  · rename_i who ho
    split
    · rename_i u hv
      exact Or.inr ⟨rfl, fun w hw => by rw [ho] at hw; cases hw; exact hv⟩
    · exact Or.inl rfl
  · rename_i ho
    exact Or.inr ⟨rfl, fun w hw => by rw [ho] at hw; cases hw⟩

theorem runTx_induction {cfg : Config} {P : State → Prop}
    (hstep : ∀ s st, P s → P (applyTx cfg s st)) :
    ∀ (h : List Step) (s : State), P s → P (runTx cfg s h) := by
  intro h
  induction h with
  | nil => intro s hs; exact hs
  | cons st rest ih => intro s hs; exact ih _ (hstep s st hs)

end Verif.Msa
