import Verif.Msa.PropsKeys
import Verif.SigRegistry.Props
import Batteries.Data.List.Perm
/-!
# Properties of delegations (C06 - C09, C13 - C16)

Everything is stated with the public authorisation checks `ensure_valid_schema_grant` and
`ensure_valid_delegation` (what the messages and storage pallets call), on arbitrary histories.
-/

namespace Verif.Msa

/-- What the authorisation check looks at: the delegation exists, is active at `b`, and the schema was
granted and not revoked before `b`. -/
def grantedAt (s : State) (p d : MsaId) (k : SchemaId) (b : BlockNumber) : Prop :=
  ∃ info r, s.delegations.get (d, p) = some info ∧ activeAt info b ∧
    info.perms.get k = some r ∧ (r = 0 ∨ b ≤ r)

theorem ensureValidSchemaGrant_iff {env s p d k b} :
    ensureValidSchemaGrant env s p d k b = .ok () ↔ b ≤ env.block ∧ grantedAt s p d k b := by
  unfold ensureValidSchemaGrant grantedAt
  simp only [bind_eq_ok_iff, okOr_eq_ok_iff, ensureValidDelegation_iff]
  constructor
  · rintro ⟨info, ⟨h1, h2, h3⟩, r, h4, h5⟩
    refine ⟨h2 b rfl, info, r, h1, h3, h4, ?_⟩
    split at h5
    · left; assumption
    · right; exact ensure_eq_ok_iff.1 h5
  · rintro ⟨h1, info, r, h2, h3, h4, h5⟩
    refine ⟨info, ⟨h2, by rintro n hn; cases hn; exact h1, h3⟩, r, h4, ?_⟩
    split
    · rfl
    · rename_i h0
      exact ensure_eq_ok_iff.2 (h5.resolve_left h0)

/-- Steps in chronological order. -/
def Chron (h : List Step) : Prop := h.Pairwise (fun a b => a.env.block ≤ b.env.block)

/-- All recorded revocation blocks are at most `n`. -/
def RevBound (n : BlockNumber) (s : State) : Prop :=
  ∀ key info, s.delegations.get key = some info →
    info.revokedAt ≤ n ∧ ∀ k r, info.perms.get k = some r → r ≤ n

theorem RevBound.mono {n n' s} (h : RevBound n s) (hn : n ≤ n') : RevBound n' s :=
  fun key info hk => ⟨le_trans (h key info hk).1 hn,
    fun k r hr => le_trans ((h key info hk).2 k r hr) hn⟩

theorem revBound_insert {n s dels} {key : MsaId × MsaId} {d : Delegation} (h : RevBound n s)
    (hd : d.revokedAt ≤ n ∧ ∀ k r, d.perms.get k = some r → r ≤ n)
    (e : dels = s.delegations.insert key d) (key' info) (hk : dels.get key' = some info) :
    info.revokedAt ≤ n ∧ ∀ k r, info.perms.get k = some r → r ≤ n := by
  subst e
  rw [SMap.get_insert] at hk
  split at hk
  · simp only [Option.some.injEq] at hk; subst hk; exact hd
  · exact h key' info hk

theorem default_perms (k : SchemaId) : Delegation.default.perms.get k = none := rfl

theorem eff_revBound {cfg env s o c s'} (he : Eff cfg env s o c s') (h : RevBound env.block s) :
    RevBound env.block s' := by
  cases he with
  | noop => exact h
  | create _ _ _ => exact h
  | sponsored _ _ _ _ _ _ _ _ hd _ _ =>
    intro key info hk
    refine revBound_insert h ?_ rfl key info hk
    obtain ⟨h1, _, h3⟩ := tryInsertSchemas_ok hd
    refine ⟨by rw [h1]; exact Nat.zero_le _, fun k r hr => ?_⟩
    rw [h3] at hr
    split at hr
    · simp at hr; omega
    · simp [default_perms] at hr
  | provider _ _ _ => exact h
  | @grant _ _ _ p _ delegator d _ _ _ _ _ _ hd =>
    intro key info hk
    refine revBound_insert h ?_ rfl key info hk
    obtain ⟨_, _, h3, _, h5⟩ := upsertDelegation_ok hd
    refine ⟨by rw [h3]; exact Nat.zero_le _, fun k r hr => ?_⟩
    rw [h5] at hr
    split at hr
    · simp at hr; omega
    · split at hr
      · simp at hr; omega
      · cases hg : s.delegations.get (delegator, p.authorizedMsaId) with
        | none => rw [hg] at hr; simp [default_perms] at hr
        | some i => rw [hg] at hr; exact (h _ _ hg).2 k r hr
  | revoke _ hd h0 =>
    intro key info hk
    refine revBound_insert h ?_ rfl key info hk
    exact ⟨le_refl _, (h _ _ hd).2⟩
  | addKey _ _ _ _ _ _ _ => exact h
  | delete _ _ _ => exact h
  | revokeSchemas _ hd hm =>
    intro key info hk
    refine revBound_insert h ?_ rfl key info hk
    obtain ⟨h1, _, h3, _⟩ := tryGetMutSchemas_ok hm
    refine ⟨by rw [h1]; exact (h _ _ hd).1, fun k r hr => ?_⟩
    rw [h3] at hr
    split at hr
    · simp at hr; omega
    · exact (h _ _ hd).2 k r hr

/-- The step is a call carrying a valid, unexpired signature of the delegator over a payload that
names the provider `p` and lists schema `k`, submitted by a key of `p`; the delegator `d` is the
account of the signing key, or the account this very call creates for it. -/
def SignedGrant (cfg : Config) (s : State) (st : Step) (p d : MsaId) (k : SchemaId) : Prop :=
  ∃ who dk proof pl, st.origin = .signed who ∧ resolves s who p ∧ pl.authorizedMsaId = p ∧
    k ∈ pl.schemaIds ∧ cfg.verify proof dk (wrap pl.encode) = true ∧ st.env.block < pl.expiration ∧
    ((st.call = .grantDelegation dk proof pl ∧ resolves s dk d) ∨
     (st.call = .createSponsoredAccountWithDelegation dk proof pl ∧ (∀ m, ¬ resolves s dk m) ∧
      resolves (apply cfg s st) dk d))

theorem register_expiration {w cap reg now sig exp r}
    (h : SigRegistry.register w cap reg now sig exp = .ok r) : now < exp :=
  (SigRegistry.C12_window w cap reg r now sig exp h).1

/-- C06, full statement: after every chronological history, a call turns the answer of the authorisation
check about the current block from no to yes only if it carries the delegator's signature for this
provider and schema. -/
def C06_full : Prop :=
  ∀ (cfg : Config) (h : List Step) (st : Step) (p d : MsaId) (k : SchemaId), Chron (h ++ [st]) →
    ensureValidSchemaGrant st.env (run cfg State.init h) p d k st.env.block ≠ .ok () →
    ensureValidSchemaGrant st.env (run cfg State.init (h ++ [st])) p d k st.env.block = .ok () →
    SignedGrant cfg (run cfg State.init h) st p d k

/-- C06, one step: authority for a block after the current one appears only with a signed grant. Missing:
the block of the call itself, for which it is false. -/
theorem C06_step_partial (cfg : Config) (s : State) (st : Step) (p d : MsaId) (k : SchemaId)
    (b : BlockNumber) (hb : RevBound st.env.block s) (h1 : 1 ≤ st.env.block) (hlt : st.env.block < b)
    (hafter : grantedAt (apply cfg s st) p d k b) :
    grantedAt s p d k b ∨ SignedGrant cfg s st p d k := by
  have he := apply_eff cfg s st
  obtain ⟨env, o, c⟩ := st
  simp only at he hb h1 hlt
  have happ : ∃ s', apply cfg s ⟨env, o, c⟩ = s' := ⟨_, rfl⟩
  obtain ⟨s', hs'⟩ := happ
  unfold SignedGrant
  rw [hs'] at he hafter ⊢
  obtain ⟨info, r, ha1, ha2, ha3, ha4⟩ := hafter
  cases he with
  | noop => exact Or.inl ⟨info, r, ha1, ha2, ha3, ha4⟩
  | create _ _ _ => exact Or.inl ⟨info, r, ha1, ha2, ha3, ha4⟩
  | @sponsored who dk proof pl r0 d0 hv hr hw hp hid hk hc hn hd hl hs =>
    simp only at ha1
    by_cases hkey : (s.maxMsaId + 1, pl.authorizedMsaId) = (d, p)
    · right
      simp only [Prod.mk.injEq] at hkey
      obtain ⟨hkd, hkp⟩ := hkey
      subst hkd; subst hkp
      rw [SMap.get_insert_self] at ha1
      simp only [Option.some.injEq] at ha1
      subst ha1
      obtain ⟨_, _, h3⟩ := tryInsertSchemas_ok hd
      rw [h3] at ha3
      have hmem : k ∈ pl.schemaIds := by
        by_contra hm
        simp [hm, default_perms] at ha3
      refine ⟨who, dk, proof, pl, rfl, hw, rfl, hmem, hv, register_expiration hr,
        Or.inr ⟨rfl, by intro m hm; unfold resolves at hm; rw [hk] at hm; simp at hm, ?_⟩⟩
      simp [resolves, withKey]
    · left
      rw [SMap.get_insert_ne _ hkey _] at ha1
      exact ⟨info, r, ha1, ha2, ha3, ha4⟩
  | provider _ _ _ => exact Or.inl ⟨info, r, ha1, ha2, ha3, ha4⟩
  | @grant who dk proof pl r0 delegator d0 hv hr hw hdk hne hp hd =>
    simp only at ha1
    by_cases hkey : (delegator, pl.authorizedMsaId) = (d, p)
    · right
      simp only [Prod.mk.injEq] at hkey
      obtain ⟨hkd, hkp⟩ := hkey
      subst hkd; subst hkp
      rw [SMap.get_insert_self] at ha1
      simp only [Option.some.injEq] at ha1
      subst ha1
      obtain ⟨_, _, _, _, h5⟩ := upsertDelegation_ok hd
      rw [h5] at ha3
      have hmem : k ∈ pl.schemaIds := by
        by_contra hm
        simp only [hm, ↓reduceIte] at ha3
        split at ha3
        · simp only [Option.some.injEq] at ha3; omega
        · rename_i h0
          have hr0 : r ≠ 0 := by intro e; subst e; exact h0 ha3
          cases hg : s.delegations.get (delegator, pl.authorizedMsaId) with
          | none => rw [hg] at ha3; simp [default_perms] at ha3
          | some i =>
            rw [hg] at ha3
            have := (hb _ _ hg).2 k r ha3
            omega
      exact ⟨who, dk, proof, pl, rfl, hw, rfl, hmem, hv, register_expiration hr,
        Or.inl ⟨rfl, hdk⟩⟩
    · left
      rw [SMap.get_insert_ne _ hkey _] at ha1
      exact ⟨info, r, ha1, ha2, ha3, ha4⟩
  | @revoke who c delegator provider d0 hc hd h0 =>
    simp only at ha1
    left
    by_cases hkey : (delegator, provider) = (d, p)
    · rw [hkey, SMap.get_insert_self] at ha1
      simp only [Option.some.injEq] at ha1
      subst ha1
      simp only [activeAt] at ha2
      omega
    · rw [SMap.get_insert_ne _ hkey _] at ha1
      exact ⟨info, r, ha1, ha2, ha3, ha4⟩
  | addKey _ _ _ _ _ _ _ => exact Or.inl ⟨info, r, ha1, ha2, ha3, ha4⟩
  | delete _ _ _ => exact Or.inl ⟨info, r, ha1, ha2, ha3, ha4⟩
  | @revokeSchemas who provider ids delegator d0 d1 hw hd hm =>
    simp only at ha1
    left
    by_cases hkey : (delegator, provider) = (d, p)
    · rw [hkey, SMap.get_insert_self] at ha1
      simp only [Option.some.injEq] at ha1
      subst ha1
      obtain ⟨g1, _, g3, _⟩ := tryGetMutSchemas_ok hm
      rw [g3] at ha3
      split at ha3
      · simp only [Option.some.injEq] at ha3; omega
      · rw [hkey] at hd
        refine ⟨d0, r, hd, ?_, ha3, ha4⟩
        unfold activeAt at ha2 ⊢
        rw [g1] at ha2
        exact ha2
    · rw [SMap.get_insert_ne _ hkey _] at ha1
      exact ⟨info, r, ha1, ha2, ha3, ha4⟩

/-- Along a history: authority for a later block was there at the start or came with a signed grant. -/
theorem granted_along (cfg : Config) (p d : MsaId) (k : SchemaId) (b : BlockNumber) (h : List Step) :
    ∀ (s : State) (n : BlockNumber), RevBound n s → (∀ st ∈ h, n ≤ st.env.block) → Chron h →
      (∀ st ∈ h, 1 ≤ st.env.block ∧ st.env.block < b) → grantedAt (run cfg s h) p d k b →
      grantedAt s p d k b ∨
        ∃ h1 st h2, h = h1 ++ st :: h2 ∧ SignedGrant cfg (run cfg s h1) st p d k := by
  induction h with
  | nil => intro s n _ _ _ _ hg; exact Or.inl hg
  | cons st rest ih =>
    intro s n hrb hn hch hblk hg
    obtain ⟨hc1, hc2⟩ := List.pairwise_cons.1 hch
    have hst := hblk st (by simp)
    have hrb' : RevBound st.env.block s := hrb.mono (hn st (by simp))
    rcases ih (apply cfg s st) st.env.block (eff_revBound (apply_eff cfg s st) hrb') hc1 hc2
      (fun x hx => hblk x (List.mem_cons_of_mem _ hx)) hg with h0 | ⟨h1, st', h2, e, hs⟩
    · rcases C06_step_partial cfg s st p d k b hrb' hst.1 hst.2 h0 with h | h
      · exact Or.inl h
      · exact Or.inr ⟨[], st, rest, rfl, h⟩
    · refine Or.inr ⟨st :: h1, st', h2, by rw [e]; rfl, hs⟩

theorem revBound_init : RevBound 0 State.init := by
  intro key info hk; simp [State.init] at hk

/-- C06 for later blocks (missing: the block of a call itself, where it is false): after any
chronological history of calls (direct or wrapped, any length), if the authorisation check accepts provider `p` acting for `d` on schema `k` in a later block, then the
history contains a call carrying `d`'s valid unexpired signature over a payload naming `p` and `k`. -/
theorem C06_authority_needs_signature_partial (cfg : Config) (h : List Step) (env : Env) (p d : MsaId)
    (k : SchemaId) (b : BlockNumber) (hch : Chron h)
    (hblk : ∀ st ∈ h, 1 ≤ st.env.block ∧ st.env.block < b)
    (hok : ensureValidSchemaGrant env (run cfg State.init h) p d k b = .ok ()) :
    ∃ h1 st h2, h = h1 ++ st :: h2 ∧ SignedGrant cfg (run cfg State.init h1) st p d k := by
  rcases granted_along cfg p d k b h State.init 0 revBound_init (fun _ _ => Nat.zero_le _) hch hblk
    (ensureValidSchemaGrant_iff.1 hok).2 with h0 | h0
  · obtain ⟨info, r, h1, _⟩ := h0
    simp [State.init] at h1
  · exact h0

/-- The example history: account 3 granted schemas 5 and 6 to provider 1 by its sponsored creation. -/
example : Chron exHistory ∧ (∀ st ∈ exHistory, 1 ≤ st.env.block ∧ st.env.block < 10) ∧
    ensureValidSchemaGrant (exEnv 10) (run exCfg State.init exHistory) 1 3 5 10 = .ok () := by
  refine ⟨?_, ?_, by decide⟩
  · simp [Chron, exHistory, exEnv]
  · simp [exHistory, exEnv]

/-- C06 does not hold for checks about the block of the call itself: after a whole-delegation revocation
in block 5, a re-grant listing only schema 7 in block 8 re-authorises schema 5 during block 8. -/
theorem C06_same_block_regrant :
    let h := exHistory ++ [⟨exEnv 5, .signed 300, .revokeDelegationByDelegator 1⟩]
    let st : Step := ⟨exEnv 8, .signed 100, .grantDelegation 300 9 ⟨1, [7], 60⟩⟩
    ensureValidSchemaGrant (exEnv 8) (run exCfg State.init h) 1 3 5 8 = .error .delegationRevoked ∧
    ensureValidSchemaGrant (exEnv 8) (run exCfg State.init (h ++ [st])) 1 3 5 8 = .ok () ∧
    ensureValidSchemaGrant (exEnv 9) (run exCfg State.init (h ++ [st])) 1 3 5 9 =
      .error .schemaNotGranted := by decide

/-- C06 is false of the code without any grant: schema 5 was revoked in block 5; a second revocation of it,
in block 9, makes the provider authorised again for the rest of block 9. -/
theorem C06_revocation_authorises :
    let h := exHistory ++ [⟨exEnv 5, .signed 300, .revokeSchemaPermissions 1 [5]⟩]
    let st : Step := ⟨exEnv 9, .signed 300, .revokeSchemaPermissions 1 [5]⟩
    ensureValidSchemaGrant (exEnv 9) (run exCfg State.init h) 1 3 5 9 = .error .schemaNotGranted ∧
    ensureValidSchemaGrant (exEnv 9) (run exCfg State.init (h ++ [st])) 1 3 5 9 = .ok () := by decide

theorem SignedGrant.not_revocation {cfg s st p d k ids} (h : SignedGrant cfg s st p d k)
    (hc : st.call = .revokeSchemaPermissions p ids) : False := by
  obtain ⟨_, _, _, _, _, _, _, _, _, _, h | h⟩ := h
  · rw [h.1] at hc; cases hc
  · rw [h.1] at hc; cases hc

theorem C06_full_false : ¬ C06_full := fun hf =>
  (hf exCfg (exHistory ++ [⟨exEnv 5, .signed 300, .revokeSchemaPermissions 1 [5]⟩])
    ⟨exEnv 9, .signed 300, .revokeSchemaPermissions 1 [5]⟩ 1 3 5
    (by simp [Chron, exHistory, exEnv]) (by decide) (by decide)).not_revocation rfl

/-! ## C07 -/

/-- C07: a successful grant of `ids` at block `b`: every listed schema is recorded unrevoked, every other
schema that was granted is recorded as revoked at `b`, earlier revocations keep their block, the
delegation as a whole is active, and every other pair, key, provider and counter is unchanged. -/
theorem C07_grant_sets_exactly (cfg : Config) (env : Env) (s s' : State) (o : Origin)
    (dk : AccountId) (proof : Signature) (pl : AddProvider)
    (h : dispatch cfg env s o (.grantDelegation dk proof pl) = .ok s') :
    ∃ delegator info, resolves s dk delegator ∧
      s'.delegations.get (delegator, pl.authorizedMsaId) = some info ∧ info.revokedAt = 0 ∧
      (∀ k, info.perms.get k =
        if k ∈ pl.schemaIds then some 0
        else match (s.delegations.get (delegator, pl.authorizedMsaId)).bind (·.perms.get k) with
          | some 0 => some env.block
          | other => other) ∧
      (∀ key, key ≠ (delegator, pl.authorizedMsaId) →
        s'.delegations.get key = s.delegations.get key) ∧
      s'.keyToMsa = s.keyToMsa ∧ s'.keyCount = s.keyCount ∧ s'.providers = s.providers ∧
      s'.maxMsaId = s.maxMsaId := by
  simp only [dispatch, bind_eq_ok_iff] at h
  obtain ⟨who, ho, h⟩ := h
  obtain ⟨r, delegator, d, hv, hr, hw, hdk, hne, hp, hd, hs'⟩ := grantDelegation_ok h
  subst hs'
  obtain ⟨_, _, h3, _, h5⟩ := upsertDelegation_ok hd
  refine ⟨delegator, d, hdk, SMap.get_insert_self _ _ _, h3, ?_, ?_, rfl, rfl, rfl, rfl⟩
  · intro k
    rw [h5]
    split
    · rfl
    · cases hg : s.delegations.get (delegator, pl.authorizedMsaId) with
      | none => simp [default_perms]
      | some i =>
        simp only [Option.getD_some, Option.bind_some]
        cases hk : i.perms.get k with
        | none => simp
        | some v =>
          cases v with
          | zero => simp
          | succ v => simp
  · intro key hkey
    exact SMap.get_insert_ne _ (fun e => hkey e.symm) _

/-- C07, in terms of the check: after a successful grant in a reachable state the provider is
authorised from the next block on for exactly the listed schemas. -/
theorem C07_authorised_iff_listed (cfg : Config) (h : List Step) (env env' : Env) (s' : State)
    (o : Origin) (dk : AccountId) (proof : Signature) (pl : AddProvider)
    (hch : Chron h) (hblk : ∀ st ∈ h, st.env.block ≤ env.block) (h1 : 1 ≤ env.block)
    (hnext : env.block < env'.block)
    (hok : dispatch cfg env (run cfg State.init h) o (.grantDelegation dk proof pl) = .ok s') :
    ∃ delegator, resolves (run cfg State.init h) dk delegator ∧
      ∀ k, ensureValidSchemaGrant env' s' pl.authorizedMsaId delegator k env'.block = .ok () ↔
        k ∈ pl.schemaIds := by
  have hrb : ∀ (h : List Step) (s : State) (n : BlockNumber), RevBound n s →
      (∀ st ∈ h, n ≤ st.env.block) → Chron h → (∀ st ∈ h, st.env.block ≤ env.block) →
      n ≤ env.block → RevBound env.block (run cfg s h) := by
    intro h
    induction h with
    | nil => intro s n hs _ _ _ hn; exact hs.mono hn
    | cons st rest ih =>
      intro s n hs hn hc hb _
      obtain ⟨hc1, hc2⟩ := List.pairwise_cons.1 hc
      exact ih _ st.env.block
        (eff_revBound (apply_eff cfg s st) (hs.mono (hn st (by simp)))) hc1 hc2
        (fun x hx => hb x (List.mem_cons_of_mem _ hx)) (hb st (by simp))
  have hrb := hrb h State.init 0 revBound_init (fun _ _ => Nat.zero_le _) hch hblk (Nat.zero_le _)
  obtain ⟨delegator, info, hd, hi, h0, hp, _⟩ := C07_grant_sets_exactly _ _ _ _ _ _ _ _ hok
  refine ⟨delegator, hd, fun k => ?_⟩
  rw [ensureValidSchemaGrant_iff]
  constructor
  · rintro ⟨_, info', r, hi', _, hk, hr⟩
    rw [hi] at hi'
    simp only [Option.some.injEq] at hi'
    subst hi'
    by_contra hm
    rw [hp] at hk
    simp only [hm, ↓reduceIte] at hk
    cases hg : (run cfg State.init h).delegations.get (delegator, pl.authorizedMsaId) with
    | none => rw [hg] at hk; simp at hk
    | some i =>
      rw [hg] at hk
      simp only [Option.bind_some] at hk
      cases hik : i.perms.get k with
      | none => rw [hik] at hk; simp at hk
      | some v =>
        have hv := (hrb _ _ hg).2 k v hik
        rw [hik] at hk
        cases v with
        | zero => simp at hk; omega
        | succ v => simp at hk; omega
  · intro hm
    refine ⟨le_refl _, info, 0, hi, Or.inl h0, ?_, Or.inl rfl⟩
    rw [hp]; simp [hm]

/-- A re-grant that drops schema 5, keeps 6 and adds 7. -/
example : ∃ s', dispatch exCfg (exEnv 8) (run exCfg State.init exHistory) (.signed 100)
      (.grantDelegation 300 9 ⟨1, [6, 7, 7], 60⟩) = .ok s' ∧
    (s'.delegations.get (3, 1)).map (fun i => (i.perms.get 5, i.perms.get 6, i.perms.get 7)) =
      some (some 8, some 0, some 0) := ⟨_, rfl, by decide⟩

/-! ## C08 -/

/-- The step is a successful re-grant of the pair. -/
def Regrant (cfg : Config) (s : State) (st : Step) (p d : MsaId) : Prop :=
  ∃ who dk proof pl s', st.origin = .signed who ∧ resolves s who p ∧
    st.call = .grantDelegation dk proof pl ∧ pl.authorizedMsaId = p ∧ resolves s dk d ∧
    cfg.verify proof dk (wrap pl.encode) = true ∧
    dispatch cfg st.env s st.origin st.call = .ok s'

theorem apply_ne {cfg s st} (h : apply cfg s st ≠ s) :
    ∃ s', dispatch cfg st.env s st.origin st.call = .ok s' := by
  unfold apply at h
  split at h
  · exact ⟨_, by assumption⟩
  · exact absurd rfl h

theorem revoked_stays (cfg : Config) (p d : MsaId) (n : BlockNumber) (hn : 1 ≤ n) (h : List Step) :
    ∀ (s : State) (info : Delegation), s.delegations.get (d, p) = some info → info.revokedAt = n →
      (∃ info', (run cfg s h).delegations.get (d, p) = some info' ∧ info'.revokedAt = n) ∨
      ∃ h1 st h2, h = h1 ++ st :: h2 ∧ Regrant cfg (run cfg s h1) st p d := by
  induction h with
  | nil => intro s info hi h0; exact Or.inl ⟨info, hi, h0⟩
  | cons st rest ih =>
    intro s info hi h0
    have hstep : (∃ info', (apply cfg s st).delegations.get (d, p) = some info' ∧
        info'.revokedAt = n) ∨ Regrant cfg s st p d := by
      by_cases hsame : apply cfg s st = s
      · rw [hsame]; exact Or.inl ⟨info, hi, h0⟩
      obtain ⟨sd, hsd⟩ := apply_ne hsame
      have he := apply_eff cfg s st
      obtain ⟨env, o, c⟩ := st
      simp only at he hsd
      unfold Regrant
      generalize apply cfg s ⟨env, o, c⟩ = s' at he
      cases he with
      | noop => exact Or.inl ⟨info, hi, h0⟩
      | create _ _ _ => exact Or.inl ⟨info, hi, h0⟩
      | @sponsored who dk proof pl r0 d0 hv hr hw hp hid hk hc hne hd hl hs =>
        left
        have hkey : (s.maxMsaId + 1, pl.authorizedMsaId) ≠ (d, p) := by
          intro e; rw [e] at hne; rw [hne] at hi; simp at hi
        exact ⟨info, by simp only; rw [SMap.get_insert_ne _ hkey _]; exact hi, h0⟩
      | provider _ _ _ => exact Or.inl ⟨info, hi, h0⟩
      | @grant who dk proof pl r0 delegator d0 hv hr hw hdk hne hp hd =>
        by_cases hkey : (delegator, pl.authorizedMsaId) = (d, p)
        · right
          simp only [Prod.mk.injEq] at hkey
          obtain ⟨hkd, hkp⟩ := hkey
          subst hkd; subst hkp
          exact ⟨who, dk, proof, pl, sd, rfl, hw, rfl, rfl, hdk, hv, hsd⟩
        · left
          exact ⟨info, by simp only; rw [SMap.get_insert_ne _ hkey _]; exact hi, h0⟩
      | @revoke who c delegator provider d0 hc hd hd0 =>
        left
        have hkey : (delegator, provider) ≠ (d, p) := by
          intro e; rw [e, hi] at hd; simp only [Option.some.injEq] at hd; subst hd; omega
        exact ⟨info, by simp only; rw [SMap.get_insert_ne _ hkey _]; exact hi, h0⟩
      | addKey _ _ _ _ _ _ _ => exact Or.inl ⟨info, hi, h0⟩
      | delete _ _ _ => exact Or.inl ⟨info, hi, h0⟩
      | @revokeSchemas who provider ids delegator d0 d1 hw hd hm =>
        left
        by_cases hkey : (delegator, provider) = (d, p)
        · rw [hkey, hi] at hd
          simp only [Option.some.injEq] at hd
          subst hd
          refine ⟨d1, by simp only; rw [hkey, SMap.get_insert_self], ?_⟩
          rw [(tryGetMutSchemas_ok hm).1]; exact h0
        · exact ⟨info, by simp only; rw [SMap.get_insert_ne _ hkey _]; exact hi, h0⟩
    rcases hstep with ⟨info', hi', h0'⟩ | hg
    · rcases ih (apply cfg s st) info' hi' h0' with h | ⟨h1, st', h2, e, hs⟩
      · exact Or.inl h
      · exact Or.inr ⟨st :: h1, st', h2, by rw [e]; rfl, hs⟩
    · exact Or.inr ⟨[], st, rest, rfl, hg⟩

/-- The call revokes the delegation of `d` to `p` on behalf of one of the two parties. -/
def RevocationCall (s : State) (st : Step) (p d : MsaId) : Prop :=
  ∃ who, st.origin = .signed who ∧
    ((st.call = .revokeDelegationByDelegator p ∧ resolves s who d) ∨
     (st.call = .revokeDelegationByProvider d ∧ resolves s who p))

/-- The call revokes schema `k` of the delegation of `d` to `p`. -/
def SchemaRevocationCall (s : State) (st : Step) (p d : MsaId) (k : SchemaId) : Prop :=
  ∃ who ids, st.origin = .signed who ∧ resolves s who d ∧ k ∈ ids ∧ st.call = .revokeSchemaPermissions p ids

/-- C08, full statement: after a successful revocation of the delegation or of schema `k`, in every later
state reached without a new grant of the pair, the check about the current block fails once that block is
later than the revocation, and the checks about blocks up to the revocation answer as before it. -/
def C08_full : Prop :=
  ∀ (cfg : Config) (h0 : List Step) (s1 : State) (rev : Step) (p d : MsaId) (k : SchemaId) (h : List Step)
    (env : Env), Chron (h0 ++ rev :: h) → (∀ st ∈ h0 ++ rev :: h, 1 ≤ st.env.block ∧ st.env.block ≤ env.block) →
    (RevocationCall (run cfg State.init h0) rev p d ∨ SchemaRevocationCall (run cfg State.init h0) rev p d k) →
    dispatch cfg rev.env (run cfg State.init h0) rev.origin rev.call = .ok s1 →
    (∀ h1 st h2, h = h1 ++ st :: h2 → ¬ Regrant cfg (run cfg s1 h1) st p d) →
    (rev.env.block < env.block → ensureValidSchemaGrant env (run cfg s1 h) p d k env.block ≠ .ok ()) ∧
    (∀ b ≤ rev.env.block, ensureValidSchemaGrant env (run cfg s1 h) p d k b = .ok () ↔
      ensureValidSchemaGrant env (run cfg State.init h0) p d k b = .ok ())

/-- C08 (delegations; here nothing is missing for blocks after the revocation): once a revocation of the delegation succeeded in block `n`, then in every later
state both authorisation checks fail for every block after `n` - unless that later history contains
a successful grant of the same pair carrying the delegator's signature. -/
theorem C08_revoked_until_regrant_partial (cfg : Config) (s s1 : State) (rev : Step) (p d : MsaId)
    (h : List Step) (env : Env) (hn : 1 ≤ rev.env.block) (hcall : RevocationCall s rev p d)
    (hrev : dispatch cfg rev.env s rev.origin rev.call = .ok s1)
    (hno : ∀ h1 st h2, h = h1 ++ st :: h2 → ¬ Regrant cfg (run cfg s1 h1) st p d) :
    (∀ k b, rev.env.block < b → ensureValidSchemaGrant env (run cfg s1 h) p d k b ≠ .ok ()) ∧
    (∀ b info, rev.env.block < b → ensureValidDelegation env (run cfg s1 h) p d (some b) ≠ .ok info) ∧
    (∀ info, rev.env.block < env.block →
      ensureValidDelegation env (run cfg s1 h) p d none ≠ .ok info) := by
  have hs1 : ∃ info, s1.delegations.get (d, p) = some info ∧ info.revokedAt = rev.env.block := by
    obtain ⟨who, ho, hc | hc⟩ := hcall
    · obtain ⟨hc, hr⟩ := hc
      rw [ho, hc] at hrev
      simp only [dispatch, ensureSigned, bind_eq_ok_iff, Except.ok.injEq] at hrev
      obtain ⟨_, hw, hrev⟩ := hrev
      subst hw
      unfold resolves at hr
      simp only [revokeDelegationByDelegator, hr] at hrev
      obtain ⟨del, h1, h2, h3⟩ := revokeProvider_ok hrev
      subst h3
      exact ⟨_, SMap.get_insert_self _ _ _, rfl⟩
    · obtain ⟨hc, hr⟩ := hc
      rw [ho, hc] at hrev
      simp only [dispatch, ensureSigned, bind_eq_ok_iff, Except.ok.injEq] at hrev
      obtain ⟨_, hw, hrev⟩ := hrev
      subst hw
      unfold resolves at hr
      simp only [revokeDelegationByProvider, hr] at hrev
      obtain ⟨del, h1, h2, h3⟩ := revokeProvider_ok hrev
      subst h3
      exact ⟨_, SMap.get_insert_self _ _ _, rfl⟩
  obtain ⟨info, hi, h0⟩ := hs1
  rcases revoked_stays cfg p d rev.env.block hn h s1 info hi h0 with ⟨i, hi, h0⟩ | ⟨h1, st, h2, e, hg⟩
  swap
  · exact absurd hg (hno h1 st h2 e)
  have hnot : ∀ b, rev.env.block < b → ¬ activeAt i b := by
    intro b hb ha; unfold activeAt at ha; omega
  refine ⟨?_, ?_, ?_⟩
  · intro k b hb hok
    obtain ⟨_, i', r, hi', ha, _⟩ := ensureValidSchemaGrant_iff.1 hok
    rw [hi] at hi'; simp only [Option.some.injEq] at hi'; subst hi'
    exact hnot b hb ha
  · intro b i' hb hok
    obtain ⟨hi', _, ha⟩ := ensureValidDelegation_iff.1 hok
    rw [hi] at hi'; simp only [Option.some.injEq] at hi'; subst hi'
    exact hnot b hb ha
  · intro i' hb hok
    obtain ⟨hi', _, ha⟩ := ensureValidDelegation_iff.1 hok
    rw [hi] at hi'; simp only [Option.some.injEq] at hi'; subst hi'
    exact hnot _ hb ha

/-- In the example the delegator revokes in block 5 and then unrelated calls follow. -/
example : let s := run exCfg State.init exHistory
    let rev : Step := ⟨exEnv 5, .signed 300, .revokeDelegationByDelegator 1⟩
    RevocationCall s rev 1 3 ∧
    (∃ s1, dispatch exCfg rev.env s rev.origin rev.call = .ok s1) ∧
    ensureValidSchemaGrant (exEnv 5) (apply exCfg s rev) 1 3 5 5 = .ok () ∧
    ensureValidSchemaGrant (exEnv 6) (apply exCfg s rev) 1 3 5 6 = .error .delegationRevoked := by
  refine ⟨⟨300, rfl, Or.inl ⟨rfl, by unfold resolves; decide⟩⟩, ⟨_, rfl⟩, by decide, by decide⟩

/-- C08 (single schemas; missing: the blocks of the later calls themselves): after `revoke_schema_permissions` for schema `k`, every check about a block
later than all calls so far fails, unless a later call carried the delegator's signature for `k`. -/
theorem C08_schema_revoked_until_regrant_partial (cfg : Config) (h0 : List Step) (s1 : State) (rev : Step)
    (who : AccountId) (p d : MsaId) (ids : List SchemaId) (k : SchemaId) (h : List Step) (env : Env)
    (b : BlockNumber) (ho : rev.origin = .signed who)
    (hcall : rev.call = .revokeSchemaPermissions p ids) (hk : k ∈ ids)
    (hd : resolves (run cfg State.init h0) who d)
    (hrev : dispatch cfg rev.env (run cfg State.init h0) rev.origin rev.call = .ok s1)
    (hch : Chron (h0 ++ rev :: h)) (hblk : ∀ st ∈ h0 ++ rev :: h, 1 ≤ st.env.block ∧ st.env.block < b)
    (hno : ∀ h1 st h2, h = h1 ++ st :: h2 → ¬ SignedGrant cfg (run cfg s1 h1) st p d k) :
    ensureValidSchemaGrant env (run cfg s1 h) p d k b ≠ .ok () := by
  intro hok
  have hg := (ensureValidSchemaGrant_iff.1 hok).2
  -- the state right after the revocation
  have happ : apply cfg (run cfg State.init h0) rev = s1 := by unfold apply; rw [hrev]
  have hrbAll : ∀ (h : List Step) (s : State) (n m : BlockNumber), RevBound n s →
      (∀ st ∈ h, n ≤ st.env.block) → Chron h → (∀ st ∈ h, st.env.block ≤ m) →
      n ≤ m → RevBound m (run cfg s h) := by
    intro h
    induction h with
    | nil => intro s n m hs _ _ _ hn; exact hs.mono hn
    | cons st rest ih =>
      intro s n m hs hn hc hb _
      obtain ⟨hc1, hc2⟩ := List.pairwise_cons.1 hc
      exact ih _ st.env.block m
        (eff_revBound (apply_eff cfg s st) (hs.mono (hn st (by simp)))) hc1 hc2
        (fun x hx => hb x (List.mem_cons_of_mem _ hx)) (hb st (by simp))
  obtain ⟨hcA, hcB, hcC⟩ := List.pairwise_append.1 hch
  obtain ⟨hcB1, hcB2⟩ := List.pairwise_cons.1 hcB
  have hrb0 : RevBound rev.env.block (run cfg State.init h0) :=
    hrbAll h0 State.init 0 rev.env.block revBound_init (fun _ _ => Nat.zero_le _) hcA
      (fun st hst => hcC st hst rev (by simp)) (Nat.zero_le _)
  have hrb1 : RevBound rev.env.block s1 := by
    rw [← happ]; exact eff_revBound (apply_eff cfg _ rev) hrb0
  rcases granted_along cfg p d k b h s1 rev.env.block hrb1 hcB1 hcB2
    (fun st hst => hblk st (by simp [hst])) hg with h1 | ⟨h1, st, h2, e, hs⟩
  · rw [ho, hcall] at hrev
    simp only [dispatch, ensureSigned, bind_eq_ok_iff, Except.ok.injEq] at hrev
    obtain ⟨_, hw, hrev⟩ := hrev
    subst hw
    obtain ⟨del, d0, d1, g1, g2, g3, g4⟩ := revokeSchemaPermissions_ok hrev
    unfold resolves at hd
    rw [hd] at g1
    simp only [Option.some.injEq] at g1
    subst g1
    subst g4
    obtain ⟨info, r, hi, _, hr, hr'⟩ := h1
    simp only [SMap.get_insert_self, Option.some.injEq] at hi
    subst hi
    rw [(tryGetMutSchemas_ok g3).2.2.1, if_pos hk] at hr
    simp only [Option.some.injEq] at hr
    have := hblk rev (by simp)
    omega
  · exact hno h1 st h2 e hs

example : let s := run exCfg State.init exHistory
    let s1 := apply exCfg s ⟨exEnv 5, .signed 300, .revokeSchemaPermissions 1 [5]⟩
    ensureValidSchemaGrant (exEnv 6) s1 1 3 5 6 = .error .schemaNotGranted ∧
    ensureValidSchemaGrant (exEnv 6) s1 1 3 6 6 = .ok () := by decide

/-- C08, the past (missing: an answer about a past block can turn from no to yes, by a second revocation):
once the check about block `b` accepts, it accepts for ever after, through every history of calls in
blocks from `b` on, grants and revocations of the same pair included. -/
theorem C08_past_kept_partial (cfg : Config) (p d : MsaId) (k : SchemaId) (b : BlockNumber) (h : List Step)
    (env : Env) : ∀ (s : State), (∀ st ∈ h, b ≤ st.env.block) → b ≤ env.block →
      (∃ env0, ensureValidSchemaGrant env0 s p d k b = .ok ()) →
      ensureValidSchemaGrant env (run cfg s h) p d k b = .ok () := by
  suffices hs : ∀ s : State, (∀ st ∈ h, b ≤ st.env.block) → grantedAt s p d k b →
      grantedAt (run cfg s h) p d k b by
    rintro s hb hbe ⟨env0, h0⟩
    exact ensureValidSchemaGrant_iff.2 ⟨hbe, hs s hb (ensureValidSchemaGrant_iff.1 h0).2⟩
  induction h with
  | nil => intro s _ hg; exact hg
  | cons st rest ih =>
    intro s hb hg
    refine ih (apply cfg s st) (fun x hx => hb x (List.mem_cons_of_mem _ hx)) ?_
    have hle := hb st (by simp)
    have he := apply_eff cfg s st
    obtain ⟨env1, o, c⟩ := st
    simp only at he hle
    generalize apply cfg s ⟨env1, o, c⟩ = s' at he
    obtain ⟨info, r, hi, ha, hr, hr'⟩ := hg
    cases he with
    | noop => exact ⟨info, r, hi, ha, hr, hr'⟩
    | create _ _ _ => exact ⟨info, r, hi, ha, hr, hr'⟩
    | @sponsored who dk proof pl r0 d0 hv hr0 hw hp hid hk hc hne hd hl hs =>
      have hkey : (s.maxMsaId + 1, pl.authorizedMsaId) ≠ (d, p) := by
        intro e; rw [e] at hne; rw [hne] at hi; simp at hi
      exact ⟨info, r, by simp only; rw [SMap.get_insert_ne _ hkey _]; exact hi, ha, hr, hr'⟩
    | provider _ _ _ => exact ⟨info, r, hi, ha, hr, hr'⟩
    | @grant who dk proof pl r0 delegator d0 hv hr0 hw hdk hne hp hd =>
      by_cases hkey : (delegator, pl.authorizedMsaId) = (d, p)
      · rw [hkey, hi] at hd
        obtain ⟨_, _, h3, _, h5⟩ := upsertDelegation_ok hd
        refine ⟨d0, if k ∈ pl.schemaIds then 0 else if r = 0 then env1.block else r,
          by simp only; rw [hkey, SMap.get_insert_self], Or.inl h3, ?_, ?_⟩
        · rw [h5, Option.getD_some, hr]
          split
          · rfl
          · by_cases h0 : r = 0 <;> simp [h0]
        · split
          · exact Or.inl rfl
          · split
            · exact Or.inr hle
            · exact hr'
      · exact ⟨info, r, by simp only; rw [SMap.get_insert_ne _ hkey _]; exact hi, ha, hr, hr'⟩
    | @revoke who c delegator provider d0 hc hd hd0 =>
      by_cases hkey : (delegator, provider) = (d, p)
      · rw [hkey, hi] at hd
        simp only [Option.some.injEq] at hd
        subst hd
        exact ⟨{ info with revokedAt := env1.block }, r,
          by simp only; rw [hkey, SMap.get_insert_self], Or.inr hle, hr, hr'⟩
      · exact ⟨info, r, by simp only; rw [SMap.get_insert_ne _ hkey _]; exact hi, ha, hr, hr'⟩
    | addKey _ _ _ _ _ _ _ => exact ⟨info, r, hi, ha, hr, hr'⟩
    | delete _ _ _ => exact ⟨info, r, hi, ha, hr, hr'⟩
    | @revokeSchemas who provider ids delegator d0 d1 hw hd hm =>
      by_cases hkey : (delegator, provider) = (d, p)
      · rw [hkey, hi] at hd
        simp only [Option.some.injEq] at hd
        subst hd
        obtain ⟨g1, _, g3, _⟩ := tryGetMutSchemas_ok hm
        refine ⟨d1, if k ∈ ids then env1.block else r, by simp only; rw [hkey, SMap.get_insert_self],
          by unfold activeAt at ha ⊢; rw [g1]; exact ha, ?_, ?_⟩
        · rw [g3]; split
          · rfl
          · exact hr
        · split
          · exact Or.inr hle
          · exact hr'
      · exact ⟨info, r, by simp only; rw [SMap.get_insert_ne _ hkey _]; exact hi, ha, hr, hr'⟩

/-- The delegator revokes in block 5, the provider's authority for block 5 stays; so it does for schema 6. -/
example : let h : List Step := [⟨exEnv 5, .signed 300, .revokeDelegationByDelegator 1⟩,
      ⟨exEnv 8, .signed 300, .revokeSchemaPermissions 1 [6]⟩]
    ensureValidSchemaGrant (exEnv 5) (run exCfg State.init exHistory) 1 3 6 5 = .ok () ∧
    ensureValidSchemaGrant (exEnv 9) (run exCfg State.init (exHistory ++ h)) 1 3 6 5 = .ok () ∧
    ensureValidSchemaGrant (exEnv 9) (run exCfg State.init (exHistory ++ h)) 1 3 6 6 ≠ .ok () := by decide

/-- C08 is false of the code: schema 5 is revoked in block 5 and again in block 9, and the check about
block 9 accepts. -/
theorem C08_full_false : ¬ C08_full := by
  intro hf
  refine (hf exCfg exHistory _ ⟨exEnv 5, .signed 300, .revokeSchemaPermissions 1 [5]⟩ 1 3 5
    [⟨exEnv 9, .signed 300, .revokeSchemaPermissions 1 [5]⟩] (exEnv 9) (by simp [Chron, exHistory, exEnv])
    (by simp [exHistory, exEnv]) (Or.inr ⟨300, [5], rfl, by unfold resolves; decide, by simp, rfl⟩) rfl ?_).1
    (by decide) (by decide)
  intro h1 st h2 e
  rintro ⟨_, _, _, _, _, _, _, hc, _⟩
  have : st ∈ [(⟨exEnv 9, .signed 300, .revokeSchemaPermissions 1 [5]⟩ : Step)] := by rw [e]; simp
  simp only [List.mem_singleton] at this
  rw [this] at hc
  simp at hc

/-! ## C09 -/

/-- C09: for every state, the query lists exactly the schemas ever granted, and the block `r` it reports
for a schema decides the authorisation check for every block not in the future: `r = 0` means
authorised always, otherwise authorised exactly up to `r`. -/
theorem C09_report_agrees_with_check (s : State) (p d : MsaId) (l : List (SchemaId × BlockNumber))
    (h : getGrantedSchemas s d p = .ok l) :
    (l.map Prod.fst).Nodup ∧
    (∀ k r, (k, r) ∈ l → ∀ (env : Env) (b : BlockNumber), b ≤ env.block →
      (ensureValidSchemaGrant env s p d k b = .ok () ↔ r = 0 ∨ b ≤ r)) ∧
    (∀ k, (∀ r, (k, r) ∉ l) → ∀ (env : Env) (b : BlockNumber),
      ensureValidSchemaGrant env s p d k b ≠ .ok ()) := by
  simp only [getGrantedSchemas, bind_eq_ok_iff, okOr_eq_ok_iff, ensure_eq_ok_iff,
    pure_eq_ok_iff] at h
  obtain ⟨info, hi, _, _, hl⟩ := h
  subst hl
  refine ⟨?_, ?_, ?_⟩
  · rw [List.map_map]
    exact info.perms.nodup
  · intro k r hm env b hb
    obtain ⟨⟨k', r'⟩, hmem, he⟩ := List.mem_map.1 hm
    simp only [Prod.mk.injEq] at he
    obtain ⟨rfl, hr⟩ := he
    have hget := (SMap.mem_entries_iff _ _ _).1 hmem
    rw [ensureValidSchemaGrant_iff]
    unfold grantedAt activeAt
    rw [← hr]
    unfold reportGrant
    constructor
    · rintro ⟨_, info', r0, hi', ha, hk, hr0⟩
      rw [hi] at hi'; simp only [Option.some.injEq] at hi'; subst hi'
      rw [hget] at hk; simp only [Option.some.injEq] at hk; subst hk
      split <;> omega
    · intro hr0
      refine ⟨hb, info, r', hi, ?_, hget, ?_⟩
      · split at hr0 <;> omega
      · split at hr0 <;> omega
  · intro k hk env b hok
    obtain ⟨_, info', r, hi', _, hr, _⟩ := ensureValidSchemaGrant_iff.1 hok
    rw [hi] at hi'; simp only [Option.some.injEq] at hi'; subst hi'
    exact hk _ (List.mem_map.2 ⟨(k, r), (SMap.mem_entries_iff _ _ _).2 hr, rfl⟩)

/-- C09, full statement: at any time a schema is listed as unrevoked exactly if the check accepts every block up to
the current one, and as revoked at block `r` exactly if the check accepts the blocks up to `r` and no later one. -/
def C09_full : Prop :=
  ∀ (cfg : Config) (h : List Step) (env : Env) (p d : MsaId) (l : List (SchemaId × BlockNumber)),
    Chron h → (∀ st ∈ h, 1 ≤ st.env.block ∧ st.env.block ≤ env.block) →
    getGrantedSchemas (run cfg State.init h) d p = .ok l → ∀ k,
    ((k, 0) ∈ l ↔ ∀ b ≤ env.block, ensureValidSchemaGrant env (run cfg State.init h) p d k b = .ok ()) ∧
    ∀ r, r ≠ 0 → ((k, r) ∈ l ↔
      ∀ b ≤ env.block, (ensureValidSchemaGrant env (run cfg State.init h) p d k b = .ok () ↔ b ≤ r))

/-- C09 as an equivalence, in every state. Missing: the block of a revocation itself, in which the schema is listed as
revoked while the check still accepts every block up to the current one. -/
theorem C09_marks_iff_partial (s : State) (p d : MsaId) (l : List (SchemaId × BlockNumber))
    (h : getGrantedSchemas s d p = .ok l) (env : Env) (k : SchemaId) :
    ((∀ r, (k, r) ∈ l → r < env.block) →
      ((k, 0) ∈ l ↔ ∀ b ≤ env.block, ensureValidSchemaGrant env s p d k b = .ok ())) ∧
    ∀ r, r ≠ 0 → r < env.block → ((k, r) ∈ l ↔
      ∀ b ≤ env.block, (ensureValidSchemaGrant env s p d k b = .ok () ↔ b ≤ r)) := by
  obtain ⟨_, h2, h3⟩ := C09_report_agrees_with_check s p d l h
  have hex : ensureValidSchemaGrant env s p d k 0 = .ok () → ∃ r, (k, r) ∈ l := by
    intro hok
    by_contra hn
    exact h3 k (fun r hr => hn ⟨r, hr⟩) env 0 hok
  refine ⟨fun hb => ⟨fun hm b hle => (h2 k 0 hm env b hle).2 (.inl rfl), fun ha => ?_⟩,
    fun r hr0 hr => ⟨fun hm b hle => ?_, fun ha => ?_⟩⟩
  · obtain ⟨r, hr⟩ := hex (ha 0 (Nat.zero_le _))
    have h4 := (h2 k r hr env env.block (Nat.le_refl _)).1 (ha _ (Nat.le_refl _))
    have h5 := hb r hr
    rcases h4 with rfl | h4
    · exact hr
    · exact absurd h4 (Nat.not_le.2 h5)
  · rw [h2 k r hm env b hle]
    exact ⟨fun h => h.resolve_left hr0, .inr⟩
  · obtain ⟨r', hr'⟩ := hex ((ha 0 (Nat.zero_le _)).2 (Nat.zero_le _))
    have e1 := (h2 k r' hr' env r (Nat.le_of_lt hr)).1 ((ha r (Nat.le_of_lt hr)).2 (Nat.le_refl _))
    have e2 := mt ((h2 k r' hr' env (r + 1) hr).2)
      (fun hok => absurd ((ha (r + 1) hr).1 hok) (Nat.not_succ_le_self r))
    have : r' = r := by
      rcases e1 with e1 | e1
      · exact absurd (.inl e1) e2
      · by_contra hne
        exact e2 (.inr (Nat.lt_of_le_of_ne e1 (fun e => hne e.symm)))
    rwa [this] at hr'

/-- C09 is false of the code in the block of a revocation: schema 5 is revoked in block 5 and listed as revoked at
once, but the check accepts every block up to the current one. -/
theorem C09_full_false : ¬ C09_full := fun hf => by
  have := ((hf exCfg (exHistory ++ [⟨exEnv 5, .signed 300, .revokeSchemaPermissions 1 [5]⟩]) (exEnv 5) 1 3
    [(5, 5), (6, 0)] (by simp [Chron, exHistory, exEnv]) (by decide) (by decide) 5).1).2 (by
      intro b hb
      have hb : b < 6 := Nat.lt_succ_of_le hb
      have : ∀ b < 6, ensureValidSchemaGrant (exEnv 5) (run exCfg State.init (exHistory ++
          [⟨exEnv 5, .signed 300, .revokeSchemaPermissions 1 [5]⟩])) 1 3 5 b = .ok () := by decide
      exact this b hb)
  exact absurd this (by decide)

example : getGrantedSchemas (run exCfg State.init (exHistory ++
      [⟨exEnv 5, .signed 300, .revokeSchemaPermissions 1 [5]⟩])) 3 1 = .ok [(5, 5), (6, 0)] ∧
    (∀ r, ((5 : SchemaId), r) ∈ [((5 : SchemaId), (5 : BlockNumber)), (6, 0)] → r < (exEnv 7).block) := by
  refine ⟨by decide, fun r hr => ?_⟩
  simp only [List.mem_cons, Prod.mk.injEq, List.not_mem_nil, or_false] at hr
  rcases hr with ⟨_, rfl⟩ | ⟨h, _⟩
  · decide
  · exact absurd h (by decide)

/-- C09: when the query errors, nothing is authorised. -/
theorem C09_error_means_nothing_granted (s : State) (p d : MsaId) (e : Err)
    (h : getGrantedSchemas s d p = .error e) (env : Env) (k : SchemaId) (b : BlockNumber) :
    ensureValidSchemaGrant env s p d k b ≠ .ok () := by
  intro hok
  obtain ⟨_, info, r, hi, _, hr, _⟩ := ensureValidSchemaGrant_iff.1 hok
  unfold getGrantedSchemas at h
  rw [hi] at h
  simp only [okOr, bind, Except.bind, ensure] at h
  have hne : info.perms.entries ≠ [] := by
    intro e; have := (SMap.mem_entries_iff _ _ _).2 hr; rw [e] at this; simp at this
  simp [hne, pure, Except.pure] at h

example : getGrantedSchemas (run exCfg State.init (exHistory ++
      [⟨exEnv 5, .signed 300, .revokeSchemaPermissions 1 [5]⟩,
       ⟨exEnv 7, .signed 100, .revokeDelegationByProvider 3⟩])) 3 1 = .ok [(5, 5), (6, 7)] ∧
    getGrantedSchemas (run exCfg State.init exHistory) 2 1 = .error .delegationNotFound := by decide

/-! ## C13 -/

/-- C13: a registration is permanent and immutable. -/
theorem C13_providers_permanent (cfg : Config) (s : State) (h : List Step) (m : MsaId) (name : Bytes)
    (hp : s.providers.get m = some name) : (run cfg s h).providers.get m = some name := by
  refine run_induction (P := fun s => s.providers.get m = some name) ?_ h s hp
  intro s st hs
  have he := apply_eff cfg s st
  obtain ⟨env, o, c⟩ := st
  simp only at he
  generalize apply cfg s ⟨env, o, c⟩ = s' at he
  cases he with
  | noop => exact hs
  | create _ _ _ => exact hs
  | sponsored _ _ _ _ _ _ _ _ _ _ _ => exact hs
  | @provider _ _ m' name' hl hn hk =>
    have hne : m' ≠ m := by intro e; subst e; rw [hn] at hs; simp at hs
    simp only; rw [SMap.get_insert_ne _ hne _]; exact hs
  | grant _ _ _ _ _ _ _ => exact hs
  | revoke _ _ _ => exact hs
  | addKey _ _ _ _ _ _ _ => exact hs
  | delete _ _ _ => exact hs
  | revokeSchemas _ _ _ => exact hs

/-- C13: an account is registered once: in every state, both ways to register one that is a provider already fail. -/
theorem C13_registered_once (cfg : Config) (s : State) (env : Env) (k : AccountId) (m : MsaId) (name : Bytes)
    (hk : resolves s k m) (hp : s.providers.get m = some name) (o : Origin) (name' : Bytes) :
    (∀ s', dispatch cfg env s (.signed k) (.createProvider name') ≠ .ok s') ∧
    (∀ s', dispatch cfg env s o (.createProviderViaGovernance k name') ≠ .ok s') := by
  have hfor : ∀ s', createProviderFor cfg s m name' ≠ .ok s' := by
    intro s' h
    simp only [createProviderFor, bind_eq_ok_iff, ensure_eq_ok_iff] at h
    obtain ⟨_, _, _, h, _⟩ := h
    rw [hp] at h; cases h
  have hmsa : ensureValidMsaKey s k = .ok m := by
    unfold resolves at hk
    simp [ensureValidMsaKey, hk, okOr]
  constructor
  · intro s' h
    simp only [dispatch, bind_eq_ok_iff] at h
    obtain ⟨who, hw, h⟩ := h
    have := ensureSigned_ok hw
    cases this
    simp only [createProvider, hmsa, bind, Except.bind] at h
    exact hfor _ h
  · intro s' h
    cases o with
    | signed _ => cases h
    | governance =>
      simp only [dispatch, createProviderViaGovernance, hmsa, bind, Except.bind] at h
      exact hfor _ h

/-- C13: whoever is delegated to for the first time was a registered provider before the call, in every state. -/
theorem C13_provider_at_that_time (cfg : Config) (s : State) (st : Step) (d p : MsaId) (info : Delegation)
    (hb : s.delegations.get (d, p) = none) (ha : (apply cfg s st).delegations.get (d, p) = some info) :
    ∃ name, s.providers.get p = some name := by
  have hq : ∀ p, s.providers.contains p = true → ∃ name, s.providers.get p = some name := by
    intro p hp
    exact (SMap.contains_iff _ _).1 hp
  have he := apply_eff cfg s st
  obtain ⟨env, o, c⟩ := st
  simp only at he
  generalize apply cfg s ⟨env, o, c⟩ = s' at he ha
  have hold : s.delegations.get (d, p) = some info → ∃ name, s.providers.get p = some name := by
    intro h; rw [hb] at h; cases h
  have hins : ∀ (d0 p0 : MsaId) (i0 : Delegation),
      (s.delegations.insert (d0, p0) i0).get (d, p) = some info → (d0, p0) = (d, p) := by
    intro d0 p0 i0 hg
    by_contra hne
    rw [SMap.get_insert_ne _ hne _, hb] at hg
    cases hg
  cases he with
  | noop => exact hold ha
  | create _ _ _ => exact hold ha
  | sponsored hv hr hw hp hid hk hc hn hd hl hs => cases hins _ _ _ ha; exact hq _ hp
  | provider _ _ _ => exact hold ha
  | grant hv hr hw hdk hne hp hd => cases hins _ _ _ ha; exact hq _ hp
  | revoke hc hd h0 => cases hins _ _ _ ha; rw [hb] at hd; cases hd
  | addKey _ _ _ _ _ _ _ => exact hold ha
  | delete _ _ _ => exact hold ha
  | revokeSchemas hw hd hm => cases hins _ _ _ ha; rw [hb] at hd; cases hd

example : (run exCfg State.init exHistory).providers.get 1 ≠ none ∧
    resolves (run exCfg State.init exHistory) 100 1 ∧
    (run exCfg State.init (exHistory.take 5)).delegations.get (3, 1) = none ∧
    (run exCfg State.init (exHistory.take 6)).delegations.get (3, 1) ≠ none := by
  unfold resolves; decide

/-- C13: every delegation target is a registered provider, after any history. -/
theorem C13_delegations_target_providers (cfg : Config) (h : List Step) (d p : MsaId)
    (info : Delegation) (hd : (run cfg State.init h).delegations.get (d, p) = some info) :
    ∃ name, (run cfg State.init h).providers.get p = some name ∧ name.length ≤ cfg.maxNameSize := by
  have hinv : ∀ s : State, (∀ d p info, s.delegations.get (d, p) = some info →
        s.providers.contains p = true) ∧
      (∀ p name, s.providers.get p = some name → name.length ≤ cfg.maxNameSize) → ∀ st,
      (∀ d p info, (apply cfg s st).delegations.get (d, p) = some info →
        (apply cfg s st).providers.contains p = true) ∧
      (∀ p name, (apply cfg s st).providers.get p = some name → name.length ≤ cfg.maxNameSize) := by
    intro s ⟨hs1, hs2⟩ st
    have he := apply_eff cfg s st
    obtain ⟨env, o, c⟩ := st
    simp only at he
    generalize apply cfg s ⟨env, o, c⟩ = s' at he
    have hins : ∀ (d0 p0 : MsaId) (i0 : Delegation), s.providers.contains p0 = true →
        ∀ d p info, (s.delegations.insert (d0, p0) i0).get (d, p) = some info →
          s.providers.contains p = true := by
      intro d0 p0 i0 hc d p info hg
      rw [SMap.get_insert] at hg
      split at hg
      · rename_i e; cases e; exact hc
      · exact hs1 d p info hg
    cases he with
    | noop => exact ⟨hs1, hs2⟩
    | create _ _ _ => exact ⟨hs1, hs2⟩
    | sponsored hv hr hw hp hid hk hc hn hd hl hs => exact ⟨hins _ _ _ hp, hs2⟩
    | @provider _ _ m' name' hl hn hk =>
      constructor
      · intro d p info hg
        have := hs1 d p info hg
        rw [SMap.contains_iff] at this ⊢
        simp only [SMap.get_insert]
        split
        · exact ⟨_, rfl⟩
        · exact this
      · intro p name hg
        simp only [SMap.get_insert] at hg
        split at hg
        · simp only [Option.some.injEq] at hg; subst hg; exact hl
        · exact hs2 p name hg
    | grant hv hr hw hdk hne hp hd => exact ⟨hins _ _ _ hp, hs2⟩
    | revoke hc hd h0 => exact ⟨hins _ _ _ (hs1 _ _ _ hd), hs2⟩
    | addKey _ _ _ _ _ _ _ => exact ⟨hs1, hs2⟩
    | delete _ _ _ => exact ⟨hs1, hs2⟩
    | revokeSchemas hw hd hm => exact ⟨hins _ _ _ (hs1 _ _ _ hd), hs2⟩
  have := run_induction (cfg := cfg) (P := fun s => (∀ d p info, s.delegations.get (d, p) = some info →
        s.providers.contains p = true) ∧
      (∀ p name, s.providers.get p = some name → name.length ≤ cfg.maxNameSize))
    (fun s st hs => hinv s hs st) h State.init
    ⟨by intro d p info h; simp [State.init] at h, by intro p n h; simp [State.init] at h⟩
  obtain ⟨name, hn⟩ := (SMap.contains_iff _ _).1 (this.1 d p info hd)
  exact ⟨name, hn, this.2 _ _ hn⟩

example : ((run exCfg State.init exHistory).delegations.get (3, 1)).isSome = true := by decide

/-! ## C14 -/

theorem eff_grantsBounded {cfg env s o c s'} (he : Eff cfg env s o c s')
    (h : ∀ key info, s.delegations.get key = some info → info.perms.size ≤ cfg.maxGrants) :
    ∀ key info, s'.delegations.get key = some info → info.perms.size ≤ cfg.maxGrants := by
  have hins : ∀ (key0 : MsaId × MsaId) (i0 : Delegation), i0.perms.size ≤ cfg.maxGrants →
      ∀ key info, (s.delegations.insert key0 i0).get key = some info →
        info.perms.size ≤ cfg.maxGrants := by
    intro key0 i0 hc key info hg
    rw [SMap.get_insert] at hg
    split at hg
    · simp only [Option.some.injEq] at hg; subst hg; exact hc
    · exact h key info hg
  cases he with
  | noop => exact h
  | create _ _ _ => exact h
  | sponsored _ _ _ _ _ _ _ _ hd _ _ =>
    exact hins _ _ ((tryInsertSchemas_ok hd).2.1 (Nat.zero_le _))
  | provider _ _ _ => exact h
  | @grant who dk proof pl r0 delegator d0 hv hr hw hdk hne hp hd =>
    refine hins _ _ ((upsertDelegation_ok hd).2.2.2.1 ?_)
    cases hg : s.delegations.get (delegator, pl.authorizedMsaId) with
    | none => exact Nat.zero_le _
    | some i => exact h _ _ hg
  | revoke _ hd h0 =>
    have := h _ _ hd
    exact hins _ _ this
  | addKey _ _ _ _ _ _ _ => exact h
  | delete _ _ _ => exact h
  | revokeSchemas _ hd hm =>
    refine hins _ _ ?_
    rw [(tryGetMutSchemas_ok hm).2.1]
    exact h _ _ hd

/-- C14: no delegation ever records more schemas than the configured maximum. -/
theorem C14_grants_bounded (cfg : Config) (h : List Step) (d p : MsaId) (info : Delegation)
    (hd : (run cfg State.init h).delegations.get (d, p) = some info) :
    info.perms.keys.Nodup ∧ info.perms.keys.length ≤ cfg.maxGrants := by
  refine ⟨info.perms.nodup, ?_⟩
  have := run_induction (cfg := cfg) (P := fun s => ∀ key info, s.delegations.get key = some info →
      info.perms.size ≤ cfg.maxGrants) (fun s st hs => eff_grantsBounded (apply_eff cfg s st) hs) h
      State.init (by intro k i h; simp [State.init] at h) (d, p) info hd
  simpa [SMap.keys, SMap.size] using this

/-- C14: a grant listing more schemas than the maximum fails, so it changes nothing. -/
theorem C14_oversized_grant_rejected (cfg : Config) (s : State) (env : Env) (o : Origin)
    (dk : AccountId) (proof : Signature) (pl : AddProvider)
    (hbig : cfg.maxGrants < pl.schemaIds.length) :
    apply cfg s ⟨env, o, .grantDelegation dk proof pl⟩ = s ∧
    apply cfg s ⟨env, o, .createSponsoredAccountWithDelegation dk proof pl⟩ = s := by
  constructor
  · unfold apply
    split
    · rename_i s' h
      simp only [dispatch, bind_eq_ok_iff] at h
      obtain ⟨who, ho, h⟩ := h
      obtain ⟨r, delegator, d, _, _, _, _, _, _, hd, _⟩ := grantDelegation_ok h
      have := (upsertDelegation_ok hd).1
      omega
    · rfl
  · unfold apply
    split
    · rename_i s' h
      simp only [dispatch, bind_eq_ok_iff] at h
      obtain ⟨who, ho, h⟩ := h
      obtain ⟨r, d, _, _, _, _, _, _, _, _, _, hl, _, _⟩ := createSponsored_ok h
      omega
    · rfl

/-- With a maximum of two, a second grant that would bring the recorded schemas to three fails even
though it lists only one. -/
example : let cfg := { exCfg with maxGrants := 2 }
    let s := run cfg State.init exHistory
    dispatch cfg (exEnv 8) s (.signed 100) (.grantDelegation 300 9 ⟨1, [7], 60⟩) =
      .error .exceedsMaxSchemaGrantsPerDelegation := by rfl

/-- C14: so does a grant after which the delegation would record more schemas than the maximum, those recorded
before, also revoked ones, counted in. -/
theorem C14_growth_rejected (cfg : Config) (h : List Step) (env : Env) (o : Origin) (dk : AccountId)
    (proof : Signature) (pl : AddProvider) (delegator : MsaId) (l : List SchemaId) (hl : l.Nodup)
    (hbig : cfg.maxGrants < l.length) :
    let s := run cfg State.init h
    resolves s dk delegator →
    (∀ k ∈ l, k ∈ pl.schemaIds ∨
      ∃ info, s.delegations.get (delegator, pl.authorizedMsaId) = some info ∧ (info.perms.get k).isSome) →
    apply cfg s ⟨env, o, .grantDelegation dk proof pl⟩ = s := by
  intro s hr hk
  by_contra hne
  obtain ⟨s', hs'⟩ := apply_ne hne
  have happ : apply cfg s ⟨env, o, .grantDelegation dk proof pl⟩ = s' := by unfold apply; rw [hs']
  obtain ⟨del, info', g1, g2, _, g4, _⟩ := C07_grant_sets_exactly cfg env s s' o dk proof pl hs'
  have : del = delegator := by unfold resolves at g1 hr; rw [hr] at g1; exact (Option.some.inj g1).symm
  subst this
  have hrun : run cfg State.init (h ++ [⟨env, o, .grantDelegation dk proof pl⟩]) = s' := by
    rw [← happ]; simp [run, List.foldl_append, s]
  have hb := (C14_grants_bounded cfg (h ++ [⟨env, o, .grantDelegation dk proof pl⟩]) del pl.authorizedMsaId info'
    (by rw [hrun]; exact g2)).2
  have hsub : l ⊆ info'.perms.keys := by
    intro k hkl
    rw [SMap.mem_keys_iff, SMap.contains_iff, g4 k]
    by_cases hm : k ∈ pl.schemaIds
    · exact ⟨0, by rw [if_pos hm]⟩
    · rw [if_neg hm]
      obtain ⟨info, hi, hg⟩ := (hk k hkl).resolve_left hm
      rw [hi, Option.bind_some]
      obtain ⟨r, hr⟩ := Option.isSome_iff_exists.1 hg
      rw [hr]
      cases r with
      | zero => exact ⟨_, rfl⟩
      | succ n => exact ⟨_, rfl⟩
  have := (List.subperm_of_subset hl hsub).length_le
  omega

/-- With room for three schemas and two recorded, two new ones are refused, one new beside an old one is not. -/
example : let cfg := { exCfg with maxGrants := 3 }
    let s := run cfg State.init exHistory
    apply cfg s ⟨exEnv 8, .signed 100, .grantDelegation 300 9 ⟨1, [7, 8], 60⟩⟩ = s ∧
    (dispatch cfg (exEnv 8) s (.signed 100) (.grantDelegation 300 9 ⟨1, [6, 7], 60⟩)).isOk = true := by
  refine ⟨C14_growth_rejected _ exHistory _ _ _ _ _ 3 [5, 6, 7, 8] (by decide) (by decide) (by unfold resolves; decide)
    ?_, by decide⟩
  intro k hk
  simp only [List.mem_cons, List.not_mem_nil, or_false] at hk
  rcases hk with e | e | e | e <;> subst e
  · exact .inr ⟨_, rfl, by decide⟩
  · exact .inr ⟨_, rfl, by decide⟩
  · simp
  · simp

/-! ## C77, C78 -/

/-- C77: no account ever delegates to itself. -/
theorem C77_no_self_delegation (cfg : Config) (h : List Step) (m : MsaId) :
    (run cfg State.init h).delegations.get (m, m) = none := by
  suffices hs : IdInv (run cfg State.init h) ∧ ∀ m, (run cfg State.init h).delegations.get (m, m) = none from hs.2 m
  refine run_induction (P := fun s => IdInv s ∧ ∀ m, s.delegations.get (m, m) = none) ?_ h _
    ⟨idInv_init, fun _ => rfl⟩
  rintro s st ⟨hi, hn⟩
  have he := apply_eff cfg s st
  refine ⟨eff_idInv he hi, fun m => ?_⟩
  obtain ⟨env, o, c⟩ := st
  simp only at he
  generalize apply cfg s ⟨env, o, c⟩ = s' at he
  have hins : ∀ (a b : MsaId) (i : Delegation), a ≠ b → (s.delegations.insert (a, b) i).get (m, m) = none := by
    intro a b i hab
    rw [SMap.get_insert_ne _ (by intro e; simp only [Prod.mk.injEq] at e; omega)]
    exact hn m
  cases he with
  | noop => exact hn m
  | create _ _ _ => exact hn m
  | sponsored hv hr hw hp hid hk hc hne hd hl hs =>
    refine hins _ _ _ ?_
    have := hi.bound _ _ hw
    omega
  | provider _ _ _ => exact hn m
  | grant hv hr hw hdk hne hp hd => exact hins _ _ _ hne
  | @revoke who c delegator provider d0 hc hd h0 =>
    refine hins _ _ _ ?_
    intro e; rw [e, hn] at hd; simp at hd
  | addKey _ _ _ _ _ _ _ => exact hn m
  | delete _ _ _ => exact hn m
  | @revokeSchemas who provider ids delegator d0 d1 hw hd hm =>
    refine hins _ _ _ ?_
    intro e; rw [e, hn] at hd; simp at hd

/-- A grant to oneself with a valid signature is refused. -/
example : dispatch exCfg (exEnv 8) (run exCfg State.init exHistory) (.signed 100) (.grantDelegation 100 9 ⟨1, [7], 60⟩) =
    .error .invalidSelfProvider := by rfl

/-- C78: an account becomes a provider only by `create_provider` submitted by one of its own keys, or by a
governance decision naming one of its keys; the name recorded is the one given; in every state. -/
theorem C78_provider_registration (cfg : Config) (s : State) (st : Step) (m : MsaId) (name : Bytes)
    (hb : s.providers.get m = none) (ha : (apply cfg s st).providers.get m = some name) :
    ∃ k, resolves s k m ∧
      ((st.origin = .signed k ∧ st.call = .createProvider name) ∨
       (st.origin = .governance ∧ st.call = .createProviderViaGovernance k name)) := by
  have he := apply_eff cfg s st
  obtain ⟨env, o, c⟩ := st
  simp only at he ⊢
  generalize apply cfg s ⟨env, o, c⟩ = s' at he ha
  have habs : ∀ {q : Prop}, s.providers.get m = some name → q := by
    intro q h; rw [hb] at h; cases h
  cases he with
  | noop => exact habs ha
  | create _ _ _ => exact habs ha
  | sponsored _ _ _ _ _ _ _ _ _ _ _ => exact habs ha
  | @provider _ _ m' name' hl hn hk =>
    simp only [SMap.get_insert] at ha
    split at ha
    · rename_i e
      subst e
      cases ha
      obtain ⟨k, h1, h2⟩ := hk
      exact ⟨k, h1, h2⟩
    · exact habs ha
  | grant _ _ _ _ _ _ _ => exact habs ha
  | revoke _ _ _ => exact habs ha
  | addKey _ _ _ _ _ _ _ => exact habs ha
  | delete _ _ _ => exact habs ha
  | revokeSchemas _ _ _ => exact habs ha

/-- Both ways occur; a signed call cannot use the governance way. -/
example : let s := run exCfg State.init (exHistory.take 2)
    (apply exCfg s ⟨exEnv 2, .signed 100, .createProvider [65]⟩).providers.get 1 = some [65] ∧
    (apply exCfg s ⟨exEnv 2, .governance, .createProviderViaGovernance 200 [66]⟩).providers.get 2 = some [66] ∧
    (apply exCfg s ⟨exEnv 2, .signed 200, .createProviderViaGovernance 200 [66]⟩).providers.get 2 = none := by decide

/-! ## C79 -/

/-- The delegation of `d` to `p` records schema `k`, revoked or not. -/
def records (s : State) (d p : MsaId) (k : SchemaId) : Prop :=
  ∃ info, s.delegations.get (d, p) = some info ∧ (info.perms.get k).isSome = true

/-- C79 as a user would state it: a schema newly recorded in a delegation is one of those issued so far,
which have the ids 1 to the latest. -/
def C79_full : Prop :=
  ∀ (cfg : Config) (s : State) (st : Step) (d p : MsaId) (k : SchemaId), ¬ records s d p k →
    records (apply cfg s st) d p k → 1 ≤ k ∧ k ≤ st.env.latestSchema

/-- C79, partial: in every state, a schema newly recorded in a delegation has an id up to the latest one
issued. Missing: the id 0, which is accepted although no schema has it. -/
theorem C79_only_issued_partial (cfg : Config) (s : State) (st : Step) (d p : MsaId) (k : SchemaId)
    (hb : ¬ records s d p k) (ha : records (apply cfg s st) d p k) : k ≤ st.env.latestSchema := by
  have he := apply_eff cfg s st
  obtain ⟨env, o, c⟩ := st
  simp only at he ⊢
  generalize apply cfg s ⟨env, o, c⟩ = s' at he ha
  obtain ⟨info, h1, h2⟩ := ha
  have hold : ∀ {q : Prop}, s.delegations.get (d, p) = some info → q := fun h => absurd ⟨info, h, h2⟩ hb
  cases he with
  | noop => exact hold h1
  | create _ _ _ => exact hold h1
  | sponsored hv hr hw hp hid hk hc hne hd hl hs =>
    simp only [SMap.get_insert] at h1
    split at h1
    · cases h1
      rw [(tryInsertSchemas_ok hd).2.2] at h2
      split at h2
      · exact hs _ (by assumption)
      · simp [Delegation.default] at h2
    · exact hold h1
  | provider _ _ _ => exact hold h1
  | grant hv hr hw hdk hne hp hd =>
    simp only [SMap.get_insert] at h1
    split at h1
    · rename_i e
      cases h1
      obtain ⟨_, g2, _, _, g5⟩ := upsertDelegation_ok hd
      rw [g5] at h2
      split at h2
      · exact g2 _ (by assumption)
      · rw [e] at h2
        cases hg : s.delegations.get (d, p) with
        | none =>
          rw [hg] at h2
          simp [Delegation.default] at h2
        | some i =>
          rw [hg] at h2
          refine absurd ⟨i, hg, ?_⟩ hb
          simp only [Option.getD_some] at h2
          split at h2
          · rename_i e; rw [e]; rfl
          · exact h2
    · exact hold h1
  | @revoke who c delegator provider d0 hc hd h0 =>
    simp only [SMap.get_insert] at h1
    split at h1
    · rename_i e
      cases h1
      exact absurd ⟨d0, by rw [← e]; exact hd, h2⟩ hb
    · exact hold h1
  | addKey _ _ _ _ _ _ _ => exact hold h1
  | delete _ _ _ => exact hold h1
  | @revokeSchemas who provider ids delegator d0 d1 hw hd hm =>
    simp only [SMap.get_insert] at h1
    split at h1
    · rename_i e
      cases h1
      refine absurd ⟨d0, by rw [← e]; exact hd, ?_⟩ hb
      obtain ⟨_, _, g3, g4⟩ := tryGetMutSchemas_ok hm
      rw [g3] at h2
      split at h2
      · rename_i hk
        obtain ⟨v, hv⟩ := (SMap.contains_iff _ _).1 (g4 k hk)
        rw [hv]; rfl
      · exact h2
    · exact hold h1

/-- Schema 7 is issued and accepted, schema 11 is not; nor is one of two. -/
example : let s := run exCfg State.init exHistory
    (dispatch exCfg (exEnv 8) s (.signed 100) (.grantDelegation 300 9 ⟨1, [7], 60⟩)).isOk = true ∧
    (dispatch exCfg (exEnv 8) s (.signed 100) (.grantDelegation 300 9 ⟨1, [7, 11], 60⟩)).isOk = false ∧
    (apply exCfg s ⟨exEnv 8, .signed 100, .createSponsoredAccountWithDelegation 400 9 ⟨1, [11], 60⟩⟩).maxMsaId = 3 := by
  decide

/-- C79 is false of the code: a grant for schema 0 is accepted. -/
theorem C79_full_false : ¬ C79_full := by
  intro h
  have := h exCfg (run exCfg State.init exHistory) ⟨exEnv 8, .signed 100, .grantDelegation 300 9 ⟨1, [0], 60⟩⟩ 3 1 0
    (by
      rintro ⟨info, h1, h2⟩
      have e : ((run exCfg State.init exHistory).delegations.get (3, 1)).map
          (fun i => (i.perms.get 0).isSome) = some false := by decide
      rw [h1] at e
      simp only [Option.map_some, Option.some.injEq] at e
      rw [h2] at e; cases e)
    ⟨_, rfl, by decide⟩
  omega

/-! ## C15 -/

theorem deleteKeyForMsa_total {s : State} {m k} (hk : ∃ m', s.keyToMsa.get k = some m')
    (h0 : s.keyCount.get m ≠ some 0) : ∃ s', deleteKeyForMsa s m k = .ok s' := by
  obtain ⟨m', hk⟩ := hk
  unfold deleteKeyForMsa
  simp only [hk, ensure, bind, Except.bind, Option.isSome_some, ↓reduceIte]
  split
  · exact ⟨_, rfl⟩
  · rename_i h; exact absurd h h0
  · exact ⟨_, rfl⟩
  · exact ⟨_, rfl⟩

/-- C15 (deletion and retirement; the full statement also covers revocations, where it is false, see
`C15_revocation_can_fail`): a key deletion or retirement that passes the transaction check in a state
reached by transactions is executed successfully in that state. -/
theorem C15_free_calls_succeed_partial (cfg : Config) (h : List Step) (env : Env) (who : AccountId)
    (c : Call) (hc : (∃ k, c = .deleteMsaPublicKey k) ∨ c = .retireMsa)
    (hv : validate env (runTx cfg State.init h) who c = .ok ()) :
    ∃ s', dispatch cfg env (runTx cfg State.init h) (.signed who) c = .ok s' := by
  have hi := countInv_runTx cfg h
  generalize runTx cfg State.init h = s at *
  rcases hc with ⟨k, rfl⟩ | rfl
  · obtain ⟨_, m, h1, h2⟩ := validateKeyDelete_ok hv
    obtain ⟨s1, hs1⟩ := deleteKeyForMsa_total (s := s) (m := m) (k := k) ⟨m, h2⟩
      (by rw [(hi m).1]; unfold toCount; split <;> simp_all)
    exact ⟨_, by simp only [dispatch, ensureSigned, deleteMsaPublicKey, h1, hs1, bind, Except.bind]; rfl⟩
  · obtain ⟨m, h1, _⟩ := ensureMsaCanRetire_ok hv
    obtain ⟨s1, hs1⟩ := deleteKeyForMsa_total (s := s) (m := m) (k := who) ⟨m, h1⟩
      (by rw [(hi m).1]; unfold toCount; split <;> simp_all)
    exact ⟨_, by simp only [dispatch, ensureSigned, retireMsa, h1, hs1, bind, Except.bind]; rfl⟩

/-- C15 (revocations): outside the block of an earlier revocation (or for a delegation never revoked),
an accepted revocation executes successfully. -/
theorem C15_revocation_succeeds_partial (cfg : Config) (s : State) (env : Env) (who : AccountId)
    (c : Call) (d p : MsaId) (hcall : RevocationCall s ⟨env, .signed who, c⟩ p d)
    (hv : validate env s who c = .ok ())
    (hnot : ∀ info, s.delegations.get (d, p) = some info → info.revokedAt < env.block) :
    ∃ s', dispatch cfg env s (.signed who) c = .ok s' := by
  obtain ⟨who', ho, hc⟩ := hcall
  simp only [Origin.signed.injEq] at ho
  subst ho
  have key : ∀ info, s.delegations.get (d, p) = some info → activeAt info env.block →
      ∃ s', revokeProvider env s p d = .ok s' := by
    intro info hi ha
    have h0 : info.revokedAt = 0 := by
      have := hnot info hi
      unfold activeAt at ha; omega
    exact ⟨{ s with
      delegations := s.delegations.insert (d, p) { info with revokedAt := env.block } },
      by simp [revokeProvider, hi, okOr, ensure, h0, bind, Except.bind, pure, Except.pure]⟩
  rcases hc with ⟨hc, hr⟩ | ⟨hc, hr⟩
  · simp only at hc
    subst hc
    unfold resolves at hr
    simp only [validate, validateDelegationByDelegator, bind_eq_ok_iff] at hv
    obtain ⟨m, hm, info, hinfo, _⟩ := hv
    have hm := ensureValidMsaKey_ok (mapErr_ok hm)
    rw [hr] at hm
    simp only [Option.some.injEq] at hm
    subst hm
    obtain ⟨hi, _, ha⟩ := ensureValidDelegation_iff.1 (mapErr_ok hinfo)
    obtain ⟨s', hs'⟩ := key info hi (by simpa using ha)
    exact ⟨s', by simp [dispatch, ensureSigned, bind, Except.bind, revokeDelegationByDelegator, hr, hs']⟩
  · simp only at hc
    subst hc
    unfold resolves at hr
    simp only [validate, validateDelegationByProvider, bind_eq_ok_iff] at hv
    obtain ⟨m, hm, info, hinfo, _⟩ := hv
    have hm := ensureValidMsaKey_ok (mapErr_ok hm)
    rw [hr] at hm
    simp only [Option.some.injEq] at hm
    subst hm
    obtain ⟨hi, _, ha⟩ := ensureValidDelegation_iff.1 (mapErr_ok hinfo)
    obtain ⟨s', hs'⟩ := key info hi (by simpa using ha)
    exact ⟨s', by simp [dispatch, ensureSigned, bind, Except.bind, revokeDelegationByProvider, hr, hs']⟩

/-- C15 fails for a second revocation in the block of the first: it passes the free-transaction check
(the delegation still counts as valid in that block) and then errors, without a fee. -/
theorem C15_revocation_can_fail :
    let s := runTx exCfg State.init (exHistory ++
      [⟨exEnv 5, .signed 300, .revokeDelegationByDelegator 1⟩])
    validate (exEnv 5) s 300 (.revokeDelegationByDelegator 1) = .ok () ∧
    (match dispatch exCfg (exEnv 5) s (.signed 300) (.revokeDelegationByDelegator 1) with
      | .error e => some e
      | .ok _ => none) = some .delegationRevoked := by decide

/-! ## C16 -/

/-- C16 is false: repeating `revoke_schema_permissions` moves the revocation block later, and so makes
the check answer differently for a past block. -/
theorem C16_revocation_moves_later :
    let s := run exCfg State.init (exHistory ++
      [⟨exEnv 5, .signed 300, .revokeSchemaPermissions 1 [5]⟩])
    let s' := apply exCfg s ⟨exEnv 9, .signed 300, .revokeSchemaPermissions 1 [5]⟩
    ensureValidSchemaGrant (exEnv 9) s 1 3 5 7 = .error .schemaNotGranted ∧
    ensureValidSchemaGrant (exEnv 9) s' 1 3 5 7 = .ok () ∧
    getGrantedSchemas s 3 1 = .ok [(5, 5), (6, 0)] ∧
    getGrantedSchemas s' 3 1 = .ok [(5, 9), (6, 0)] := by decide

/-- C16, what does hold (missing: the block may move later by a repeated request): without a new
grant for the pair, a schema once recorded as revoked stays recorded as revoked, at that block or
at the block of a later request, in any history. -/
theorem C16_stays_revoked_partial (cfg : Config) (p d : MsaId) (k : SchemaId) (h : List Step) :
    ∀ (s : State) (info : Delegation) (r : BlockNumber), s.delegations.get (d, p) = some info →
      info.perms.get k = some r → 1 ≤ r → (∀ st ∈ h, r ≤ st.env.block) → Chron h →
      (∀ h1 st h2, h = h1 ++ st :: h2 → ¬ Regrant cfg (run cfg s h1) st p d) →
      ∃ info' r', (run cfg s h).delegations.get (d, p) = some info' ∧
        info'.perms.get k = some r' ∧ r ≤ r' ∧
        (r' = r ∨ ∃ st ∈ h, r' = st.env.block ∧ ∃ ids, k ∈ ids ∧
          st.call = .revokeSchemaPermissions p ids) := by
  induction h with
  | nil => intro s info r hi hr _ _ _ _; exact ⟨info, r, hi, hr, le_refl _, Or.inl rfl⟩
  | cons st rest ih =>
    intro s info r hi hr h1 hge hch hno
    obtain ⟨hc1, hc2⟩ := List.pairwise_cons.1 hch
    have hstep : ∃ info' r', (apply cfg s st).delegations.get (d, p) = some info' ∧
        info'.perms.get k = some r' ∧ r ≤ r' ∧ (r' = r ∨ (r' = st.env.block ∧ ∃ ids, k ∈ ids ∧
          st.call = .revokeSchemaPermissions p ids)) := by
      by_cases hsame : apply cfg s st = s
      · rw [hsame]; exact ⟨info, r, hi, hr, le_refl _, Or.inl rfl⟩
      obtain ⟨sd, hsd⟩ := apply_ne hsame
      have hnr := hno [] st rest rfl
      have hge' := hge st (by simp)
      have he := apply_eff cfg s st
      obtain ⟨env, o, c⟩ := st
      simp only at he hsd hge'
      unfold Regrant at hnr
      generalize apply cfg s ⟨env, o, c⟩ = s' at he
      cases he with
      | noop => exact ⟨info, r, hi, hr, le_refl _, Or.inl rfl⟩
      | create _ _ _ => exact ⟨info, r, hi, hr, le_refl _, Or.inl rfl⟩
      | @sponsored who dk proof pl r0 d0 hv hr0 hw hp hid hk hc hne hd hl hs =>
        have hkey : (s.maxMsaId + 1, pl.authorizedMsaId) ≠ (d, p) := by
          intro e; rw [e] at hne; rw [hne] at hi; simp at hi
        exact ⟨info, r, by simp only; rw [SMap.get_insert_ne _ hkey _]; exact hi, hr, le_refl _,
          Or.inl rfl⟩
      | provider _ _ _ => exact ⟨info, r, hi, hr, le_refl _, Or.inl rfl⟩
      | @grant who dk proof pl r0 delegator d0 hv hr0 hw hdk hne hp hd =>
        by_cases hkey : (delegator, pl.authorizedMsaId) = (d, p)
        · simp only [Prod.mk.injEq] at hkey
          obtain ⟨hkd, hkp⟩ := hkey
          subst hkd; subst hkp
          exact absurd ⟨who, dk, proof, pl, sd, rfl, hw, rfl, rfl, hdk, hv, hsd⟩ hnr
        · exact ⟨info, r, by simp only; rw [SMap.get_insert_ne _ hkey _]; exact hi, hr, le_refl _,
            Or.inl rfl⟩
      | @revoke who c delegator provider d0 hc hd hd0 =>
        by_cases hkey : (delegator, provider) = (d, p)
        · rw [hkey, hi] at hd
          simp only [Option.some.injEq] at hd
          subst hd
          exact ⟨{ info with revokedAt := env.block }, r,
            by simp only; rw [hkey, SMap.get_insert_self], hr, le_refl _, Or.inl rfl⟩
        · exact ⟨info, r, by simp only; rw [SMap.get_insert_ne _ hkey _]; exact hi, hr, le_refl _,
            Or.inl rfl⟩
      | addKey _ _ _ _ _ _ _ => exact ⟨info, r, hi, hr, le_refl _, Or.inl rfl⟩
      | delete _ _ _ => exact ⟨info, r, hi, hr, le_refl _, Or.inl rfl⟩
      | @revokeSchemas who provider ids delegator d0 d1 hw hd hm =>
        by_cases hkey : (delegator, provider) = (d, p)
        · rw [hkey, hi] at hd
          simp only [Option.some.injEq] at hd
          subst hd
          simp only [Prod.mk.injEq] at hkey
          obtain ⟨hkd, hkp⟩ := hkey
          subst hkd; subst hkp
          have hg := (tryGetMutSchemas_ok hm).2.2.1 k
          by_cases hm : k ∈ ids
          · exact ⟨d1, env.block, by simp only; rw [SMap.get_insert_self], by rw [hg, if_pos hm],
              hge', Or.inr ⟨rfl, ids, hm, rfl⟩⟩
          · exact ⟨d1, r, by simp only; rw [SMap.get_insert_self], by rw [hg, if_neg hm]; exact hr,
              le_refl _, Or.inl rfl⟩
        · exact ⟨info, r, by simp only; rw [SMap.get_insert_ne _ hkey _]; exact hi, hr, le_refl _,
            Or.inl rfl⟩
    obtain ⟨info', r', hi', hr', hle, hor⟩ := hstep
    have hge2 : ∀ x ∈ rest, r' ≤ x.env.block := by
      intro x hx
      rcases hor with h | ⟨h, _⟩
      · rw [h]; exact hge x (List.mem_cons_of_mem _ hx)
      · rw [h]; exact hc1 x hx
    obtain ⟨i2, r2, a1, a2, a3, a4⟩ := ih (apply cfg s st) info' r' hi' hr' (by omega) hge2 hc2
      (fun h1 x h2 e => hno (st :: h1) x h2 (by rw [e]; rfl))
    refine ⟨i2, r2, a1, a2, by omega, ?_⟩
    rcases a4 with a4 | ⟨x, hx, a4⟩
    · rcases hor with h | ⟨h, h'⟩
      · left; omega
      · right; exact ⟨st, by simp, by omega, h'⟩
    · right; exact ⟨x, List.mem_cons_of_mem _ hx, a4⟩

end Verif.Msa
