import Verif.Msa.Queries
import Verif.Msa.PropsDelegation
/-!
# Questions about past delegations (C106)

The node keeps no record of when a delegation was made, only of when it was last revoked. What it answers about past
blocks can therefore change.
-/

namespace Verif.Msa

/-! ## Specification -/

/-- The step is a call of a key of `p` with a valid unexpired signature over a payload naming `p`, by a key of `d` or
by the key for which this call creates `d`. -/
def Agreed (cfg : Config) (s : State) (st : Step) (p d : MsaId) : Prop :=
  ∃ who dk proof pl, st.origin = .signed who ∧ resolves s who p ∧ pl.authorizedMsaId = p ∧
    cfg.verify proof dk (wrap pl.encode) = true ∧ st.env.block < pl.expiration ∧
    ((st.call = .grantDelegation dk proof pl ∧ resolves s dk d) ∨
     (st.call = .createSponsoredAccountWithDelegation dk proof pl ∧ (∀ m, ¬ resolves s dk m) ∧
      resolves (apply cfg s st) dk d))

/-- C106, full statement: the answer about block `b`, whenever it is asked for, is the one that was given at the end of
block `b`. -/
def C106_full : Prop :=
  ∀ (cfg : Config) (h h' : List Step) (env env' : Env) (d p : MsaId) (schema : Option SchemaId),
    Chron (h ++ h') → (∀ st ∈ h, 1 ≤ st.env.block ∧ st.env.block ≤ env.block) →
    (∀ st ∈ h', env.block < st.env.block ∧ st.env.block ≤ env'.block) → env.block ≤ env'.block →
    hasDelegation env' (run cfg .init (h ++ h')) d p env.block schema =
      hasDelegation env (run cfg .init h) d p env.block schema

/-! ## Helper lemmas -/

/-- What an answer depends on. -/
def pastYes (s : State) (d p : MsaId) (b : BlockNumber) : Option SchemaId → Prop
  | some k => grantedAt s p d k b
  | none => ∃ info, s.delegations.get (d, p) = some info ∧ activeAt info b

theorem isOk_iff {ε α : Type} {x : Except ε α} : x.isOk = true ↔ ∃ a, x = .ok a := by
  cases x with
  | ok a => exact ⟨fun _ => ⟨a, rfl⟩, fun _ => rfl⟩
  | error e => exact ⟨fun h => (by cases h), fun ⟨_, h⟩ => (by cases h)⟩

theorem hasDelegation_iff {env s d p b schema} :
    hasDelegation env s d p b schema = true ↔ b ≤ env.block ∧ pastYes s d p b schema := by
  cases schema with
  | none =>
    show (ensureValidDelegation env s p d (some b)).isOk = true ↔ _
    rw [isOk_iff]
    simp only [ensureValidDelegation_iff, pastYes]
    constructor
    · rintro ⟨i, h1, h2, h3⟩; exact ⟨h2 _ rfl, i, h1, h3⟩
    · rintro ⟨h1, i, h2, h3⟩; exact ⟨i, h2, by rintro n ⟨⟩; exact h1, h3⟩
  | some k =>
    show (ensureValidSchemaGrant env s p d k b).isOk = true ↔ _
    rw [isOk_iff]
    constructor
    · rintro ⟨⟨⟩, h⟩; exact ensureValidSchemaGrant_iff.1 h
    · intro h; exact ⟨(), ensureValidSchemaGrant_iff.2 h⟩

theorem delegation_kept (cfg : Config) (s : State) (st : Step) (p d : MsaId) (b : BlockNumber)
    (hb : b ≤ st.env.block) (hs : pastYes s d p b none) : pastYes (apply cfg s st) d p b none := by
  have he := apply_eff cfg s st
  obtain ⟨env1, o, c⟩ := st
  simp only at he hb
  generalize apply cfg s ⟨env1, o, c⟩ = s' at he
  obtain ⟨info, hi, ha⟩ := hs
  cases he with
  | noop => exact ⟨info, hi, ha⟩
  | create _ _ _ => exact ⟨info, hi, ha⟩
  | @sponsored who dk proof pl r0 d0 hv hr0 hw hp hid hk hc hne hd hl hs =>
    have hkey : (s.maxMsaId + 1, pl.authorizedMsaId) ≠ (d, p) := by
      intro e; rw [e] at hne; rw [hne] at hi; simp at hi
    exact ⟨info, by simp only; rw [SMap.get_insert_ne _ hkey _]; exact hi, ha⟩
  | provider _ _ _ => exact ⟨info, hi, ha⟩
  | @grant who dk proof pl r0 delegator d0 hv hr0 hw hdk hne hp hd =>
    by_cases hkey : (delegator, pl.authorizedMsaId) = (d, p)
    · obtain ⟨_, _, h3, _, _⟩ := upsertDelegation_ok hd
      exact ⟨d0, by simp only; rw [hkey, SMap.get_insert_self], Or.inl h3⟩
    · exact ⟨info, by simp only; rw [SMap.get_insert_ne _ hkey _]; exact hi, ha⟩
  | @revoke who c delegator provider d0 hc hd hd0 =>
    by_cases hkey : (delegator, provider) = (d, p)
    · exact ⟨{ d0 with revokedAt := env1.block }, by simp only; rw [hkey, SMap.get_insert_self], Or.inr hb⟩
    · exact ⟨info, by simp only; rw [SMap.get_insert_ne _ hkey _]; exact hi, ha⟩
  | addKey _ _ _ _ _ _ _ => exact ⟨info, hi, ha⟩
  | delete _ _ _ => exact ⟨info, hi, ha⟩
  | @revokeSchemas who provider ids delegator d0 d1 hw hd hm =>
    by_cases hkey : (delegator, provider) = (d, p)
    · rw [hkey, hi] at hd
      simp only [Option.some.injEq] at hd
      subst hd
      obtain ⟨g1, _⟩ := tryGetMutSchemas_ok hm
      exact ⟨d1, by simp only; rw [hkey, SMap.get_insert_self], by unfold activeAt at ha ⊢; rw [g1]; exact ha⟩
    · exact ⟨info, by simp only; rw [SMap.get_insert_ne _ hkey _]; exact hi, ha⟩

/-- A single call makes the answer a yes only by a new agreement or a repeated revocation. -/
theorem pastYes_step (cfg : Config) (s : State) (st : Step) (p d : MsaId) (b : BlockNumber) (schema : Option SchemaId)
    (hs : pastYes (apply cfg s st) d p b schema) :
    pastYes s d p b schema ∨ Agreed cfg s st p d ∨ ∃ k, schema = some k ∧ SchemaRevocationCall s st p d k := by
  have he := apply_eff cfg s st
  unfold Agreed SchemaRevocationCall
  obtain ⟨env1, o, c⟩ := st
  simp only at he ⊢
  generalize apply cfg s ⟨env1, o, c⟩ = s' at he hs ⊢
  have same : (s'.delegations.get (d, p) = s.delegations.get (d, p)) → pastYes s d p b schema := by
    intro e
    cases schema with
    | none => obtain ⟨i, h1, h2⟩ := hs; exact ⟨i, by rw [← e]; exact h1, h2⟩
    | some k => obtain ⟨i, r, h1, h2⟩ := hs; exact ⟨i, r, by rw [← e]; exact h1, h2⟩
  cases he with
  | noop => exact .inl hs
  | create _ _ _ => exact .inl (same rfl)
  | @sponsored who dk proof pl r0 d0 hv hr0 hw hp hid hk hc hne hd hl hs' =>
    by_cases hkey : (s.maxMsaId + 1, pl.authorizedMsaId) = (d, p)
    · simp only [Prod.mk.injEq] at hkey
      refine .inr (.inl ⟨who, dk, proof, pl, rfl, ?_, hkey.2, hv, register_expiration hr0, .inr ⟨rfl, ?_, ?_⟩⟩)
      · rw [← hkey.2]; exact hw
      · intro m hm; unfold resolves at hm; rw [hk] at hm; cases hm
      · unfold resolves withKey
        simp only
        rw [SMap.get_insert_self, hkey.1]
    · exact .inl (same (by simp only; rw [SMap.get_insert_ne _ hkey _]))
  | provider _ _ _ => exact .inl (same rfl)
  | @grant who dk proof pl r0 delegator d0 hv hr0 hw hdk hne hp hd =>
    by_cases hkey : (delegator, pl.authorizedMsaId) = (d, p)
    · simp only [Prod.mk.injEq] at hkey
      refine .inr (.inl ⟨who, dk, proof, pl, rfl, ?_, hkey.2, hv, register_expiration hr0, .inl ⟨rfl, ?_⟩⟩)
      · rw [← hkey.2]; exact hw
      · rw [← hkey.1]; exact hdk
    · exact .inl (same (by simp only; rw [SMap.get_insert_ne _ hkey _]))
  | @revoke who c delegator provider d0 hc hd hd0 =>
    by_cases hkey : (delegator, provider) = (d, p)
    · rw [hkey] at hd
      refine .inl ?_
      cases schema with
      | none => exact ⟨d0, hd, .inl hd0⟩
      | some k =>
        obtain ⟨i, r, h1, h2, h3, h4⟩ := hs
        simp only at h1
        rw [hkey, SMap.get_insert_self] at h1
        cases h1
        exact ⟨d0, r, hd, .inl hd0, h3, h4⟩
    · exact .inl (same (by simp only; rw [SMap.get_insert_ne _ hkey _]))
  | addKey _ _ _ _ _ _ _ => exact .inl (same rfl)
  | delete _ _ _ => exact .inl (same rfl)
  | @revokeSchemas who provider ids delegator d0 d1 hw hd hm =>
    by_cases hkey : (delegator, provider) = (d, p)
    · obtain ⟨g1, _, g3, _⟩ := tryGetMutSchemas_ok hm
      rw [hkey] at hd
      simp only [Prod.mk.injEq] at hkey
      have hkey' : (delegator, provider) = (d, p) := by rw [hkey.1, hkey.2]
      cases schema with
      | none =>
        obtain ⟨i, h1, h2⟩ := hs
        simp only at h1
        rw [hkey', SMap.get_insert_self] at h1
        cases h1
        exact .inl ⟨d0, hd, by unfold activeAt at h2 ⊢; rw [← g1]; exact h2⟩
      | some k =>
        obtain ⟨i, r, h1, h2, h3, h4⟩ := hs
        simp only at h1
        rw [hkey', SMap.get_insert_self] at h1
        cases h1
        by_cases hk : k ∈ ids
        · exact .inr (.inr ⟨k, rfl, who, ids, rfl, by rw [← hkey.1]; exact hw, hk, by rw [hkey.2]⟩)
        · rw [g3, if_neg hk] at h3
          exact .inl ⟨d0, r, hd, by unfold activeAt at h2 ⊢; rw [← g1]; exact h2, h3, h4⟩
    · exact .inl (same (by simp only; rw [SMap.get_insert_ne _ hkey _]))

theorem pastYes_run (cfg : Config) (p d : MsaId) (b : BlockNumber) (schema : Option SchemaId) (h : List Step) :
    ∀ s, pastYes (run cfg s h) d p b schema →
    pastYes s d p b schema ∨ ∃ h1 st h2, h = h1 ++ st :: h2 ∧
      (Agreed cfg (run cfg s h1) st p d ∨ ∃ k, schema = some k ∧ SchemaRevocationCall (run cfg s h1) st p d k) := by
  induction h with
  | nil => intro s hs; exact .inl hs
  | cons st rest ih =>
    intro s hs
    rcases ih (apply cfg s st) hs with h1 | ⟨h1, st', h2, e, h3⟩
    · rcases pastYes_step cfg s st p d b schema h1 with h1 | h1
      · exact .inl h1
      · exact .inr ⟨[], st, rest, rfl, h1⟩
    · exact .inr ⟨st :: h1, st', h2, by rw [e]; rfl, h3⟩

/-! ## C106 -/

/-- C106, yes (missing: a no can become a yes): once the answer about block `b` is yes, it stays so, through calls in
blocks from `b` on. -/
theorem C106_yes_kept_partial (cfg : Config) (s : State) (h : List Step) (env env' : Env) (d p : MsaId)
    (b : BlockNumber) (schema : Option SchemaId) (hb : ∀ st ∈ h, b ≤ st.env.block) (hb' : b ≤ env'.block)
    (hy : hasDelegation env s d p b schema = true) :
    hasDelegation env' (run cfg s h) d p b schema = true := by
  rw [hasDelegation_iff] at hy ⊢
  refine ⟨hb', ?_⟩
  cases schema with
  | some k =>
    exact (ensureValidSchemaGrant_iff.1 (C08_past_kept_partial cfg p d k b h env' s hb hb'
      ⟨env, ensureValidSchemaGrant_iff.2 hy⟩)).2
  | none =>
    replace hy := hy.2
    clear hb'
    induction h generalizing s with
    | nil => exact hy
    | cons st rest ih =>
      exact ih (apply cfg s st) (fun x hx => hb x (by simp [hx]))
        (delegation_kept cfg s st p d b (hb st (by simp)) hy)

/-- C106, no (missing: the two exceptions): an answer of no about a block `b` becomes a yes only after the delegator has
signed for this provider again, or, if it was asked about a schema, has revoked this schema again. -/
theorem C106_no_kept_partial (cfg : Config) (s : State) (h : List Step) (env env' : Env) (d p : MsaId)
    (b : BlockNumber) (schema : Option SchemaId) (hb : b ≤ env.block)
    (hn : hasDelegation env s d p b schema = false) (hy : hasDelegation env' (run cfg s h) d p b schema = true) :
    ∃ h1 st h2, h = h1 ++ st :: h2 ∧
      (Agreed cfg (run cfg s h1) st p d ∨
        ∃ k, schema = some k ∧ SchemaRevocationCall (run cfg s h1) st p d k) := by
  rcases pastYes_run cfg p d b schema h s (hasDelegation_iff.1 hy).2 with h1 | h1
  · rw [hasDelegation_iff.2 ⟨hb, h1⟩] at hn
    cases hn
  · exact h1

/-- C106 (this part holds): nothing is said about the future; asked about a list, the answer is that about each; asked
without a schema, the answer is yes if it is yes for some schema. -/
theorem C106_answers (env : Env) (s : State) (p : MsaId) (b : BlockNumber) :
    (∀ d schema, env.block < b → hasDelegation env s d p b schema = false) ∧
    (∀ ds schema, (checkDelegations env s ds p b schema).map Prod.fst = ds ∧
      ∀ d a, (d, a) ∈ checkDelegations env s ds p b schema → a = hasDelegation env s d p b schema) ∧
    (∀ d k, hasDelegation env s d p b (some k) = true → hasDelegation env s d p b none = true) := by
  refine ⟨fun d schema h => ?_, fun ds schema => ⟨?_, fun d a h => ?_⟩, fun d k h => ?_⟩
  · rw [Bool.eq_false_iff]
    intro h'
    have := (hasDelegation_iff.1 h').1
    exact absurd this (Nat.not_le.2 h)
  · unfold checkDelegations
    rw [List.map_map]
    exact List.map_id _
  · unfold checkDelegations at h
    obtain ⟨d', _, e⟩ := List.mem_map.1 h
    cases e
    rfl
  · obtain ⟨h1, i, r, h2, h3, _⟩ := hasDelegation_iff.1 h
    exact hasDelegation_iff.2 ⟨h1, i, h2, h3⟩

/-- C106 (this part holds): the query for all delegations of an account lists every provider once, and those for which
anything was granted with what the query for this provider reports. -/
theorem C106_all_granted (s : State) (d : MsaId) :
    ((allGranted s d).map Prod.fst).Nodup ∧
    (∀ p l, l ≠ [] → ((p, l) ∈ allGranted s d ↔ grantedSchemas s d p = some l)) ∧
    (∀ p, (p, []) ∈ allGranted s d → grantedSchemas s d p = none) ∧
    (∀ env p b schema, hasDelegation env s d p b schema = true → p ∈ (allGranted s d).map Prod.fst) := by
  have hmem : ∀ p l, (p, l) ∈ allGranted s d ↔ ∃ i, s.delegations.get (d, p) = some i ∧
      l = i.perms.entries.map (fun g => (g.1, reportGrant i g.2)) := by
    intro p l
    unfold allGranted
    simp only [List.mem_map, List.mem_filter, decide_eq_true_eq, Prod.mk.injEq]
    constructor
    · rintro ⟨⟨⟨d', p'⟩, i⟩, ⟨h1, h2⟩, h3, h4⟩
      simp only at h2 h3 h4
      subst h2 h3
      exact ⟨i, (SMap.mem_entries_iff _ _ _).1 h1, h4.symm⟩
    · rintro ⟨i, h1, rfl⟩
      exact ⟨((d, p), i), ⟨(SMap.mem_entries_iff _ _ _).2 h1, rfl⟩, rfl, rfl⟩
  have hq : ∀ p l, grantedSchemas s d p = some l ↔ ∃ i, s.delegations.get (d, p) = some i ∧ i.perms.entries ≠ [] ∧
      l = i.perms.entries.map (fun g => (g.1, reportGrant i g.2)) := by
    intro p l
    unfold grantedSchemas getGrantedSchemas
    cases s.delegations.get (d, p) with
    | none => simp [okOr, bind, Except.bind, Except.toOption]
    | some i =>
      by_cases e : i.perms.entries = []
      · simp [okOr, bind, Except.bind, Except.toOption, ensure, e]
      · simp [okOr, bind, Except.bind, Except.toOption, ensure, e, pure, Except.pure, eq_comm]
  refine ⟨?_, fun p l hl => ?_, fun p h => ?_, fun env p b schema h => ?_⟩
  · unfold allGranted
    rw [List.map_map]
    have hn := s.delegations.nodup
    unfold List.Nodup
    rw [List.pairwise_map]
    refine ((List.pairwise_map.1 hn).filter _).imp_of_mem ?_
    intro a b ha hb hab e
    have ha := (List.mem_filter.1 ha).2
    have hb := (List.mem_filter.1 hb).2
    simp only [decide_eq_true_eq] at ha hb
    exact hab (Prod.ext (ha.trans hb.symm) e)
  · rw [hmem, hq]
    constructor
    · rintro ⟨i, h1, h2⟩
      exact ⟨i, h1, by intro e; rw [e] at h2; exact hl h2, h2⟩
    · rintro ⟨i, h1, _, h2⟩; exact ⟨i, h1, h2⟩
  · obtain ⟨i, h1, h2⟩ := (hmem _ _).1 h
    cases hg : grantedSchemas s d p with
    | none => rfl
    | some l =>
      obtain ⟨i', h3, h4, _⟩ := (hq _ _).1 hg
      rw [h1] at h3
      cases h3
      exact absurd (List.map_eq_nil_iff.1 h2.symm) h4
  · have : ∃ i, s.delegations.get (d, p) = some i := by
      cases schema with
      | none => obtain ⟨_, i, h1, _⟩ := hasDelegation_iff.1 h; exact ⟨i, h1⟩
      | some k => obtain ⟨_, i, _, h1, _⟩ := hasDelegation_iff.1 h; exact ⟨i, h1⟩
    obtain ⟨i, hi⟩ := this
    exact List.mem_map.2 ⟨_, (hmem p _).2 ⟨i, hi, rfl⟩, rfl⟩

/-- C106 is false of the code: account 3 is created in block 4, with a delegation to provider 1; from then on the node
answers that there was one in block 2. -/
theorem C106_full_false : ¬ C106_full := by
  intro hf
  have := hf exCfg (exHistory.take 4) (exHistory.drop 4) (exEnv 2) (exEnv 4) 3 1 none
    (by simp [Chron, exHistory, exEnv]) (by simp [exHistory, exEnv]) (by simp [exHistory, exEnv]) (by decide)
  revert this
  decide

/-! ## Cases -/

/-- Account 3 delegates in block 4 and revokes in block 6: block 5 is answered with yes before and after. -/
def exAsk : List Step := exHistory ++ [⟨exEnv 6, .signed 300, .revokeDelegationByDelegator 1⟩]

example : hasDelegation (exEnv 5) (run exCfg .init exHistory) 3 1 5 none = true ∧
    hasDelegation (exEnv 5) (run exCfg .init exHistory) 3 1 5 (some 6) = true ∧
    hasDelegation (exEnv 9) (run exCfg .init exAsk) 3 1 5 none = true ∧
    hasDelegation (exEnv 9) (run exCfg .init exAsk) 3 1 7 none = false ∧
    hasDelegation (exEnv 9) (run exCfg .init exAsk) 3 1 7 (some 6) = false := by decide

example : checkDelegations (exEnv 9) (run exCfg .init exAsk) [2, 3, 3] 1 5 (some 5) =
    [(2, false), (3, true), (3, true)] := by decide

example : allGranted (run exCfg .init exAsk) 3 = [(1, [(6, 6), (5, 6)])] ∨
    allGranted (run exCfg .init exAsk) 3 = [(1, [(5, 6), (6, 6)])] := by decide

/-- `C106_no_kept_partial` is met: the question about block 2 of account 3 turns from no to yes. -/
example : hasDelegation (exEnv 2) (run exCfg .init (exHistory.take 4)) 3 1 2 (some 5) = false ∧
    hasDelegation (exEnv 4) (run exCfg (run exCfg .init (exHistory.take 4)) (exHistory.drop 4)) 3 1 2 (some 5) = true := by
  decide

end Verif.Msa
