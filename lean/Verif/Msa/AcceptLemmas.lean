import Verif.Msa.PropsReplay
import Mathlib.Data.Finset.Card
/-!
# Lemmas for the acceptance of account calls
-/

namespace Verif.Msa

open SigRegistry (Rep)
open SigRegistry.Spec (Queue Req final)

/-- Schemas that a delegation records, as a set. -/
def schemaSet (d : Delegation) : Finset SchemaId := d.perms.keys.toFinset

theorem mem_schemaSet {d : Delegation} {k : SchemaId} : k ∈ schemaSet d ↔ d.perms.contains k = true := by
  rw [schemaSet, List.mem_toFinset, SMap.mem_keys_iff]

theorem card_schemaSet (d : Delegation) : (schemaSet d).card = d.perms.size := by
  rw [schemaSet, SMap.keys, List.toFinset_card_of_nodup d.perms.nodup, List.length_map, SMap.size]

theorem contains_insert (d : SMap SchemaId BlockNumber) (id k : SchemaId) (b : BlockNumber) :
    (d.insert id b).contains k = true ↔ k = id ∨ d.contains k = true := by
  simp only [SMap.contains, SMap.get_insert]
  by_cases e : id = k
  · simp [e]
  · simp [e, Ne.symm e]

theorem tryGetMutSchemas_iff {ids : List SchemaId} {b : BlockNumber} :
    ∀ {d : Delegation}, (∃ d', tryGetMutSchemas d ids b = .ok d') ↔
      ∀ id ∈ ids, d.perms.contains id = true := by
  induction ids with
  | nil => intro d; simp [tryGetMutSchemas, pure_eq_ok_iff]
  | cons id ids ih =>
    intro d
    simp only [tryGetMutSchemas, tryGetMutSchema, bind_eq_ok_iff, ensure_eq_ok_iff, pure_eq_ok_iff,
      List.forall_mem_cons]
    constructor
    · rintro ⟨d', _, ⟨_, h1, rfl⟩, h2⟩
      refine ⟨h1, fun k hk => ?_⟩
      rcases (contains_insert _ _ _ _).1 (ih.1 ⟨d', h2⟩ k hk) with rfl | h
      · exact h1
      · exact h
    · rintro ⟨h1, h2⟩
      obtain ⟨d', h3⟩ := (ih (d := { d with perms := d.perms.insert id b })).2
        (fun k hk => (contains_insert _ _ _ _).2 (.inr (h2 k hk)))
      exact ⟨d', _, ⟨(), h1, rfl⟩, h3⟩

theorem tryInsertSchemas_iff {cfg : Config} {ids : List SchemaId} :
    ∀ {d : Delegation}, d.perms.size ≤ cfg.maxGrants →
      ((∃ d', tryInsertSchemas cfg d ids = .ok d') ↔ (schemaSet d ∪ ids.toFinset).card ≤ cfg.maxGrants) := by
  induction ids with
  | nil =>
    intro d h
    simp [tryInsertSchemas, pure_eq_ok_iff, card_schemaSet, h]
  | cons id ids ih =>
    intro d h
    have hset : schemaSet { d with perms := d.perms.insert id 0 } = insert id (schemaSet d) := by
      ext k
      rw [mem_schemaSet, Finset.mem_insert, mem_schemaSet]
      exact contains_insert _ _ _ _
    have hun : schemaSet d ∪ (id :: ids).toFinset = insert id (schemaSet d) ∪ ids.toFinset := by
      ext k
      simp only [Finset.mem_union, Finset.mem_insert, List.toFinset_cons]
      tauto
    rw [hun, ← hset]
    have hsz : (schemaSet { d with perms := d.perms.insert id 0 }).card =
        (d.perms.insert id 0).size := card_schemaSet _
    simp only [tryInsertSchemas, tryInsertSchema, bind_eq_ok_iff, ensure_eq_ok_iff, pure_eq_ok_iff]
    by_cases hc : d.perms.size < cfg.maxGrants ∨ d.perms.contains id = true
    · have hle : (d.perms.insert id 0).size ≤ cfg.maxGrants := by
        rcases hc with hc | hc
        · have := SMap.size_insert_le d.perms id 0; omega
        · obtain ⟨v, hv⟩ := (SMap.contains_iff _ _).1 hc
          rw [SMap.size_insert_of_some d.perms 0 hv]; exact h
      rw [← ih (d := { d with perms := d.perms.insert id 0 }) hle]
      constructor
      · rintro ⟨d', _, ⟨_, _, rfl⟩, h2⟩; exact ⟨d', h2⟩
      · rintro ⟨d', h2⟩; exact ⟨d', _, ⟨(), hc, rfl⟩, h2⟩
    · constructor
      · rintro ⟨d', _, ⟨_, h1, _⟩, _⟩; exact absurd h1 hc
      · intro hcard
        exfalso
        have hn : d.perms.get id = none := by
          cases hg : d.perms.get id with
          | none => rfl
          | some v => exact absurd (.inr ((SMap.contains_iff _ _).2 ⟨v, hg⟩)) hc
        have h1 := SMap.size_insert_of_none d.perms (0 : BlockNumber) hn
        have h2 := Finset.card_le_card (Finset.subset_union_left
          (s₁ := schemaSet { d with perms := d.perms.insert id 0 }) (s₂ := ids.toFinset))
        have h3 : ¬ d.perms.size < cfg.maxGrants := fun e => hc (.inl e)
        omega

theorem ensureAllSchemaIdsAreValid_iff {cfg env ids} {u : Unit} :
    ensureAllSchemaIdsAreValid cfg env ids = .ok u ↔
      ids.length ≤ cfg.maxGrants ∧ ∀ id ∈ ids, id ≤ env.latestSchema := by
  simp only [ensureAllSchemaIdsAreValid, bind_eq_ok_iff, ensure_eq_ok_iff, areAllSchemaIdsValid,
    List.all_eq_true, decide_eq_true_eq]
  exact ⟨fun ⟨_, h1, h2⟩ => ⟨h1, h2⟩, fun ⟨h1, h2⟩ => ⟨(), h1, h2⟩⟩

theorem upsertDelegation_iff {cfg env ids} {d : Delegation} (hs : d.perms.size ≤ cfg.maxGrants) :
    (∃ d', upsertDelegation cfg env d ids = .ok d') ↔
      ids.length ≤ cfg.maxGrants ∧ (∀ id ∈ ids, id ≤ env.latestSchema) ∧
      (schemaSet d ∪ ids.toFinset).card ≤ cfg.maxGrants := by
  have hset : ∀ {d d' : Delegation} {l : List SchemaId} {b : BlockNumber},
      tryGetMutSchemas d l b = .ok d' → schemaSet d' = schemaSet d := by
    intro d d' l b h
    obtain ⟨_, _, hg, hin⟩ := tryGetMutSchemas_ok h
    ext k
    rw [mem_schemaSet, mem_schemaSet, SMap.contains, hg]
    split
    · rename_i hk; simp [hin k hk]
    · rfl
  have hun : ∀ K : Finset SchemaId, K = schemaSet d →
      K ∪ (ids.filter (fun k => !(d.perms.contains k))).toFinset = schemaSet d ∪ ids.toFinset := by
    rintro _ rfl
    ext k
    simp only [Finset.mem_union, List.mem_toFinset, List.mem_filter, mem_schemaSet]
    cases d.perms.contains k <;> simp
  simp only [upsertDelegation, bind_eq_ok_iff, ensureAllSchemaIdsAreValid_iff, pure_eq_ok_iff]
  constructor
  · rintro ⟨d', _, ⟨h1, h1'⟩, d1, h2, d2, h3, d3, h4, _⟩
    refine ⟨h1, h1', ?_⟩
    have hK : schemaSet d2 = schemaSet d := (hset h3).trans (hset h2)
    have hsz : d2.perms.size ≤ cfg.maxGrants := by rw [← card_schemaSet, hK, card_schemaSet]; exact hs
    rw [← hun _ hK]
    exact (tryInsertSchemas_iff hsz).1 ⟨d3, h4⟩
  · rintro ⟨h1, h1', hcard⟩
    obtain ⟨d1, h2⟩ := (tryGetMutSchemas_iff (d := d) (b := env.block)
      (ids := d.perms.keys.filter (fun k => !(ids.contains k) && d.perms.get k == some 0))).2 (by
        intro k hk
        exact (SMap.mem_keys_iff _ _).1 (List.mem_filter.1 hk).1)
    obtain ⟨d2, h3⟩ := (tryGetMutSchemas_iff (d := d1) (b := 0)
      (ids := ids.filter (fun k => d.perms.contains k))).2 (by
        intro k hk
        rw [← mem_schemaSet, hset h2, mem_schemaSet]
        exact (List.mem_filter.1 hk).2)
    have hK : schemaSet d2 = schemaSet d := (hset h3).trans (hset h2)
    have hsz : d2.perms.size ≤ cfg.maxGrants := by rw [← card_schemaSet, hK, card_schemaSet]; exact hs
    obtain ⟨d3, h4⟩ := (tryInsertSchemas_iff hsz).2 (by rw [hun _ hK]; exact hcard)
    exact ⟨_, (), ⟨h1, h1'⟩, d1, h2, d2, h3, d3, h4, rfl⟩

/-! ## Invariant -/

/-- What the acceptance of calls needs to know of a reachable state: counters belong to issued ids and are
positive, delegators have issued ids, delegations are within the limit, and `q` is the content of the
signature registry. -/
structure AInv (cfg : Config) (s : State) (q : Queue) : Prop where
  ids : IdInv s
  counts : ∀ m n, s.keyCount.get m = some n → 1 ≤ n ∧ m ≤ s.maxMsaId
  dels : ∀ d p x, s.delegations.get (d, p) = some x → d ≤ s.maxMsaId
  grants : ∀ key x, s.delegations.get key = some x → x.perms.size ≤ cfg.maxGrants
  rep : Rep cfg.maxSignatures s.registry q

/-- The part of it that is about identifiers only. -/
def BoundInv (s : State) : Prop :=
  IdInv s ∧ (∀ m n, s.keyCount.get m = some n → 1 ≤ n ∧ m ≤ s.maxMsaId) ∧
  ∀ d p x, s.delegations.get (d, p) = some x → d ≤ s.maxMsaId

theorem eff_boundInv {cfg env s o c s'} (he : Eff cfg env s o c s') (hi : BoundInv s) : BoundInv s' := by
  obtain ⟨h1, h2, h3⟩ := hi
  have hid := eff_idInv he h1
  refine ⟨hid, ?_⟩
  have hins : ∀ {m : MsaId} {v : Nat} {B : Nat}, 1 ≤ v → m ≤ B → s.maxMsaId ≤ B →
      ∀ m' n, (s.keyCount.insert m v).get m' = some n → 1 ≤ n ∧ m' ≤ B := by
    intro m v B hv hm hB m' n hg
    rw [SMap.get_insert] at hg
    split at hg
    · rename_i e; subst e; cases hg; exact ⟨hv, hm⟩
    · have := h2 m' n hg; omega
  have hdel : ∀ {d p : MsaId} {v : Delegation} {B : Nat}, d ≤ B → s.maxMsaId ≤ B →
      ∀ d' p' x, (s.delegations.insert (d, p) v).get (d', p') = some x → d' ≤ B := by
    intro d p v B hd hB d' p' x hg
    rw [SMap.get_insert] at hg
    split at hg
    · rename_i e; rw [Prod.mk.injEq] at e; omega
    · have := h3 d' p' x hg; omega
  cases he with
  | noop => exact ⟨h2, h3⟩
  | create hid hk hc =>
    refine ⟨hins (by omega) (Nat.le_refl _) (Nat.le_succ _), fun d p x hg => ?_⟩
    exact Nat.le_succ_of_le (h3 d p x hg)
  | sponsored hv hr hw hp hid hk hc hn hd hl hs =>
    exact ⟨hins (by omega) (Nat.le_refl _) (Nat.le_succ _), hdel (Nat.le_refl _) (Nat.le_succ _)⟩
  | provider hl hn hk => exact ⟨h2, h3⟩
  | grant hv hr hw hdk hne hp hd =>
    exact ⟨h2, hdel (h1.bound _ _ hdk).2 (Nat.le_refl _)⟩
  | revoke hc hd h0 => exact ⟨h2, hdel (h3 _ _ _ hd) (Nat.le_refl _)⟩
  | addKey hv1 hv2 hr1 hr2 ho hk hc =>
    exact ⟨hins (by omega) (h1.bound _ _ ho).2 (Nat.le_refl _), h3⟩
  | @delete who c m k m' hw hk hc =>
    refine ⟨?_, h3⟩
    intro m₁ n hg
    show 1 ≤ n ∧ m₁ ≤ s.maxMsaId
    replace hg : (decCount s.keyCount m).get m₁ = some n := hg
    unfold decCount at hg
    split at hg
    · exact h2 _ _ hg
    · rename_i n' hn'
      have := h2 _ _ hn'
      split at hg
      · rw [SMap.get_erase] at hg
        split at hg
        · cases hg
        · exact h2 _ _ hg
      · rw [SMap.get_insert] at hg
        split at hg
        · rename_i e; cases hg; omega
        · exact h2 _ _ hg
  | revokeSchemas hw hd hm => exact ⟨h2, hdel (h1.bound _ _ hw).2 (Nat.le_refl _)⟩

theorem boundInv_run (cfg : Config) (h : List Step) : BoundInv (run cfg State.init h) :=
  run_induction (P := BoundInv) (fun s st hs => eff_boundInv (apply_eff cfg s st) hs) h _
    ⟨idInv_init, by intro m n h; simp [State.init] at h, by intro d p x h; simp [State.init] at h⟩

/-- The off-chain signatures that the registry remembers after a history: the queue of the specification, fed
with those of the successful calls. -/
def held (cfg : Config) (h : List Step) : Queue :=
  final (SigRegistry.stepSpec cfg.window cfg.maxSignatures) [] (acceptedReqs cfg State.init h)

theorem aInv_run (cfg : Config) (hcap : 2 ≤ cfg.maxSignatures) (h : List Step) :
    AInv cfg (run cfg State.init h) (held cfg h) := by
  obtain ⟨h1, h2, h3⟩ := boundInv_run cfg h
  refine ⟨h1, h2, h3, ?_, ?_⟩
  · rintro ⟨d, p⟩ x hx
    have := (C14_grants_bounded cfg h d p x hx).2
    simpa [SMap.keys, SMap.size] using this
  · have hall := acceptedReqs_all cfg h State.init
    rw [← hall.2]
    exact (SigRegistry.outcomes_refine hcap _ (SigRegistry.rep_init _)).2.2

end Verif.Msa
