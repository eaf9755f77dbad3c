import Verif.Chain.Props
/-!
# References between the pallets

What one pallet stores about accounts, providers and schemas of another exists there, at any time.
-/

namespace Verif.Chain

/-! ## Specification -/

/-- The schema is registered, with this location of its payloads. -/
def HasSchema (s : State) (k : SchemaId) (loc : Schemas.Location) : Prop :=
  ∃ r, Schemas.getSchemaById s.schemas k = some r ∧ r.location = loc

/-- The kind of schema that goes with a place in the storage. -/
def placeLocation : Stateful.Loc → Schemas.Location
  | .items _ _ => .itemized
  | .page _ _ _ => .paginated

/-! ## Helper lemmas -/

theorem schemas_reachable (cfg : Config) (n : Nat) (h : List Step) :
    Schemas.Reachable cfg.schemas (run cfg (.init n) h).schemas := by
  obtain ⟨l, hl⟩ := schemas_run cfg h (.init n)
  exact ⟨n, l, hl⟩

theorem schema_mono (cfg : Config) (n : Nat) (h h' : List Step) (k : SchemaId) (loc : Schemas.Location)
    (hk : HasSchema (run cfg (.init n) h) k loc) : HasSchema (run cfg (.init n) (h ++ h')) k loc := by
  obtain ⟨r, h1, h2⟩ := hk
  rw [run_append]
  obtain ⟨l, hl⟩ := schemas_run cfg h' (run cfg (.init n) h)
  refine ⟨r, ?_, h2⟩
  rw [hl]
  exact Schemas.C39_immutable _ _ (schemas_reachable cfg n h) _ _ _ h1

theorem hasSchema_of_info {cfg n h k i}
    (hi : Schemas.getSchemaInfoById (run cfg (.init n) h).schemas k = some i) :
    HasSchema (run cfg (.init n) h) k i.2.1 := by
  have hinv := (schemas_reachable cfg n h).inv
  simp only [Schemas.getSchemaInfoById, Option.map_eq_some_iff] at hi
  obtain ⟨inf, h1, rfl⟩ := hi
  obtain ⟨p, h2⟩ := (hinv.payloads k).2 ((hinv.infos k).1 ⟨inf, h1⟩)
  refine ⟨⟨k, p, inf.modelType, inf.location, inf.settings.toList⟩, ?_, rfl⟩
  simp [Schemas.getSchemaById, h1, h2]

theorem authorised_refs {cfg n h p d k} (ha : Authorised (run cfg (.init n) h) p d k) :
    Issued (run cfg (.init n) h) d ∧ IsProvider (run cfg (.init n) h) p := by
  obtain ⟨info, r, h1, _⟩ := ha
  have := (msaRefs cfg n h).delegations d p info h1
  exact ⟨issued_iff.2 this.1, this.2⟩

theorem handles_issued (cfg : Config) (n : Nat) (h : List Step) :
    ∀ m v, (run cfg (.init n) h).handles.byMsa.get m = some v → Issued (run cfg (.init n) h) m := by
  induction h using List.reverseRecOn with
  | nil => intro m v hm; cases hm
  | append_singleton h x ih =>
    intro m v hm
    have hmono := issued_mono cfg (run cfg (.init n) h) [x] m
    rw [run_append]
    rw [run_snoc] at hm
    rcases apply_handles cfg (run cfg (.init n) h) x with e | ⟨key, c, _, e⟩
    · rw [e] at hm; exact hmono (ih m v hm)
    · rw [e] at hm
      have he := Handles.apply_eff cfg.handles (run cfg (.init n) h).handles
        ⟨handlesEnv cfg (run cfg (.init n) h), c.op key⟩
      have hkey : ∀ k m', (handlesEnv cfg (run cfg (.init n) h)).msaOf k = some m' →
          Issued (run cfg (.init n) h) m' := fun k m' hk => key_issued hk
      generalize handlesEnv cfg (run cfg (.init n) h) = env at he hm hkey
      generalize c.op key = op at he hm
      generalize Handles.apply cfg.handles (run cfg (.init n) h).handles ⟨env, op⟩ = s' at he hm
      refine hmono ?_
      cases he with
      | fail => exact ih m v hm
      | claim hlen hm' hw hsig hcl =>
        rw [hcl.state] at hm
        simp only [SMap.get_insert] at hm
        split at hm
        · rename_i e; rw [← e]; exact hkey _ _ hm'
        · exact ih m v hm
      | change hlen hm' hw hsig h1 hcl =>
        rw [hcl.state] at hm
        simp only [SMap.get_insert] at hm
        split at hm
        · rename_i e; rw [← e]; exact hkey _ _ hm'
        · rw [h1.state] at hm
          simp only [SMap.get_erase] at hm
          split at hm
          · cases hm
          · exact ih m v hm
      | retire hm' hr _ =>
        rw [hr.state] at hm
        simp only [SMap.get_erase] at hm
        split at hm
        · cases hm
        · exact ih m v hm
      | retireWrapped hm' hr =>
        rw [hr.state] at hm
        simp only [SMap.get_erase] at hm
        split at hm
        · cases hm
        · exact ih m v hm

theorem deduct_keys {s m a s' k} (h : Capacity.deduct s m a = .ok s') :
    s'.target = s.target ∧ ((s'.capacity.get k).isSome = true → (s.capacity.get k).isSome = true) := by
  simp only [Capacity.deduct, bind_eq_ok_iff, okOr_eq_ok_iff, pure_eq_ok_iff] at h
  obtain ⟨d, h1, d', _, rfl⟩ := h
  refine ⟨rfl, fun hk => ?_⟩
  simp only [Capacity.setCapacity, SMap.get_insert] at hk
  split at hk
  · rename_i e; rw [← e, h1]; rfl
  · exact hk

theorem withdrawFee_keys {s m fee s' k} (h : Capacity.withdrawFee s m fee = .ok s') :
    s'.target = s.target ∧ ((s'.capacity.get k).isSome = true → (s.capacity.get k).isSome = true) := by
  simp only [Capacity.withdrawFee, bind_eq_ok_iff] at h
  obtain ⟨s1, h1, h2⟩ := h
  obtain ⟨g1, g2⟩ := deduct_keys (k := k) h2
  suffices s1.target = s.target ∧ ((s1.capacity.get k).isSome = true → (s.capacity.get k).isSome = true) from
    ⟨g1.trans this.1, fun hk => this.2 (g2 hk)⟩
  unfold Capacity.replenishIfNeeded at h1
  split at h1
  · simp only [Capacity.replenishAllFor, bind_eq_ok_iff, okOr_eq_ok_iff, pure_eq_ok_iff] at h1
    obtain ⟨d, h3, rfl⟩ := h1
    refine ⟨rfl, fun hk => ?_⟩
    simp only [Capacity.setCapacity, SMap.get_insert] at hk
    split at hk
    · rename_i e; rw [← e, h3]; rfl
    · exact hk
  · cases h1
    exact ⟨rfl, id⟩

/-- Accounts with a capacity record, and targets of stakes, are providers. -/
def CapRefs (s : State) : Prop :=
  (∀ m, (s.capacity.capacity.get m).isSome = true → IsProvider s m) ∧
  (∀ w m, (s.capacity.target.get (w, m)).isSome = true → IsProvider s m)

theorem capRefs_apply (cfg : Config) (s : State) (x : Step) (hs : CapRefs s) : CapRefs (apply cfg s x) := by
  have hmono : ∀ m, IsProvider s m → IsProvider (apply cfg s x) m := fun m => provider_mono cfg s [x] m
  suffices (∀ m, ((apply cfg s x).capacity.capacity.get m).isSome = true → IsProvider s m) ∧
      (∀ w m, ((apply cfg s x).capacity.target.get (w, m)).isSome = true → IsProvider s m) from
    ⟨fun m hm => hmono m (this.1 m hm), fun w m hm => hmono m (this.2 w m hm)⟩
  rcases apply_cases cfg s x with e | ⟨_, e⟩ | ⟨bal, o, c, _, e⟩ | ⟨key, fee, m, t, _, _, h, e⟩ | ⟨_, _, e⟩
  · rw [e]; exact hs
  · rw [e]
    unfold newBlock Capacity.startNewEpochIfNeeded
    simp only
    split <;> exact hs
  · generalize apply cfg s x = s' at e
    cases e with
    | @capacity c op t ho h =>
      have he := Capacity.apply_eff cfg.capacity s.capacity ⟨capacityEnv bal s, op⟩
      have hop : ∀ m a, op ≠ .charge m a ∧ op ≠ .deduct m a ∧ op ≠ .replenishAll m ∧ op ≠ .replenishBy m a := by
        intro m a
        cases o <;> cases c <;> cases ho <;> simp
      have hv : ∀ m, (capacityEnv bal s).validTarget m = true → IsProvider s m := fun m hm => hm
      generalize capacityEnv bal s = env at he h hv
      have ha : Capacity.apply cfg.capacity s.capacity ⟨env, op⟩ = t := by simp [Capacity.apply, h]
      rw [ha] at he
      cases he with
      | fail => exact hs
      | stake hk =>
        refine ⟨fun m hm => ?_, fun w m hm => ?_⟩
        · simp only [hk.capacity, SMap.get_insert] at hm
          split at hm
          · rename_i e; rw [← e]; exact hv _ hk.valid
          · exact hs.1 m hm
        · simp only [hk.target, SMap.get_insert] at hm
          split at hm
          · rename_i e
            simp only [Prod.mk.injEq] at e
            rw [← e.2]; exact hv _ hk.valid
          · exact hs.2 w m hm
      | @unstake _ who t0 _ _ _ _ hk =>
        obtain ⟨d, hd⟩ := hk.related
        have hp : IsProvider s t0 := hs.2 who t0 (by rw [hd]; rfl)
        refine ⟨fun m hm => ?_, fun w m hm => ?_⟩
        · simp only [hk.capacity, SMap.get_insert] at hm
          split at hm
          · rename_i e; rw [← e]; exact hp
          · exact hs.1 m hm
        · simp only [hk.target] at hm
          split at hm
          · simp only [SMap.get_erase] at hm
            split at hm
            · cases hm
            · exact hs.2 w m hm
          · simp only [SMap.get_insert] at hm
            split at hm
            · rename_i e
              simp only [Prod.mk.injEq] at e
              rw [← e.2]; exact hp
            · exact hs.2 w m hm
      | withdraw hk => exact ⟨fun m hm => hs.1 m (by rw [hk.capacity] at hm; exact hm),
          fun w m hm => hs.2 w m (by rw [hk.target] at hm; exact hm)⟩
      | epochLength => exact hs
      | newEpoch => exact hs
      | sameEpoch => exact hs
      | @charge _ m fee => exact absurd rfl (hop m fee).1
      | @replenishAll _ m => exact absurd rfl (hop m 0).2.2.1
      | @replenishBy _ m a => exact absurd rfl (hop m a).2.2.2
      | @deduct _ m a => exact absurd rfl (hop m a).2.1
    | _ => exact hs
  · rw [e]
    exact ⟨fun k hk => hs.1 k ((withdrawFee_keys h).2 hk),
      fun w k hk => hs.2 w k (by rw [← (withdrawFee_keys (k := k) h).1]; exact hk)⟩
  · rw [e]; exact hs

theorem capRefs (cfg : Config) (n : Nat) (h : List Step) : CapRefs (run cfg (.init n) h) := by
  refine run_induction (P := CapRefs) (fun s x hs => capRefs_apply cfg s x hs) h _ ?_
  exact ⟨fun m h => (by cases h), fun w m h => (by cases h)⟩

/-! ## C92 -/

/-- C92, messages: the schema of a stored message is registered, with payloads on chain if the message has an
author, on IPFS if not; its provider and its author are accounts, and if they differ the provider is
registered. -/
theorem C92_messages (cfg : Config) (n : Nat) (h : List Step) (b : BlockNumber) (k : SchemaId) (i : Nat)
    (m : Messages.Msg) (hm : (run cfg (.init n) h).messages.msgs.get (b, k, i) = some m) :
    let s := run cfg (.init n) h
    HasSchema s k (if m.author.isSome then .onChain else .ipfs) ∧ Issued s m.provider ∧
      ∀ a, m.author = some a → Issued s a ∧ (a ≠ m.provider → IsProvider s m.provider) := by
  obtain ⟨p, x, q, key, c, h2, _, _, h5, h6⟩ := message_origin cfg n h b k i m hm
  intro s
  have hs : s = run cfg (run cfg (.init n) p) (x :: q) := by rw [← run_append, ← h2]
  have hsch : ∀ loc, (messagesEnv cfg (run cfg (.init n) p)).location k = some loc → HasSchema s k loc := by
    intro loc hl
    have hl : (Schemas.getSchemaInfoById (run cfg (.init n) p).schemas k).map (fun i => i.2.1) = some loc := hl
    rw [Option.map_eq_some_iff] at hl
    obtain ⟨i, hi, rfl⟩ := hl
    have := schema_mono cfg n p (x :: q) k _ (hasSchema_of_info hi)
    rw [← h2] at this
    exact this
  have hprov : Issued s m.provider := by rw [hs]; exact issued_mono _ _ _ _ (key_issued h5)
  rcases h6 with ⟨a, o, h7, _, _, h8, h9⟩ | ⟨_, _, h7, _, h8⟩
  · refine ⟨by rw [h7]; exact hsch _ h8, hprov, fun a' ha' => ?_⟩
    rw [h7] at ha'
    cases ha'
    by_cases e : a = m.provider
    · exact ⟨by rw [e]; exact hprov, fun hne => absurd e hne⟩
    · have := authorised_refs (h9 e)
      rw [hs]
      exact ⟨issued_mono _ _ _ _ this.1, fun _ => provider_mono _ _ _ _ this.2⟩
  · refine ⟨by rw [h7]; exact hsch _ h8, hprov, fun a' ha' => ?_⟩
    rw [h7] at ha'
    cases ha'

/-- C92, accounts: every key belongs to an account that was created; whoever has a handle is an account;
delegations go from accounts to registered providers; providers are accounts. -/
theorem C92_accounts (cfg : Config) (n : Nat) (h : List Step) :
    let s := run cfg (.init n) h
    (∀ key m, msaOf s key = some m → Issued s m) ∧
    (∀ m r, Handles.handleForMsa cfg.handles s.handles m = some r → Issued s m) ∧
    (∀ d p i, s.msa.delegations.get (d, p) = some i → Issued s d ∧ IsProvider s p) ∧
    (∀ p, IsProvider s p → Issued s p) := by
  refine ⟨fun key m hm => key_issued hm, fun m r hm => ?_, fun d p i hd => ?_, fun p hp => ?_⟩
  · simp only [Handles.handleForMsa, Option.bind_eq_bind, Option.bind_eq_some_iff] at hm
    obtain ⟨v, hv, _⟩ := hm
    exact handles_issued cfg n h m v hv
  · have := (msaRefs cfg n h).delegations d p i hd
    exact ⟨issued_iff.2 this.1, this.2⟩
  · exact issued_iff.2 ((msaRefs cfg n h).providers p hp)

/-- C92, capacity: whoever has capacity, or is staked to, is a registered provider. -/
theorem C92_capacity (cfg : Config) (n : Nat) (h : List Step) :
    let s := run cfg (.init n) h
    (∀ m, (s.capacity.capacity.get m).isSome = true → IsProvider s m) ∧
    (∀ w m, (s.capacity.target.get (w, m)).isSome = true → IsProvider s m) := capRefs cfg n h

/-- C92, storage: wherever something is stored, the owner is an account and the schema is registered, as
itemized for item lists and as paginated for pages. -/
theorem C92_storage (cfg : Config) (hc : Stateful.CfgOk cfg.storage) (n : Nat) (h : List Step)
    (hf : Fits cfg (run cfg (.init n) h)) (hx : ∀ y ∈ h, IdsOk y) (l : Stateful.Loc) (hl : l.InRange cfg.storage)
    (p : Stateful.Page)
    (hp : Stateful.readAt cfg.storage (run cfg (.init n) h).storage l = .ok (some p)) :
    let s := run cfg (.init n) h
    Issued s l.msa ∧ HasSchema s l.schema (placeLocation l) := by
  induction h using List.reverseRecOn generalizing p with
  | nil => cases l <;> cases hp
  | append_singleton h x ih =>
    intro s
    rw [run_append] at hf
    have hf := hf.before
    have ih := ih hf
    have hpre : ∀ y ∈ h, IdsOk y := fun y hy => hx y (by simp [hy])
    have hold : ∀ p, Stateful.readAt cfg.storage (run cfg (.init n) h).storage l = .ok (some p) →
        Issued s l.msa ∧
        HasSchema s l.schema (placeLocation l) := by
      intro p hp
      obtain ⟨h1, h2⟩ := ih hpre p hp
      refine ⟨?_, schema_mono cfg n h [x] _ _ h2⟩
      show Issued (run cfg (.init n) (h ++ [x])) _
      rw [run_append]
      exact issued_mono _ _ _ _ h1
    rcases apply_storage cfg (run cfg (.init n) h) x with e | ⟨o, c, hs, e⟩
    · rw [run_snoc, e] at hp
      exact hold p hp
    · rw [run_snoc, e] at hp
      rcases storage_call hf o.signer (hx x (by simp) o c hs) with e' | hso
      · rw [e'] at hp; exact hold p hp
      rcases Stateful.readAt_apply hc ((storage_reachable cfg n h hf hpre).storeOk hc) hso hl with h1 | ⟨ow, _, _, ha, hloc, _⟩
      · rw [h1] at hp; exact hold p hp
      · have hm : l.msa = ow := by rw [hloc]; exact (Stateful.loc_msa_schema _ _ _).1
        have hk : l.schema = c.schema := by rw [hloc]; exact (Stateful.loc_msa_schema _ _ _).2
        constructor
        · suffices Issued (run cfg (.init n) h) ow by
            show Issued (run cfg (.init n) (h ++ [x])) _
            rw [run_append, hm]
            exact issued_mono _ _ _ _ this
          cases hsig : c.signature with
          | none =>
            obtain ⟨key', caller, _, h2, h3⟩ := ha.direct hsig
            by_cases e : caller = ow
            · rw [← e]; exact key_issued h2
            · exact (authorised_refs (grant_iff.1 (h3 e))).1
          | some q =>
            obtain ⟨k, sig, bytes, e⟩ := q
            exact key_issued (ha.signed k sig bytes e hsig).1
        · obtain ⟨info, i1, i2, _⟩ := ha.info
          have i1 : (Schemas.getSchemaInfoById (run cfg (.init n) h).schemas c.schema).map
              (fun i => (⟨location i.2.1, i.2.2.map setting⟩ : Stateful.SchemaInfo)) = some info := i1
          rw [Option.map_eq_some_iff] at i1
          obtain ⟨i, hi, rfl⟩ := i1
          have hsc := schema_mono cfg n h [x] _ _ (hasSchema_of_info hi)
          rw [hk]
          have hloc' : i.2.1 = (placeLocation l) := by
            simp only at i2
            rw [hloc]
            generalize i.2.1 = loc at i2
            simp only
            generalize c.update = u at i2
            cases u <;> cases loc <;> cases i2 <;> rfl
          rw [← hloc']
          exact hsc

/-- Hypotheses met: the chain of the example has a message for another account, a handle, a delegation, capacity
and a page. -/
example : exState.messages.msgs.get (2, 1, 0) = some ⟨[7], 1, some 2⟩ ∧
    (Handles.handleForMsa exCfg.handles exState.handles 2).isSome = true ∧
    (exState.msa.delegations.get (2, 1)).isSome = true ∧
    (exState.capacity.capacity.get 1).isSome = true ∧ (exState.capacity.target.get (30, 1)).isSome = true ∧
    (match Stateful.readAt exCfg.storage exState.storage (.page 2 2 0) with
      | .ok (some _) => true | _ => false) = true := by
  decide +kernel

end Verif.Chain
