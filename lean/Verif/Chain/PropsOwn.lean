import Verif.Chain.PropsQuiet
import Verif.Messages.PropsAccept
import Verif.Stateful.PropsEffect
import Verif.Msa.PropsAccept
import Verif.Handles.PropsAccept
import Verif.Capacity.PropsAccept
/-!
# Strangers cannot get in the way
-/

namespace Verif.Chain

/-! ## Specification -/

/-- Calls by which the account `m` looks after its own affairs, in state `s`: writing and deleting its own storage, posting
messages of its own, ending delegations or taking schemas from them, deleting its own keys, asking to become a provider,
retiring its handle, and taking back a stake. -/
def OwnAffair (s : State) (m : MsaId) : Call → Prop
  | .storage (.applyItemActions owner ..) | .storage (.upsertPage owner ..) | .storage (.deletePage owner ..) => owner = m
  | .messages (.onchain none _ _) | .messages (.ipfs ..) => True
  | .msa (.revokeDelegationByDelegator _) | .msa (.revokeSchemaPermissions ..) | .msa (.proposeToBeProvider _) => True
  | .msa (.deleteMsaPublicKey key) => msaOf s key = some m
  | .handles .retire => True
  | .capacity (.unstake ..) | .capacity .withdrawUnstaked => True
  | _ => False

/-- The call succeeds when dispatched by the key. -/
def Succeeds (cfg : Config) (bal : AccountId → Balance) (s : State) (key : AccountId) (c : Call) : Prop :=
  ∃ s', dispatch cfg bal s (.signed key) c = some s'

/-! ## Helper lemmas -/

theorem toOption_some {ε α : Type} {x : Except ε α} {a : α} : x.toOption = some a ↔ x = .ok a := by
  cases x <;> simp [Except.toOption]

theorem info_mono (cfg : Config) (n : Nat) (h h' : List Step) (k : SchemaId) (i)
    (hi : Schemas.getSchemaInfoById (run cfg (.init n) h).schemas k = some i) :
    Schemas.getSchemaInfoById (run cfg (.init n) (h ++ h')).schemas k = some i := by
  have hinv := (schemas_reachable cfg n h).inv
  simp only [Schemas.getSchemaInfoById, Option.map_eq_some_iff] at hi
  obtain ⟨inf, h1, rfl⟩ := hi
  obtain ⟨p, h2⟩ := (hinv.payloads k).2 ((hinv.infos k).1 ⟨inf, h1⟩)
  have hr : Schemas.getSchemaById (run cfg (.init n) h).schemas k =
      some ⟨k, p, inf.modelType, inf.location, inf.settings.toList⟩ := by
    simp [Schemas.getSchemaById, h1, h2]
  rw [run_append]
  obtain ⟨l, hl⟩ := schemas_run cfg h' (run cfg (.init n) h)
  have := Schemas.C39_immutable _ _ (schemas_reachable cfg n h) l _ _ hr
  rw [hl]
  revert this
  generalize Schemas.run cfg.schemas (run cfg (.init n) h).schemas l = t
  intro this
  unfold Schemas.getSchemaById at this
  split at this
  · rename_i info p' e1 _
    simp only [Option.some.injEq, Schemas.Response.mk.injEq] at this
    simp [Schemas.getSchemaInfoById, e1, this.2.2.1, this.2.2.2.1, this.2.2.2.2]
  · simp at this

theorem lastId_mono (cfg : Config) (n : Nat) (h h' : List Step) :
    (run cfg (.init n) h).schemas.lastId ≤ (run cfg (.init n) (h ++ h')).schemas.lastId := by
  have h1 := (schemas_reachable cfg n h).inv
  have h2 := (schemas_reachable cfg n (h ++ h')).inv
  by_cases h0 : 1 ≤ (run cfg (.init n) h).schemas.lastId
  · obtain ⟨i, hi⟩ := (h1.infos _).2 ⟨h0, Nat.le_refl _⟩
    have := info_mono cfg n h h' _ _ (show Schemas.getSchemaInfoById _ _ = some _ by rw [Schemas.getSchemaInfoById, hi]; rfl)
    simp only [Schemas.getSchemaInfoById, Option.map_eq_some_iff] at this
    obtain ⟨i', hi', _⟩ := this
    exact ((h2.infos _).1 ⟨i', hi'⟩).2
  · omega

theorem block_mono_run (cfg : Config) (h : List Step) : ∀ s, s.block ≤ (run cfg s h).block := by
  induction h with
  | nil => intro s; exact Nat.le_refl _
  | cons x h ih => intro s; rw [run_cons]; exact Nat.le_trans (block_mono cfg s x) (ih _)

theorem epoch_mono (cfg : Config) (n : Nat) (h h' : List Step) :
    (run cfg (.init n) h).capacity.epoch ≤ (run cfg (.init n) (h ++ h')).capacity.epoch := by
  rw [run_append]
  obtain ⟨l, hl⟩ := capacity_run cfg h (.init n)
  obtain ⟨l', hl'⟩ := capacity_run cfg h' (run cfg (.init n) h)
  have h0 : (run cfg (.init n) h).capacity.epoch ≤ cfg.capacity.maxEpoch := by
    rw [hl]; exact (Capacity.epoch_mono_run _ _ _ (Nat.zero_le _)).2
  rw [hl']
  exact (Capacity.epoch_mono_run _ _ _ h0).1

theorem stake_run (cfg : Config) {D : AccountId → Prop} (k : AccountId) (hk : D k) (h' : List Step) (hx : ∀ x ∈ h', Silent D x) :
    ∀ s, Capacity.actOf (run cfg s h').capacity k = Capacity.actOf s.capacity k ∧
      Capacity.chunksOf (run cfg s h').capacity k = Capacity.chunksOf s.capacity k ∧
      ∀ t, Capacity.tgtOf (run cfg s h').capacity k t = Capacity.tgtOf s.capacity k t := by
  induction h' with
  | nil => intro s; exact ⟨rfl, rfl, fun _ => rfl⟩
  | cons x h' ih =>
    intro s
    rw [run_cons]
    obtain ⟨i1, i2, i3⟩ := ih (fun y hy => hx y (List.mem_cons_of_mem _ hy)) (apply cfg s x)
    have : ¬ (Capacity.actOf (apply cfg s x).capacity k ≠ Capacity.actOf s.capacity k ∨
      Capacity.chunksOf (apply cfg s x).capacity k ≠ Capacity.chunksOf s.capacity k ∨
      Capacity.frozenOf (apply cfg s x).capacity k ≠ Capacity.frozenOf s.capacity k ∨
      ∃ t, Capacity.tgtOf (apply cfg s x).capacity k t ≠ Capacity.tgtOf s.capacity k t) := by
      intro hch
      obtain ⟨c, hc⟩ := C95_stake_changed_by_owner cfg s x k hch
      exact ((hx x (by simp)).1 _ _ hc).1 k rfl hk
    simp only [not_or, not_not, not_exists] at this
    exact ⟨i1.trans this.1, i2.trans this.2.1, fun t => (i3 t).trans (this.2.2.2 t)⟩

/-! ## C129, on the chain -/

/-- What the account could do for itself before strangers did something it can do afterwards, as long as its keys are
not deleted. -/
theorem own_succeeds (cfg : Config) (hcap : 2 ≤ cfg.msa.maxSignatures) (h1k : 1 ≤ cfg.msa.maxKeys)
    (h255 : cfg.msa.maxKeys ≤ 255) (hr : Handles.RangeOk cfg.hi) (hc : Stateful.CfgOk cfg.storage) (n : Nat)
    (h h' : List Step) {D : AccountId → Prop} {M : MsaId → Prop} (hg : Group D M (run cfg (.init n) h))
    (hx : ∀ x ∈ h', Silent D x) (hdel : ∀ x ∈ h', ∀ k, D k → ¬ Deletes x k)
    (hf : Fits cfg (run cfg (.init n) (h ++ h'))) (hids : ∀ y ∈ h ++ h', IdsOk y) (bal bal' : AccountId → Balance)
    (key : AccountId) (m : MsaId) (hm : M m) (hk : msaOf (run cfg (.init n) h) key = some m) (c : Call)
    (hown : OwnAffair (run cfg (.init n) h) m c) (hcid : ∀ c', c = .storage c' → StorageIdsOk c')
    (hs : Succeeds cfg bal (run cfg (.init n) h) key c) :
    Succeeds cfg bal' (run cfg (.init n) (h ++ h')) key c ∧
    (extensions cfg (run cfg (.init n) h) key c = true → extensions cfg (run cfg (.init n) (h ++ h')) key c = true) := by
  obtain ⟨-, r2, r3, r4, r5, -, -⟩ := group_run cfg n h h' hg hx
  have hkeys : ∀ k, msaOf (run cfg (.init n) h) k = some m → msaOf (run cfg (.init n) (h ++ h')) k = some m := by
    intro k hk
    rcases r3 k m hm hk with h | ⟨x, hx', hd⟩
    · exact h
    · exact absurd hd (hdel x hx' k (hg.keys _ _ hk hm))
  have hstore : ∀ l : Stateful.Loc, l.InRange cfg.storage → l.msa = m →
      Stateful.readAt cfg.storage (run cfg (.init n) (h ++ h')).storage l =
      Stateful.readAt cfg.storage (run cfg (.init n) h).storage l :=
    fun l hl e => group_storage cfg hc n h h' hg hx hf hids l hl (e ▸ hm)
  have hblock : (run cfg (.init n) h).block ≤ (run cfg (.init n) (h ++ h')).block := by
    rw [run_append]; exact block_mono_run _ _ _
  have hk' := hkeys key hk
  obtain ⟨s', hs⟩ := hs
  cases c with
  | schemas c => simp [OwnAffair] at hown
  | capacity c =>
    obtain ⟨l1, e1⟩ := capacity_run cfg h (.init n)
    obtain ⟨l2, e2⟩ := capacity_run cfg (h ++ h') (.init n)
    obtain ⟨q1, q2, q3⟩ := stake_run cfg key (hg.keys _ _ hk hm) h' hx (run cfg (.init n) h)
    rw [← run_append] at q1 q2 q3
    have hep := epoch_mono cfg n h h'
    have key1 : ∀ op, Capacity.Permitted cfg.capacity (run cfg (.init n) (h ++ h')).capacity
        (capacityEnv bal' (run cfg (.init n) (h ++ h'))) op → ∃ t, Capacity.dispatch cfg.capacity
          (run cfg (.init n) (h ++ h')).capacity ⟨capacityEnv bal' (run cfg (.init n) (h ++ h')), op⟩ = .ok t := by
      intro op hp
      rw [e2] at hp ⊢
      exact (Capacity.C89_accepted_iff cfg.capacity l2 _ op).2 hp
    have key2 : ∀ op t, Capacity.dispatch cfg.capacity (run cfg (.init n) h).capacity
        ⟨capacityEnv bal (run cfg (.init n) h), op⟩ = .ok t →
        Capacity.Permitted cfg.capacity (run cfg (.init n) h).capacity (capacityEnv bal (run cfg (.init n) h)) op := by
      intro op t hp
      rw [e1] at hp ⊢
      exact (Capacity.C89_accepted_iff cfg.capacity l1 _ op).1 ⟨t, hp⟩
    refine ⟨?_, fun _ => rfl⟩
    cases c with
    | stake t a => simp [OwnAffair] at hown
    | setEpochLength n => simp [OwnAffair] at hown
    | unstake t a =>
      simp only [dispatch, CapacityCall.op, Option.bind_eq_bind, Option.bind_some, Option.bind_eq_some_iff, toOption_some] at hs
      obtain ⟨t', ht, -⟩ := hs
      have hp := key2 _ _ ht
      simp only [Capacity.Permitted] at hp
      obtain ⟨u, hu⟩ := key1 (.unstake key t a) (by simp only [Capacity.Permitted, q1, q2, q3]; exact hp)
      refine ⟨{ run cfg (.init n) (h ++ h') with capacity := u }, ?_⟩
      simp [dispatch, CapacityCall.op, hu, Except.toOption]
    | withdrawUnstaked =>
      simp only [dispatch, CapacityCall.op, Option.bind_eq_bind, Option.bind_some, Option.bind_eq_some_iff, toOption_some] at hs
      obtain ⟨t', ht, -⟩ := hs
      have hp := key2 _ _ ht
      simp only [Capacity.Permitted] at hp
      obtain ⟨ch, h1, h2⟩ := hp
      obtain ⟨u, hu⟩ := key1 (.withdrawUnstaked key) (by
        simp only [Capacity.Permitted, q2]; exact ⟨ch, h1, Nat.le_trans h2 hep⟩)
      refine ⟨{ run cfg (.init n) (h ++ h') with capacity := u }, ?_⟩
      simp [dispatch, CapacityCall.op, hu, Except.toOption]
  | messages c =>
    refine ⟨?_, fun _ => rfl⟩
    have hloc : ∀ k loc, (messagesEnv cfg (run cfg (.init n) h)).location k = some loc →
        (messagesEnv cfg (run cfg (.init n) (h ++ h'))).location k = some loc := by
      intro k loc he
      simp only [messagesEnv, Option.map_eq_some_iff] at he ⊢
      obtain ⟨i, hi, e⟩ := he
      exact ⟨i, info_mono cfg n h h' k i hi, e⟩
    simp only [dispatch, Origin.signer, Option.bind_eq_bind, Option.bind_some, Option.bind_eq_some_iff, toOption_some] at hs
    obtain ⟨t', ht, -⟩ := hs
    suffices ∃ u, Messages.dispatch cfg.messages (messagesEnv cfg (run cfg (.init n) (h ++ h')))
        (run cfg (.init n) (h ++ h')).messages key c = .ok u by
      obtain ⟨u, hu⟩ := this
      refine ⟨{ run cfg (.init n) (h ++ h') with messages := u }, ?_⟩
      simp [dispatch, Origin.signer, hu, Except.toOption]
    cases c with
    | ipfs k cid len =>
      rw [Messages.C84_ipfs_accepted_iff]
      obtain ⟨a1, a2, a3, a4, a5, -⟩ := (Messages.C84_ipfs_accepted_iff _ _ _ _ _ _ _).1 ⟨t', ht⟩
      exact ⟨a1, a2, a3, a4, hloc _ _ a5, m, hk'⟩
    | onchain d k payload =>
      cases d with
      | some d => simp [OwnAffair] at hown
      | none =>
        rw [Messages.C84_onchain_accepted_iff]
        obtain ⟨a1, a2, -⟩ := (Messages.C84_onchain_accepted_iff _ _ _ _ _ _ _).1 ⟨t', ht⟩
        exact ⟨a1, hloc _ _ a2, m, hk', by simp⟩
  | handles c =>
    cases c with
    | claim => simp [OwnAffair] at hown
    | change => simp [OwnAffair] at hown
    | retire =>
      obtain ⟨l1, f1, e1⟩ := handles_run cfg h (.init n)
      obtain ⟨l2, f2, e2⟩ := handles_run cfg (h ++ h') (.init n)
      simp only [dispatch, Origin.signer, Option.bind_eq_bind, Option.bind_some, Option.bind_eq_some_iff, toOption_some,
        HandleCall.op] at hs
      obtain ⟨t', ht, -⟩ := hs
      have hp : Handles.Permitted cfg.handles (handlesEnv cfg (run cfg (.init n) h)) (run cfg (.init n) h).handles
          (.retireWrapped key) := by
        rw [e1] at ht ⊢
        exact (Handles.C86_accepted_iff_partial cfg.handles cfg.lo cfg.hi hr l1 f1
          ⟨handlesEnv cfg (run cfg (.init n) h), .retireWrapped key⟩ ⟨rfl, rfl⟩ (by simp [Handles.asked])).1 ⟨t', ht⟩
      obtain ⟨m', a1, a2⟩ := hp
      have : m' = m := by
        have a1 : msaOf (run cfg (.init n) h) key = some m' := a1
        rw [hk] at a1; simpa using a1.symm
      subst this
      refine ⟨?_, fun he => ?_⟩
      · have hu : ∃ u, Handles.dispatch cfg.handles (run cfg (.init n) (h ++ h')).handles
            ⟨handlesEnv cfg (run cfg (.init n) (h ++ h')), .retireWrapped key⟩ = .ok u := by
          have hp : Handles.Permitted cfg.handles (handlesEnv cfg (run cfg (.init n) (h ++ h')))
              (run cfg (.init n) (h ++ h')).handles (.retireWrapped key) := ⟨m', hk', by rw [r5 m' hm]; exact a2⟩
          rw [e2] at hp ⊢
          exact (Handles.C86_accepted_iff_partial cfg.handles cfg.lo cfg.hi hr l2 f2
            ⟨handlesEnv cfg (run cfg (.init n) (h ++ h')), .retireWrapped key⟩ ⟨rfl, rfl⟩ (by simp [Handles.asked])).2 hp
        obtain ⟨u, hu⟩ := hu
        refine ⟨{ run cfg (.init n) (h ++ h') with handles := u }, ?_⟩
        simp [dispatch, Origin.signer, HandleCall.op, hu, Except.toOption]
      · simp only [extensions, isOk_iff, Handles.validateRetire, bind_eq_ok_iff, okOr_eq_ok_iff, ensure_eq_ok_iff] at he ⊢
        obtain ⟨m2, b1, x, b2, b3⟩ := he
        have b1 : msaOf (run cfg (.init n) h) key = some m2 := b1
        rw [hk] at b1
        cases b1
        exact ⟨m', hk', x, by rw [r5 m' hm]; exact b2, Nat.le_trans b3 hblock⟩
  | storage c =>
    refine ⟨?_, fun _ => rfl⟩
    have hcid := hcid c rfl
    simp only [dispatch, Option.bind_eq_bind, Option.bind_eq_some_iff, toOption_some] at hs
    obtain ⟨t', ht, -⟩ := hs
    have hf0 : Fits cfg (run cfg (.init n) h) := by
      rw [run_append] at hf; exact hf.before
    have hr0 := storage_reachable cfg n h hf0 (fun y hy => hids y (List.mem_append_left _ hy))
    have hr1 := storage_reachable cfg n (h ++ h') hf hids
    have hmf : m < cfg.storage.accounts := hf0 m (key_issued hk)
    suffices ∃ u, Stateful.dispatch cfg.storage (storageEnv cfg (run cfg (.init n) (h ++ h')))
        (run cfg (.init n) (h ++ h')).storage (some key) c = .ok u by
      obtain ⟨u, hu⟩ := this
      refine ⟨{ run cfg (.init n) (h ++ h') with storage := u }, ?_⟩
      simp [dispatch, Origin.signer, hu, Except.toOption]
    have hschema : ∀ k i, (storageEnv cfg (run cfg (.init n) h)).schema k = some i →
        (storageEnv cfg (run cfg (.init n) (h ++ h'))).schema k = some i := by
      intro k loc he
      simp only [storageEnv, Option.map_eq_some_iff] at he ⊢
      obtain ⟨i, hi, e⟩ := he
      exact ⟨i, info_mono cfg n h h' k i hi, e⟩
    have hmay : ∀ (c' : Stateful.Call) kind del, c'.signature = none →
        Stateful.MayWrite cfg.storage ⟨storageEnv cfg (run cfg (.init n) h), some key, c'⟩ m kind del →
        Stateful.MayWrite cfg.storage ⟨storageEnv cfg (run cfg (.init n) (h ++ h')), some key, c'⟩ m kind del := by
      rintro c' kind del hsig ⟨info, a1, a2, a3, -⟩
      refine ⟨info, hschema _ _ a1, a2, a3, ?_⟩
      simp only [hsig]
      exact .inl ⟨key, rfl, hk'⟩
    have hok : ∀ env : Stateful.Env, ∀ c', StorageIdsOk c' → c'.owner env = some m →
        Stateful.StepOk cfg.storage ⟨env, some key, c'⟩ := by
      intro env c' h1 h2 owner ho
      have : m = owner := Option.some.inj (h2.symm.trans ho)
      subst this
      cases c' with
      | applyItemActions => exact ⟨hmf, h1⟩
      | upsertPage => exact ⟨hmf, h1⟩
      | deletePage => exact ⟨hmf, h1⟩
      | applyItemActionsWithSignature => exact ⟨hmf, h1⟩
      | upsertPageWithSignature => exact ⟨hmf, h1⟩
      | deletePageWithSignature => exact ⟨hmf, h1⟩
    cases c with
    | applyItemActions owner k hash actions =>
      cases hown
      have hl := hok (storageEnv cfg (run cfg (.init n) h)) _ hcid rfl
      obtain ⟨old, g1, -⟩ := (hr0.storeOk hc).read hc (hl _ rfl)
      have g2 := hstore _ (hl _ rfl) rfl
      rw [g1] at g2
      have hit : Stateful.itemsAt cfg.storage (run cfg (.init n) h).storage m k =
          Stateful.itemsAt cfg.storage (run cfg (.init n) (h ++ h')).storage m k := by
        have g3 : Stateful.readAt cfg.storage (run cfg (.init n) h).storage (.items m k) = .ok old := g1
        have g4 : Stateful.readAt cfg.storage (run cfg (.init n) (h ++ h')).storage (.items m k) = .ok old := g2
        simp only [Stateful.itemsAt, g3, g4]
      obtain ⟨a1, a2, a3⟩ := (Stateful.C83_items_exact cfg.storage hc _ hr0 ⟨storageEnv cfg (run cfg (.init n) h), some key, _⟩ hl
        _ rfl _ _ rfl old g1).1.1 ⟨t', ht⟩
      exact (Stateful.C83_items_exact cfg.storage hc _ hr1 ⟨storageEnv cfg (run cfg (.init n) (h ++ h')), some key, _⟩ (hok _ _ hcid rfl)
        _ rfl _ _ rfl old g2).1.2
        ⟨(by simp only [Stateful.Call.schema, ← hit]; exact a1), hmay _ _ _ rfl a2, a3⟩
    | upsertPage owner k p hash d =>
      cases hown
      have hl := hok (storageEnv cfg (run cfg (.init n) h)) _ hcid rfl
      obtain ⟨old, g1, -⟩ := (hr0.storeOk hc).read hc (hl _ rfl)
      have g2 := hstore _ (hl _ rfl) rfl
      rw [g1] at g2
      obtain ⟨a1, a2, a3, a4⟩ := (Stateful.C83_upsert_exact cfg.storage hc _ hr0 ⟨storageEnv cfg (run cfg (.init n) h), some key, _⟩ hl
        _ rfl _ _ _ rfl old g1).1.1 ⟨t', ht⟩
      exact (Stateful.C83_upsert_exact cfg.storage hc _ hr1 ⟨storageEnv cfg (run cfg (.init n) (h ++ h')), some key, _⟩ (hok _ _ hcid rfl)
        _ rfl _ _ _ rfl old g2).1.2
        ⟨a1, a2, hmay _ _ _ rfl a3, a4⟩
    | deletePage owner k p hash =>
      cases hown
      have hl := hok (storageEnv cfg (run cfg (.init n) h)) _ hcid rfl
      obtain ⟨old, g1, -⟩ := (hr0.storeOk hc).read hc (hl _ rfl)
      have g2 := hstore _ (hl _ rfl) rfl
      rw [g1] at g2
      obtain ⟨a1, a2, a3⟩ := (Stateful.C83_delete_exact_partial cfg.storage hc _ hr0 ⟨storageEnv cfg (run cfg (.init n) h), some key, _⟩ hl
        _ rfl _ _ rfl old g1).1.1 ⟨t', ht⟩
      exact (Stateful.C83_delete_exact_partial cfg.storage hc _ hr1 ⟨storageEnv cfg (run cfg (.init n) (h ++ h')), some key, _⟩ (hok _ _ hcid rfl)
        _ rfl _ _ rfl old g2).1.2
        ⟨a1, hmay _ _ _ rfl a2, a3⟩
    | _ => simp [OwnAffair] at hown
  | msa c =>
    obtain ⟨l1, e1⟩ := msa_run cfg h (.init n)
    obtain ⟨l2, e2⟩ := msa_run cfg (h ++ h') (.init n)
    simp only [dispatch, Option.map_eq_some_iff, toOption_some, Origin.msa] at hs
    obtain ⟨t', ht, -⟩ := hs
    have hp : Msa.Permitted cfg.msa (msaEnv cfg (run cfg (.init n) h)) (run cfg (.init n) h).msa (Msa.held cfg.msa l1)
        (.signed key) c := by
      have := Msa.C85_accepted_iff cfg.msa hcap h1k h255 l1 (msaEnv cfg (run cfg (.init n) h)) (.signed key) c
      rw [show Msa.run cfg.msa Msa.State.init l1 = (run cfg (.init n) h).msa from e1.symm] at this
      exact this.1 ⟨t', ht⟩
    suffices Msa.Permitted cfg.msa (msaEnv cfg (run cfg (.init n) (h ++ h'))) (run cfg (.init n) (h ++ h')).msa
        (Msa.held cfg.msa l2) (.signed key) c ∧ (extensions cfg (run cfg (.init n) h) key (.msa c) = true →
          extensions cfg (run cfg (.init n) (h ++ h')) key (.msa c) = true) by
      refine ⟨?_, this.2⟩
      have hu := Msa.C85_accepted_iff cfg.msa hcap h1k h255 l2 (msaEnv cfg (run cfg (.init n) (h ++ h'))) (.signed key) c
      rw [show Msa.run cfg.msa Msa.State.init l2 = (run cfg (.init n) (h ++ h')).msa from e2.symm] at hu
      obtain ⟨u, hu⟩ := hu.2 this.1
      refine ⟨{ run cfg (.init n) (h ++ h') with msa := u }, ?_⟩
      simp [dispatch, Origin.msa, hu, Except.toOption]
    simp only [extensions, isOk_iff, Msa.C85_submitted_iff]
    have hlist : ∀ ids, Msa.ListOk cfg.msa (msaEnv cfg (run cfg (.init n) h)) ids →
        Msa.ListOk cfg.msa (msaEnv cfg (run cfg (.init n) (h ++ h'))) ids :=
      fun ids hi => ⟨hi.1, fun i h1 => Nat.le_trans (hi.2 i h1) (lastId_mono cfg n h h')⟩
    have hk0 : (run cfg (.init n) h).msa.keyToMsa.get key = some m := hk
    have hk1 : (run cfg (.init n) (h ++ h')).msa.keyToMsa.get key = some m := hk'
    cases c with
    | revokeDelegationByDelegator p =>
      obtain ⟨d, d1, d2⟩ : Msa.Revocable _ m p := hp m hk0
      have d1' := (r4 m p hm).trans d1
      refine ⟨fun m' e => ?_, fun _ => ⟨m, hk1, d, d1', .inl d2⟩⟩
      rw [hk1] at e
      cases e
      exact ⟨d, d1', d2⟩
    | revokeSchemaPermissions p ids =>
      obtain ⟨a1, m', d, a2, a3, a4⟩ := hp
      rw [hk0] at a2
      cases a2
      exact ⟨⟨hlist _ a1, m, d, hk1, (r4 m p hm).trans a3, a4⟩, fun _ => trivial⟩
    | proposeToBeProvider name =>
      exact ⟨⟨hp.1, by simp [hk1]⟩, fun _ => trivial⟩
    | deleteMsaPublicKey k =>
      have hk2 : (run cfg (.init n) (h ++ h')).msa.keyToMsa.get k = some m := hkeys k hown
      exact ⟨fun _ => by simp [hk2], fun a => ⟨a.1, m, hk1, hk2⟩⟩
    | _ => simp [OwnAffair] at hown

end Verif.Chain
