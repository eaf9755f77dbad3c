import Verif.Chain.PropsRetire
/-!
# Accounts whose keys sign nothing
-/

namespace Verif.Chain

/-! ## Specification -/

/-- The keys whose signatures a call carries, other than that of the transaction. -/
def Call.signers : Call → List AccountId
  | .msa (.createSponsoredAccountWithDelegation key ..) => [key]
  | .msa (.grantDelegation key ..) => [key]
  | .msa (.addPublicKeyToMsa key _ _ p) => [key, p.newPublicKey]
  | .handles (.claim key ..) => [key]
  | .handles (.change key ..) => [key]
  | .storage (.applyItemActionsWithSignature key ..) => [key]
  | .storage (.upsertPageWithSignature key ..) => [key]
  | .storage (.deletePageWithSignature key ..) => [key]
  | _ => []

/-- The step is neither sent nor paid by any of the keys and carries no signature of any of them. -/
def Silent (D : AccountId → Prop) (x : Step) : Prop :=
  (∀ o c, x.sends = some (o, c) → (∀ k, o = .signed k → ¬ D k) ∧ ∀ k ∈ c.signers, ¬ D k) ∧
  ∀ k fee, x = .charge k fee → ¬ D k

/-- The accounts `M` have been created, their keys are among `D`, and their delegations that are not over are to accounts
of `M`. -/
structure Group (D : AccountId → Prop) (M : MsaId → Prop) (s : State) : Prop where
  issued : ∀ m, M m → m ≤ s.msa.maxMsaId
  keys : ∀ k m, msaOf s k = some m → M m → D k
  delegates : ∀ m p d, M m → s.msa.delegations.get (m, p) = some d → (d.revokedAt ≠ 0 ∧ d.revokedAt < s.block) ∨ M p

/-- The step is a deletion of the key. -/
def Deletes (x : Step) (k : AccountId) : Prop := ∃ a, x.sends = some (.signed a, .msa (.deleteMsaPublicKey k))

/-- The step is a stake for the account, or takes one back. -/
def Stakes (x : Step) (m : MsaId) : Prop :=
  ∃ k a, x.sends = some (.signed k, .capacity (.stake m a)) ∨ x.sends = some (.signed k, .capacity (.unstake m a))

/-! ## Helper lemmas -/

theorem group_msa (cfg : Config) (s : State) (x : Step) {D : AccountId → Prop} {M : MsaId → Prop} (hg : Group D M s)
    (hx : Silent D x) :
    s.msa.maxMsaId ≤ (apply cfg s x).msa.maxMsaId ∧
    (∀ k m, M m → msaOf (apply cfg s x) k = some m → msaOf s k = some m) ∧
    (∀ k m, M m → msaOf s k = some m → msaOf (apply cfg s x) k = some m ∨ Deletes x k) ∧
    (∀ m p, M m → (apply cfg s x).msa.delegations.get (m, p) = s.msa.delegations.get (m, p)) := by
  rcases apply_msa cfg s x with e | ⟨o, c, hs, e⟩
  · unfold msaOf
    rw [e]; exact ⟨Nat.le_refl _, fun _ _ _ h => h, fun _ _ _ h => .inl h, fun _ _ _ => rfl⟩
  · obtain ⟨h1, h2⟩ := hx.1 _ _ hs
    unfold msaOf
    rw [e]
    have he := Msa.apply_eff cfg.msa s.msa ⟨msaEnv cfg s, o.msa, c⟩
    simp only at he
    generalize Msa.apply cfg.msa s.msa ⟨msaEnv cfg s, o.msa, c⟩ = s' at he
    generalize ho : o.msa = o' at he
    generalize msaEnv cfg s = env at he
    have hsig : ∀ k, o' = .signed k → ¬ D k := fun k hk => h1 k (msaOrigin_signed (ho.trans hk))
    have hkey : ∀ k m, s.msa.keyToMsa.get k = some m → M m → D k := hg.keys
    have hnew : ∀ k m', ¬ M m' → s.msa.keyToMsa.get k = none →
        (∀ k' m, M m → (Msa.withKey s.msa m' k).keyToMsa.get k' = some m → s.msa.keyToMsa.get k' = some m) ∧
        (∀ k' m, M m → s.msa.keyToMsa.get k' = some m → (Msa.withKey s.msa m' k).keyToMsa.get k' = some m) := by
      intro k m' hm' hk
      refine ⟨fun k' m hm h => ?_, fun k' m hm h => ?_⟩
      · rw [Msa.withKey_get] at h
        split at h
        · cases h; exact absurd hm hm'
        · exact h
      · rw [Msa.withKey_get]
        split
        · rename_i e; rw [← e, hk] at h; cases h
        · exact h
    cases he with
    | noop => exact ⟨Nat.le_refl _, fun _ _ _ h => h, fun _ _ _ h => .inl h, fun _ _ _ => rfl⟩
    | create hid hk hc =>
      obtain ⟨n1, n2⟩ := hnew _ (s.msa.maxMsaId + 1) (fun hm => by have := hg.issued _ hm; omega) hk
      exact ⟨Nat.le_succ _, n1, fun k m hm h => .inl (n2 k m hm h), fun _ _ _ => rfl⟩
    | sponsored hv hr hw hp hid hk hc hn hd hl hss =>
      have hM : ¬ M (s.msa.maxMsaId + 1) := fun hm => by have := hg.issued _ hm; omega
      obtain ⟨n1, n2⟩ := hnew _ (s.msa.maxMsaId + 1) hM hk
      refine ⟨Nat.le_succ _, n1, fun k m hm h => .inl (n2 k m hm h), fun m p hm => ?_⟩
      simp only [SMap.get_insert]
      split
      · rename_i e
        simp only [Prod.mk.injEq] at e
        exact absurd (e.1 ▸ hm) hM
      · rfl
    | provider => exact ⟨Nat.le_refl _, fun _ _ _ h => h, fun _ _ _ h => .inl h, fun _ _ _ => rfl⟩
    | @grant who dk proof pl r delegator d hv hr hw hdk hne hp hd =>
      refine ⟨Nat.le_refl _, fun _ _ _ h => h, fun _ _ _ h => .inl h, fun m p hm => ?_⟩
      simp only [SMap.get_insert]
      split
      · rename_i e
        simp only [Prod.mk.injEq] at e
        exact absurd (hkey _ _ hdk (e.1 ▸ hm)) (h2 dk (by simp [Call.signers]))
      · rfl
    | @revoke who c delegator provider d hc hd h0 =>
      refine ⟨Nat.le_refl _, fun _ _ _ h => h, fun _ _ _ h => .inl h, fun m p hm => ?_⟩
      simp only [SMap.get_insert]
      split
      · rename_i e
        simp only [Prod.mk.injEq] at e
        obtain ⟨rfl, rfl⟩ := e
        have hp : M provider := by
          rcases hg.delegates _ _ _ hm hd with h | h
          · exact absurd h0 h.1
          · exact h
        rcases hc with ⟨_, hk⟩ | ⟨_, hk⟩
        · exact absurd (hkey _ _ hk hm) (hsig who rfl)
        · exact absurd (hkey _ _ hk hp) (hsig who rfl)
      · rfl
    | @addKey who ok op np p r1 r2 hv1 hv2 hr1 hr2 hok hk hc =>
      have hM : ¬ M p.msaId := fun hm => h2 ok (by simp [Call.signers]) (hkey _ _ hok hm)
      obtain ⟨n1, n2⟩ := hnew _ p.msaId hM hk
      exact ⟨Nat.le_refl _, n1, fun k m hm h => .inl (n2 k m hm h), fun _ _ _ => rfl⟩
    | @delete who c m0 k0 m' hw hk hc =>
      have hget : ∀ k', (Msa.withoutKey s.msa m0 k0).keyToMsa.get k' = if k0 = k' then none else s.msa.keyToMsa.get k' :=
        fun k' => Msa.withoutKey_get _ _ _ _
      refine ⟨Nat.le_refl _, fun k m _ h => ?_, fun k m hm h => ?_, fun _ _ _ => rfl⟩
      · simp only [hget] at h
        split at h
        · cases h
        · exact h
      · simp only [hget]
        by_cases e : k0 = k
        · subst e
          rcases hc with rfl | ⟨rfl, rfl⟩
          · exact .inr ⟨who, by rw [hs, msaOrigin_signed ho]⟩
          · exact absurd (hkey _ _ h hm) (hsig k0 rfl)
        · rw [if_neg e]; exact .inl h
    | @revokeSchemas who provider ids delegator d d' hw hd hm' =>
      refine ⟨Nat.le_refl _, fun _ _ _ h => h, fun _ _ _ h => .inl h, fun m p hm => ?_⟩
      simp only [SMap.get_insert]
      split
      · rename_i e
        simp only [Prod.mk.injEq] at e
        exact absurd (hkey _ _ hw (e.1 ▸ hm)) (hsig who rfl)
      · rfl

theorem group_apply (cfg : Config) (s : State) (x : Step) {D : AccountId → Prop} {M : MsaId → Prop} (hg : Group D M s)
    (hx : Silent D x) : Group D M (apply cfg s x) := by
  obtain ⟨h1, h2, _, h4⟩ := group_msa cfg s x hg hx
  refine ⟨fun m hm => Nat.le_trans (hg.issued m hm) h1, fun k m hk hm => hg.keys k m (h2 k m hm hk) hm, fun m p d hm hd => ?_⟩
  rw [h4 m p hm] at hd
  rcases hg.delegates m p d hm hd with h | h
  · exact .inl ⟨h.1, Nat.lt_of_lt_of_le h.2 (block_mono cfg s x)⟩
  · exact .inr h

/-- The handle of an account of the group does not change. -/
theorem group_handle (cfg : Config) (s : State) (x : Step) {D : AccountId → Prop} {M : MsaId → Prop} (hg : Group D M s)
    (hx : Silent D x) (m : MsaId) (hm : M m) : (apply cfg s x).handles.byMsa.get m = s.handles.byMsa.get m := by
  rcases apply_handles cfg s x with e | ⟨key, c, hs, e⟩
  · rw [e]
  · obtain ⟨h1, h2⟩ := hx.1 _ _ hs
    rw [e]
    have he := Handles.apply_eff cfg.handles s.handles ⟨handlesEnv cfg s, c.op key⟩
    have hkey : ∀ k m', (handlesEnv cfg s).msaOf k = some m' → M m' → D k := fun k m' hk => hg.keys k m' hk
    generalize handlesEnv cfg s = env at he hkey
    have hop : (∀ k sig p, c.op key = .claim k sig p → ¬ D k) ∧ (∀ k sig p, c.op key = .change k sig p → ¬ D k) ∧
        (∀ k, c.op key = .retireWrapped k → ¬ D k) ∧ (∀ k, c.op key ≠ .retire k) := by
      cases c with
      | claim owner sig p =>
        refine ⟨fun k s' p' e => ?_, by simp [HandleCall.op], by simp [HandleCall.op], by simp [HandleCall.op]⟩
        simp only [HandleCall.op, Handles.Op.claim.injEq] at e
        exact e.1 ▸ h2 owner (by simp [Call.signers])
      | change owner sig p =>
        refine ⟨by simp [HandleCall.op], fun k s' p' e => ?_, by simp [HandleCall.op], by simp [HandleCall.op]⟩
        simp only [HandleCall.op, Handles.Op.change.injEq] at e
        exact e.1 ▸ h2 owner (by simp [Call.signers])
      | retire =>
        refine ⟨by simp [HandleCall.op], by simp [HandleCall.op], fun k e => ?_, by simp [HandleCall.op]⟩
        simp only [HandleCall.op, Handles.Op.retireWrapped.injEq] at e
        exact e ▸ h1 key rfl
    obtain ⟨o1, o2, o3, o4⟩ := hop
    generalize c.op key = op at he o1 o2 o3 o4
    generalize Handles.apply cfg.handles s.handles ⟨env, op⟩ = s' at he
    cases he with
    | fail => rfl
    | claim hlen hm' hw hsig hcl =>
      rw [hcl.state]
      simp only [SMap.get_insert]
      split
      · rename_i e; exact absurd (hkey _ _ hm' (e ▸ hm)) (o1 _ _ _ rfl)
      · rfl
    | change hlen hm' hw hsig h1 hcl =>
      have hne : ∀ m', env.msaOf _ = some m' → m' ≠ m := fun m' h e => o2 _ _ _ rfl (hkey _ _ h (e ▸ hm))
      have hne := hne _ hm'
      rw [hcl.state]
      simp only [SMap.get_insert]
      rw [if_neg hne, h1.state]
      simp only [SMap.get_erase]
      rw [if_neg hne]
    | retire hm' hr _ => exact absurd rfl (o4 _)
    | retireWrapped hm' hr =>
      rw [hr.state]
      simp only [SMap.get_erase]
      split
      · rename_i e; exact absurd (hkey _ _ hm' (e ▸ hm)) (o3 _ rfl)
      · rfl

theorem Group.not_authorised {s : State} {D : AccountId → Prop} {M : MsaId → Prop} (hg : Group D M s) {m p : MsaId}
    {k : SchemaId} (hm : M m) (h : Authorised s p m k) : M p := by
  obtain ⟨info, r, h1, h2, _⟩ := h
  rcases hg.delegates m p info hm h1 with h | h
  · omega
  · exact h

/-- No message in the name of an account of the group is added. -/
theorem group_messages (cfg : Config) (s : State) (x : Step) {D : AccountId → Prop} {M : MsaId → Prop} (hg : Group D M s)
    (hx : Silent D x) (hb : s.messages.block = s.block) (m : MsaId) (hm : M m) : SameMessages s (apply cfg s x) m := by
  intro b k i msg hmsg hor
  apply Classical.byContradiction
  intro hnew
  rcases apply_messages cfg s x with e | ⟨_, e⟩ | ⟨key, c, hs, e⟩
  · rw [e] at hmsg; exact hnew hmsg
  · rw [e] at hmsg; exact hnew hmsg
  · rw [e] at hmsg
    obtain ⟨env, key', c', h1, _, h3, _, h5⟩ := Messages.C49_authorised _ _ _ _ _ _ _ hmsg hnew
    cases h1
    have hkey : ¬ D key := (hx.1 _ _ hs).1 key rfl
    have h3 : msaOf s key = some msg.provider := h3
    have hne : ¬ M msg.provider := fun h => hkey (hg.keys _ _ h3 h)
    rcases hor with hor | hor
    · exact hne (hor ▸ hm)
    · rcases h5 with ⟨_, a, h7, h8, _⟩ | ⟨_, h7, _⟩
      · rw [hor] at h7
        cases h7
        have := h8 (fun e => hne (e ▸ hm))
        rw [hb] at this
        exact hne (hg.not_authorised hm (grant_iff.1 this))
      · rw [hor] at h7; cases h7

/-- Nor is capacity of an account of the group used. -/
theorem group_capacity (cfg : Config) (s : State) (x : Step) {D : AccountId → Prop} {M : MsaId → Prop} (hg : Group D M s)
    (hx : Silent D x) (m : MsaId) (hm : M m) :
    (apply cfg s x).capacity.capacity.get m = s.capacity.capacity.get m ∨ Stakes x m := by
  by_cases h : (apply cfg s x).capacity.capacity.get m = s.capacity.capacity.get m
  · exact .inl h
  · rcases C95_capacity_spent_by_own_keys cfg s x m h with ⟨k, fee, e, hk⟩ | ⟨k, a, e, _⟩ | ⟨k, a, e, _⟩
    · exact absurd (hg.keys _ _ hk hm) (hx.2 k fee e)
    · exact .inr ⟨k, a, .inl e⟩
    · exact .inr ⟨k, a, .inr e⟩

/-! ## C128, on the chain -/

/-- What is kept of a group: no key is added to an account, and none is lost but by a deletion of that key; delegations,
handles, the messages in their names and, but for stakes of others, the capacity stay as they are. -/
theorem group_run (cfg : Config) (n : Nat) (h h' : List Step) {D : AccountId → Prop} {M : MsaId → Prop}
    (hg : Group D M (run cfg (.init n) h)) (hx : ∀ x ∈ h', Silent D x) :
    let s := run cfg (.init n) h
    let t := run cfg (.init n) (h ++ h')
    Group D M t ∧
    (∀ k m, M m → msaOf t k = some m → msaOf s k = some m) ∧
    (∀ k m, M m → msaOf s k = some m → msaOf t k = some m ∨ ∃ x ∈ h', Deletes x k) ∧
    (∀ m p, M m → t.msa.delegations.get (m, p) = s.msa.delegations.get (m, p)) ∧
    (∀ m, M m → t.handles.byMsa.get m = s.handles.byMsa.get m) ∧
    (∀ m, M m → SameMessages s t m) ∧
    (∀ m, M m → t.capacity.capacity.get m = s.capacity.capacity.get m ∨ ∃ x ∈ h', Stakes x m) := by
  induction h' using List.reverseRecOn with
  | nil =>
    rw [List.append_nil]
    exact ⟨hg, fun _ _ _ h => h, fun _ _ _ h => .inl h, fun _ _ _ => rfl, fun _ _ => rfl, fun _ _ _ _ _ _ h _ => h,
      fun _ _ => .inl rfl⟩
  | append_singleton h' x ih =>
    obtain ⟨i1, i2, i3, i4, i5, i6, i7⟩ := ih (fun y hy => hx y (by simp [hy]))
    have hxs := hx x (by simp)
    have hb : (run cfg (.init n) (h ++ h')).messages.block = (run cfg (.init n) (h ++ h')).block := messages_block cfg n _
    simp only at i1 i2 i3 i4 i5 i6 i7 ⊢
    rw [← List.append_assoc, run_snoc]
    generalize run cfg (.init n) (h ++ h') = u at *
    obtain ⟨j1, j2, j3, j4⟩ := group_msa cfg u x i1 hxs
    refine ⟨group_apply cfg u x i1 hxs, fun k m hm hk => i2 k m hm (j2 k m hm hk), fun k m hm hk => ?_,
      fun m p hm => (j4 m p hm).trans (i4 m p hm), fun m hm => (group_handle cfg u x i1 hxs m hm).trans (i5 m hm),
      fun m hm b k i msg hk hor => i6 m hm b k i msg (group_messages cfg u x i1 hxs hb m hm b k i msg hk hor) hor,
      fun m hm => ?_⟩
    rotate_left
    · rcases i7 m hm with h | ⟨y, hy, hd⟩
      · rcases group_capacity cfg u x i1 hxs m hm with h' | h'
        · exact .inl (h'.trans h)
        · exact .inr ⟨x, by simp, h'⟩
      · exact .inr ⟨y, by simp [hy], hd⟩
    rcases i3 k m hm hk with h | ⟨y, hy, hd⟩
    · rcases j3 k m hm h with h | h
      · exact .inl h
      · exact .inr ⟨x, by simp, h⟩
    · exact .inr ⟨y, by simp [hy], hd⟩

/-- The storage of an account of the group does not change. -/
theorem group_storage (cfg : Config) (hc : Stateful.CfgOk cfg.storage) (n : Nat) (h h' : List Step) {D : AccountId → Prop}
    {M : MsaId → Prop} (hg : Group D M (run cfg (.init n) h)) (hx : ∀ x ∈ h', Silent D x)
    (hf : Fits cfg (run cfg (.init n) (h ++ h'))) (hids : ∀ y ∈ h ++ h', IdsOk y) (l : Stateful.Loc)
    (hl : l.InRange cfg.storage) (hm : M l.msa) :
    Stateful.readAt cfg.storage (run cfg (.init n) (h ++ h')).storage l =
      Stateful.readAt cfg.storage (run cfg (.init n) h).storage l := by
  induction h' using List.reverseRecOn with
  | nil => simp
  | append_singleton h' x ih =>
    rw [← List.append_assoc, run_append _ _ _ [x]] at hf
    have hf := hf.before
    have ih := ih (fun y hy => hx y (by simp [hy])) hf (fun y hy => hids y (by
      simp only [List.mem_append, List.mem_singleton] at hy ⊢
      rcases hy with hy | hy
      · exact .inl hy
      · exact .inr (.inl hy)))
    rw [← ih]
    apply Classical.byContradiction
    intro hne
    rw [← List.append_assoc] at hne
    have hgr := (group_run cfg n h h' hg (fun y hy => hx y (by simp [hy]))).1
    obtain ⟨key, c, hs, hcase⟩ := C91_storage_by_consent cfg hc n _ x hf (by
      intro y hy
      rw [List.append_assoc] at hy
      exact hids y hy) l hl hne
    obtain ⟨h1, h2⟩ := (hx x (by simp)).1 _ _ hs
    rcases hcase with hk | ⟨key', sig, e, hk, _, _, hcall⟩ | ⟨p, hk, _, _, ha, _⟩
    · exact h1 key rfl (hgr.keys _ _ hk hm)
    · have hk : msaOf (run cfg (.init n) (h ++ h')) key' = some l.msa := hk
      refine h2 key' ?_ (hgr.keys _ _ hk hm)
      rcases hcall with ⟨p, e, _⟩ | ⟨p, e, _⟩ | ⟨p, e, _⟩ <;>
        (simp only at e; subst e; simp [Call.signers])
    · exact h1 key rfl (hgr.keys _ _ hk (hgr.not_authorised hm ha))

end Verif.Chain
