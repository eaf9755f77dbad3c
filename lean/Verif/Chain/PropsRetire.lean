import Verif.Chain.PropsRefs
/-!
# Retired accounts, accounts in use, and who pays
-/

namespace Verif.Chain

/-! ## Specification -/

/-- Nothing of the account `m` is left to act with in state `s`. -/
structure Gone (cfg : Config) (s : State) (m : MsaId) : Prop where
  keys : ∀ key, msaOf s key ≠ some m
  handle : Handles.handleForMsa cfg.handles s.handles m = none
  provider : ¬ IsProvider s m
  capacity : s.capacity.capacity.get m = none
  delegations : ∀ p k, ¬ Authorised s p m k

/-- Messages that name the account, as provider or as author, in state `t` are those in state `s`. -/
def SameMessages (s t : State) (m : MsaId) : Prop :=
  ∀ b k i msg, t.messages.msgs.get (b, k, i) = some msg → msg.provider = m ∨ msg.author = some m →
    s.messages.msgs.get (b, k, i) = some msg

/-- The step is not a deletion of a key dispatched from within another call. -/
def NoWrappedDelete (x : Step) : Prop := ∀ bal who key, x ≠ .call bal (.signed who) (.msa (.deleteMsaPublicKey key))

/-- Nor is it a retirement dispatched from within another call. -/
def NoWrappedRetire (x : Step) : Prop := ∀ bal who, x ≠ .call bal (.signed who) (.msa .retireMsa)

/-! ## Helper lemmas -/

theorem isOk_iff {ε : Type} {x : Except ε Unit} : x.isOk = true ↔ x = .ok () := by
  cases x with
  | error e => simp [Except.isOk, Except.toBool]
  | ok u => simp [Except.isOk, Except.toBool]

theorem apply_msa_tx (cfg : Config) (s : State) (x : Step) :
    (apply cfg s x).msa = s.msa ∨
    ∃ o c, (apply cfg s x).msa = Msa.apply cfg.msa s.msa ⟨msaEnv cfg s, o.msa, c⟩ ∧
      ((∃ bal, x = .call bal o (.msa c)) ∨
       ∃ bal who, x = .submit bal who (.msa c) ∧ o = .signed who ∧
         Msa.validate (msaEnv cfg s) s.msa who c = .ok ()) := by
  have he := apply_eff cfg s x
  generalize apply cfg s x = s' at he
  cases he with
  | same => exact .inl rfl
  | newBlock => exact .inl rfl
  | call h =>
    cases dispatch_called h with
    | msa h1 => exact .inr ⟨_, _, by simp [Msa.apply, h1], .inl ⟨_, rfl⟩⟩
    | _ => exact .inl rfl
  | submit he h =>
    cases dispatch_called h with
    | msa h1 => exact .inr ⟨_, _, by simp [Msa.apply, h1], .inr ⟨_, _, rfl, rfl, isOk_iff.1 he⟩⟩
    | _ => exact .inl rfl
  | charge h =>
    simp only [charge, Option.bind_eq_bind, Option.bind_eq_some_iff] at h
    obtain ⟨m, _, t, _, h2⟩ := h
    cases h2
    exact .inl rfl
  | upgrade => exact .inl rfl

theorem countInv (cfg : Config) (n : Nat) (h : List Step) (hd : ∀ x ∈ h, NoWrappedDelete x) :
    Msa.CountInv cfg.msa (run cfg (.init n) h).msa := by
  induction h using List.reverseRecOn with
  | nil => exact Msa.countInv_init cfg.msa
  | append_singleton h x ih =>
    have hi := ih (fun y hy => hd y (by simp [hy]))
    have hx := hd x (by simp)
    rw [run_snoc]
    generalize run cfg (.init n) h = s at hi
    rcases apply_msa_tx cfg s x with e | ⟨o, c, e, hc⟩
    · rw [e]; exact hi
    · rw [e]
      have he := Msa.apply_eff cfg.msa s.msa ⟨msaEnv cfg s, o.msa, c⟩
      simp only at he
      generalize Msa.apply cfg.msa s.msa ⟨msaEnv cfg s, o.msa, c⟩ = s' at he
      generalize ho : o.msa = o' at he
      cases he with
      | noop => exact hi
      | create hid hk hn => exact Msa.countInv_withKey hi hk hn
      | sponsored _ _ _ _ _ hk hn _ _ _ _ => exact Msa.countInv_withKey hi hk hn
      | provider _ _ _ => exact hi
      | grant _ _ _ _ _ _ _ => exact hi
      | revoke _ _ _ => exact hi
      | addKey _ _ _ _ _ hk hn => exact Msa.countInv_withKey hi hk hn
      | delete hw hk hcc =>
        have := msaOrigin_signed ho
        subst this
        rcases hcc with hcc | ⟨hcc, hkw⟩
        · subst hcc
          rcases hc with ⟨bal, rfl⟩ | ⟨bal, who, rfl, ho', hv⟩
          · exact absurd rfl (hx _ _ _)
          · cases ho'
            obtain ⟨_, m2, h1, h2⟩ := Msa.validateKeyDelete_ok hv
            rw [h1] at hw
            cases hw
            exact Msa.countInv_withoutKey hi h2
        · subst hkw
          exact Msa.countInv_withoutKey hi hw
      | revokeSchemas _ _ _ => exact hi

theorem handles_inv (cfg : Config) (hr : Handles.RangeOk cfg.hi) (n : Nat) (h : List Step) :
    Handles.Inv cfg.handles cfg.lo cfg.hi (run cfg (.init n) h).handles := by
  obtain ⟨l, hf, hl⟩ := handles_run cfg h (.init n)
  rw [hl]
  exact Handles.inv_run hr l (Handles.inv_init _ _ _) hf

theorem handleForMsa_none {cfg lo hi s m} (hr : Handles.RangeOk hi) (hi' : Handles.Inv cfg lo hi s) :
    Handles.handleForMsa cfg s m = none ↔ s.byMsa.get m = none := by
  constructor
  · intro h
    cases hg : s.byMsa.get m with
    | none => rfl
    | some v =>
      obtain ⟨d, e⟩ := v
      obtain ⟨base, x, hv, rfl, _, hx, _⟩ := hi'.stored m d e hg
      have hp := Handles.splitDisplayName_displayStr (n := x) hv.noDot (by unfold Handles.RangeOk at hr; omega)
      have hdec : utf8Decode (Handles.displayOf base x) = some (Handles.displayStr base x) := utf8Decode_encode _
      simp [Handles.handleForMsa, hg, hdec, hp] at h
  · intro h
    simp [Handles.handleForMsa, h]

/-- What stays true of a finished account. -/
structure Fin (s : State) (m : MsaId) : Prop where
  le : m ≤ s.msa.maxMsaId
  keys : ∀ k, s.msa.keyToMsa.get k ≠ some m
  dels : ∀ p d, s.msa.delegations.get (m, p) = some d → d.revokedAt ≠ 0 ∧ d.revokedAt < s.block
  provider : s.msa.providers.get m = none
  handle : s.handles.byMsa.get m = none

theorem fin_msa (cfg : Config) (s : State) (x : Step) (m : MsaId) (hs : Fin s m) :
    m ≤ (apply cfg s x).msa.maxMsaId ∧ (∀ k, (apply cfg s x).msa.keyToMsa.get k ≠ some m) ∧
    (∀ p d, (apply cfg s x).msa.delegations.get (m, p) = some d → d.revokedAt ≠ 0 ∧ d.revokedAt < s.block) ∧
    (apply cfg s x).msa.providers.get m = none := by
  obtain ⟨h1, h2, h3, h4, _⟩ := hs
  rcases apply_msa cfg s x with e | ⟨o, c, _, e⟩
  · rw [e]; exact ⟨h1, h2, h3, h4⟩
  · rw [e]
    have he := Msa.apply_eff cfg.msa s.msa ⟨msaEnv cfg s, o.msa, c⟩
    simp only at he
    generalize Msa.apply cfg.msa s.msa ⟨msaEnv cfg s, o.msa, c⟩ = s' at he
    generalize o.msa = o' at he
    generalize msaEnv cfg s = env at he
    have hkey : ∀ k m', (m' ≠ m) → ∀ k', (Msa.withKey s.msa m' k).keyToMsa.get k' ≠ some m := by
      intro k m' hne k'
      rw [Msa.withKey_get]
      split
      · intro e; cases e; exact hne rfl
      · exact h2 k'
    cases he with
    | noop => exact ⟨h1, h2, h3, h4⟩
    | create => exact ⟨Nat.le_succ_of_le h1, hkey _ _ (by omega), h3, h4⟩
    | sponsored =>
      refine ⟨Nat.le_succ_of_le h1, hkey _ _ (by omega), fun p d hd => ?_, h4⟩
      simp only [SMap.get_insert] at hd
      split at hd
      · rename_i e
        simp only [Prod.mk.injEq] at e
        omega
      · exact h3 p d hd
    | provider hl hn hk =>
      obtain ⟨k, hk, _⟩ := hk
      refine ⟨h1, h2, h3, ?_⟩
      simp only [SMap.get_insert]
      split
      · rename_i e; rw [e] at hk; exact absurd hk (h2 k)
      · exact h4
    | grant hv hr hw hdk hne hpr hdd =>
      refine ⟨h1, h2, fun p d hd => ?_, h4⟩
      simp only [SMap.get_insert] at hd
      split at hd
      · rename_i e
        simp only [Prod.mk.injEq] at e
        rw [e.1] at hdk; exact absurd hdk (h2 _)
      · exact h3 p d hd
    | revoke hc hdd h0 =>
      refine ⟨h1, h2, fun p d hd => ?_, h4⟩
      simp only [SMap.get_insert] at hd
      split at hd
      · rename_i e
        simp only [Prod.mk.injEq] at e
        rw [e.1, e.2] at hdd
        exact absurd h0 (h3 _ _ hdd).1
      · exact h3 p d hd
    | addKey hv1 hv2 hr1 hr2 ho hk hc =>
      exact ⟨h1, hkey _ _ (by intro e; rw [e] at ho; exact h2 _ ho), h3, h4⟩
    | delete hw hk hc =>
      refine ⟨h1, fun k' => ?_, h3, h4⟩
      rw [show (_ : Msa.State).keyToMsa.get k' = _ from Msa.withoutKey_get _ _ _ _]
      split
      · simp
      · exact h2 k'
    | revokeSchemas hw hdd hm =>
      refine ⟨h1, h2, fun p d hd => ?_, h4⟩
      simp only [SMap.get_insert] at hd
      split at hd
      · rename_i e
        simp only [Prod.mk.injEq] at e
        rw [e.1] at hw; exact absurd hw (h2 _)
      · exact h3 p d hd

/-- A handle appears only by a call for a key of the account. -/
theorem handle_appears (cfg : Config) (s : State) (x : Step) (m : MsaId) (hn : s.handles.byMsa.get m = none)
    (ha : (apply cfg s x).handles.byMsa.get m ≠ none) : ∃ k, msaOf s k = some m := by
  rcases apply_handles cfg s x with e | ⟨key, c, _, e⟩
  · rw [e] at ha; exact absurd hn ha
  · rw [e] at ha
    have he := Handles.apply_eff cfg.handles s.handles ⟨handlesEnv cfg s, c.op key⟩
    have hkey : ∀ k m', (handlesEnv cfg s).msaOf k = some m' → msaOf s k = some m' := fun k m' hk => hk
    generalize handlesEnv cfg s = env at he ha hkey
    generalize c.op key = op at he ha
    generalize Handles.apply cfg.handles s.handles ⟨env, op⟩ = s' at he ha
    cases he with
    | fail => exact absurd hn ha
    | claim hlen hm' hw hsig hcl =>
      rw [hcl.state] at ha
      simp only [SMap.get_insert] at ha
      split at ha
      · rename_i e; rw [← e]; exact ⟨_, hkey _ _ hm'⟩
      · exact absurd hn ha
    | change hlen hm' hw hsig h1 hcl =>
      rw [hcl.state] at ha
      simp only [SMap.get_insert] at ha
      split at ha
      · rename_i e; rw [← e]; exact ⟨_, hkey _ _ hm'⟩
      · rw [h1.state] at ha
        simp only [SMap.get_erase] at ha
        split at ha
        · exact absurd rfl ha
        · exact absurd hn ha
    | retire hm' hr _ =>
      rw [hr.state] at ha
      simp only [SMap.get_erase] at ha
      split at ha
      · exact absurd rfl ha
      · exact absurd hn ha
    | retireWrapped hm' hr =>
      rw [hr.state] at ha
      simp only [SMap.get_erase] at ha
      split at ha
      · exact absurd rfl ha
      · exact absurd hn ha

theorem block_mono (cfg : Config) (s : State) (x : Step) : s.block ≤ (apply cfg s x).block := by
  rcases apply_block cfg s x with ⟨_, e⟩ | ⟨_, e⟩ <;> omega

theorem fin_apply (cfg : Config) (s : State) (x : Step) (m : MsaId) (hs : Fin s m) : Fin (apply cfg s x) m := by
  obtain ⟨h1, h2, h3, h4⟩ := fin_msa cfg s x m hs
  refine ⟨h1, h2, fun p d hd => ?_, h4, ?_⟩
  · have := h3 p d hd
    have hb := block_mono cfg s x
    exact ⟨this.1, Nat.lt_of_lt_of_le this.2 hb⟩
  · apply Classical.byContradiction
    intro hne
    obtain ⟨k, hk⟩ := handle_appears cfg s x m hs.handle hne
    exact hs.keys k hk

theorem Fin.not_authorised {s m} (hs : Fin s m) (p : MsaId) (k : SchemaId) : ¬ Authorised s p m k := by
  rintro ⟨info, r, h1, h2, _⟩
  have := hs.dels p info h1
  omega

theorem Fin.gone {cfg n h m} (hs : Fin (run cfg (.init n) h) m) : Gone cfg (run cfg (.init n) h) m := by
  have hp : ¬ IsProvider (run cfg (.init n) h) m := by
    intro hp
    obtain ⟨v, hv⟩ := (SMap.contains_iff _ _).1 hp
    rw [hs.provider] at hv
    cases hv
  refine ⟨hs.keys, by simp [Handles.handleForMsa, hs.handle], hp, ?_, hs.not_authorised⟩
  cases hc : (run cfg (.init n) h).capacity.capacity.get m with
  | none => rfl
  | some d => exact absurd ((capRefs cfg n h).1 m (by rw [hc]; rfl)) hp

theorem fin_run (cfg : Config) (m : MsaId) (h : List Step) (s : State) (hs : Fin s m) : Fin (run cfg s h) m :=
  run_induction (P := fun s => Fin s m) (fun s x hs => fin_apply cfg s x m hs) h s hs

theorem fin_messages (cfg : Config) (m : MsaId) (s : State) (x : Step) (hs : Fin s m)
    (hb : s.messages.block = s.block) : SameMessages s (apply cfg s x) m := by
  intro b k i msg hm hor
  apply Classical.byContradiction
  intro hnew
  rcases apply_messages cfg s x with e | ⟨_, e⟩ | ⟨key, c, _, e⟩
  · rw [e] at hm; exact hnew hm
  · rw [e] at hm; exact hnew hm
  · rw [e] at hm
    obtain ⟨env, key', c', h1, _, h3, _, h5⟩ := Messages.C49_authorised _ _ _ _ _ _ _ hm hnew
    cases h1
    have h3 : s.msa.keyToMsa.get key = some msg.provider := h3
    have hne : msg.provider ≠ m := by intro e; rw [e] at h3; exact hs.keys _ h3
    rcases hor with hor | hor
    · exact hne hor
    · rcases h5 with ⟨_, a, h7, h8, _⟩ | ⟨_, h7, _⟩
      · rw [hor] at h7
        cases h7
        have := h8 (Ne.symm hne)
        rw [hb] at this
        exact hs.not_authorised _ _ (grant_iff.1 this)
      · rw [hor] at h7; cases h7

theorem fin_of_retire (cfg : Config) (hr : Handles.RangeOk cfg.hi) (n : Nat) (h : List Step)
    (hd : ∀ x ∈ h, NoWrappedDelete x) (bal : AccountId → Balance) (who : AccountId) (m : MsaId)
    (hm : msaOf (run cfg (.init n) h) who = some m)
    (hok : extensions cfg (run cfg (.init n) h) who (.msa .retireMsa) = true) :
    Fin (run cfg (.init n) (h ++ [.submit bal who (.msa .retireMsa)])) m := by
  have hi := countInv cfg n h hd
  have hh := handles_inv cfg hr n h
  have hids := (idInv cfg n h).bound who m hm
  rw [run_snoc]
  generalize run cfg (.init n) h = s at *
  have hv : Msa.ensureMsaCanRetire (msaEnv cfg s) s.msa who = .ok () := isOk_iff.1 hok
  obtain ⟨m', h1, h2, h3, h4, h5⟩ := Msa.ensureMsaCanRetire_ok hv
  unfold msaOf at hm
  rw [hm] at h1
  cases h1
  have hc1 : s.msa.keyCount.get m = some 1 := by
    have h6 := (hi m).1
    rw [h6, Msa.toCount_getD] at h4
    rw [h6, h4]; rfl
  have hwho : who ∈ Msa.keysOf s.msa m := (Msa.mem_keysOf s.msa m who).2 hm
  have honly : ∀ k, s.msa.keyToMsa.get k = some m → k = who := by
    intro k hk
    have hk := (Msa.mem_keysOf s.msa m k).2 hk
    have h6 := (hi m).1
    rw [h6, Msa.toCount_getD, ← Msa.length_keysOf] at h4
    match hl : Msa.keysOf s.msa m, h4 with
    | [a], _ =>
      rw [hl] at hk hwho
      simp at hk hwho
      rw [hk, hwho]
  have hdisp : dispatch cfg bal s (.signed who) (.msa .retireMsa) =
      some { s with msa := { Msa.withoutKey s.msa m who with events := s.msa.events ++ [.deleted m who] } } := by
    simp [dispatch, Origin.msa, Msa.dispatch, Msa.ensureSigned, Msa.retireMsa, hm, Msa.deleteKeyForMsa, hc1, ensure,
      bind, Except.bind, pure, Except.pure, Msa.withoutKey, Msa.decCount, Except.toOption]
  have happ : apply cfg s (.submit bal who (.msa .retireMsa)) =
      { s with msa := { Msa.withoutKey s.msa m who with events := s.msa.events ++ [.deleted m who] } } := by
    show (if extensions cfg s who _ then (dispatch cfg bal s (.signed who) _).getD s else s) = _
    rw [if_pos hok, hdisp]
    rfl
  rw [happ]
  refine ⟨hids.2, fun k => ?_, fun p d hd => ?_, ?_, ?_⟩
  · rw [show (_ : Msa.State).keyToMsa.get k = _ from Msa.withoutKey_get _ _ _ _]
    split
    · simp
    · rename_i hne
      intro hk
      exact hne (honly k hk).symm
  · have := h5 p d hd
    unfold Msa.activeAt at this
    have hb : (msaEnv cfg s).block = s.block := rfl
    rw [hb] at this
    show d.revokedAt ≠ 0 ∧ d.revokedAt < s.block
    omega
  · show s.msa.providers.get m = none
    cases hp : s.msa.providers.get m with
    | none => rfl
    | some v =>
      have := (SMap.contains_iff s.msa.providers m).2 ⟨v, hp⟩
      rw [h2] at this; cases this
  · show s.handles.byMsa.get m = none
    rw [← handleForMsa_none hr hh]
    have : (Handles.handleForMsa cfg.handles s.handles m).isSome = false := h3
    cases hg : Handles.handleForMsa cfg.handles s.handles m with
    | none => rfl
    | some v => rw [hg] at this; cases this

/-! ## C93 -/

/-- C93, full statement: after any history, a transaction that retires an account and is accepted leaves nothing
of it to act with, forever: whatever happens afterwards, no key belongs to it, it has no handle, is no
provider, has no capacity and no active delegation, and no message in its name is added. -/
def C93_full : Prop :=
  ∀ (cfg : Config) (_ : Handles.RangeOk cfg.hi) (n : Nat) (h : List Step) (bal : AccountId → Balance) (who : AccountId)
    (m : MsaId), msaOf (run cfg (.init n) h) who = some m →
    extensions cfg (run cfg (.init n) h) who (.msa .retireMsa) = true → ∀ h' : List Step,
      let s := run cfg (.init n) (h ++ [.submit bal who (.msa .retireMsa)])
      Gone cfg (run cfg s h') m ∧ SameMessages s (run cfg s h') m

/-- C93. Missing: histories in which, before the retirement, a key was deleted by a wrapped call. What follows
the retirement is not restricted. -/
theorem C93_retired_is_gone_partial (cfg : Config) (hr : Handles.RangeOk cfg.hi) (n : Nat) (h : List Step)
    (hd : ∀ x ∈ h, NoWrappedDelete x) (bal : AccountId → Balance) (who : AccountId) (m : MsaId)
    (hm : msaOf (run cfg (.init n) h) who = some m)
    (hok : extensions cfg (run cfg (.init n) h) who (.msa .retireMsa) = true) (h' : List Step) :
    let s := run cfg (.init n) (h ++ [.submit bal who (.msa .retireMsa)])
    Gone cfg (run cfg s h') m ∧ SameMessages s (run cfg s h') m := by
  intro s
  have hf : Fin s m := fin_of_retire cfg hr n h hd bal who m hm hok
  have hrun : ∀ h', run cfg s h' = run cfg (.init n) (h ++ [.submit bal who (.msa .retireMsa)] ++ h') := by
    intro h'; rw [run_append]
  constructor
  · have := fin_run cfg m h' s hf
    rw [hrun] at this ⊢
    exact this.gone
  · induction h' using List.reverseRecOn with
    | nil => intro b k i msg hg _; exact hg
    | append_singleton h' x ih =>
      intro b k i msg hg hor
      rw [run_snoc] at hg
      have hb : (run cfg s h').messages.block = (run cfg s h').block := by
        rw [hrun]; exact messages_block cfg n _
      exact ih b k i msg (fin_messages cfg m _ x (fin_run cfg m h' s hf) hb b k i msg hg hor) hor

/-- C93, storage of a retired account: it stays as it is. Missing: as above. -/
theorem C93_storage_frozen_partial (cfg : Config) (hr : Handles.RangeOk cfg.hi) (hc : Stateful.CfgOk cfg.storage)
    (n : Nat) (h : List Step) (hd : ∀ x ∈ h, NoWrappedDelete x) (bal : AccountId → Balance) (who : AccountId)
    (m : MsaId) (hm : msaOf (run cfg (.init n) h) who = some m)
    (hok : extensions cfg (run cfg (.init n) h) who (.msa .retireMsa) = true) (h' : List Step)
    (hf' : Fits cfg (run cfg (.init n) (h ++ [.submit bal who (.msa .retireMsa)] ++ h')))
    (hx : ∀ y ∈ h ++ h', IdsOk y) (l : Stateful.Loc) (hl : l.InRange cfg.storage) (hlm : l.msa = m) :
    let s := run cfg (.init n) (h ++ [.submit bal who (.msa .retireMsa)])
    Stateful.readAt cfg.storage (run cfg s h').storage l = Stateful.readAt cfg.storage s.storage l := by
  intro s
  have hf : Fin s m := fin_of_retire cfg hr n h hd bal who m hm hok
  induction h' using List.reverseRecOn with
  | nil => rfl
  | append_singleton h' x ih =>
    rw [← List.append_assoc, run_append _ _ _ [x]] at hf'
    have hf' := hf'.before
    have ih := ih hf' (fun y hy => hx y (by
      simp only [List.mem_append, List.mem_singleton] at hy ⊢
      rcases hy with hy | hy
      · exact .inl hy
      · exact .inr (.inl hy)))
    rw [← ih]
    apply Classical.byContradiction
    intro hne
    have hfin := fin_run cfg m h' s hf
    have hrun : ∀ h', run cfg s h' = run cfg (.init n) (h ++ [.submit bal who (.msa .retireMsa)] ++ h') := by
      intro h'; rw [run_append]
    rw [hrun, hrun, ← List.append_assoc] at hne
    rw [hrun] at hfin
    obtain ⟨key, c, _, hcase⟩ := C91_storage_by_consent cfg hc n _ x hf' (by
      intro y hy
      simp only [List.append_assoc, List.mem_append, List.mem_singleton] at hy
      rcases hy with hy | hy | hy | hy
      · exact hx y (by simp [hy])
      · subst hy; intro o c hs; cases hs
      · exact hx y (by simp [hy])
      · exact hx y (by simp [hy])) l hl hne
    rw [hlm] at hcase
    rcases hcase with h1 | ⟨key', sig, e, h1, _⟩ | ⟨p, _, _, _, h1, _⟩
    · exact hfin.keys _ h1
    · exact hfin.keys _ h1
    · exact hfin.not_authorised _ _ h1

/-- Account 1 has the keys 10 and 11, account 2 the key 20. A wrapped call of key 10 deletes key 20. -/
def exRetire : List Step :=
  [.newBlock,
   .submit exBal 10 (.msa .create),
   .submit exBal 20 (.msa .create),
   .submit exBal 10 (.msa (.addPublicKeyToMsa 10 10 11 ⟨1, 50, 11⟩)),
   .call exBal (.signed 10) (.msa (.deleteMsaPublicKey 20))]

/-- C93 is false of the code: the counter of account 1 was lowered, so key 10 may retire the account although
key 11 belongs to it too; key 11 still acts for it. -/
theorem C93_full_false : ¬ C93_full := by
  intro hf
  have := (hf exCfg (by unfold Handles.RangeOk; decide) 1024 exRetire exBal 10 1 (by decide +kernel) (by decide +kernel) []).1.keys 11
  exact this (by decide +kernel)

/-- Hypotheses met: account 2 of the larger example cannot retire as long as it has its handle and its
delegation; without them it retires, and then nothing in its name is accepted. -/
example :
    let h := exHist.take 11 ++ [.submit exBal 20 (.msa (.revokeDelegationByDelegator 1)), .newBlock]
    (∀ x ∈ h, NoWrappedDelete x) ∧ msaOf (run exCfg (.init 1024) h) 20 = some 2 ∧
    extensions exCfg (run exCfg (.init 1024) h) 20 (.msa .retireMsa) = true ∧
    extensions exCfg exState 20 (.msa .retireMsa) = false ∧
    extensions exCfg (run exCfg (.init 1024) (exHist.take 11)) 20 (.msa .retireMsa) = false ∧
    (dispatch exCfg exBal (run exCfg (.init 1024) (h ++ [.submit exBal 20 (.msa .retireMsa)])) (.signed 10)
      (.storage (.upsertPage 2 2 1 0 [5]))).isNone = true := by
  refine ⟨?_, by decide +kernel, by decide +kernel, by decide +kernel, by decide +kernel, by decide +kernel⟩
  intro x hx
  simp only [exHist, List.take_succ_cons, List.take_zero, List.mem_append, List.mem_cons, List.not_mem_nil,
    or_false] at hx
  intro bal who key e
  subst e
  rcases hx with hx | hx <;> simp at hx

/-! ## C94 -/

/-- The account has a handle, is a registered provider, or has a delegation that is active now. -/
def InUse (cfg : Config) (s : State) (m : MsaId) : Prop :=
  (Handles.handleForMsa cfg.handles s.handles m).isSome = true ∨ IsProvider s m ∨
  ∃ p d, s.msa.delegations.get (m, p) = some d ∧ (d.revokedAt = 0 ∨ s.block ≤ d.revokedAt)

/-- C94, full statement: after every history, whoever is in use has a key. -/
def C94_full : Prop :=
  ∀ (cfg : Config) (_ : Handles.RangeOk cfg.hi) (n : Nat) (h : List Step) (m : MsaId),
    InUse cfg (run cfg (.init n) h) m → ∃ key, msaOf (run cfg (.init n) h) key = some m

/-- What makes an account be in use needs a key. -/
theorem inUse_step (cfg : Config) (s : State) (x : Step) (m : MsaId) (hr : Handles.RangeOk cfg.hi)
    (hi : Handles.Inv cfg.handles cfg.lo cfg.hi s.handles) (hu : InUse cfg (apply cfg s x) m) :
    InUse cfg s m ∨ (∃ k, msaOf s k = some m) ∨ ∃ k, msaOf (apply cfg s x) k = some m := by
  rcases hu with hu | hu | ⟨p, d, hd, ha⟩
  · by_cases hn : s.handles.byMsa.get m = none
    · refine .inr (.inl (handle_appears cfg s x m hn ?_))
      intro he
      rw [Handles.handleForMsa, he] at hu
      cases hu
    · refine .inl (.inl ?_)
      cases hg : Handles.handleForMsa cfg.handles s.handles m with
      | none => exact absurd ((handleForMsa_none hr hi).1 hg) hn
      | some v => rfl
  · rcases apply_msa cfg s x with e | ⟨o, c, _, e⟩
    · unfold IsProvider at hu
      rw [e] at hu
      exact .inl (.inr (.inl hu))
    · have he := Msa.apply_eff cfg.msa s.msa ⟨msaEnv cfg s, o.msa, c⟩
      unfold IsProvider Msa.isRegisteredProvider at hu
      rw [e] at hu
      simp only at he
      generalize Msa.apply cfg.msa s.msa ⟨msaEnv cfg s, o.msa, c⟩ = s' at he hu
      generalize o.msa = o' at he
      cases he with
      | provider hl hn hk =>
        obtain ⟨k, hk, _⟩ := hk
        rcases (contains_insert _ _ _ _).1 hu with e | hu
        · rw [e] at hk; exact .inr (.inl ⟨k, hk⟩)
        · exact .inl (.inr (.inl hu))
      | _ => exact .inl (.inr (.inl hu))
  · have hb := block_mono cfg s x
    have hsame : s.msa.delegations.get (m, p) = some d → InUse cfg s m := fun h =>
      .inr (.inr ⟨p, d, h, by omega⟩)
    rcases apply_msa cfg s x with e | ⟨o, c, _, e⟩
    · rw [e] at hd; exact .inl (hsame hd)
    · have he := Msa.apply_eff cfg.msa s.msa ⟨msaEnv cfg s, o.msa, c⟩
      unfold msaOf
      rw [e] at hd ⊢
      simp only at he
      generalize Msa.apply cfg.msa s.msa ⟨msaEnv cfg s, o.msa, c⟩ = s' at he hd
      generalize o.msa = o' at he
      generalize msaEnv cfg s = env at he
      cases he with
      | @sponsored who dk proof pl r0 d0 hv hr hw hpr hid' hk hc hn hdd hl hss =>
        simp only [SMap.get_insert] at hd
        split at hd
        · rename_i e
          simp only [Prod.mk.injEq] at e
          refine .inr (.inr ⟨dk, ?_⟩)
          rw [← e.1]
          simp [Msa.withKey]
        · exact .inl (hsame hd)
      | grant hv hr hw hdk hne hpr hdd =>
        simp only [SMap.get_insert] at hd
        split at hd
        · rename_i e
          simp only [Prod.mk.injEq] at e
          rw [e.1] at hdk
          exact .inr (.inl ⟨_, hdk⟩)
        · exact .inl (hsame hd)
      | revoke hc hdd h0 =>
        simp only [SMap.get_insert] at hd
        split at hd
        · rename_i e
          simp only [Prod.mk.injEq] at e
          rw [e.1, e.2] at hdd
          exact .inl (.inr (.inr ⟨p, _, hdd, .inl h0⟩))
        · exact .inl (hsame hd)
      | revokeSchemas hw hdd hm =>
        simp only [SMap.get_insert] at hd
        split at hd
        · rename_i e
          simp only [Prod.mk.injEq] at e
          rw [e.1] at hw
          exact .inr (.inl ⟨_, hw⟩)
        · exact .inl (hsame hd)
      | _ => exact .inl (hsame hd)

/-- C94. Missing: histories with deletions of keys or retirements by wrapped calls, for which it is false. -/
theorem C94_in_use_has_key_partial (cfg : Config) (hr : Handles.RangeOk cfg.hi) (n : Nat) (h : List Step)
    (hd : ∀ x ∈ h, NoWrappedDelete x ∧ NoWrappedRetire x) (m : MsaId) (hu : InUse cfg (run cfg (.init n) h) m) :
    ∃ key, msaOf (run cfg (.init n) h) key = some m := by
  induction h using List.reverseRecOn with
  | nil =>
    rcases hu with hu | hu | ⟨p, d, hd, _⟩
    · cases hu
    · cases hu
    · cases hd
  | append_singleton h x ih =>
    have ih := ih (fun y hy => hd y (by simp [hy]))
    have hx := hd x (by simp)
    have hi := handles_inv cfg hr n h
    rw [run_snoc] at hu ⊢
    generalize run cfg (.init n) h = s at *
    rcases inUse_step cfg s x m hr hi hu with h1 | h1 | h1
    rotate_right
    · exact h1
    all_goals
      have hk : ∃ k, msaOf s k = some m := by first | exact h1 | exact ih h1
      obtain ⟨k, hk⟩ := hk
      unfold msaOf at hk
      rcases apply_msa_tx cfg s x with e | ⟨o, c, e, hc⟩
      · exact ⟨k, by unfold msaOf; rw [e]; exact hk⟩
      · have he := Msa.apply_eff cfg.msa s.msa ⟨msaEnv cfg s, o.msa, c⟩
        simp only at he
        by_cases hsame : Msa.resolves (apply cfg s x).msa k m
        · exact ⟨k, hsame⟩
        · unfold Msa.resolves at hsame
          have hkey : ∀ k0 m', s.msa.keyToMsa.get k0 = none →
              (Msa.withKey s.msa m' k0).keyToMsa.get k = some m := by
            intro k0 m' hn
            rw [Msa.withKey_get]
            split
            · rename_i e; rw [e, hk] at hn; cases hn
            · exact hk
          unfold msaOf
          rw [e] at hsame ⊢
          generalize hs' : Msa.apply cfg.msa s.msa ⟨msaEnv cfg s, o.msa, c⟩ = s' at he hsame e
          generalize ho : o.msa = o' at he
          cases he with
          | create hid hn _ => exact absurd (hkey _ _ hn) hsame
          | sponsored _ _ _ _ _ hn _ _ _ _ _ => exact absurd (hkey _ _ hn) hsame
          | addKey _ _ _ _ _ hn _ => exact absurd (hkey _ _ hn) hsame
          | @delete who _ m0 k0 m' hw hk0 hcc =>
            have := msaOrigin_signed ho
            subst this
            have hke : k0 = k := by
              apply Classical.byContradiction
              intro hne
              refine hsame ?_
              rw [show (_ : Msa.State).keyToMsa.get k = _ from Msa.withoutKey_get _ _ _ _, if_neg hne]
              exact hk
            subst hke
            rcases hcc with hcc | ⟨hcc, hkw⟩
            · subst hcc
              rcases hc with ⟨bal, rfl⟩ | ⟨bal, who', rfl, ho', hv⟩
              · exact absurd rfl (hx.1 _ _ _)
              · cases ho'
                obtain ⟨hne, m2, h3, h4⟩ := Msa.validateKeyDelete_ok hv
                rw [hk] at h4
                cases h4
                refine ⟨who, ?_⟩
                rw [show (_ : Msa.State).keyToMsa.get who = _ from Msa.withoutKey_get _ _ _ _, if_neg (Ne.symm hne)]
                exact h3
            · subst hcc
              subst hkw
              rcases hc with ⟨bal, rfl⟩ | ⟨bal, who', hxe, ho', hv⟩
              · exact absurd rfl (hx.2 _ _)
              · cases ho'
                have hv : Msa.ensureMsaCanRetire (msaEnv cfg s) s.msa k0 = .ok () := hv
                obtain ⟨m2, g1, g2, g3, _, g5⟩ := Msa.ensureMsaCanRetire_ok hv
                rw [hk] at g1
                cases g1
                exfalso
                have hblk : (apply cfg s x).block = s.block := by
                  rcases apply_block cfg s x with ⟨_, e2⟩ | ⟨e2, _⟩
                  · exact e2
                  · rw [hxe] at e2; cases e2
                rcases hu with hu | hu | ⟨p, d, hd', ha⟩
                · have : (apply cfg s x).handles = s.handles := by
                    rcases apply_handles cfg s x with e2 | ⟨_, _, e2, _⟩
                    · exact e2
                    · rw [hxe] at e2; cases e2
                  rw [this] at hu
                  have g3 : (Handles.handleForMsa cfg.handles s.handles m).isSome = false := g3
                  rw [hu] at g3; cases g3
                · unfold IsProvider Msa.isRegisteredProvider at hu
                  rw [e] at hu
                  have hu : s.msa.providers.contains m = true := hu
                  rw [g2] at hu; cases hu
                · rw [e] at hd'
                  have hd' : s.msa.delegations.get (m, p) = some d := hd'
                  rw [hblk] at ha
                  exact g5 p d hd' ha
          | _ => exact absurd hk hsame

/-- C94 is false of the code: account 2 has a handle and a delegation; a wrapped retirement takes its only key. -/
theorem C94_full_false : ¬ C94_full := by
  intro hf
  obtain ⟨key, hk⟩ := hf exCfg (by unfold Handles.RangeOk; decide) 1024
    (exHist ++ [.call exBal (.signed 20) (.msa .retireMsa)]) 2 (.inl (by decide +kernel))
  have hne : ∀ e ∈ (run exCfg (.init 1024) (exHist ++ [.call exBal (.signed 20) (.msa .retireMsa)])).msa.keyToMsa.entries,
      e.2 ≠ 2 := by decide +kernel
  exact hne (key, 2) ((SMap.mem_entries_iff _ _ _).2 hk) rfl

/-- Hypotheses met: in the example account 2 is in use and keeps its key, as does provider 1. -/
example : (∀ x ∈ exHist, NoWrappedDelete x ∧ NoWrappedRetire x) ∧ InUse exCfg exState 2 ∧ InUse exCfg exState 1 := by
  refine ⟨?_, .inl (by decide +kernel), .inr (.inl (by unfold IsProvider; decide +kernel))⟩
  intro x hx
  simp only [exHist, List.mem_cons, List.not_mem_nil, or_false] at hx
  constructor
  · intro bal who key e
    subst e
    simp at hx
  · intro bal who e
    subst e
    simp at hx

/-! ## C95 -/

/-- C95: the capacity of an account changes only by a payment of a transaction signed with one of its keys, by
somebody who stakes to it, and by somebody with a stake to it who unstakes. -/
theorem C95_capacity_spent_by_own_keys (cfg : Config) (s : State) (x : Step) (m : MsaId)
    (hch : (apply cfg s x).capacity.capacity.get m ≠ s.capacity.capacity.get m) :
    (∃ key fee, x = .charge key fee ∧ msaOf s key = some m) ∨
    (∃ key a, x.sends = some (.signed key, .capacity (.stake m a)) ∧ IsProvider s m) ∨
    (∃ key a, x.sends = some (.signed key, .capacity (.unstake m a)) ∧
      (s.capacity.target.get (key, m)).isSome = true) := by
  rcases apply_cases cfg s x with e | ⟨_, e⟩ | ⟨bal, o, c, hx, e⟩ | ⟨key, fee, m', t, hx, hm, h, e⟩ | ⟨_, _, e⟩
  · rw [e] at hch; exact absurd rfl hch
  · rw [e] at hch
    exfalso
    apply hch
    unfold newBlock Capacity.startNewEpochIfNeeded
    simp only
    split <;> rfl
  · generalize apply cfg s x = s' at e hch
    cases e with
    | @capacity c op t ho h =>
      have he := Capacity.apply_eff cfg.capacity s.capacity ⟨capacityEnv bal s, op⟩
      have hv : ∀ m, (capacityEnv bal s).validTarget m = true → IsProvider s m := fun m hm => hm
      generalize capacityEnv bal s = env at he h hv
      have ha : Capacity.apply cfg.capacity s.capacity ⟨env, op⟩ = t := by simp [Capacity.apply, h]
      rw [ha] at he
      cases o with
      | signed key =>
        cases c with
        | stake t' a =>
          cases ho
          cases he with
          | fail => exact absurd rfl hch
          | stake hk =>
            simp only [hk.capacity, SMap.get_insert] at hch
            split at hch
            · rename_i e; subst e
              exact .inr (.inl ⟨key, a, hx, hv _ hk.valid⟩)
            · exact absurd rfl hch
        | unstake t' a =>
          cases ho
          cases he with
          | fail => exact absurd rfl hch
          | unstake hk =>
            simp only [hk.capacity, SMap.get_insert] at hch
            split at hch
            · rename_i e; subst e
              obtain ⟨d, hd⟩ := hk.related
              exact .inr (.inr ⟨key, a, hx, by rw [hd]; rfl⟩)
            · exact absurd rfl hch
        | withdrawUnstaked =>
          cases ho
          cases he with
          | fail => exact absurd rfl hch
          | withdraw hk => simp only [hk.capacity] at hch; exact absurd rfl hch
        | setEpochLength n => cases ho
      | root =>
        cases c <;> cases ho
        cases he with
        | fail => exact absurd rfl hch
        | epochLength => exact absurd rfl hch
      | council => cases c <;> cases ho
      | member => cases c <;> cases ho
    | _ => exact absurd rfl hch
  · by_cases hmm : m' = m
    · subst hmm; exact .inl ⟨key, fee, hx, hm⟩
    · exfalso
      apply hch
      rw [e]
      simp only [Capacity.withdrawFee, bind_eq_ok_iff] at h
      obtain ⟨s1, h1, h2⟩ := h
      simp only [Capacity.deduct, bind_eq_ok_iff, okOr_eq_ok_iff, pure_eq_ok_iff] at h2
      obtain ⟨d, _, d', _, rfl⟩ := h2
      simp only [Capacity.setCapacity, SMap.get_insert, if_neg hmm]
      unfold Capacity.replenishIfNeeded at h1
      split at h1
      · simp only [Capacity.replenishAllFor, bind_eq_ok_iff, okOr_eq_ok_iff, pure_eq_ok_iff] at h1
        obtain ⟨d, _, rfl⟩ := h1
        simp only [Capacity.setCapacity, SMap.get_insert, if_neg hmm]
      · cases h1; rfl
  · rw [e] at hch; exact absurd rfl hch

/-- C95: what an account has staked, unlocking and frozen, and to whom, changes only by its own calls. -/
theorem C95_stake_changed_by_owner (cfg : Config) (s : State) (x : Step) (w : AccountId)
    (hch : Capacity.actOf (apply cfg s x).capacity w ≠ Capacity.actOf s.capacity w ∨
      Capacity.chunksOf (apply cfg s x).capacity w ≠ Capacity.chunksOf s.capacity w ∨
      Capacity.frozenOf (apply cfg s x).capacity w ≠ Capacity.frozenOf s.capacity w ∨
      ∃ t, Capacity.tgtOf (apply cfg s x).capacity w t ≠ Capacity.tgtOf s.capacity w t) :
    ∃ c, x.sends = some (.signed w, .capacity c) := by
  apply Classical.byContradiction
  intro hno
  have hno : ∀ c, x.sends ≠ some (.signed w, .capacity c) := fun c hc => hno ⟨c, hc⟩
  suffices Capacity.actOf (apply cfg s x).capacity w = Capacity.actOf s.capacity w ∧
      Capacity.chunksOf (apply cfg s x).capacity w = Capacity.chunksOf s.capacity w ∧
      Capacity.frozenOf (apply cfg s x).capacity w = Capacity.frozenOf s.capacity w ∧
      ∀ t, Capacity.tgtOf (apply cfg s x).capacity w t = Capacity.tgtOf s.capacity w t by
    rcases hch with h | h | h | ⟨t, h⟩
    · exact h this.1
    · exact h this.2.1
    · exact h this.2.2.1
    · exact h (this.2.2.2 t)
  have hcap : ∀ t : Capacity.State, Capacity.CapOnly s.capacity t →
      Capacity.actOf t w = Capacity.actOf s.capacity w ∧ Capacity.chunksOf t w = Capacity.chunksOf s.capacity w ∧
      Capacity.frozenOf t w = Capacity.frozenOf s.capacity w ∧
      ∀ u, Capacity.tgtOf t w u = Capacity.tgtOf s.capacity w u := by
    intro t h
    simp [Capacity.actOf, Capacity.chunksOf, Capacity.frozenOf, Capacity.tgtOf, h.active, h.unlocks, h.frozen, h.target]
  rcases apply_capacity cfg s x with e | ⟨bal, o, c, op, hx, ho, e⟩ | ⟨key, fee, m', hx, hm, e⟩ | ⟨_, e⟩
  · rw [e]; exact ⟨rfl, rfl, rfl, fun _ => rfl⟩
  · rw [e]
    have he := Capacity.apply_eff cfg.capacity s.capacity ⟨capacityEnv bal s, op⟩
    generalize capacityEnv bal s = env at he
    generalize Capacity.apply cfg.capacity s.capacity ⟨env, op⟩ = t at he
    cases o with
    | signed key =>
      have hkw : key ≠ w := by
        intro e; subst e; exact hno c hx
      cases c with
      | stake t' a =>
        cases ho
        cases he with
        | fail => exact ⟨rfl, rfl, rfl, fun _ => rfl⟩
        | stake hk =>
          refine ⟨by rw [hk.active, if_neg hkw], by simp [Capacity.chunksOf, hk.unlocks],
            by rw [hk.frozen, if_neg hkw], fun u => ?_⟩
          simp [Capacity.tgtOf, hk.target, SMap.get_insert, hkw]
      | unstake t' a =>
        cases ho
        cases he with
        | fail => exact ⟨rfl, rfl, rfl, fun _ => rfl⟩
        | unstake hk =>
          refine ⟨by rw [hk.active, if_neg hkw], by simp [Capacity.chunksOf, hk.unlocks, SMap.get_insert, hkw],
            by simp [Capacity.frozenOf, hk.frozen], fun u => ?_⟩
          have hg : t.target.get (w, u) = s.capacity.target.get (w, u) := by
            rw [hk.target]
            split <;> simp [SMap.get_insert, SMap.get_erase, hkw]
          simp [Capacity.tgtOf, hg]
      | withdrawUnstaked =>
        cases ho
        cases he with
        | fail => exact ⟨rfl, rfl, rfl, fun _ => rfl⟩
        | withdraw hk =>
          exact ⟨by simp [Capacity.actOf, hk.active], by rw [hk.chunks, if_neg hkw],
            by rw [hk.frozen, if_neg hkw], fun u => by simp [Capacity.tgtOf, hk.target]⟩
      | setEpochLength n => cases ho
    | root =>
      cases c <;> cases ho
      cases he <;> exact ⟨rfl, rfl, rfl, fun _ => rfl⟩
    | council => cases c <;> cases ho
    | member => cases c <;> cases ho
  · rw [e]
    have he := Capacity.apply_eff cfg.capacity s.capacity ⟨⟨fun _ => 0, fun _ => false⟩, .charge m' fee⟩
    generalize Capacity.apply cfg.capacity s.capacity ⟨⟨fun _ => 0, fun _ => false⟩, .charge m' fee⟩ = t at he
    cases he with
    | fail => exact ⟨rfl, rfl, rfl, fun _ => rfl⟩
    | charge h => exact hcap t h
  · rw [e]
    have he := Capacity.apply_eff cfg.capacity s.capacity ⟨⟨fun _ => 0, fun _ => false⟩, .onInitialize (s.block + 1)⟩
    generalize Capacity.apply cfg.capacity s.capacity ⟨⟨fun _ => 0, fun _ => false⟩, .onInitialize (s.block + 1)⟩ = t at he
    cases he <;> exact ⟨rfl, rfl, rfl, fun _ => rfl⟩

/-- Hypotheses met: in the example key 10 pays with the capacity of provider 1, and key 30 stakes; key 20, of
account 2, cannot pay with it. -/
example :
    let s := run exCfg (.init 1024) (exHist.take 13)
    (apply exCfg s (.charge 10 1)).capacity.capacity.get 1 ≠ s.capacity.capacity.get 1 ∧
    (charge s 20 1).isNone = true ∧
    Capacity.actOf s.capacity 30 ≠ Capacity.actOf (run exCfg (.init 1024) (exHist.take 12)).capacity 30 := by
  decide +kernel

end Verif.Chain
