import Verif.Chain.PropsRetire
/-!
# C113: free transactions are paid for in advance
-/

namespace Verif.Chain

/-! ## Specification -/

/-- The calls whose transactions cost nothing: `Pays::No` in pallets/msa/src/lib.rs 597, 711, 749, 831 and
pallets/handles/src/lib.rs 418. -/
def Call.free : Call → Bool
  | .msa (.revokeDelegationByDelegator _) | .msa (.revokeDelegationByProvider _) | .msa (.deleteMsaPublicKey _)
  | .msa .retireMsa | .handles .retire => true
  | _ => false

/-- How many free transactions a call makes possible: a key can be removed, a delegation revoked, a handle given up. -/
def Call.prepares : Call → Nat
  | .msa .create | .msa (.grantDelegation ..) | .msa (.addPublicKeyToMsa ..) | .handles (.claim ..) => 1
  | .msa (.createSponsoredAccountWithDelegation ..) => 2
  | _ => 0

/-- A free transaction, and the chain takes it into a block. -/
def takenFree (cfg : Config) (s : State) : Step → Bool
  | .submit _ who c => c.free && extensions cfg s who c
  | _ => false

/-- The call of the step is dispatched and succeeds. -/
def succeeds (cfg : Config) (s : State) : Step → Bool
  | .call bal o c => (dispatch cfg bal s o c).isSome
  | .submit bal who c => extensions cfg s who c && (dispatch cfg bal s (.signed who) c).isSome
  | _ => false

/-- Number of steps of a history of which `f` is true. -/
def number (cfg : Config) (f : State → Step → Bool) : State → List Step → Nat
  | _, [] => 0
  | s, x :: rest => (if f s x then 1 else 0) + number cfg f (apply cfg s x) rest

/-- Free transactions that the successful calls of a history made possible. -/
def prepared (cfg : Config) : State → List Step → Nat
  | _, [] => 0
  | s, x :: rest =>
    (if succeeds cfg s x then (x.sends.map (fun p => p.2.prepares)).getD 0 else 0) + prepared cfg (apply cfg s x) rest

/-- C113 in full: of the free transactions taken into blocks there are no more than paid calls made possible. Nothing
happens before the first block. -/
def C113_full : Prop :=
  ∀ (cfg : Config) (n : Nat) (h : List Step),
    number cfg (takenFree cfg) (apply cfg (.init n) .newBlock) h ≤ prepared cfg (apply cfg (.init n) .newBlock) h

/-! ## The account of what can be removed -/

/-- Keys and delegations that are not revoked. -/
def msaStock (s : Msa.State) : Nat :=
  s.keyToMsa.sumV (fun _ _ => 1) + s.delegations.sumV (fun _ d => if d.revokedAt = 0 then 1 else 0)

/-- Keys, delegations that are not revoked, and handles. -/
def stock (s : State) : Nat := msaStock s.msa + s.handles.byMsa.sumV (fun _ _ => 1)

theorem contrib_one {κ ν : Type} (k : κ) (o : Option ν) :
    SMap.contrib (fun (_ : κ) (_ : ν) => 1) k o = if o.isSome then 1 else 0 := by
  cases o <;> rfl

theorem contrib_le {κ ν : Type} (k : κ) (p : ν → Prop) [DecidablePred p] (o : Option ν) :
    SMap.contrib (fun (_ : κ) v => if p v then 1 else 0) k o ≤ 1 := by
  cases o
  · exact Nat.zero_le _
  · simp only [SMap.contrib]; split <;> omega

/-- A successful call of the msa pallet adds at most what it prepares. -/
theorem msa_stock {cfg : Msa.Config} {env : Msa.Env} {s t : Msa.State} {o c}
    (h : Msa.dispatch cfg env s o c = .ok t) : msaStock t ≤ msaStock s + (Call.msa c).prepares := by
  have he := Msa.eff_of_dispatch h
  clear h
  cases he with
  | noop => exact Nat.le_add_right _ _
  | @create who _ hk _ =>
    have h1 := SMap.sumV_insert s.keyToMsa who (s.maxMsaId + 1) (fun _ _ => 1)
    rw [hk] at h1
    simp only [msaStock, Msa.withKey, Call.prepares, SMap.contrib] at *
    omega
  | @sponsored who dk _ p _ d _ _ _ _ _ hk _ hn _ _ _ =>
    have h1 := SMap.sumV_insert s.keyToMsa dk (s.maxMsaId + 1) (fun _ _ => 1)
    have h2 := SMap.sumV_insert s.delegations (s.maxMsaId + 1, p.authorizedMsaId) d
      (fun _ d => if d.revokedAt = 0 then 1 else 0)
    rw [hk] at h1
    rw [hn] at h2
    simp only [msaStock, Msa.withKey, Call.prepares, SMap.contrib] at *
    split at h2 <;> omega
  | provider _ _ _ => exact Nat.le_add_right _ _
  | @grant who dk _ p _ delegator d _ _ _ _ _ _ _ =>
    have h2 := SMap.sumV_insert s.delegations (delegator, p.authorizedMsaId) d
      (fun _ d => if d.revokedAt = 0 then 1 else 0)
    simp only [msaStock, Call.prepares] at *
    split at h2 <;> omega
  | @revoke who c delegator provider d _ hd h0 =>
    have h2 := SMap.sumV_insert s.delegations (delegator, provider) { d with revokedAt := env.block }
      (fun _ d => if d.revokedAt = 0 then 1 else 0)
    rw [hd] at h2
    simp only [msaStock, SMap.contrib, h0, if_true] at *
    split at h2 <;> omega
  | @addKey who _ _ _ p _ _ _ _ _ _ _ hk _ =>
    have h1 := SMap.sumV_insert s.keyToMsa p.newPublicKey p.msaId (fun _ _ => 1)
    rw [hk] at h1
    simp only [msaStock, Msa.withKey, Call.prepares, SMap.contrib] at *
    omega
  | @delete who c m k m' _ hk _ =>
    have h1 := SMap.sumV_erase s.keyToMsa k (fun _ _ => 1)
    simp only [msaStock, Msa.withoutKey] at *
    omega
  | @revokeSchemas who provider ids delegator d d' _ hd hm =>
    have hr := (Msa.tryGetMutSchemas_ok hm).1
    have h2 := SMap.sumV_insert s.delegations (delegator, provider) d' (fun _ d => if d.revokedAt = 0 then 1 else 0)
    rw [hd] at h2
    simp only [msaStock, SMap.contrib, hr] at *
    omega

/-- A free call that was validated uses up one. -/
theorem msa_free {cfg : Msa.Config} {env : Msa.Env} {s t : Msa.State} {who c} (hb : 0 < env.block)
    (hf : (Call.msa c).free = true) (hv : Msa.validate env s who c = .ok ())
    (h : Msa.dispatch cfg env s (.signed who) c = .ok t) : msaStock t + 1 ≤ msaStock s := by
  have hrev : ∀ {p d t}, Msa.revokeProvider env s p d = .ok t → msaStock t + 1 ≤ msaStock s := by
    intro p d t h
    simp only [Msa.revokeProvider, bind_eq_ok_iff, okOr_eq_ok_iff, ensure_eq_ok_iff, pure_eq_ok_iff] at h
    obtain ⟨x, hx, _, h0, rfl⟩ := h
    have h2 := SMap.sumV_insert s.delegations (d, p) { x with revokedAt := env.block }
      (fun _ d => if d.revokedAt = 0 then 1 else 0)
    rw [hx] at h2
    simp only [msaStock, SMap.contrib, h0, if_true] at *
    rw [if_neg (by omega)] at h2
    omega
  have hdel : ∀ {m k t}, Msa.deleteKeyForMsa s m k = .ok t → msaStock t + 1 ≤ msaStock s := by
    intro m k t h
    obtain ⟨⟨m', hk⟩, rfl⟩ := Msa.deleteKeyForMsa_ok h
    have h1 := SMap.sumV_erase s.keyToMsa k (fun _ _ => 1)
    rw [hk] at h1
    simp only [msaStock, Msa.withoutKey, SMap.contrib] at *
    omega
  cases c <;> simp only [Call.free, Bool.false_eq_true] at hf
  case revokeDelegationByDelegator p =>
    simp only [Msa.validate, Msa.validateDelegationByDelegator, bind_eq_ok_iff] at hv
    obtain ⟨m, hm, _⟩ := hv
    have hm := Msa.ensureValidMsaKey_ok (Msa.mapErr_ok hm)
    simp only [Msa.dispatch, Msa.ensureSigned, Msa.revokeDelegationByDelegator, bind_eq_ok_iff] at h
    obtain ⟨_, hw, h⟩ := h
    cases hw
    rw [hm] at h
    exact hrev h
  case revokeDelegationByProvider d =>
    simp only [Msa.validate, Msa.validateDelegationByProvider, bind_eq_ok_iff] at hv
    obtain ⟨m, hm, _⟩ := hv
    have hm := Msa.ensureValidMsaKey_ok (Msa.mapErr_ok hm)
    simp only [Msa.dispatch, Msa.ensureSigned, Msa.revokeDelegationByProvider, bind_eq_ok_iff] at h
    obtain ⟨_, hw, h⟩ := h
    cases hw
    rw [hm] at h
    exact hrev h
  case deleteMsaPublicKey k =>
    obtain ⟨_, m, h1, _⟩ := Msa.validateKeyDelete_ok hv
    simp only [Msa.dispatch, Msa.ensureSigned, bind_eq_ok_iff] at h
    obtain ⟨_, hw, h⟩ := h
    cases hw
    simp only [Msa.deleteMsaPublicKey, h1, bind_eq_ok_iff, pure_eq_ok_iff] at h
    obtain ⟨s1, h, rfl⟩ := h
    have := hdel h
    exact this
  case retireMsa =>
    obtain ⟨m, h1, _⟩ := Msa.ensureMsaCanRetire_ok hv
    simp only [Msa.dispatch, Msa.ensureSigned, bind_eq_ok_iff] at h
    obtain ⟨_, hw, h⟩ := h
    cases hw
    simp only [Msa.retireMsa, h1, bind_eq_ok_iff, pure_eq_ok_iff] at h
    obtain ⟨s1, h, rfl⟩ := h
    have := hdel h
    exact this

theorem claimed_stock {cfg env s m p s' d base i x} (h : Handles.Claimed cfg env s m p s' d base i x) :
    s'.byMsa.sumV (fun _ _ => 1) = s.byMsa.sumV (fun _ _ => 1) + 1 := by
  have h2 := SMap.sumV_insert s.byMsa m (d, p.expiration) (fun _ _ => 1)
  rw [h.noHandle] at h2
  rw [h.state]
  simpa only [SMap.contrib, Nat.add_zero] using h2

theorem retired_stock {cfg s m s' d base x e} (h : Handles.Retired cfg s m s' d base x e) :
    s'.byMsa.sumV (fun _ _ => 1) + 1 = s.byMsa.sumV (fun _ _ => 1) := by
  have h2 := SMap.sumV_erase s.byMsa m (fun _ _ => 1)
  rw [h.stored] at h2
  rw [h.state]
  simpa only [SMap.contrib] using h2

theorem handles_stock {cfg : Handles.Config} {env : Handles.Env} {s t : Handles.State} {key : AccountId} {c : HandleCall}
    (h : Handles.dispatch cfg s ⟨env, c.op key⟩ = .ok t) :
    t.byMsa.sumV (fun _ _ => 1) + (if (Call.handles c).free then 1 else 0) ≤
      s.byMsa.sumV (fun _ _ => 1) + (Call.handles c).prepares := by
  have he := Handles.apply_eff cfg s ⟨env, c.op key⟩
  have ht : Handles.apply cfg s ⟨env, c.op key⟩ = t := by unfold Handles.apply; rw [h]
  rw [ht] at he
  clear ht
  generalize hx : (⟨env, c.op key⟩ : Handles.Step) = x at he h
  cases he with
  | fail _ e he => rw [h] at he; cases he
  | claim _ _ _ _ h1 =>
    have := claimed_stock h1
    cases c <;> cases hx
    simp only [Call.free, Call.prepares, Bool.false_eq_true, if_false]
    omega
  | change _ _ _ _ h1 h2 =>
    have := retired_stock h1
    have := claimed_stock h2
    cases c <;> cases hx
    simp only [Call.free, Call.prepares, Bool.false_eq_true, if_false] at *
    omega
  | retire _ _ _ => cases c <;> cases hx
  | retireWrapped _ h1 =>
    have := retired_stock h1
    cases c <;> cases hx
    simp only [Call.free, Call.prepares, if_true] at *
    omega

/-- A free transaction that the chain takes and whose call succeeds. -/
def doneFree (cfg : Config) (s : State) (x : Step) : Bool := takenFree cfg s x && succeeds cfg s x

theorem call_stock {cfg : Config} {bal s o c t} (h : dispatch cfg bal s o c = some t) :
    stock t ≤ stock s + c.prepares := by
  have hc := dispatch_called h
  clear h
  cases hc with
  | msa h => have := msa_stock h; simp only [stock]; omega
  | handles _ h =>
    have := handles_stock h
    simp only [stock]
    omega
  | _ => exact Nat.le_add_right _ _

theorem free_stock {cfg : Config} {bal s who c t} (hb : 0 < s.block) (hf : c.free = true)
    (he : extensions cfg s who c = true) (h : dispatch cfg bal s (.signed who) c = some t) :
    stock t + 1 ≤ stock s := by
  have hc := dispatch_called h
  clear h
  cases hc with
  | msa h => have := msa_free hb hf (isOk_iff.1 he) h; simp only [stock]; omega
  | @handles c key t _ h =>
    have := handles_stock h
    rw [hf] at this
    have h0 : (Call.handles c).prepares = 0 := by cases c <;> simp_all [Call.free, Call.prepares]
    simp only [stock, if_true] at *
    omega
  | _ => cases hf

/-- In a step, what a free transaction uses up is gone and not more is added than the call prepares. -/
theorem step_stock (cfg : Config) (s : State) (x : Step) (hb : 0 < s.block) :
    stock (apply cfg s x) + (if doneFree cfg s x then 1 else 0) ≤
      stock s + (if succeeds cfg s x then (x.sends.map (fun p => p.2.prepares)).getD 0 else 0) := by
  cases x with
  | newBlock => exact Nat.le_refl _
  | charge key fee =>
    simp only [apply, doneFree, takenFree, succeeds, Bool.false_and, Bool.false_eq_true, if_false, Nat.add_zero]
    cases h : charge s key fee with
    | none => exact Nat.le_refl _
    | some t =>
      simp only [charge, Option.bind_eq_bind, Option.bind_eq_some_iff] at h
      obtain ⟨m, _, t, _, h2⟩ := h
      cases h2
      exact Nat.le_refl _
  | upgrade known => exact Nat.le_refl _
  | call bal o c =>
    simp only [apply, doneFree, takenFree, succeeds, Bool.false_and, Bool.false_eq_true, if_false, Nat.add_zero,
      Step.sends, Option.map_some, Option.getD_some]
    rcases Option.eq_none_or_eq_some (dispatch cfg bal s o c) with h | ⟨t, h⟩
    · simp [h]
    · simpa [h] using call_stock h
  | submit bal who c =>
    simp only [apply, doneFree, takenFree, succeeds, Step.sends, Option.map_some, Option.getD_some]
    by_cases he : extensions cfg s who c = true
    · rcases Option.eq_none_or_eq_some (dispatch cfg bal s (.signed who) c) with h | ⟨t, h⟩
      · simp [he, h]
      · by_cases hf : c.free = true
        · have := free_stock hb hf he h
          simp only [he, hf, h, Option.getD_some, Option.isSome_some, Bool.and_self, if_true]
          omega
        · simpa [he, hf, h] using call_stock h
    · simp [he]

theorem number_le {cfg : Config} {f : State → Step → Bool} (P : State → Prop) (Q : Step → Prop)
    (hP : ∀ s x, Q x → P s → P (apply cfg s x))
    (hle : ∀ s x, Q x → P s → stock (apply cfg s x) + (if f s x then 1 else 0) ≤
      stock s + (if succeeds cfg s x then (x.sends.map (fun p => p.2.prepares)).getD 0 else 0))
    (h : List Step) : ∀ s, P s → (∀ x ∈ h, Q x) →
      stock (run cfg s h) + number cfg f s h ≤ stock s + prepared cfg s h := by
  induction h with
  | nil => intro s _ _; exact Nat.le_refl _
  | cons x rest ih =>
    intro s hs hq
    have hx := hq x (by simp)
    have h1 := ih _ (hP s x hx hs) (fun y hy => hq y (by simp [hy]))
    have h2 := hle s x hx hs
    simp only [number, prepared]
    have : run cfg s (x :: rest) = run cfg (apply cfg s x) rest := rfl
    rw [this]
    omega

theorem stock_init (cfg : Config) (n : Nat) : stock (apply cfg (.init n) .newBlock) = 0 := rfl

/-- A revocation, of a delegation that is revoked already. -/
def Call.revokesAgain (s : State) (who : AccountId) (c : Call) : Prop :=
  ∃ m p info, msaOf s who = some m ∧ info.revokedAt ≠ 0 ∧
    (c = .msa (.revokeDelegationByDelegator p) ∧ s.msa.delegations.get (m, p) = some info ∨
     c = .msa (.revokeDelegationByProvider p) ∧ s.msa.delegations.get (p, m) = some info)

theorem free_succeeds {cfg : Config} {s : State} (hb : 0 < s.block) (hr : Handles.RangeOk cfg.hi) 
    (hc : Msa.CountInv cfg.msa s.msa) (hh : Handles.Inv cfg.handles cfg.lo cfg.hi s.handles) (bal : AccountId → Balance) (who : AccountId) (c : Call)
    (hf : c.free = true) (he : extensions cfg s who c = true) (hn : ¬ c.revokesAgain s who) :
    (dispatch cfg bal s (.signed who) c).isSome = true := by
  cases c with
  | msa c =>
    have hv := isOk_iff.1 he
    have key : ∃ t, Msa.dispatch cfg.msa (msaEnv cfg s) s.msa (.signed who) c = .ok t := by
      cases c <;> simp only [Call.free, Bool.false_eq_true] at hf
      case revokeDelegationByDelegator p =>
        have hv' := hv
        simp only [Msa.validate, Msa.validateDelegationByDelegator, bind_eq_ok_iff] at hv
        obtain ⟨m, hm, _⟩ := hv
        have hm := Msa.ensureValidMsaKey_ok (Msa.mapErr_ok hm)
        refine Msa.C15_revocation_succeeds_partial _ _ _ _ _ m p ⟨who, rfl, .inl ⟨rfl, hm⟩⟩ hv' ?_
        intro info hi
        have : info.revokedAt = 0 := by
          by_contra h0
          exact hn ⟨m, p, info, hm, h0, .inl ⟨rfl, hi⟩⟩
        rw [this]; exact hb
      case revokeDelegationByProvider d =>
        have hv' := hv
        simp only [Msa.validate, Msa.validateDelegationByProvider, bind_eq_ok_iff] at hv
        obtain ⟨m, hm, _⟩ := hv
        have hm := Msa.ensureValidMsaKey_ok (Msa.mapErr_ok hm)
        refine Msa.C15_revocation_succeeds_partial _ _ _ _ _ d m ⟨who, rfl, .inr ⟨rfl, hm⟩⟩ hv' ?_
        intro info hi
        have : info.revokedAt = 0 := by
          by_contra h0
          exact hn ⟨m, d, info, hm, h0, .inr ⟨rfl, hi⟩⟩
        rw [this]; exact hb
      case deleteMsaPublicKey k =>
        obtain ⟨_, m, h1, h2⟩ := Msa.validateKeyDelete_ok hv
        obtain ⟨s1, hs1⟩ := Msa.deleteKeyForMsa_total (s := s.msa) (m := m) (k := k) ⟨m, h2⟩
          (by rw [(hc m).1]; unfold Msa.toCount; split <;> simp_all)
        exact ⟨_, by simp only [Msa.dispatch, Msa.ensureSigned, Msa.deleteMsaPublicKey, h1, hs1, bind, Except.bind]; rfl⟩
      case retireMsa =>
        obtain ⟨m, h1, _⟩ := Msa.ensureMsaCanRetire_ok hv
        obtain ⟨s1, hs1⟩ := Msa.deleteKeyForMsa_total (s := s.msa) (m := m) (k := who) ⟨m, h1⟩
          (by rw [(hc m).1]; unfold Msa.toCount; split <;> simp_all)
        exact ⟨_, by simp only [Msa.dispatch, Msa.ensureSigned, Msa.retireMsa, h1, hs1, bind, Except.bind]; rfl⟩
    obtain ⟨t, ht⟩ := key
    have ht' : Msa.dispatch cfg.msa (msaEnv cfg s) s.msa (Origin.signed who).msa c = .ok t := ht
    simp [dispatch, ht', Except.toOption]
  | handles c =>
    cases c <;> simp only [Call.free, Bool.false_eq_true] at hf
    have hv := isOk_iff.1 he
    simp only [Handles.validateRetire, bind_eq_ok_iff, okOr_eq_ok_iff] at hv
    obtain ⟨m, hm, ⟨d, e⟩, hd, _⟩ := hv
    obtain ⟨base, x, hb', rfl, _, hx, _⟩ := hh.stored m d e hd
    have hp := Handles.splitDisplayName_displayStr (n := x) hb'.noDot (by unfold Handles.RangeOk at hr; omega)
    have hdec : utf8Decode (Handles.displayOf base x) = some (Handles.displayStr base x) := utf8Decode_encode _
    simp [dispatch, Origin.signer, HandleCall.op, Handles.dispatch, Handles.retire, Handles.doRetire, hm, hd, hdec, hp,
      okOr, bind, Except.bind, pure, Except.pure, Except.toOption]
  | _ => cases hf

/-- C113 (missing: transactions taken into a block whose call fails, see `C113_full_false`): the free transactions
whose call does what it says are never more than the successful calls before them made possible. Whatever is
wrapped in whatever, for all accounts together. -/
theorem C113_done_partial (cfg : Config) (n : Nat) (h : List Step) :
    number cfg (fun s x => takenFree cfg s x && succeeds cfg s x) (apply cfg (.init n) .newBlock) h ≤
      prepared cfg (apply cfg (.init n) .newBlock) h := by
  have := number_le (cfg := cfg) (f := doneFree cfg) (fun s => 0 < s.block) (fun _ => True)
    (fun s x _ hb => Nat.lt_of_lt_of_le hb (block_mono cfg s x)) (fun s x _ hb => step_stock cfg s x hb) h
    (apply cfg (.init n) .newBlock) (Nat.succ_pos 0) (fun _ _ => trivial)
  rw [stock_init] at this
  show number cfg (doneFree cfg) _ _ ≤ _
  omega

open Classical in
/-- C113 (missing: revocations of a delegation revoked already, and histories with deletions of keys wrapped in
other calls): all other free transactions taken into blocks are never more than the successful calls before them
made possible. In particular they do not fail. -/
theorem C113_taken_partial (cfg : Config) (hr : Handles.RangeOk cfg.hi) (n : Nat) (h : List Step)
    (hd : ∀ x ∈ h, NoWrappedDelete x) :
    number cfg (fun s x => takenFree cfg s x && decide (¬ ∃ bal who c, x = .submit bal who c ∧ c.revokesAgain s who))
        (apply cfg (.init n) .newBlock) h ≤
      prepared cfg (apply cfg (.init n) .newBlock) h := by
  have := number_le (cfg := cfg) (f := fun s x => takenFree cfg s x &&
      decide (¬ ∃ bal who c, x = .submit bal who c ∧ c.revokesAgain s who))
    (fun s => 0 < s.block ∧ ∃ l, s = run cfg (.init n) l ∧ ∀ x ∈ l, NoWrappedDelete x) NoWrappedDelete
    (fun s x hx hb => ⟨Nat.lt_of_lt_of_le hb.1 (block_mono cfg s x), by
      obtain ⟨_, l, rfl, hl⟩ := hb
      refine ⟨l ++ [x], (run_snoc _ _ _ _).symm, ?_⟩
      intro y hy
      rcases List.mem_append.1 hy with hy | hy
      · exact hl y hy
      · rw [List.mem_singleton.1 hy]; exact hx⟩)
    (fun s x hx hb => by
      have h1 := step_stock cfg s x hb.1
      have h2 : (if takenFree cfg s x && decide (¬ ∃ bal who c, x = .submit bal who c ∧ c.revokesAgain s who) then 1
          else 0) ≤ (if doneFree cfg s x then 1 else 0) := by
        split
        · rename_i hf
          simp only [Bool.and_eq_true, decide_eq_true_eq] at hf
          obtain ⟨hf, hn⟩ := hf
          obtain ⟨hb, l, rfl, hl⟩ := hb
          rw [if_pos]
          cases x with
          | submit bal who c =>
            have hf' := hf
            simp only [takenFree, Bool.and_eq_true] at hf'
            have := free_succeeds hb hr (countInv cfg n l hl) (handles_inv cfg hr n l) bal who c hf'.1 hf'.2
              (fun h => hn ⟨bal, who, c, rfl, h⟩)
            simp only [doneFree, hf, succeeds, hf'.2, this, Bool.and_self]
          | _ => cases hf
        · exact Nat.zero_le _
      omega) h
    (apply cfg (.init n) .newBlock) ⟨Nat.succ_pos 0, [.newBlock], rfl, by
      intro x hx; rw [List.mem_singleton.1 hx]; intro _ _ _ hh; cases hh⟩ hd
  rw [stock_init] at this
  omega

/-- The chain of `Chain.exCfg`, but the msa pallet accepts all signatures. -/
def freeCfg : Config := { exCfg with msa := Msa.exCfg }

/-- The first block has begun. -/
def freeStart : State := apply freeCfg (.init 1024) .newBlock

/-- A provider makes an account for itself and one with a delegation for key 20; key 21 is added to that account and a
handle claimed for it. Then everything of the second account is given up again. -/
def exFree : List Step :=
  [.submit exBal 10 (.msa .create),
   .submit exBal 10 (.msa (.createProvider [65])),
   .submit exBal 10 (.msa (.createSponsoredAccountWithDelegation 20 1 ⟨1, [], 50⟩)),
   .submit exBal 20 (.msa (.addPublicKeyToMsa 20 2 3 ⟨2, 50, 21⟩)),
   .submit exBal 20 (.handles (.claim 20 20 (Handles.pl "alice" 2))),
   .submit exBal 20 (.msa (.revokeDelegationByDelegator 1)),
   .submit exBal 20 (.msa (.deleteMsaPublicKey 21)),
   .newBlock,
   .submit exBal 20 (.handles .retire),
   .submit exBal 20 (.msa .retireMsa),
   .submit exBal 20 (.msa .retireMsa)]

/-- Hypotheses met, and the counts are what one expects: four free transactions, all successful, of five made possible.
The account of the provider stays. -/
example : Handles.RangeOk freeCfg.hi ∧
    number freeCfg (takenFree freeCfg) freeStart exFree = 4 ∧
    number freeCfg (fun s x => takenFree freeCfg s x && succeeds freeCfg s x) freeStart exFree = 4 ∧
    prepared freeCfg freeStart exFree = 5 := by
  refine ⟨by unfold Handles.RangeOk; decide, ?_, ?_, ?_⟩ <;> decide +kernel

example : ∀ x ∈ exFree, NoWrappedDelete x := by
  intro x hx
  simp only [exFree, List.mem_cons, List.not_mem_nil, or_false] at hx
  rcases hx with rfl | rfl | rfl | rfl | rfl | rfl | rfl | rfl | rfl | rfl | rfl <;> intro _ _ _ h <;> cases h

/-- C113 is false of the code: in the block of a revocation the same revocation is taken as often as one likes. Here
it is taken six times. -/
theorem C113_full_false : ¬ C113_full := by
  intro h
  have h1 := h freeCfg 1024 (exFree.take 5 ++ List.replicate 6 (.submit exBal 20 (.msa (.revokeDelegationByDelegator 1))))
  revert h1
  decide +kernel

/-- And there is no limit at all: as long as the block lasts, a revocation of a delegation revoked in it is taken for
free, whoever sent it before, and changes nothing. -/
theorem C113_no_limit (cfg : Config) (s : State) (bal : AccountId → Balance) (who : AccountId) (m p : MsaId)
    (info : Msa.Delegation) (hm : msaOf s who = some m) (hd : s.msa.delegations.get (m, p) = some info)
    (hb : 0 < s.block) (hrev : info.revokedAt = s.block) (k : Nat) :
    number cfg (takenFree cfg) s (List.replicate k (.submit bal who (.msa (.revokeDelegationByDelegator p)))) = k ∧
    run cfg s (List.replicate k (.submit bal who (.msa (.revokeDelegationByDelegator p)))) = s := by
  have hv : Msa.validate (msaEnv cfg s) s.msa who (.revokeDelegationByDelegator p) = .ok () := by
    have h1 : Msa.ensureValidMsaKey s.msa who = .ok m := okOr_eq_ok_iff.2 hm
    have h2 : Msa.ensureValidDelegation (msaEnv cfg s) s.msa p m none = .ok info :=
      Msa.ensureValidDelegation_iff.2 ⟨hd, by simp, by
        simp only [Msa.activeAt, Option.getD_none, hrev]
        exact .inr (Nat.le_refl _)⟩
    simp [Msa.validate, Msa.validateDelegationByDelegator, h1, h2, Msa.mapErr, bind, Except.bind, pure, Except.pure]
  have he : extensions cfg s who (.msa (.revokeDelegationByDelegator p)) = true := isOk_iff.2 hv
  have hn : dispatch cfg bal s (.signed who) (.msa (.revokeDelegationByDelegator p)) = none := by
    have hm' : s.msa.keyToMsa.get who = some m := hm
    have h0 : info.revokedAt ≠ 0 := by omega
    simp [dispatch, Origin.msa, Msa.dispatch, Msa.ensureSigned, Msa.revokeDelegationByDelegator, hm', Msa.revokeProvider,
      hd, okOr, ensure, h0, bind, Except.bind, Except.toOption]
  have ha : apply cfg s (.submit bal who (.msa (.revokeDelegationByDelegator p))) = s := by
    simp [apply, he, hn]
  induction k with
  | zero => exact ⟨rfl, rfl⟩
  | succ k ih =>
    refine ⟨?_, ?_⟩
    · simp only [List.replicate_succ, number, ha, ih.1, takenFree, Call.free, he, Bool.and_self, if_true]
      omega
    · rw [List.replicate_succ]
      show run cfg (apply cfg s _) _ = s
      rw [ha]; exact ih.2

/-- Hypotheses met: key 20 after its revocation. -/
example : let s := run freeCfg freeStart (exFree.take 6)
    msaOf s 20 = some 2 ∧ (s.msa.delegations.get (2, 1)).map (·.revokedAt) = some s.block ∧ 0 < s.block := by
  decide +kernel

end Verif.Chain
