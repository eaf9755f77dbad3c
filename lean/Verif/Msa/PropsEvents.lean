import Mathlib.Data.List.Induction
import Verif.Msa.Events
import Verif.Msa.PropsAccept
/-!
# C107: whoever follows the events knows keys, providers and delegations
-/

namespace Verif.Msa

/-! ## Specification: a follower that sees nothing but events -/

/-- Account of a key after an event. -/
def Notice.key (k : AccountId) (now : Option MsaId) : Notice → Option MsaId
  | .msaCreated m k' => if k' = k then some m else now
  | .keyAdded m k' => if k' = k then some m else now
  | .keyDeleted k' => if k' = k then none else now
  | _ => now

/-- Whether an account is a provider after an event. -/
def Notice.provider (m : MsaId) (now : Bool) : Notice → Bool
  | .providerCreated m' => if m' = m then true else now
  | _ => now

/-- Whether a delegation is in force, not revoked, after an event. -/
def Notice.delegation (d p : MsaId) (now : Bool) : Notice → Bool
  | .delegationGranted p' d' => if p' = p ∧ d' = d then true else now
  | .delegationRevoked p' d' => if p' = p ∧ d' = d then false else now
  | _ => now

/-- Number of accounts created after an event. -/
def Notice.accounts (now : Nat) : Notice → Nat
  | .msaCreated _ _ => now + 1
  | _ => now

/-- The follower begins with nothing. -/
def keyFollowed (k : AccountId) (l : List Notice) : Option MsaId := l.foldl (Notice.key k) none
def providerFollowed (m : MsaId) (l : List Notice) : Bool := l.foldl (Notice.provider m) false
def delegationFollowed (d p : MsaId) (l : List Notice) : Bool := l.foldl (Notice.delegation d p) false
def accountsFollowed (l : List Notice) : Nat := l.foldl Notice.accounts 0

/-- The event is about the delegation of `d` to `p`. -/
def Notice.About (d p : MsaId) : Notice → Prop
  | .delegationGranted p' d' => p' = p ∧ d' = d
  | .delegationRevoked p' d' => p' = p ∧ d' = d
  | .delegationUpdated p' d' => p' = p ∧ d' = d
  | _ => False

/-! ## Lemmas -/

theorem noticesFrom_snoc (cfg : Config) (hist : List Step) (st : Step) : ∀ s,
    noticesFrom cfg s (hist ++ [st]) = noticesFrom cfg s hist ++ noticesOf cfg (run cfg s hist) st := by
  induction hist with
  | nil => intro s; simp [noticesFrom, run]
  | cons x rest ih =>
    intro s
    simp only [List.cons_append, noticesFrom, ih, List.append_assoc]
    rfl

/-- One step, as the follower sees it. -/
theorem noticesOf_step (cfg : Config) (hist : List Step) (st : Step) :
    let s := run cfg State.init hist
    let s' := apply cfg s st
    (∀ k, s'.keyToMsa.get k = (noticesOf cfg s st).foldl (Notice.key k) (s.keyToMsa.get k)) ∧
    (∀ m, (s'.providers.get m).isSome = (noticesOf cfg s st).foldl (Notice.provider m) (s.providers.get m).isSome) ∧
    (1 ≤ st.env.block → ∀ d p, (revokedAt s' d p == some 0) =
      (noticesOf cfg s st).foldl (Notice.delegation d p) (revokedAt s d p == some 0)) ∧
    (issued s' = (noticesOf cfg s st).foldl Notice.accounts (issued s)) ∧
    (∀ d p, (∀ e ∈ noticesOf cfg s st, ¬ e.About d p) → revokedAt s' d p = revokedAt s d p ∧
      ∀ k, schemaRevokedAt s' d p k = schemaRevokedAt s d p k) := by
  intro s s'
  cases hd : dispatch cfg st.env s st.origin st.call with
  | error e =>
    have h1 : s' = s := by simp only [s', apply, hd]
    have h2 : noticesOf cfg s st = [] := by simp only [noticesOf, hd]
    rw [h1, h2]
    exact ⟨fun _ => rfl, fun _ => rfl, fun _ _ _ => rfl, rfl, fun _ _ _ => ⟨rfl, fun _ => rfl⟩⟩
  | ok s2 =>
    have h1 : s' = s2 := by simp only [s', apply, hd]
    have h2 : noticesOf cfg s st = deposited s st.origin st.call := by simp only [noticesOf, hd]
    rw [h1, h2]
    have hbi : BoundInv s := boundInv_run cfg hist
    have hiss : issued s = s.maxMsaId := issued_eq hbi.1
    have hiss2 : issued s2 = s2.maxMsaId := by
      have : BoundInv (run cfg State.init (hist ++ [st])) := boundInv_run cfg _
      rw [run, List.foldl_append] at this
      exact issued_eq (h1 ▸ this.1)
    obtain ⟨hk, _, hp, hr, hs⟩ := C85_effect cfg hist st.env st.origin st.call s2 hd
    change ∀ k, s2.keyToMsa.get k = keyAfter s st.origin st.call k at hk
    change ∀ m, s2.providers.get m = providerAfter s st.origin st.call m at hp
    change ∀ d p, revokedAt s2 d p = revokedAfter st.env s st.origin st.call d p at hr
    change ∀ d p k, schemaRevokedAt s2 d p k = schemaRevokedAfter st.env s st.origin st.call d p k at hs
    rw [hiss, hiss2]
    simp only [hk, hp, hr, hs]
    clear hk hp hr hs h1 h2 hbi hiss2
    clear_value s
    obtain ⟨env, o, c⟩ := st
    simp only at hd ⊢
    cases o with
    | governance =>
      cases c with
      | createProviderViaGovernance key name =>
        simp only [dispatch, createProviderViaGovernance, bind_eq_ok_iff] at hd
        obtain ⟨m, hm, h⟩ := hd
        obtain ⟨_, _, rfl⟩ := createProviderFor_ok h
        have hm := ensureValidMsaKey_ok hm
        simp [deposited, hm, keyAfter, providerAfter, revokedAfter, schemaRevokedAfter, Notice.key, Notice.provider,
          Notice.delegation, Notice.accounts, apply_ite]
      | _ => simp [dispatch, ensureSigned, bind_eq_ok_iff] at hd
    | signed who =>
      cases c with
      | create =>
        simp only [dispatch, ensureSigned, bind_eq_ok_iff, Except.ok.injEq, exists_eq_left'] at hd
        obtain ⟨_, _, _, rfl⟩ := create_ok hd
        simp [deposited, keyAfter, providerAfter, revokedAfter, schemaRevokedAfter, Notice.key, Notice.provider,
          Notice.delegation, Notice.accounts, hiss, eq_comm]
      | createSponsoredAccountWithDelegation dk proof p =>
        simp only [dispatch, ensureSigned, bind_eq_ok_iff, Except.ok.injEq, exists_eq_left'] at hd
        obtain ⟨r, d, _, _, hw, _, _, _, _, _, _, _, _, rfl⟩ := createSponsored_ok hd
        refine ⟨?_, ?_, ?_, ?_, ?_⟩
        · simp [deposited, hw, keyAfter, Notice.key, hiss, eq_comm]
        · simp [deposited, hw, providerAfter, Notice.provider]
        · intro _ d' p'
          simp only [deposited, hw, revokedAfter, Notice.delegation, hiss, List.foldl_cons, List.foldl_nil]
          by_cases e : d' = s.maxMsaId + 1 ∧ p' = p.authorizedMsaId
          · rw [if_pos e, if_pos ⟨e.2.symm, e.1.symm⟩]; simp
          · rw [if_neg e, if_neg (fun h => e ⟨h.2.symm, h.1.symm⟩)]
        · simp [deposited, hw, Notice.accounts]
        · intro d' p' h
          have e : ¬ (d' = s.maxMsaId + 1 ∧ p' = p.authorizedMsaId) := by
            rintro ⟨rfl, rfl⟩
            exact h (.delegationGranted p.authorizedMsaId (s.maxMsaId + 1)) (by simp [deposited, hw]) ⟨rfl, rfl⟩
          simp only [revokedAfter, schemaRevokedAfter, hiss, if_neg e]
          exact ⟨trivial, fun _ => trivial⟩
      | createProvider name =>
        simp only [dispatch, ensureSigned, createProvider, bind_eq_ok_iff, Except.ok.injEq, exists_eq_left'] at hd
        obtain ⟨m, hm, h⟩ := hd
        obtain ⟨_, _, rfl⟩ := createProviderFor_ok h
        have hm := ensureValidMsaKey_ok hm
        simp [deposited, hm, keyAfter, providerAfter, revokedAfter, schemaRevokedAfter, Notice.key, Notice.provider,
          Notice.delegation, Notice.accounts, apply_ite]
      | grantDelegation dk proof p =>
        simp only [dispatch, ensureSigned, bind_eq_ok_iff, Except.ok.injEq, exists_eq_left'] at hd
        obtain ⟨r, m, d, _, _, hw, hm, _, _, _, rfl⟩ := grantDelegation_ok hd
        refine ⟨?_, ?_, ?_, ?_, ?_⟩
        · simp [deposited, hw, hm, keyAfter, Notice.key]
        · simp [deposited, hw, hm, providerAfter, Notice.provider]
        · intro _ d' p'
          simp only [deposited, hw, hm, revokedAfter, Notice.delegation, List.foldl_cons, List.foldl_nil,
            Option.some.injEq]
          by_cases e : m = d' ∧ p' = p.authorizedMsaId
          · rw [if_pos e, if_pos ⟨e.2.symm, e.1⟩]; simp
          · rw [if_neg e, if_neg (fun h => e ⟨h.2, h.1.symm⟩)]
        · simp [deposited, hw, hm, Notice.accounts]
        · intro d' p' h
          have e : ¬ (m = d' ∧ p' = p.authorizedMsaId) := by
            rintro ⟨rfl, rfl⟩
            exact h (.delegationGranted p.authorizedMsaId m) (by simp [deposited, hw, hm]) ⟨rfl, rfl⟩
          simp only [revokedAfter, schemaRevokedAfter, hm, Option.some.injEq, if_neg e]
          exact ⟨trivial, fun _ => trivial⟩
      | revokeDelegationByDelegator provider =>
        simp only [dispatch, ensureSigned, revokeDelegationByDelegator, bind_eq_ok_iff, Except.ok.injEq,
          exists_eq_left'] at hd
        cases hw : s.keyToMsa.get who with
        | none =>
          rw [hw] at hd
          cases hd
          simp [deposited, hw, keyAfter, providerAfter, revokedAfter, schemaRevokedAfter]
        | some m =>
          rw [hw] at hd
          obtain ⟨x, hx, _, rfl⟩ := revokeProvider_ok hd
          refine ⟨?_, ?_, ?_, ?_, ?_⟩
          · simp [deposited, hw, keyAfter, Notice.key]
          · simp [deposited, hw, providerAfter, Notice.provider]
          · intro hb d' p'
            simp only [deposited, hw, revokedAfter, Notice.delegation, List.foldl_cons, List.foldl_nil,
              Option.some.injEq]
            by_cases e : m = d' ∧ p' = provider
            · rw [if_pos e, if_pos ⟨e.2.symm, e.1⟩]; simp; omega
            · rw [if_neg e, if_neg (fun h => e ⟨h.2, h.1.symm⟩)]
          · simp [deposited, hw, Notice.accounts]
          · intro d' p' h
            have e : ¬ (m = d' ∧ p' = provider) := by
              rintro ⟨rfl, rfl⟩
              exact h (.delegationRevoked p' m) (by simp [deposited, hw]) ⟨rfl, rfl⟩
            simp only [revokedAfter, schemaRevokedAfter, hw, Option.some.injEq, if_neg e]
            exact ⟨trivial, fun _ => trivial⟩
      | revokeDelegationByProvider delegator =>
        simp only [dispatch, ensureSigned, revokeDelegationByProvider, bind_eq_ok_iff, Except.ok.injEq,
          exists_eq_left'] at hd
        cases hw : s.keyToMsa.get who with
        | none =>
          rw [hw] at hd
          cases hd
          simp [deposited, hw, keyAfter, providerAfter, revokedAfter, schemaRevokedAfter]
        | some m =>
          rw [hw] at hd
          obtain ⟨x, hx, _, rfl⟩ := revokeProvider_ok hd
          refine ⟨?_, ?_, ?_, ?_, ?_⟩
          · simp [deposited, hw, keyAfter, Notice.key]
          · simp [deposited, hw, providerAfter, Notice.provider]
          · intro hb d' p'
            simp only [deposited, hw, revokedAfter, Notice.delegation, List.foldl_cons, List.foldl_nil,
              Option.some.injEq]
            by_cases e : d' = delegator ∧ m = p'
            · rw [if_pos e, if_pos ⟨e.2, e.1.symm⟩]; simp; omega
            · rw [if_neg e, if_neg (fun h => e ⟨h.2.symm, h.1⟩)]
          · simp [deposited, hw, Notice.accounts]
          · intro d' p' h
            have e : ¬ (d' = delegator ∧ m = p') := by
              rintro ⟨rfl, rfl⟩
              exact h (.delegationRevoked m d') (by simp [deposited, hw]) ⟨rfl, rfl⟩
            simp only [revokedAfter, schemaRevokedAfter, hw, Option.some.injEq, if_neg e]
            exact ⟨trivial, fun _ => trivial⟩
      | addPublicKeyToMsa ok op np p =>
        simp only [dispatch, ensureSigned, bind_eq_ok_iff, Except.ok.injEq, exists_eq_left'] at hd
        obtain ⟨r1, r2, _, _, _, _, _, _, _, rfl⟩ := addPublicKeyToMsa_ok hd
        simp [deposited, keyAfter, providerAfter, revokedAfter, schemaRevokedAfter, Notice.key, Notice.provider,
          Notice.delegation, Notice.accounts, withKey, eq_comm]
      | deleteMsaPublicKey key =>
        simp only [dispatch, ensureSigned, deleteMsaPublicKey, bind_eq_ok_iff, Except.ok.injEq,
          exists_eq_left'] at hd
        cases hw : s.keyToMsa.get who with
        | none =>
          rw [hw] at hd
          cases hd
          simp [deposited, hw, keyAfter, providerAfter, revokedAfter, schemaRevokedAfter]
        | some m =>
          rw [hw] at hd
          simp only [bind_eq_ok_iff, pure_eq_ok_iff] at hd
          obtain ⟨s1, h, rfl⟩ := hd
          obtain ⟨_, rfl⟩ := deleteKeyForMsa_ok h
          simp [deposited, hw, keyAfter, providerAfter, revokedAfter, schemaRevokedAfter, Notice.key, Notice.provider,
            Notice.delegation, Notice.accounts, withoutKey, eq_comm]
      | revokeSchemaPermissions provider ids =>
        simp only [dispatch, ensureSigned, revokeSchemaPermissions, revokePermissionsForSchemas, bind_eq_ok_iff,
          Except.ok.injEq, exists_eq_left', okOr_eq_ok_iff, pure_eq_ok_iff] at hd
        obtain ⟨m, hm, d, _, _, _, d', _, rfl⟩ := hd
        have hm := ensureValidMsaKey_ok hm
        refine ⟨?_, ?_, ?_, ?_, ?_⟩
        · simp [deposited, hm, keyAfter, Notice.key]
        · simp [deposited, hm, providerAfter, Notice.provider]
        · simp [deposited, hm, revokedAfter, Notice.delegation]
        · simp [deposited, hm, Notice.accounts]
        · intro d' p' h
          have e : ¬ (m = d' ∧ p' = provider) := by
            rintro ⟨rfl, rfl⟩
            exact h (.delegationUpdated p' m) (by simp [deposited, hm]) ⟨rfl, rfl⟩
          refine ⟨rfl, fun k => ?_⟩
          simp only [schemaRevokedAfter, hm, Option.some.injEq]
          rw [if_neg (fun h => e ⟨h.1, h.2.1⟩)]
      | retireMsa =>
        simp only [dispatch, ensureSigned, retireMsa, bind_eq_ok_iff, Except.ok.injEq,
          exists_eq_left'] at hd
        cases hw : s.keyToMsa.get who with
        | none =>
          rw [hw] at hd
          cases hd
          simp only [deposited, hw, keyAfter, providerAfter, revokedAfter, schemaRevokedAfter]
          refine ⟨fun k => ?_, fun _ => rfl, fun _ _ _ => rfl, rfl, fun _ _ _ => ⟨trivial, fun _ => trivial⟩⟩
          by_cases e : k = who
          · rw [if_pos e, e, hw]; rfl
          · rw [if_neg e]; rfl
        | some m =>
          rw [hw] at hd
          simp only [bind_eq_ok_iff, pure_eq_ok_iff] at hd
          obtain ⟨s1, h, rfl⟩ := hd
          obtain ⟨_, rfl⟩ := deleteKeyForMsa_ok h
          simp [deposited, hw, keyAfter, providerAfter, revokedAfter, schemaRevokedAfter, Notice.key, Notice.provider,
            Notice.delegation, Notice.accounts, withoutKey, eq_comm]
      | proposeToBeProvider name =>
        simp only [dispatch, ensureSigned, proposeToBeProvider, bind_eq_ok_iff, Except.ok.injEq,
          exists_eq_left', pure_eq_ok_iff] at hd
        obtain ⟨_, _, _, _, rfl⟩ := hd
        simp [deposited, keyAfter, providerAfter, revokedAfter, schemaRevokedAfter]
      | createProviderViaGovernance key name => simp [dispatch] at hd

/-! ## C107 -/

/-- C107, keys: the account of every key is the one of the last event about the key. -/
theorem C107_keys (cfg : Config) (hist : List Step) (k : AccountId) :
    (run cfg State.init hist).keyToMsa.get k = keyFollowed k (noticesFrom cfg State.init hist) := by
  induction hist using List.reverseRecOn with
  | nil => rfl
  | append_singleton hist st ih =>
    rw [noticesFrom_snoc, keyFollowed, List.foldl_append, ← keyFollowed, ← ih, run, List.foldl_append]
    exact (noticesOf_step cfg hist st).1 k

/-- C107, accounts: as many accounts exist as creations were reported. -/
theorem C107_accounts (cfg : Config) (hist : List Step) :
    (run cfg State.init hist).maxMsaId = accountsFollowed (noticesFrom cfg State.init hist) := by
  have hbi : BoundInv (run cfg State.init hist) := boundInv_run cfg hist
  rw [← issued_eq hbi.1]
  induction hist using List.reverseRecOn with
  | nil => rfl
  | append_singleton hist st ih =>
    rw [noticesFrom_snoc, accountsFollowed, List.foldl_append, ← accountsFollowed, ← ih (boundInv_run cfg hist), run,
      List.foldl_append]
    exact (noticesOf_step cfg hist st).2.2.2.1

/-- C107, providers: exactly those reported. -/
theorem C107_providers (cfg : Config) (hist : List Step) (m : MsaId) :
    ((run cfg State.init hist).providers.get m).isSome = providerFollowed m (noticesFrom cfg State.init hist) := by
  induction hist using List.reverseRecOn with
  | nil => rfl
  | append_singleton hist st ih =>
    rw [noticesFrom_snoc, providerFollowed, List.foldl_append, ← providerFollowed, ← ih, run, List.foldl_append]
    exact (noticesOf_step cfg hist st).2.1 m

/-- C107, delegations: one exists and is not revoked exactly if the last grant or revocation reported for the two
is a grant. Calls are in blocks after the genesis block, which has none. -/
theorem C107_delegations (cfg : Config) (hist : List Step) (hb : ∀ st ∈ hist, 1 ≤ st.env.block) (d p : MsaId) :
    revokedAt (run cfg State.init hist) d p = some 0 ↔
      delegationFollowed d p (noticesFrom cfg State.init hist) = true := by
  have h : (revokedAt (run cfg State.init hist) d p == some 0) =
      delegationFollowed d p (noticesFrom cfg State.init hist) := by
    induction hist using List.reverseRecOn with
    | nil => rfl
    | append_singleton hist st ih =>
      rw [noticesFrom_snoc, delegationFollowed, List.foldl_append, ← delegationFollowed,
        ← ih (fun x hx => hb x (by simp [hx])), run, List.foldl_append]
      exact (noticesOf_step cfg hist st).2.2.1 (hb st (by simp)) d p
  rw [← h]
  simp

/-- C107, changes of delegations: nothing about a delegation, its schemas included, changes without an event that
names the two. -/
theorem C107_change_reported (cfg : Config) (hist : List Step) (st : Step) (d p : MsaId) :
    let s := run cfg State.init hist
    (∀ e ∈ noticesOf cfg s st, ¬ e.About d p) →
    revokedAt (apply cfg s st) d p = revokedAt s d p ∧
      ∀ k, schemaRevokedAt (apply cfg s st) d p k = schemaRevokedAt s d p k :=
  (noticesOf_step cfg hist st).2.2.2.2 d p

/-- The events of the example history, and what its follower knows. -/
example : noticesFrom exCfg State.init exHistory =
    [.msaCreated 1 100, .msaCreated 2 200, .providerCreated 1, .keyAdded 2 201, .keyDeleted 200, .msaCreated 3 300,
     .delegationGranted 1 3, .keyDeleted 201, .msaRetired 2] := by decide +kernel

example : let l := noticesFrom exCfg State.init exHistory
    keyFollowed 300 l = some 3 ∧ keyFollowed 201 l = none ∧ providerFollowed 1 l = true ∧ accountsFollowed l = 3 ∧
    delegationFollowed 3 1 l = true ∧ ∀ st ∈ exHistory, 1 ≤ st.env.block := by decide +kernel

/-- A revocation is followed, a failing call (key 300 has an account already) leaves no event. -/
example : noticesFrom exCfg (run exCfg State.init exHistory)
    [⟨exEnv 5, .signed 300, .create⟩, ⟨exEnv 5, .signed 300, .revokeSchemaPermissions 1 [5]⟩,
     ⟨exEnv 6, .signed 100, .revokeDelegationByProvider 3⟩] =
    [.delegationUpdated 1 3, .delegationRevoked 1 3] := by decide +kernel

end Verif.Msa
