import Verif.Msa.Lemmas
/-!
# Properties of accounts and keys (C01 - C05)

Vocabulary: key `k` controls account `m` in `s` when `s.keyToMsa.get k = some m` (the answer of the
public lookup `get_msa_by_public_key`); the ids issued so far are read off the `MsaCreated` events.
-/

namespace Verif.Msa

/-- Ids announced by the `MsaCreated` events, in order. -/
def createdIds : List KeyEvent → List MsaId
  | [] => []
  | .created m _ :: rest => m :: createdIds rest
  | _ :: rest => createdIds rest

/-- The account that a key resolves to. -/
def resolves (s : State) (k : AccountId) (m : MsaId) : Prop := s.keyToMsa.get k = some m

theorem createdIds_append (a b : List KeyEvent) :
    createdIds (a ++ b) = createdIds a ++ createdIds b := by
  induction a with
  | nil => rfl
  | cons e rest ih => cases e <;> simp [createdIds, ih]

/-- Invariant for C01. -/
structure IdInv (s : State) : Prop where
  ids : createdIds s.events = List.range' 1 s.maxMsaId
  bound : ∀ k m, s.keyToMsa.get k = some m → 1 ≤ m ∧ m ≤ s.maxMsaId

theorem withKey_get (s : State) (m : MsaId) (k k' : AccountId) :
    (withKey s m k).keyToMsa.get k' = if k = k' then some m else s.keyToMsa.get k' := by
  simp [withKey, SMap.get_insert]

theorem withoutKey_get (s : State) (m : MsaId) (k k' : AccountId) :
    (withoutKey s m k).keyToMsa.get k' = if k = k' then none else s.keyToMsa.get k' := by
  simp [withoutKey, SMap.get_erase]

theorem range'_snoc (n : Nat) : List.range' 1 (n + 1) = List.range' 1 n ++ [n + 1] := by
  rw [List.range'_concat]; simp [Nat.add_comm]

theorem eff_idInv {cfg env s o c s'} (he : Eff cfg env s o c s') (hi : IdInv s) : IdInv s' := by
  cases he with
  | noop => exact hi
  | create hid hk hc =>
    constructor
    · simp [createdIds_append, createdIds, hi.ids, range'_snoc]
    · intro k m hm
      rw [show (_ : State).keyToMsa.get k = _ from withKey_get _ _ _ _] at hm
      simp only
      split at hm
      · simp only [Option.some.injEq] at hm; omega
      · have := hi.bound k m hm; omega
  | sponsored hv hr hw hp hid hk hc hn hd hl hs =>
    constructor
    · simp [createdIds_append, createdIds, hi.ids, range'_snoc]
    · intro k m hm
      rw [show (_ : State).keyToMsa.get k = _ from withKey_get _ _ _ _] at hm
      simp only
      split at hm
      · simp only [Option.some.injEq] at hm; omega
      · have := hi.bound k m hm; omega
  | provider hl hn hk => exact ⟨hi.ids, hi.bound⟩
  | grant hv hr hw hdk hne hp hd => exact ⟨hi.ids, hi.bound⟩
  | revoke hc hd h0 => exact ⟨hi.ids, hi.bound⟩
  | addKey hv1 hv2 hr1 hr2 ho hk hc =>
    constructor
    · simp [withKey, createdIds_append, createdIds, hi.ids]
    · intro k m hm
      rw [show (_ : State).keyToMsa.get k = _ from withKey_get _ _ _ _] at hm
      simp only [withKey]
      split at hm
      · simp only [Option.some.injEq] at hm
        subst hm
        exact hi.bound _ _ ho
      · exact hi.bound k m hm
  | delete hw hk hc =>
    constructor
    · simp [withoutKey, createdIds_append, createdIds, hi.ids]
    · intro k m hm
      rw [show (_ : State).keyToMsa.get k = _ from withoutKey_get _ _ _ _] at hm
      simp only [withoutKey]
      split at hm
      · simp at hm
      · exact hi.bound k m hm
  | revokeSchemas hw hd hm => exact ⟨hi.ids, hi.bound⟩

theorem idInv_init : IdInv State.init := ⟨rfl, by intro k m h; simp [State.init] at h⟩

theorem idInv_run (cfg : Config) (h : List Step) : IdInv (run cfg State.init h) :=
  run_induction (P := IdInv) (fun s st hs => eff_idInv (apply_eff cfg s st) hs) h _ idInv_init

/-- C01: over any history of calls (direct or wrapped, successful or not) the ids announced by account
creations are exactly 1, 2, ..., n in this order: consecutive, unique and never reused. -/
theorem C01_ids_consecutive (cfg : Config) (h : List Step) :
    createdIds (run cfg State.init h).events =
      List.range' 1 (createdIds (run cfg State.init h).events).length := by
  have hi := (idInv_run cfg h).ids
  rw [hi]; simp

/-- C01: an account that exists but is controlled by no key any more (its last key was deleted or it
was retired) is never controlled by any key again, whatever happens afterwards. -/
theorem C01_retired_never_resolves (cfg : Config) (h h' : List Step) (m : MsaId)
    (hm : m ∈ createdIds (run cfg State.init h).events)
    (hnone : ∀ k, ¬ resolves (run cfg State.init h) k m) :
    ∀ k, ¬ resolves (run cfg State.init (h ++ h')) k m := by
  have hi := idInv_run cfg h
  rw [hi.ids, List.mem_range'_1] at hm
  have hmax : m ≤ (run cfg State.init h).maxMsaId := by omega
  have hrun : run cfg State.init (h ++ h') = run cfg (run cfg State.init h) h' := by
    simp [run, List.foldl_append]
  rw [hrun]
  have key : ∀ (h' : List Step) (s : State), m ≤ s.maxMsaId ∧ (∀ k, s.keyToMsa.get k ≠ some m) →
      m ≤ (run cfg s h').maxMsaId ∧ (∀ k, (run cfg s h').keyToMsa.get k ≠ some m) := by
    intro h' s hs
    refine run_induction (P := fun s => m ≤ s.maxMsaId ∧ (∀ k, s.keyToMsa.get k ≠ some m)) ?_ h' s hs
    intro s st ⟨h1, h2⟩
    have he := apply_eff cfg s st
    obtain ⟨env, o, c⟩ := st
    simp only at he
    generalize apply cfg s ⟨env, o, c⟩ = s' at he
    cases he with
    | noop => exact ⟨h1, h2⟩
    | create hid hk hc =>
      refine ⟨by simp; omega, fun k => ?_⟩
      rw [show (_ : State).keyToMsa.get k = _ from withKey_get _ _ _ _]
      split
      · simp; omega
      · exact h2 k
    | sponsored hv hr hw hp hid hk hc hn hd hl hs =>
      refine ⟨by simp; omega, fun k => ?_⟩
      rw [show (_ : State).keyToMsa.get k = _ from withKey_get _ _ _ _]
      split
      · simp; omega
      · exact h2 k
    | provider hl hn hk => exact ⟨h1, h2⟩
    | grant hv hr hw hdk hne hp hd => exact ⟨h1, h2⟩
    | revoke hc hd h0 => exact ⟨h1, h2⟩
    | addKey hv1 hv2 hr1 hr2 ho hk hc =>
      refine ⟨h1, fun k => ?_⟩
      rw [show (_ : State).keyToMsa.get k = _ from withKey_get _ _ _ _]
      split
      · intro e
        simp only [Option.some.injEq] at e
        rw [e] at ho
        exact h2 _ ho
      · exact h2 k
    | delete hw hk hc =>
      refine ⟨h1, fun k => ?_⟩
      rw [show (_ : State).keyToMsa.get k = _ from withoutKey_get _ _ _ _]
      split
      · simp
      · exact h2 k
    | revokeSchemas hw hd hm => exact ⟨h1, h2⟩
  exact (key h' _ ⟨hmax, hnone⟩).2

/-- The key for which a call creates an account: the signer's own or the one named in the call. -/
def newKeyOf : Origin → Call → Option AccountId
  | .signed who, .create => some who
  | .signed _, .createSponsoredAccountWithDelegation dk _ _ => some dk
  | _, _ => none

/-- C01: a successful creation, direct or sponsored, after any history announces exactly one id, one more than
the number announced so far, which is the highest; no key resolved to that id before, the key of the new
account, which had none, resolves to it afterwards, and no other key is touched. Every other successful
call announces nothing. -/
theorem C01_creation_exact (cfg : Config) (h : List Step) (st : Step) (s' : State)
    (hok : dispatch cfg st.env (run cfg State.init h) st.origin st.call = .ok s') :
    let s := run cfg State.init h
    let id := (createdIds s.events).length + 1
    (∀ k, newKeyOf st.origin st.call = some k →
      createdIds s'.events = createdIds s.events ++ [id] ∧ (∀ k', ¬ resolves s k' id) ∧
      (∀ m, ¬ resolves s k m) ∧ ∀ k' m, resolves s' k' m ↔ (k' = k ∧ m = id) ∨ resolves s k' m) ∧
    (newKeyOf st.origin st.call = none → createdIds s'.events = createdIds s.events) := by
  have hi := idInv_run cfg h
  generalize run cfg State.init h = s at *
  have hlen : (createdIds s.events).length + 1 = s.maxMsaId + 1 := by rw [hi.ids]; simp
  simp only [hlen]
  have hb : ∀ k', s.keyToMsa.get k' ≠ some (s.maxMsaId + 1) := by
    intro k' hk; have := hi.bound k' _ hk; omega
  obtain ⟨env, o, c⟩ := st
  simp only at hok ⊢
  have main : ∀ k, s.keyToMsa.get k = none →
      ∀ k' m, (withKey s (s.maxMsaId + 1) k).keyToMsa.get k' = some m ↔
        (k' = k ∧ m = s.maxMsaId + 1) ∨ s.keyToMsa.get k' = some m := by
    intro k hk k' m
    rw [withKey_get]
    split
    · rename_i e; subst e
      simp only [Option.some.injEq, true_and, hk, reduceCtorEq, or_false]
      exact eq_comm
    · rename_i e
      exact ⟨Or.inr, fun h => h.resolve_left (fun h => e h.1.symm)⟩
  unfold resolves
  refine ⟨?_, ?_⟩
  · intro k hk
    cases o with
    | governance => cases c <;> simp [newKeyOf] at hk
    | signed who =>
      cases c with
      | create =>
        simp only [newKeyOf, Option.some.injEq] at hk
        subst hk
        simp only [dispatch, ensureSigned, bind_eq_ok_iff, Except.ok.injEq, exists_eq_left'] at hok
        obtain ⟨_, h2, _, h4⟩ := create_ok hok
        subst h4
        exact ⟨by simp [createdIds_append, createdIds], hb, by simp [h2], main _ h2⟩
      | createSponsoredAccountWithDelegation dk proof pl =>
        simp only [newKeyOf, Option.some.injEq] at hk
        subst hk
        simp only [dispatch, ensureSigned, bind_eq_ok_iff, Except.ok.injEq, exists_eq_left'] at hok
        obtain ⟨r, d, _, _, _, _, _, h2, _, _, _, _, _, h4⟩ := createSponsored_ok hok
        subst h4
        exact ⟨by simp [createdIds_append, createdIds], hb, by simp [h2], main _ h2⟩
      | _ => simp [newKeyOf] at hk
  · intro hn
    have he := eff_of_dispatch hok
    cases he with
    | noop => rfl
    | create _ _ _ => simp [newKeyOf] at hn
    | sponsored _ _ _ _ _ _ _ _ _ _ _ => simp [newKeyOf] at hn
    | provider _ _ _ => rfl
    | grant _ _ _ _ _ _ _ => rfl
    | revoke _ _ _ => rfl
    | addKey _ _ _ _ _ _ _ => simp [createdIds_append, createdIds]
    | delete _ _ _ => simp [createdIds_append, createdIds]
    | revokeSchemas _ _ _ => rfl

/-! ### A concrete chain used in the examples -/

/-- Runtime constants (runtime/frequency/src/lib.rs, `pallet_msa::Config`); every signature verifies. -/
def exCfg : Config :=
  { maxKeys := 25, maxGrants := 30, maxNameSize := 16, window := 100, maxSignatures := 50000,
    verify := fun _ _ _ => true }

/-- Block `b`, ten schemas, no handles. -/
def exEnv (b : BlockNumber) : Env := ⟨b, 10, fun _ => false⟩

/-- Key 100 creates account 1, registers it as provider; key 200 creates account 2, adds key 201 and
deletes key 200; key 300 gets account 3 sponsored by provider 1. -/
def exHistory : List Step :=
  [⟨exEnv 1, .signed 100, .create⟩,
   ⟨exEnv 1, .signed 200, .create⟩,
   ⟨exEnv 2, .signed 100, .createProvider [65]⟩,
   ⟨exEnv 2, .signed 200, .addPublicKeyToMsa 200 1 2 ⟨2, 50, 201⟩⟩,
   ⟨exEnv 3, .signed 201, .deleteMsaPublicKey 200⟩,
   ⟨exEnv 4, .signed 100, .createSponsoredAccountWithDelegation 300 3 ⟨1, [5, 6], 60⟩⟩,
   ⟨exEnv 4, .signed 201, .retireMsa⟩]

example : createdIds (run exCfg State.init exHistory).events = [1, 2, 3] := by decide

/-- The sponsored creation of the history, for the key named in the call. -/
example : let s := run exCfg State.init (exHistory.take 5)
    let st : Step := ⟨exEnv 4, .signed 100, .createSponsoredAccountWithDelegation 300 3 ⟨1, [5, 6], 60⟩⟩
    newKeyOf st.origin st.call = some 300 ∧ (dispatch exCfg st.env s st.origin st.call).isOk = true ∧
      (createdIds s.events).length + 1 = 3 ∧ resolves (apply exCfg s st) 300 3 := by unfold resolves; decide

example : 2 ∈ createdIds (run exCfg State.init exHistory).events ∧
    ∀ k, ¬ resolves (run exCfg State.init exHistory) k 2 := by
  refine ⟨by decide, ?_⟩
  have h : (run exCfg State.init exHistory).keyToMsa.entries = [(300, 3), (100, 1)] := by decide
  intro k hk
  have := (SMap.mem_entries_iff _ _ _).2 hk
  rw [h] at this
  simp at this

/-! ## C02 -/

/-- Counter that `PublicKeyCountForMsaId` should hold for `n` keys. -/
def toCount (n : Nat) : Option Nat := if n = 0 then none else some n

/-- Invariant for C02. -/
def CountInv (cfg : Config) (s : State) : Prop :=
  ∀ m, s.keyCount.get m = toCount (s.keyToMsa.countV (· == m)) ∧
    s.keyToMsa.countV (· == m) ≤ cfg.maxKeys

theorem toCount_getD (n : Nat) : (toCount n).getD 0 = n := by
  unfold toCount; split <;> simp_all

theorem countInv_withKey {cfg s m k} (hi : CountInv cfg s) (hk : s.keyToMsa.get k = none)
    (hc : (s.keyCount.get m).getD 0 + 1 ≤ cfg.maxKeys) : CountInv cfg (withKey s m k) := by
  intro m'
  obtain ⟨h1, h2⟩ := hi m'
  have hcv : (withKey s m k).keyToMsa.countV (· == m') =
      s.keyToMsa.countV (· == m') + (if m == m' then 1 else 0) :=
    SMap.countV_insert_of_none s.keyToMsa m hk (· == m')
  rw [hcv]
  by_cases hm : m = m'
  · subst hm
    rw [h1, toCount_getD] at hc
    simp only [withKey, SMap.get_insert, ↓reduceIte, h1, toCount_getD, beq_self_eq_true]
    refine ⟨?_, hc⟩
    simp [toCount]
  · have hb : (m == m') = false := by simpa using hm
    simp only [withKey, SMap.get_insert, hm, ↓reduceIte, hb, Bool.false_eq_true, Nat.add_zero]
    exact ⟨h1, h2⟩

theorem countInv_withoutKey {cfg s m k} (hi : CountInv cfg s) (hk : s.keyToMsa.get k = some m) :
    CountInv cfg (withoutKey s m k) := by
  intro m'
  obtain ⟨h1, h2⟩ := hi m'
  have hcv : (withoutKey s m k).keyToMsa.countV (· == m') + (if m == m' then 1 else 0) =
      s.keyToMsa.countV (· == m') :=
    SMap.countV_erase s.keyToMsa hk (· == m')
  by_cases hm : m = m'
  · subst hm
    simp only [beq_self_eq_true, ↓reduceIte] at hcv
    refine ⟨?_, by omega⟩
    simp only [withoutKey, decCount] at hcv ⊢
    rw [← hcv] at h1
    have : toCount ((s.keyToMsa.erase k).countV (· == m) + 1) =
        some ((s.keyToMsa.erase k).countV (· == m) + 1) := by simp [toCount]
    rw [this] at h1
    rw [h1]
    simp only [Nat.add_eq_right, Nat.add_sub_cancel]
    split
    · rename_i h0
      simp [toCount, h0]
    · rename_i h0
      simp [toCount, h0]
  · have hb : (m == m') = false := by simpa using hm
    simp only [hb, Bool.false_eq_true, ↓reduceIte, Nat.add_zero] at hcv
    rw [hcv]
    refine ⟨?_, h2⟩
    simp only [withoutKey, decCount]
    rw [← h1]
    split
    · rfl
    · split
      · simp [SMap.get_erase, hm]
      · simp [SMap.get_insert, hm]

theorem mapErr_ok {α : Type} {x : Except Err α} {e : Invalid} {a : α} (h : mapErr x e = .ok a) :
    x = .ok a := by
  cases x <;> simp_all [mapErr]

theorem validateKeyDelete_ok {s who k u} (h : validateKeyDelete s who k = .ok u) :
    who ≠ k ∧ ∃ m, s.keyToMsa.get who = some m ∧ s.keyToMsa.get k = some m := by
  simp only [validateKeyDelete, bind_eq_ok_iff, ensure_eq_ok_iff] at h
  obtain ⟨_, h1, m, h2, m', h3, h4⟩ := h
  subst h4
  exact ⟨h1, m, ensureValidMsaKey_ok (mapErr_ok h2), ensureValidMsaKey_ok (mapErr_ok h3)⟩

theorem applyTx_countInv {cfg s st} (hi : CountInv cfg s) : CountInv cfg (applyTx cfg s st) := by
  rcases applyTx_eq cfg s st with h | ⟨h, hv⟩
  · rw [h]; exact hi
  · rw [h]
    have he := apply_eff cfg s st
    obtain ⟨env, o, c⟩ := st
    simp only at hv he
    generalize apply cfg s ⟨env, o, c⟩ = s' at he
    cases he with
    | noop => exact hi
    | create hid hk hc => exact countInv_withKey hi hk hc
    | sponsored _ _ _ _ _ hk hc _ _ _ _ => exact countInv_withKey hi hk hc
    | provider _ _ _ => exact hi
    | grant _ _ _ _ _ _ _ => exact hi
    | revoke _ _ _ => exact hi
    | addKey _ _ _ _ _ hk hc => exact countInv_withKey hi hk hc
    | delete hw hk hc =>
      rcases hc with hc | ⟨hc, hkw⟩
      · subst hc
        obtain ⟨_, m2, h1, h2⟩ := validateKeyDelete_ok (hv _ rfl)
        rw [h1] at hw
        simp only [Option.some.injEq] at hw
        subst hw
        exact countInv_withoutKey hi h2
      · subst hkw
        exact countInv_withoutKey hi hw
    | revokeSchemas _ _ _ => exact hi

theorem countInv_init (cfg : Config) : CountInv cfg State.init := by
  intro m; exact ⟨rfl, Nat.zero_le _⟩

theorem countInv_runTx (cfg : Config) (h : List Step) : CountInv cfg (runTx cfg State.init h) :=
  runTx_induction (P := CountInv cfg) (fun _ _ hs => applyTx_countInv hs) h _ (countInv_init cfg)

/-- The keys of an account, listed. -/
def keysOf (s : State) (m : MsaId) : List AccountId :=
  (s.keyToMsa.entries.filter (fun e => e.2 == m)).map Prod.fst

theorem keysOf_nodup (s : State) (m : MsaId) : (keysOf s m).Nodup :=
  s.keyToMsa.nodup.sublist (List.filter_sublist.map Prod.fst)

theorem mem_keysOf (s : State) (m : MsaId) (k : AccountId) : k ∈ keysOf s m ↔ resolves s k m := by
  simp [keysOf, resolves, ← SMap.mem_entries_iff]

theorem length_keysOf (s : State) (m : MsaId) :
    (keysOf s m).length = s.keyToMsa.countV (· == m) := by
  simp [keysOf, SMap.countV, List.countP_eq_length_filter]

/-- C02 for one state: the stored key count is the exact number of distinct keys that resolve to the
account, is at most the configured maximum, and is absent exactly when there is no such key. -/
def CountExact (cfg : Config) (s : State) (m : MsaId) : Prop :=
  ∃ keys : List AccountId, keys.Nodup ∧ (∀ k, k ∈ keys ↔ resolves s k m) ∧
    s.keyCount.get m = (if keys = [] then none else some keys.length) ∧ keys.length ≤ cfg.maxKeys

/-- C02, full statement: after every history of calls, direct or wrapped. -/
def C02_full : Prop := ∀ (cfg : Config) (h : List Step) (m : MsaId), CountExact cfg (run cfg State.init h) m

/-- C02 for directly submitted transactions. Missing: wrapped calls, for which it is false. -/
theorem C02_key_count_exact_partial (cfg : Config) (h : List Step) (m : MsaId) :
    CountExact cfg (runTx cfg State.init h) m := by
  refine ⟨keysOf _ m, keysOf_nodup _ _, mem_keysOf _ _, ?_, ?_⟩
  · obtain ⟨h1, _⟩ := countInv_runTx cfg h m
    rw [h1, ← length_keysOf]
    unfold toCount
    by_cases he : keysOf (runTx cfg State.init h) m = []
    · simp [he]
    · simp [he]
  · rw [length_keysOf]; exact (countInv_runTx cfg h m).2

/-- The history of the example: account 1 has one key and account 2 none. -/
example : (runTx exCfg State.init exHistory).keyCount.get 1 = some 1 ∧
    (runTx exCfg State.init exHistory).keyCount.get 2 = none ∧
    (runTx exCfg State.init (exHistory.take 4)).keyCount.get 2 = some 2 := by decide

/-- C02 is lost when a deletion runs without the transaction extension (as a wrapped call does): the
counter of the caller's account is decremented although the key belonged to another account. -/
theorem C02_broken_by_wrapped_delete :
    let s := run exCfg State.init
      [⟨exEnv 1, .signed 100, .create⟩, ⟨exEnv 1, .signed 200, .create⟩,
       ⟨exEnv 1, .signed 100, .deleteMsaPublicKey 200⟩]
    s.keyToMsa.get 100 = some 1 ∧ s.keyToMsa.get 200 = none ∧
      s.keyCount.get 1 = none ∧ s.keyCount.get 2 = some 1 := by decide

/-- C02 is false of the code when wrapped calls are counted in. -/
theorem C02_full_false : ¬ C02_full := by
  intro hf
  obtain ⟨h1, _, h3, _⟩ := C02_broken_by_wrapped_delete
  obtain ⟨keys, _, hm, hc, _⟩ := hf exCfg
    [⟨exEnv 1, .signed 100, .create⟩, ⟨exEnv 1, .signed 200, .create⟩,
      ⟨exEnv 1, .signed 100, .deleteMsaPublicKey 200⟩] 1
  have hk : (100 : Nat) ∈ keys := (hm 100).2 h1
  rw [h3] at hc
  split at hc
  · rename_i he; rw [he] at hk; simp at hk
  · simp at hc

/-! ## C03 -/

/-- C03 (direct transactions; the full statement also covers wrapped calls, where it is false, see
`Runtime`): a key stops resolving to its account only by a deletion signed by another key of the same
account, or by a retirement signed by that key itself. Holds in every state. -/
theorem C03_key_removed_only_by_owner_partial (cfg : Config) (s : State) (st : Step) (k : AccountId)
    (m : MsaId) (hb : resolves s k m) (ha : ¬ resolves (applyTx cfg s st) k m) :
    ∃ who, st.origin = .signed who ∧ resolves s who m ∧
      ((st.call = .deleteMsaPublicKey k ∧ who ≠ k) ∨ (st.call = .retireMsa ∧ who = k)) := by
  unfold resolves at *
  rcases applyTx_eq cfg s st with h | ⟨h, hv⟩
  · rw [h] at ha; exact absurd hb ha
  · rw [h] at ha
    have he := apply_eff cfg s st
    obtain ⟨env, o, c⟩ := st
    simp only at hv he ⊢
    generalize apply cfg s ⟨env, o, c⟩ = s' at he ha
    cases he with
    | noop => exact absurd hb ha
    | create hid hk hc =>
      exfalso; apply ha
      rw [show (_ : State).keyToMsa.get k = _ from withKey_get _ _ _ _]
      split
      · rename_i e; subst e; rw [hk] at hb; simp at hb
      · exact hb
    | sponsored _ _ _ _ _ hk hc _ _ _ _ =>
      exfalso; apply ha
      rw [show (_ : State).keyToMsa.get k = _ from withKey_get _ _ _ _]
      split
      · rename_i e; subst e; rw [hk] at hb; simp at hb
      · exact hb
    | provider _ _ _ => exact absurd hb ha
    | grant _ _ _ _ _ _ _ => exact absurd hb ha
    | revoke _ _ _ => exact absurd hb ha
    | addKey _ _ _ _ _ hk hc =>
      exfalso; apply ha
      rw [show (_ : State).keyToMsa.get k = _ from withKey_get _ _ _ _]
      split
      · rename_i e; subst e; rw [hk] at hb; simp at hb
      · exact hb
    | @delete who _ m1 k1 m2 hw hk hc =>
      rw [show (_ : State).keyToMsa.get k = _ from withoutKey_get _ _ _ _] at ha
      split at ha
      · rename_i e
        subst e
        rcases hc with hc | ⟨hc, hkw⟩
        · subst hc
          obtain ⟨hne, m3, h1, h2⟩ := validateKeyDelete_ok (hv _ rfl)
          rw [h2] at hb
          simp only [Option.some.injEq] at hb
          subst hb
          exact ⟨who, rfl, h1, Or.inl ⟨rfl, hne⟩⟩
        · subst hkw
          exact ⟨k1, rfl, hb, Or.inr ⟨hc, rfl⟩⟩
      · exact absurd hb ha
    | revokeSchemas _ _ _ => exact absurd hb ha

example : resolves (runTx exCfg State.init (exHistory.take 4)) 200 2 ∧
    ¬ resolves (applyTx exCfg (runTx exCfg State.init (exHistory.take 4))
      ⟨exEnv 3, .signed 201, .deleteMsaPublicKey 200⟩) 200 2 := by
  unfold resolves; decide

/-! ## C04 -/

/-- A delegation is usable at block `n`. -/
def activeAt (d : Delegation) (n : BlockNumber) : Prop := d.revokedAt = 0 ∨ n ≤ d.revokedAt

theorem ensureValidDelegation_iff {env s p d b info} :
    ensureValidDelegation env s p d b = .ok info ↔
      s.delegations.get (d, p) = some info ∧ (∀ n, b = some n → n ≤ env.block) ∧
        activeAt info (b.getD env.block) := by
  unfold ensureValidDelegation activeAt
  cases s.delegations.get (d, p) with
  | none => simp [okOr, bind, Except.bind]
  | some i =>
    cases b with
    | none =>
      by_cases h0 : i.revokedAt = 0 <;> by_cases h1 : env.block ≤ i.revokedAt <;>
        simp [okOr, bind, Except.bind, pure, Except.pure, ensure, h0, h1] <;> aesop
    | some n =>
      by_cases hn : n ≤ env.block <;> by_cases h0 : i.revokedAt = 0 <;>
        by_cases h1 : n ≤ i.revokedAt <;>
        simp [okOr, bind, Except.bind, pure, Except.pure, ensure, h0, h1, hn] <;> aesop

theorem ensureMsaCanRetire_ok {env s who u} (h : ensureMsaCanRetire env s who = .ok u) :
    ∃ m, s.keyToMsa.get who = some m ∧ s.providers.contains m = false ∧ env.hasHandle m = false ∧
      (s.keyCount.get m).getD 0 = 1 ∧
      ∀ p d, s.delegations.get (m, p) = some d → ¬ activeAt d env.block := by
  simp only [ensureMsaCanRetire, bind_eq_ok_iff, ensure_eq_ok_iff] at h
  obtain ⟨m, h1, _, h2, _, h3, _, h4, h5⟩ := h
  refine ⟨m, ensureValidMsaKey_ok (mapErr_ok h1), h2, h3, h4, ?_⟩
  intro p d hd ha
  rw [List.any_eq_false] at h5
  have hmem : (m, p) ∈ s.delegations.keys.filter (fun k => k.1 == m) := by
    simp only [List.mem_filter, beq_self_eq_true, and_true]
    rw [SMap.mem_keys_iff, SMap.contains_iff]
    exact ⟨d, hd⟩
  have := h5 _ hmem
  have hok : ensureValidDelegation env s p m none = .ok d :=
    ensureValidDelegation_iff.2 ⟨hd, by simp, ha⟩
  rw [hok] at this
  exact absurd rfl this

/-- C04: what has to be true of the account at the moment of its retirement. -/
def Retirable (env : Env) (s : State) (who : AccountId) (m : MsaId) : Prop :=
  resolves s who m ∧ s.providers.get m = none ∧ env.hasHandle m = false ∧
    (∀ k, resolves s k m → k = who) ∧
    (∀ p d, s.delegations.get (m, p) = some d → ¬ activeAt d env.block)

/-- C04, full statement: an accepted direct retirement finds the account retirable; afterwards no key
resolves to it and its delegations are gone. -/
def C04_full : Prop :=
  ∀ (cfg : Config) (h : List Step) (env : Env) (who : AccountId),
    validate env (runTx cfg State.init h) who .retireMsa = .ok () →
    ∃ m, Retirable env (runTx cfg State.init h) who m ∧
      ∃ s', dispatch cfg env (runTx cfg State.init h) (.signed who) .retireMsa = .ok s' ∧
        (∀ k, ¬ resolves s' k m) ∧ ∀ p, s'.delegations.get (m, p) = none

/-- C04. Missing: the records of delegations that were revoked before stay in storage; they are not
accepted by the delegation check for the current or any later block. -/
theorem C04_retire_only_empty_partial (cfg : Config) (h : List Step) (env : Env) (who : AccountId)
    (hv : validate env (runTx cfg State.init h) who .retireMsa = .ok ()) :
    ∃ m, Retirable env (runTx cfg State.init h) who m ∧
      ∃ s', dispatch cfg env (runTx cfg State.init h) (.signed who) .retireMsa = .ok s' ∧
        (∀ k, ¬ resolves s' k m) ∧
        ∀ p (env' : Env) b info, env.block ≤ b → ensureValidDelegation env' s' p m (some b) ≠ .ok info := by
  have hi := countInv_runTx cfg h
  generalize runTx cfg State.init h = s at *
  simp only [validate] at hv
  obtain ⟨m, h1, h2, h3, h4, h5⟩ := ensureMsaCanRetire_ok hv
  have hcnt := (hi m).1
  rw [hcnt, toCount_getD, ← length_keysOf] at h4
  have hwho : who ∈ keysOf s m := (mem_keysOf s m who).2 h1
  have honly : ∀ k, resolves s k m → k = who := by
    intro k hk
    have hk := (mem_keysOf s m k).2 hk
    match hl : keysOf s m, h4 with
    | [a], _ =>
      rw [hl] at hk hwho
      simp at hk hwho
      rw [hk, hwho]
  refine ⟨m, ⟨h1, ?_, h3, honly, h5⟩, ?_⟩
  · cases hp : s.providers.get m with
    | none => rfl
    | some v =>
      have := (SMap.contains_iff s.providers m).2 ⟨v, hp⟩
      rw [h2] at this; simp at this
  · have hc1 : s.keyCount.get m = some 1 := by
      rw [hcnt, ← length_keysOf, h4]; rfl
    refine ⟨{ withoutKey s m who with events := s.events ++ [.deleted m who] }, ?_, ?_, ?_⟩
    · simp [dispatch, ensureSigned, retireMsa, h1, deleteKeyForMsa, hc1, ensure, bind, Except.bind,
        pure, Except.pure, withoutKey, decCount]
    · intro k hk
      unfold resolves at hk honly
      rw [show (_ : State).keyToMsa.get k = _ from withoutKey_get _ _ _ _] at hk
      split at hk
      · simp at hk
      · rename_i hne
        exact hne (honly k hk).symm
    · intro p env' b info hb hok
      obtain ⟨hi, _, ha⟩ := ensureValidDelegation_iff.1 hok
      have hn := h5 p info hi
      unfold activeAt at ha hn
      simp only [Option.getD_some] at ha
      omega

/-- C04 is false of the code: account 3 revokes its delegation in block 5 and retires in block 6; the
record of the delegation stays in storage. -/
theorem C04_full_false : ¬ C04_full := by
  intro hf
  have hd : ∀ s', dispatch exCfg (exEnv 6) (runTx exCfg State.init (exHistory ++
      [⟨exEnv 5, .signed 300, .revokeDelegationByDelegator 1⟩])) (.signed 300) .retireMsa = .ok s' →
      s'.delegations.get (3, 1) ≠ none := by
    intro s' h
    have : ((dispatch exCfg (exEnv 6) (runTx exCfg State.init (exHistory ++
      [⟨exEnv 5, .signed 300, .revokeDelegationByDelegator 1⟩])) (.signed 300) .retireMsa).toOption.map
        (fun s => (s.delegations.get (3, 1)).isSome)) = some true := by decide
    rw [h] at this
    intro hn
    simp [Except.toOption, hn] at this
  obtain ⟨m, ⟨hr, _⟩, s', h1, _, h3⟩ := hf exCfg (exHistory ++
    [⟨exEnv 5, .signed 300, .revokeDelegationByDelegator 1⟩]) (exEnv 6) 300 (by decide)
  have hm : m = 3 := by
    have h300 : (runTx exCfg State.init (exHistory ++
      [⟨exEnv 5, .signed 300, .revokeDelegationByDelegator 1⟩])).keyToMsa.get 300 = some 3 := by decide
    unfold resolves at hr
    rw [h300] at hr
    exact (Option.some.inj hr).symm
  subst hm
  exact hd s' h1 (h3 1)

/-- Retirement is possible in the example history (account 2, key 201) and refused for the provider. -/
example : validate (exEnv 4) (runTx exCfg State.init (exHistory.take 6)) 201 .retireMsa = .ok () ∧
    validate (exEnv 4) (runTx exCfg State.init (exHistory.take 6)) 100 .retireMsa =
      .error .invalidRegisteredProviderCannotBeRetired ∧
    validate (exEnv 4) (runTx exCfg State.init (exHistory.take 6)) 300 .retireMsa =
      .error .invalidNonZeroProviderDelegations := by decide

/-! ## C05 -/

/-- C05: what a successful key addition implies, in every state and for every caller, and its exact
effect on key lookups. -/
theorem C05_add_key_needs_both (cfg : Config) (env : Env) (s s' : State) (o : Origin)
    (owner : AccountId) (sigOwner sigNew : Signature) (p : AddKeyData)
    (h : dispatch cfg env s o (.addPublicKeyToMsa owner sigOwner sigNew p) = .ok s') :
    resolves s owner p.msaId ∧
    cfg.verify sigOwner owner (wrap p.encode) = true ∧
    cfg.verify sigNew p.newPublicKey (wrap p.encode) = true ∧
    env.block < p.expiration ∧ p.expiration < env.block + cfg.window ∧
    (∀ m, ¬ resolves s p.newPublicKey m) ∧
    (∀ k m, resolves s' k m ↔ (k = p.newPublicKey ∧ m = p.msaId) ∨ resolves s k m) := by
  have he := eff_of_dispatch h
  unfold resolves
  generalize hc : Call.addPublicKeyToMsa owner sigOwner sigNew p = c at he
  cases he with
  | noop =>
    subst hc
    -- the no-op case cannot come from this call
    simp only [dispatch, bind_eq_ok_iff] at h
    obtain ⟨_, _, h⟩ := h
    obtain ⟨r1, r2, _, _, _, _, _, hk, _, h8⟩ := addPublicKeyToMsa_ok h
    have := congrArg (fun s : State => s.keyToMsa.get p.newPublicKey) h8
    simp [withKey, hk] at this
  | create => simp at hc
  | sponsored => simp at hc
  | provider hl hn hk =>
    obtain ⟨k, _, hk | hk⟩ := hk
    · rw [← hc] at hk; simp at hk
    · rw [← hc] at hk; simp at hk
  | grant => simp at hc
  | revoke hcc =>
    rcases hcc with hcc | hcc
    · rw [← hc] at hcc; simp at hcc
    · rw [← hc] at hcc; simp at hcc
  | addKey hv1 hv2 hr1 hr2 ho hk hcc =>
    simp only [Call.addPublicKeyToMsa.injEq] at hc
    obtain ⟨e1, e2, e3, e4⟩ := hc
    subst e1; subst e2; subst e3; subst e4
    have hw : env.block < p.expiration ∧ p.expiration < env.block + cfg.window := by
      simp only [SigRegistry.register, bind_eq_ok_iff, ensure_eq_ok_iff] at hr1
      obtain ⟨_, w1, _, w2, _⟩ := hr1
      exact ⟨w2, w1⟩
    refine ⟨ho, hv1, hv2, hw.1, hw.2, by rw [hk]; simp, ?_⟩
    intro k m
    rw [show (_ : State).keyToMsa.get k = _ from withKey_get _ _ _ _]
    split
    · rename_i e
      subst e
      rw [hk]
      simp [eq_comm]
    · rename_i e
      have : ¬ k = p.newPublicKey := fun h => e h.symm
      simp [this]
  | delete _ _ hcc =>
    rcases hcc with hcc | hcc
    · rw [← hc] at hcc; simp at hcc
    · rw [← hc] at hcc; simp at hcc
  | revokeSchemas => simp at hc

example : ∃ s', dispatch exCfg (exEnv 2) (run exCfg State.init (exHistory.take 3)) (.signed 5)
    (.addPublicKeyToMsa 200 1 2 ⟨2, 50, 201⟩) = .ok s' := ⟨_, rfl⟩

end Verif.Msa
