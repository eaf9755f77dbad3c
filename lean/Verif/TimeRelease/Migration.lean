import Verif.TimeRelease.Props
/-!
# Upgrade of the time-release storage to version 2: vesting locks become freezes

pallets/time-release/src/migration/v2.rs. The migration is not in the list of the runtime any more
(runtime/frequency/src/lib.rs 321-322); chains at version 1 ran it.

Simplifications: weights and log lines are left out, as are the checks that only run under `try-runtime`.
`set_freeze` of the balances pallet fails for some accounts (too many freezes, reference counters); which ones
is a parameter. The release before is assumed to have kept the same books with the lock `timeRels` in place of
the freeze: its states are those of the model with the freezes read as locks.
-/

namespace Verif.TimeRelease

/-- What the migration reads and writes: the storage version, the schedules and accounts, and the locks with id
`timeRels` of the balances pallet. -/
structure Upgrade where
  version : Nat
  state : State
  locks : SMap AccountId Balance

/-- `saturating_add` on `u128`. -/
def satAdd (a b : Balance) : Balance := min (2 ^ 128 - 1) (a + b)

/-- `calculate_total_scheduled_frozen_for_account`, migration/v2.rs 168-182: the whole amounts of the schedules,
with zero for one that overflows. -/
def totalScheduled (l : List Sched) : Balance := l.foldl (fun acc c => satAdd acc (c.total.getD 0)) 0

/-- `translate_lock_to_freeze`, migration/v2.rs 30-64: the error of `set_freeze` is only logged. -/
def translateLock (freezeOk : AccountId → Bool) (u : Upgrade) (who : AccountId) (amount : Balance) : Upgrade :=
  { u with
    state := match setFreeze ⟨freezeOk who, true⟩ u.state who amount with
      | .ok s => s
      | .error _ => u.state
    locks := u.locks.erase who }

/-- `on_runtime_upgrade`, migration/v2.rs 73-125: all keys of `ReleaseSchedules`, in some order. -/
def migrateV2 (freezeOk : AccountId → Bool) (u : Upgrade) : Upgrade :=
  if 2 ≤ u.version then u
  else
    let u' := u.state.schedules.keys.foldl
      (fun u who => translateLock freezeOk u who (totalScheduled (schedulesOf u.state who))) u
    { u' with version := 2 }

/-! ## What the property speaks about -/

/-- Amount under the vesting lock of an account. -/
def Upgrade.lockOf (u : Upgrade) (w : AccountId) : Balance := (u.locks.get w).getD 0

/-- A chain of the release before: the state of the pallet with locks in place of freezes. -/
def before (s : State) : Upgrade :=
  ⟨1, { s with accounts := s.accounts.mapVals (fun _ a => { a with freeze := 0 }) },
   s.accounts.mapVals (fun _ a => a.freeze)⟩

/-- C98, the full statement: on every chain the upgrade turns the vesting lock of every account into a freeze of
the same amount, whatever the balances pallet says to `set_freeze`. -/
def C98_full : Prop :=
  ∀ (cfg : Config) (env : Env) (s0 s1 : State) (items) (_ : Fresh cfg s0) (_ : genesis cfg env s0 items = some s1)
    (hist : List Step) (freezeOk : AccountId → Bool) (w : AccountId),
    (acct (migrateV2 freezeOk (before (run cfg s1 hist))).state w).freeze = (before (run cfg s1 hist)).lockOf w ∧
    (migrateV2 freezeOk (before (run cfg s1 hist))).lockOf w = 0

/-! ## Lemmas -/

theorem before_acct (s : State) (w : AccountId) :
    acct (before s).state w = { acct s w with freeze := 0 } ∧ (before s).lockOf w = (acct s w).freeze ∧
    schedulesOf (before s).state w = schedulesOf s w := by
  refine ⟨?_, ?_, rfl⟩
  · simp only [acct, before, SMap.get_mapVals]
    cases s.accounts.get w <;> rfl
  · simp only [acct, before, Upgrade.lockOf, SMap.get_mapVals]
    cases s.accounts.get w <;> rfl

theorem totalScheduled_eq (l : List Sched) (h : ∀ c ∈ l, c.Valid) :
    totalScheduled l = min (2 ^ 128 - 1) (l.map (fun c => c.perPeriod * c.count)).sum := by
  suffices H : ∀ a : Nat, a ≤ 2 ^ 128 - 1 → l.foldl (fun acc c => satAdd acc (c.total.getD 0)) a =
      min (2 ^ 128 - 1) (a + (l.map (fun c => c.perPeriod * c.count)).sum) by
    have := H 0 (by omega)
    rw [Nat.zero_add] at this
    exact this
  induction l with
  | nil => intro a ha; simp; omega
  | cons c rest ih =>
    intro a ha
    have ht : c.total.getD 0 = c.perPeriod * c.count := by
      rw [Sched.total, checked_eq_some_iff.2 ⟨(h c (by simp)).total, rfl⟩]
      rfl
    rw [List.foldl_cons, ih (fun c hc => h c (by simp [hc])) _ (by unfold satAdd; omega), ht]
    simp only [List.map_cons, List.sum_cons, satAdd]
    omega

/-- What the loop does to one account. -/
theorem fold_translate (ok : AccountId → Bool) (ks : List AccountId) : ks.Nodup → ∀ u : Upgrade,
    let u' := ks.foldl (fun u who => translateLock ok u who (totalScheduled (schedulesOf u.state who))) u
    (∀ w, w ∉ ks → acct u'.state w = acct u.state w ∧ u'.locks.get w = u.locks.get w) ∧
    (∀ w, w ∈ ks → u'.locks.get w = none ∧
      acct u'.state w = if totalScheduled (schedulesOf u.state w) = 0 ∨ ok w = true then
        { acct u.state w with freeze := totalScheduled (schedulesOf u.state w) } else acct u.state w) ∧
    u'.state.schedules = u.state.schedules ∧ u'.state.block = u.state.block ∧ u'.state.burned = u.state.burned := by
  induction ks with
  | nil => intro _ u; simp
  | cons k rest ih =>
    intro hn u
    rw [List.nodup_cons] at hn
    obtain ⟨h1, h2, h3, h4, h5⟩ := ih hn.2 (translateLock ok u k (totalScheduled (schedulesOf u.state k)))
    rw [List.foldl_cons]
    generalize hu : translateLock ok u k (totalScheduled (schedulesOf u.state k)) = v at *
    have hst : v.state = if totalScheduled (schedulesOf u.state k) = 0 ∨ ok k = true then
        setAcct u.state k { acct u.state k with freeze := totalScheduled (schedulesOf u.state k) } else u.state := by
      rw [← hu]
      simp only [translateLock, setFreeze, ensure]
      split <;> rename_i hc
      · split at hc
        · rename_i hd
          rw [if_pos hd]
          cases hc
          rfl
        · cases hc
      · split at hc
        · cases hc
        · rename_i hd
          rw [if_neg hd]
    have hsch : v.state.schedules = u.state.schedules := by rw [hst]; split <;> rfl
    have hbl : v.state.block = u.state.block := by rw [hst]; split <;> rfl
    have hbu : v.state.burned = u.state.burned := by rw [hst]; split <;> rfl
    have hso : ∀ w, schedulesOf v.state w = schedulesOf u.state w := by
      intro w; rw [schedulesOf, schedulesOf, hsch]
    have hac : ∀ w, acct v.state w = if k = w then
        (if totalScheduled (schedulesOf u.state w) = 0 ∨ ok w = true then
          { acct u.state w with freeze := totalScheduled (schedulesOf u.state w) } else acct u.state w)
        else acct u.state w := by
      intro w
      rw [hst]
      by_cases hw : k = w
      · subst hw
        rw [if_pos rfl]
        split
        · rw [acct_setAcct, if_pos rfl]
        · rfl
      · rw [if_neg hw]
        split
        · rw [acct_setAcct, if_neg (Ne.symm hw)]
        · rfl
    have hlock : ∀ w, v.locks.get w = if k = w then none else u.locks.get w := by
      intro w
      rw [← hu]
      simp only [translateLock, SMap.get_erase]
    refine ⟨?_, ?_, h3.trans hsch, h4.trans hbl, h5.trans hbu⟩
    · intro w hw
      rw [List.mem_cons, not_or] at hw
      have hne : k ≠ w := fun h => hw.1 h.symm
      rw [(h1 w hw.2).1, (h1 w hw.2).2, hac, hlock, if_neg hne, if_neg hne]
      exact ⟨rfl, rfl⟩
    · intro w hw
      by_cases hk : k = w
      · subst hk
        rw [(h1 k hn.1).1, (h1 k hn.1).2, hac, hlock, if_pos rfl, if_pos rfl]
        exact ⟨rfl, rfl⟩
      · have hw' : w ∈ rest := by
          rcases List.mem_cons.1 hw with h | h
          · exact absurd h.symm hk
          · exact h
        rw [(h2 w hw').1, (h2 w hw').2, hso, hac, if_neg hk]
        exact ⟨rfl, rfl⟩

theorem migrateV2_account {cfg : Config} {s : State} (hc : ∀ w, Covered cfg s w) (ok : AccountId → Bool) (w : AccountId) :
    let u' := migrateV2 ok (before s)
    (schedulesOf u'.state w = schedulesOf s w) ∧ u'.state.block = s.block ∧
    (s.schedules.get w = none → acct u'.state w = { acct s w with freeze := 0 } ∧ u'.lockOf w = (acct s w).freeze) ∧
    (s.schedules.get w ≠ none → u'.lockOf w = 0 ∧ (ok w = true → acct u'.state w =
      { acct s w with freeze := min (2 ^ 128 - 1) ((schedulesOf s w).map (fun c => c.perPeriod * c.count)).sum })) := by
  intro u'
  obtain ⟨b1, b2, b3⟩ := before_acct s w
  obtain ⟨h1, h2, h3, h4, -⟩ := fold_translate ok (before s).state.schedules.keys (before s).state.schedules.nodup (before s)
  have hu' : u' = { (before s).state.schedules.keys.foldl
      (fun u who => translateLock ok u who (totalScheduled (schedulesOf u.state who))) (before s) with version := 2 } := rfl
  generalize (before s).state.schedules.keys.foldl
      (fun u who => translateLock ok u who (totalScheduled (schedulesOf u.state who))) (before s) = v at *
  have hmem : w ∈ (before s).state.schedules.keys ↔ s.schedules.get w ≠ none := by
    rw [SMap.mem_keys_iff]
    show (s.schedules.get w).isSome = true ↔ _
    cases s.schedules.get w <;> simp
  rw [hu']
  refine ⟨?_, h4, ?_, ?_⟩
  · show (v.state.schedules.get w).getD [] = _
    rw [h3]
    rfl
  · intro hn
    obtain ⟨e1, e2⟩ := h1 w (fun h => hmem.1 h hn)
    refine ⟨e1.trans b1, ?_⟩
    rw [← b2]
    show (v.locks.get w).getD 0 = _
    rw [e2]
    rfl
  · intro hn
    obtain ⟨e1, e2⟩ := h2 w (hmem.2 hn)
    refine ⟨?_, ?_⟩
    · show (v.locks.get w).getD 0 = 0
      rw [e1]
      rfl
    · intro hok
      rw [b3, b1, totalScheduled_eq _ (hc w).valid, hok] at e2
      simp only [or_true, if_true] at e2
      exact e2

theorem migrateV2_covered {cfg : Config} {s : State} (hc : ∀ w, Covered cfg s w) (ok : AccountId → Bool)
    (hok : ∀ w, ok w = true) (w : AccountId) : Covered cfg (migrateV2 ok (before s)).state w := by
  obtain ⟨h1, h2, h3, h4⟩ := migrateV2_account hc ok w
  have hcov := hc w
  by_cases hn : s.schedules.get w = none
  · have he : schedulesOf s w = [] := by rw [schedulesOf, hn]; rfl
    refine ⟨?_, ?_, ?_, ?_⟩
    · rw [h1, he]; simp
    · rw [h1, he]; simp [unvestedAll]
    · rw [(h3 hn).1]; exact Nat.two_pow_pos 128
    · rw [h1]; exact hcov.few
  · refine ⟨?_, ?_, ?_, ?_⟩
    · rw [h1]; exact hcov.valid
    · rw [h1, h2, (h4 hn).2 (hok w)]
      have := unvestedAll_le_totals hcov.valid s.block
      have h5 := hcov.covers
      have h6 := hcov.fits
      show _ ≤ min _ _
      omega
    · rw [(h4 hn).2 (hok w)]
      show min _ _ < 2 ^ 128
      omega
    · rw [h1]; exact hcov.few

/-! ## C98 -/

/-- C98, partial: on every chain, for every account with schedules whose freeze the balances pallet accepts, the
lock is gone and the freeze is the sum of the whole amounts of its schedules — at least what has not vested.
Balances and schedules stay as they were. Missing: the freeze is not the amount of the lock, it includes the part
that had been released, see `C98_full_false`. -/
theorem C98_covers_partial (cfg : Config) (env : Env) (s0 s1 : State) (items) (h0 : Fresh cfg s0)
    (hg : genesis cfg env s0 items = some s1) (hist : List Step) (freezeOk : AccountId → Bool) (w : AccountId)
    (hw : schedulesOf (run cfg s1 hist) w ≠ []) (hok : freezeOk w = true) :
    let s := run cfg s1 hist
    let u' := migrateV2 freezeOk (before s)
    u'.lockOf w = 0 ∧ unvestedAll (schedulesOf u'.state w) u'.state.block ≤ (acct u'.state w).freeze ∧
    (acct u'.state w).freeze = min (2 ^ 128 - 1) ((schedulesOf s w).map (fun c => c.perPeriod * c.count)).sum ∧
    (acct u'.state w).free = (acct s w).free ∧ (acct u'.state w).reserved = (acct s w).reserved ∧
    schedulesOf u'.state w = schedulesOf s w := by
  intro s u'
  have hc := reach_covered h0 hg hist
  obtain ⟨h1, h2, -, h4⟩ := migrateV2_account hc freezeOk w
  have hn : (run cfg s1 hist).schedules.get w ≠ none := by
    intro h
    exact hw (by rw [schedulesOf, h]; rfl)
  obtain ⟨e1, e2⟩ := h4 hn
  have e2 := e2 hok
  refine ⟨e1, ?_, by rw [e2], by rw [e2], by rw [e2], h1⟩
  rw [h1, h2, e2]
  have := unvestedAll_le_totals (hc w).valid (run cfg s1 hist).block
  have h5 := (hc w).covers
  have h6 := (hc w).fits
  show _ ≤ min _ _
  omega

/-- C98, partial: if the balances pallet accepts the freezes, then after the upgrade and any further history the
freeze of every account covers what has not vested, and a claim sets it to exactly that amount. -/
theorem C98_later_claim_exact_partial (cfg : Config) (env : Env) (s0 s1 : State) (items) (h0 : Fresh cfg s0)
    (hg : genesis cfg env s0 items = some s1) (hist : List Step) (freezeOk : AccountId → Bool)
    (hok : ∀ w, freezeOk w = true) (more : List Step) :
    let t := run cfg (migrateV2 freezeOk (before (run cfg s1 hist))).state more
    (∀ w, unvestedAll (schedulesOf t w) t.block ≤ (acct t w).freeze) ∧
    (∀ env' t' w n, doClaim env' t w = .ok (t', n) →
      (acct t' w).freeze = unvestedAll (schedulesOf t w) t.block ∧
      (acct t' w).freeze = unvestedAll (schedulesOf t' w) t'.block) := by
  intro t
  have hc := covered_run more (migrateV2_covered (reach_covered h0 hg hist) freezeOk hok)
  refine ⟨fun w => (hc w).covers, ?_⟩
  intro env' t' w n h
  obtain ⟨-, hr⟩ := (doClaim_ok_iff (hc w)).1 h
  cases hr
  have hb : ∀ a : Account, (setAcct (storeSchedules t w (live t w)) w a).block = t.block := by
    intro a
    show (storeSchedules t w (live t w)).block = _
    rw [store_block]
  have hs : ∀ a : Account, schedulesOf (setAcct (storeSchedules t w (live t w)) w a) w = live t w := by
    intro a
    show schedulesOf (storeSchedules t w (live t w)) w = _
    rw [schedulesOf_store, if_pos rfl]
  rw [acct_setAcct, if_pos rfl, hb, hs, unvestedAll_live]
  exact ⟨rfl, rfl⟩

/-- C98: accounts without schedules, and everything but locks and freezes, stay as they were; a chain at version 2
is not changed, so running the upgrade again changes nothing. -/
theorem C98_rest_untouched (freezeOk : AccountId → Bool) (u : Upgrade) :
    (∀ w, u.state.schedules.get w = none → acct (migrateV2 freezeOk u).state w = acct u.state w ∧
      (migrateV2 freezeOk u).lockOf w = u.lockOf w) ∧
    (∀ w, (acct (migrateV2 freezeOk u).state w).free = (acct u.state w).free ∧
      (acct (migrateV2 freezeOk u).state w).reserved = (acct u.state w).reserved ∧
      (acct (migrateV2 freezeOk u).state w).other = (acct u.state w).other) ∧
    (migrateV2 freezeOk u).state.schedules = u.state.schedules ∧
    (migrateV2 freezeOk u).state.block = u.state.block ∧
    (2 ≤ u.version → migrateV2 freezeOk u = u) ∧
    migrateV2 freezeOk (migrateV2 freezeOk u) = migrateV2 freezeOk u := by
  by_cases hv : 2 ≤ u.version
  · simp [migrateV2, hv]
  · obtain ⟨h1, h2, h3, h4, -⟩ := fold_translate freezeOk u.state.schedules.keys u.state.schedules.nodup u
    have hu : migrateV2 freezeOk u = { u.state.schedules.keys.foldl
      (fun u who => translateLock freezeOk u who (totalScheduled (schedulesOf u.state who))) u with version := 2 } := by
      rw [migrateV2, if_neg hv]
    have hidem : migrateV2 freezeOk (migrateV2 freezeOk u) = migrateV2 freezeOk u := by
      rw [migrateV2, if_pos (by rw [hu])]
    refine ⟨?_, ?_, by rw [hu]; exact h3, by rw [hu]; exact h4, fun h => absurd h hv, hidem⟩
    · intro w hw
      have hk : w ∉ u.state.schedules.keys := by
        rw [SMap.mem_keys_iff]
        show ¬ (u.state.schedules.get w).isSome = true
        rw [hw]
        decide
      obtain ⟨e1, e2⟩ := h1 w hk
      rw [hu]
      refine ⟨e1, ?_⟩
      show (_ : Option Balance).getD 0 = _
      rw [e2]
      rfl
    · intro w
      rw [hu]
      by_cases hk : w ∈ u.state.schedules.keys
      · have := (h2 w hk).2
        simp only [this]
        split <;> exact ⟨rfl, rfl, rfl⟩
      · have := (h1 w hk).1
        simp only [this, and_self]

/-- Account 2 receives 30 tokens over three periods of five blocks and claims after two of them. -/
def exClaimed : List Step :=
  [.call exEnv (some 1) (.transfer 2 exSched), .tick 11, .call exEnv (some 1) (.claimFor 2)]

/-- C98 in full is false: account 2 has 10 tokens under its lock after the claim; the upgrade freezes 30 and so
takes back the 20 released tokens until the next claim. If the balances pallet refuses the freeze, the 10 tokens
that have not vested become spendable. -/
theorem C98_full_false : ¬ C98_full ∧
    (before (run exCfg exStart exClaimed)).lockOf 2 = 10 ∧
    (acct (migrateV2 (fun _ => true) (before (run exCfg exStart exClaimed))).state 2).freeze = 30 ∧
    (migrateV2 (fun _ => false) (before (run exCfg exStart exClaimed))).lockOf 2 = 0 ∧
    (acct (migrateV2 (fun _ => false) (before (run exCfg exStart exClaimed))).state 2).freeze = 0 := by
  refine ⟨?_, by decide, by decide, by decide, by decide⟩
  intro h
  have := (h exCfg exEnv exStart exStart [] exStart_fresh rfl exClaimed (fun _ => true) 2).1
  revert this
  decide

/-- The hypotheses of the partial theorems hold of it, and the next claim brings the freeze back to 10. -/
example : schedulesOf (run exCfg exStart exClaimed) 2 ≠ [] ∧
    (doClaim exEnv (migrateV2 (fun _ => true) (before (run exCfg exStart exClaimed))).state 2).toOption.map
      (fun r => ((acct r.1 2).freeze, r.2)) = some (10, 10) := by decide

end Verif.TimeRelease
