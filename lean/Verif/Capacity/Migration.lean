import Verif.Capacity.Props
/-!
# Upgrade of the capacity storage to version 3: staking locks become freezes

pallets/capacity/src/migration/v3.rs. The migration is not in the list of the runtime any more
(runtime/frequency/src/lib.rs 321-322); chains at version 2 ran it.

Simplifications: weights and log lines are left out, as are the checks that only run under `try-runtime`.
`set_freeze` of the balances pallet fails for some accounts (too many freezes, reference counters); which ones
is a parameter. The release before is assumed to have kept the same books with the lock `netstkng` in place of
the freeze: its states are those of the model with the freezes read as locks.
-/

namespace Verif.Capacity

/-- What the migration reads and writes: the storage version, the storage of the pallet with the freezes, and
the locks with id `netstkng` of the balances pallet. -/
structure Upgrade where
  version : Nat
  state : State
  locks : SMap AccountId Balance

/-- `translate_lock_to_freeze`, migration/v3.rs 34-65: the error of `set_freeze` is only logged. -/
def translateLock (freezeOk : AccountId → Bool) (u : Upgrade) (who : AccountId) (amount : Balance) : Upgrade :=
  { u with
    state := if amount = 0 ∨ freezeOk who = true then setFreeze u.state who amount else u.state
    locks := u.locks.erase who }

/-- `get_unlocking_total_for`, migration/v3.rs 65-68. -/
def unlockingTotal (cfg : Config) (s : State) (who : AccountId) : Balance :=
  chunksTotal cfg ((s.unlocks.get who).getD [])

/-- `on_runtime_upgrade`, migration/v3.rs 77-119: all entries of `StakingAccountLedger`, in some order. -/
def migrateV3 (cfg : Config) (freezeOk : AccountId → Bool) (u : Upgrade) : Upgrade :=
  if 3 ≤ u.version then u
  else
    let u' := u.state.active.entries.foldl (fun u e =>
      translateLock freezeOk u e.1 (satAdd cfg e.2 (unlockingTotal cfg u.state e.1))) u
    { u' with version := 3 }

/-! ## What the property speaks about -/

/-- Amount under the staking lock of an account. -/
def Upgrade.lockOf (u : Upgrade) (w : AccountId) : Balance := (u.locks.get w).getD 0

/-- A chain of the release before: the states of the pallet with locks in place of freezes. -/
def before (cfg : Config) (hist : List Step) : Upgrade :=
  ⟨2, { run cfg .init hist with frozen := ∅ }, (run cfg .init hist).frozen⟩

/-- C97, the full statement: the upgrade turns the staking lock of every account into a freeze of the same
amount, whatever the balances pallet says to `set_freeze`. -/
def C97_full : Prop :=
  ∀ (cfg : Config) (freezeOk : AccountId → Bool) (hist : List Step) (w : AccountId),
    frozenOf (migrateV3 cfg freezeOk (before cfg hist)).state w = (before cfg hist).lockOf w ∧
    (migrateV3 cfg freezeOk (before cfg hist)).lockOf w = 0

/-! ## Lemmas -/

/-- What the loop does to one account. -/
theorem fold_translate (cfg : Config) (ok : AccountId → Bool) (es : List (AccountId × Balance)) :
    (es.map Prod.fst).Nodup → ∀ u : Upgrade,
    let u' := es.foldl (fun u e => translateLock ok u e.1 (satAdd cfg e.2 (unlockingTotal cfg u.state e.1))) u
    (∀ w, w ∉ es.map Prod.fst → frozenOf u'.state w = frozenOf u.state w ∧ u'.locks.get w = u.locks.get w) ∧
    (∀ w a, (w, a) ∈ es → u'.locks.get w = none ∧
      frozenOf u'.state w = if satAdd cfg a (unlockingTotal cfg u.state w) = 0 ∨ ok w = true then
        satAdd cfg a (unlockingTotal cfg u.state w) else frozenOf u.state w) ∧
    { u'.state with frozen := ∅ } = { u.state with frozen := ∅ } := by
  induction es with
  | nil => intro _ u; simp
  | cons e rest ih =>
    intro hn u
    rw [List.map_cons, List.nodup_cons] at hn
    obtain ⟨h1, h2, h3⟩ := ih hn.2 (translateLock ok u e.1 (satAdd cfg e.2 (unlockingTotal cfg u.state e.1)))
    rw [List.foldl_cons]
    generalize hu : translateLock ok u e.1 (satAdd cfg e.2 (unlockingTotal cfg u.state e.1)) = v at *
    have hun : v.state.unlocks = u.state.unlocks := by
      rw [← hu]; simp only [translateLock]; split <;> rfl
    have htot : ∀ w, unlockingTotal cfg v.state w = unlockingTotal cfg u.state w := by
      intro w; rw [unlockingTotal, unlockingTotal, hun]
    have hrest : { v.state with frozen := ∅ } = { u.state with frozen := ∅ } := by
      rw [← hu]; simp only [translateLock]; split <;> rfl
    have hfro : ∀ w, frozenOf v.state w = if e.1 = w then
        (if satAdd cfg e.2 (unlockingTotal cfg u.state w) = 0 ∨ ok w = true then
          satAdd cfg e.2 (unlockingTotal cfg u.state w) else frozenOf u.state w) else frozenOf u.state w := by
      intro w
      rw [← hu]
      by_cases hw : e.1 = w
      · subst hw
        simp only [translateLock, if_true]
        split
        · simp only [frozenOf, setFreeze]
          split
          · rename_i hz
            simp [hz]
          · simp
        · rfl
      · simp only [translateLock, if_neg hw]
        split
        · simp only [frozenOf, setFreeze]
          split
          · rw [SMap.get_erase_ne _ hw]
          · rw [SMap.get_insert_ne _ hw]
        · rfl
    have hlock : ∀ w, v.locks.get w = if e.1 = w then none else u.locks.get w := by
      intro w
      rw [← hu]
      simp only [translateLock, SMap.get_erase]
    refine ⟨?_, ?_, h3.trans hrest⟩
    · intro w hw
      rw [List.map_cons, List.mem_cons, not_or] at hw
      have hne : e.1 ≠ w := fun h => hw.1 h.symm
      rw [(h1 w hw.2).1, (h1 w hw.2).2, hfro, hlock, if_neg hne, if_neg hne]
      exact ⟨rfl, rfl⟩
    · intro w a hwa
      rcases List.mem_cons.1 hwa with rfl | hwa
      · rw [(h1 w hn.1).1, (h1 w hn.1).2, hfro, hlock, if_pos rfl, if_pos rfl]
        exact ⟨rfl, rfl⟩
      · have hne : e.1 ≠ w := by
          intro h
          subst h
          exact hn.1 (List.mem_map.2 ⟨_, hwa, rfl⟩)
        rw [(h2 w a hwa).1, (h2 w a hwa).2, htot, hfro, if_neg hne]
        exact ⟨rfl, rfl⟩

theorem migrateV3_account (cfg : Config) (ok : AccountId → Bool) (hist : List Step) (w : AccountId) :
    let u := before cfg hist
    let u' := migrateV3 cfg ok u
    ((run cfg .init hist).active.get w = none → frozenOf u'.state w = 0 ∧ u'.lockOf w = u.lockOf w) ∧
    (∀ a, (run cfg .init hist).active.get w = some a → u'.lockOf w = 0 ∧
      frozenOf u'.state w = if u.lockOf w = 0 ∨ ok w = true then u.lockOf w else 0) := by
  intro u u'
  have hinv := inv_run (cfg := cfg) hist (inv_init cfg)
  obtain ⟨h1, h2, -⟩ := fold_translate cfg ok u.state.active.entries u.state.active.nodup u
  have hu' : u' = { u.state.active.entries.foldl (fun u e =>
      translateLock ok u e.1 (satAdd cfg e.2 (unlockingTotal cfg u.state e.1))) u with version := 3 } := rfl
  have hlock : u.lockOf w = frozenOf (run cfg .init hist) w := rfl
  have hf0 : frozenOf u.state w = 0 := rfl
  constructor
  · intro hn
    have hk : w ∉ u.state.active.entries.map Prod.fst := alookup_none_iff.1 hn
    obtain ⟨e1, e2⟩ := h1 w hk
    rw [hu']
    refine ⟨by rw [← hf0, ← e1], ?_⟩
    show (_ : Option Balance).getD 0 = _
    rw [e2]
    rfl
  · intro a ha
    obtain ⟨e1, e2⟩ := h2 w a ((SMap.mem_entries_iff _ _ _).2 ha)
    have hact : actOf (run cfg .init hist) w = a := by rw [actOf, ha]; rfl
    have hb := hinv.bound w
    rw [hact] at hb
    have htot : satAdd cfg a (unlockingTotal cfg u.state w) = u.lockOf w := by
      rw [hlock, hinv.frozen, hact]
      have : unlockingTotal cfg u.state w = sumChunks (chunksOf (run cfg .init hist) w) :=
        chunksTotal_eq (l := chunksOf (run cfg .init hist) w) (by omega)
      rw [this, satAdd]
      omega
    rw [hu']
    refine ⟨?_, ?_⟩
    · show (_ : Option Balance).getD 0 = 0
      rw [e1]
      rfl
    · rw [htot, hf0] at e2
      exact e2

/-! ## C97 -/

/-- C97, partial: for every history of the release before and every account with active stake whose freeze the
balances pallet accepts, the lock is gone and the freeze has exactly its amount, which is the active stake
together with the unlocking chunks. Missing: accounts that only have unlocking chunks keep the lock and get no
freeze, and accounts whose freeze is refused lose the lock without getting a freeze, see `C97_full_false`. -/
theorem C97_active_stakers_partial (cfg : Config) (freezeOk : AccountId → Bool) (hist : List Step) (w : AccountId)
    (ha : 0 < actOf (run cfg .init hist) w) (hok : freezeOk w = true) :
    let u := before cfg hist
    let u' := migrateV3 cfg freezeOk u
    u'.lockOf w = 0 ∧ frozenOf u'.state w = u.lockOf w ∧
    frozenOf u'.state w =
      actOf (run cfg .init hist) w + ((chunksOf (run cfg .init hist) w).map Chunk.value).sum := by
  intro u u'
  cases hg : (run cfg .init hist).active.get w with
  | none => simp [actOf, hg] at ha
  | some a =>
    obtain ⟨h1, h2⟩ := (migrateV3_account cfg freezeOk hist w).2 a hg
    rw [hok] at h2
    simp only [or_true, if_true] at h2
    exact ⟨h1, h2, h2.trans ((inv_run hist (inv_init cfg)).frozen w)⟩

/-- C97, partial: if the balances pallet accepts the freezes, no staked or unlocking token becomes spendable by
the upgrade: each account has its amount under a lock or under a freeze, never both. -/
theorem C97_nothing_released_partial (cfg : Config) (freezeOk : AccountId → Bool) (hist : List Step) (w : AccountId)
    (hok : freezeOk w = true) :
    let u := before cfg hist
    let u' := migrateV3 cfg freezeOk u
    (u'.lockOf w = u.lockOf w ∧ frozenOf u'.state w = 0) ∨ (u'.lockOf w = 0 ∧ frozenOf u'.state w = u.lockOf w) := by
  intro u u'
  cases hg : (run cfg .init hist).active.get w with
  | none => exact .inl ⟨((migrateV3_account cfg freezeOk hist w).1 hg).2, ((migrateV3_account cfg freezeOk hist w).1 hg).1⟩
  | some a =>
    obtain ⟨h1, h2⟩ := (migrateV3_account cfg freezeOk hist w).2 a hg
    rw [hok] at h2
    simp only [or_true, if_true] at h2
    exact .inr ⟨h1, h2⟩

/-- C97: the ledgers, targets, capacity, unlocking chunks and epochs are untouched, and a chain at version 3 is
not changed, so running the upgrade again changes nothing. -/
theorem C97_rest_untouched (cfg : Config) (freezeOk : AccountId → Bool) (u : Upgrade) :
    { (migrateV3 cfg freezeOk u).state with frozen := ∅ } = { u.state with frozen := ∅ } ∧
    (3 ≤ u.version → migrateV3 cfg freezeOk u = u) ∧
    migrateV3 cfg freezeOk (migrateV3 cfg freezeOk u) = migrateV3 cfg freezeOk u := by
  by_cases hv : 3 ≤ u.version
  · simp [migrateV3, hv]
  · refine ⟨?_, fun h => absurd h hv, ?_⟩
    · simp only [migrateV3, if_neg hv]
      exact (fold_translate cfg freezeOk u.state.active.entries u.state.active.nodup u).2.2
    · rw [migrateV3, if_pos (by simp [migrateV3, hv])]

/-- Account 7 stakes 500 and unstakes all of it; account 8 stakes 100. -/
def exUnstaked : List Step :=
  [⟨exEnv, .stake 7 1 500⟩, ⟨exEnv, .stake 8 1 100⟩, ⟨exEnv, .unstake 7 1 500⟩]

/-- C97 in full is false: the 500 tokens of account 7 stay under the lock, which no code of the new release
removes; and if the balances pallet refuses the freeze of account 8, its 100 staked tokens become spendable. -/
theorem C97_full_false : ¬ C97_full ∧
    (migrateV3 exCfg (fun _ => true) (before exCfg exUnstaked)).lockOf 7 = 500 ∧
    frozenOf (migrateV3 exCfg (fun _ => true) (before exCfg exUnstaked)).state 7 = 0 ∧
    (migrateV3 exCfg (fun _ => false) (before exCfg exUnstaked)).lockOf 8 = 0 ∧
    frozenOf (migrateV3 exCfg (fun _ => false) (before exCfg exUnstaked)).state 8 = 0 ∧
    actOf (migrateV3 exCfg (fun _ => false) (before exCfg exUnstaked)).state 8 = 100 := by
  refine ⟨?_, by decide, by decide, by decide, by decide, by decide⟩
  intro h
  have := (h exCfg (fun _ => true) exUnstaked 7).2
  revert this
  decide

/-- The hypotheses of the partial theorem hold: account 7 of the example history has stake and a chunk. -/
example : frozenOf (migrateV3 exCfg (fun _ => true) (before exCfg exHist)).state 7 = 800 :=
  (C97_active_stakers_partial exCfg (fun _ => true) exHist 7 (by decide) rfl).2.2.trans (by decide)

end Verif.Capacity
