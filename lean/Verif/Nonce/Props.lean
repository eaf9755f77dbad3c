import Verif.Nonce.Model
import Verif.Msa.PropsKeys
/-!
# Properties of the nonce check: C65
-/

namespace Verif.Nonce

/-- C65 as stated: a transaction accepted once is never accepted again. -/
def C65_full : Prop :=
  ∀ (s s1 : Accounts) (who : AccountId) (n : Nat) (pays : Bool) (later : List Op),
    preDispatch s who n pays = .ok s1 → ∀ s2, preDispatch (run s1 later) who n pays ≠ .ok s2

/-- C65 is false for a free transaction of an account that does not exist: the new nonce is not stored. -/
theorem C65_full_false : ¬ C65_full := fun h => h ∅ ∅ 200 0 false [] rfl ∅ rfl

/-- C65 is false for paying transactions as well, if the account is removed in between. -/
theorem C65_reaped : ∃ s1 s2, preDispatch ∅ 200 0 true = .ok s1 ∧
    preDispatch (run s1 [.reap 200]) 200 0 true = .ok s2 := ⟨_, _, rfl, rfl⟩

/-- The replay has an effect: key 200 deletes key 201 of its account with a free transaction, key 201 is added
again, and the same transaction with the same nonce deletes it a second time. -/
theorem C65_deletion_replayed :
    let keys := Msa.runTx Msa.exCfg Msa.State.init (Msa.exHistory.take 4)
    let one := submit Msa.exCfg (Msa.exEnv 3) (∅, keys) 200 0 false (.deleteMsaPublicKey 201)
    let again := Msa.apply Msa.exCfg one.1.2 ⟨Msa.exEnv 4, .signed 200, .addPublicKeyToMsa 200 7 8 ⟨2, 60, 201⟩⟩
    let two := submit Msa.exCfg (Msa.exEnv 5) (one.1.1, again) 200 0 false (.deleteMsaPublicKey 201)
    one.2 = true ∧ one.1.2.keyToMsa.get 201 = none ∧ again.keyToMsa.get 201 = some 2 ∧
      two.2 = true ∧ two.1.2.keyToMsa.get 201 = none := by decide +kernel

theorem preDispatch_ok_iff (s s' : Accounts) (who : AccountId) (n : Nat) (pays : Bool) :
    preDispatch s who n pays = .ok s' ↔ n = (getAccount s who).nonce ∧
      (if pays || (getAccount s who).existing then
        s.insert who { getAccount s who with nonce := (getAccount s who).nonce + 1 } else s) = s' := by
  unfold preDispatch
  by_cases h : n = (getAccount s who).nonce
  · simp only [h, ne_eq, not_true_eq_false, if_false, true_and]
    split <;> simp
  · simp [h]

theorem getAccount_insert (s : Accounts) (who k : AccountId) (a : Account) :
    getAccount (s.insert who a) k = if who = k then a else getAccount s k := by
  unfold getAccount
  split
  · rename_i h; subst h; rw [SMap.get_insert_self]; rfl
  · rename_i h; rw [SMap.get_insert_ne _ h]

theorem nonce_apply (s : Accounts) (k : AccountId) (op : Op) (h : op ≠ .reap k) :
    (getAccount s k).nonce ≤ (getAccount (apply s op) k).nonce := by
  cases op with
  | tx who n pays =>
    simp only [apply]
    cases hp : preDispatch s who n pays with
    | error e => exact Nat.le_refl _
    | ok s' =>
      obtain ⟨_, rfl⟩ := (preDispatch_ok_iff _ _ _ _ _).1 hp
      show _ ≤ (getAccount (if _ then _ else s) k).nonce
      split
      · rw [getAccount_insert]
        split
        · rename_i e; subst e; exact Nat.le_succ _
        · exact Nat.le_refl _
      · exact Nat.le_refl _
  | refs who p c f =>
    simp only [apply, getAccount_insert]
    split
    · rename_i e; subst e; exact Nat.le_refl _
    · exact Nat.le_refl _
  | reap who =>
    have hne : who ≠ k := fun e => h (by rw [e])
    simp only [apply, getAccount]
    rw [SMap.get_erase_ne _ hne]

theorem nonce_run (s : Accounts) (k : AccountId) (l : List Op) (h : Op.reap k ∉ l) :
    (getAccount s k).nonce ≤ (getAccount (run s l) k).nonce := by
  induction l generalizing s with
  | nil => exact Nat.le_refl _
  | cons op l ih =>
    simp only [List.mem_cons, not_or] at h
    exact Nat.le_trans (nonce_apply s k op (Ne.symm h.1)) (ih (apply s op) h.2)

/-- C65 for transactions that pay a fee or come from an existing account, as long as the account is not
removed: after an accepted transaction, one with the same nonce is refused as stale for ever. Missing: free
transactions of accounts that do not exist (`C65_full_false`) and removed accounts (`C65_reaped`). -/
theorem C65_consumed_partial (s s1 : Accounts) (who : AccountId) (n : Nat) (pays pays' : Bool) (later : List Op)
    (h : preDispatch s who n pays = .ok s1)
    (hs : pays = true ∨ 0 < (getAccount s who).providers ∨ 0 < (getAccount s who).consumers ∨
      0 < (getAccount s who).sufficients)
    (hr : Op.reap who ∉ later) : preDispatch (run s1 later) who n pays' = .error .stale := by
  obtain ⟨hn, hs1⟩ := (preDispatch_ok_iff _ _ _ _ _).1 h
  have hc : (pays || (getAccount s who).existing) = true := by simpa [Account.existing] using hs
  rw [if_pos hc] at hs1
  have h1 : (getAccount s1 who).nonce = n + 1 := by
    rw [← hs1, getAccount_insert, if_pos rfl, hn]
  have h2 := nonce_run s1 who later hr
  have h3 : n < (getAccount (run s1 later) who).nonce := by omega
  unfold preDispatch
  rw [if_pos (Nat.ne_of_lt h3), if_pos h3]

/-- Transactions are accepted in the order of their nonces only: an accepted one has the current nonce. -/
theorem C65_in_order (s s1 : Accounts) (who : AccountId) (n : Nat) (pays : Bool)
    (h : preDispatch s who n pays = .ok s1) : n = (getAccount s who).nonce ∧
      ∀ k, k ≠ who → getAccount s1 k = getAccount s k := by
  obtain ⟨hn, hs1⟩ := (preDispatch_ok_iff _ _ _ _ _).1 h
  refine ⟨hn, fun k hk => ?_⟩
  rw [← hs1]
  split
  · rw [getAccount_insert, if_neg (Ne.symm hk)]
  · rfl

/-- A history that meets the hypotheses. -/
example : (preDispatch (run ∅ [.refs 5 1 0 0]) 5 0 false).toOption.isSome = true ∧
    (getAccount (run ∅ [.refs 5 1 0 0]) 5).existing = true ∧
    Op.reap 5 ∉ [Op.tx 5 1 true, .reap 6, .refs 5 2 0 0] := by decide

end Verif.Nonce
