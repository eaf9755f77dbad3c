import Verif.TimeRelease.Model
/-!
# Helper lemmas on the time-release pallet
-/

namespace Verif.TimeRelease

/-- What a schedule must satisfy, in terms of exact arithmetic. -/
structure Sched.Valid (c : Sched) : Prop where
  period : 0 < c.period
  count : 0 < c.count
  ends : c.start + c.period * c.count < 2 ^ 32
  total : c.perPeriod * c.count < 2 ^ 128

/-- The amount not yet vested at a block, from the meaning of the fields: the `k`-th period ends at
`start + k * period`, and each period that has not ended keeps `perPeriod` back. -/
def unvested (c : Sched) (now : BlockNumber) : Balance :=
  (((List.range c.count).map (· + 1)).filter (fun k => now < c.start + k * c.period)).length * c.perPeriod

/-- The same for a list. -/
def unvestedAll (l : List Sched) (now : BlockNumber) : Balance := (l.map (unvested · now)).sum

theorem filter_range (q n : Nat) : ((List.range n).filter (fun k => q ≤ k)).length = n - q := by
  induction n with
  | zero => simp
  | succ n ih =>
    rw [List.range_succ, List.filter_append, List.length_append, ih]
    by_cases h : q ≤ n
    · simp [h]; omega
    · simp [h]; omega

theorem unvested_eq (c : Sched) (h : 0 < c.period) (now : BlockNumber) :
    unvested c now = c.perPeriod * (c.count - (now - c.start) / c.period) := by
  have hk : ∀ k, (now < c.start + (k + 1) * c.period) ↔ (now - c.start) / c.period ≤ k := by
    intro k
    rw [← Nat.lt_succ_iff, Nat.succ_eq_add_one, Nat.div_lt_iff_lt_mul h]
    have : 0 < (k + 1) * c.period := Nat.mul_pos (by omega) h
    omega
  unfold unvested
  rw [List.filter_map, List.length_map, Nat.mul_comm]
  congr 1
  rw [← filter_range]
  congr 1
  apply List.filter_congr
  intro k _
  simp only [Function.comp_apply, decide_eq_decide]
  exact hk k

theorem unvested_le_total (c : Sched) (h : 0 < c.period) (now : BlockNumber) : unvested c now ≤ c.perPeriod * c.count := by
  rw [unvested_eq c h]
  exact Nat.mul_le_mul_left _ (Nat.sub_le _ _)

theorem unvested_anti (c : Sched) {t1 t2 : BlockNumber} (h : t1 ≤ t2) : unvested c t2 ≤ unvested c t1 := by
  unfold unvested
  refine Nat.mul_le_mul_right _ ?_
  apply List.Sublist.length_le
  apply List.monotone_filter_right
  intro k hk
  simp only [decide_eq_true_eq] at *
  omega

theorem unvestedAll_anti (l : List Sched) {t1 t2 : BlockNumber} (h : t1 ≤ t2) : unvestedAll l t2 ≤ unvestedAll l t1 := by
  unfold unvestedAll
  induction l with
  | nil => simp
  | cons c l ih =>
    have := unvested_anti c h
    simp only [List.map_cons, List.sum_cons]
    omega

theorem checked_eq_some_iff {m x y : Nat} : checked m x = some y ↔ x < m ∧ x = y := by
  unfold checked
  split <;> simp_all

theorem frozen_eq {c : Sched} (h : c.Valid) (now : BlockNumber) : c.frozen now = some (unvested c now) := by
  have hle := unvested_le_total c h.period now
  have ht := h.total
  unfold Sched.frozen
  rw [if_neg (by have := h.period; omega), checked_eq_some_iff, ← unvested_eq c h.period]
  exact ⟨by omega, rfl⟩

theorem ensureValid_ok_iff {cfg : Config} {c : Sched} {t : Balance} :
    ensureValid cfg c = .ok t ↔ c.Valid ∧ t = c.perPeriod * c.count ∧ cfg.minTransfer ≤ t := by
  have hend : c.end.isSome = true ↔ c.start + c.period * c.count < 2 ^ 32 := by
    unfold Sched.end checked
    constructor
    · intro h
      split at h
      · simp only [Option.bind_some] at h
        split at h
        · omega
        · simp at h
      · simp at h
    · intro h
      rw [if_pos (by omega), Option.bind_some, if_pos (by omega)]
      rfl
  unfold ensureValid
  simp only [bind_eq_ok_iff, ensure_eq_ok_iff, okOr_eq_ok_iff, pure_eq_ok_iff, hend]
  constructor
  · rintro ⟨_, h1, _, h2, _, h3, total, h4, _, h5, rfl⟩
    unfold Sched.total at h4
    rw [checked_eq_some_iff] at h4
    obtain ⟨h4, rfl⟩ := h4
    exact ⟨⟨by omega, by omega, h3, h4⟩, rfl, h5⟩
  · rintro ⟨⟨h1, h2, h3, h4⟩, rfl, h5⟩
    refine ⟨(), by omega, (), by omega, (), h3, _, ?_, (), h5, rfl⟩
    unfold Sched.total
    rw [checked_eq_some_iff]
    exact ⟨h4, rfl⟩

theorem amounts_eq {now : BlockNumber} {l : List Sched} (h : ∀ c ∈ l, c.Valid) :
    amounts now l = some (l.map (unvested · now)) := by
  induction l with
  | nil => rfl
  | cons c l ih =>
    rw [amounts, frozen_eq (h c (by simp)), ih (fun c hc => h c (by simp [hc]))]
    rfl

theorem addAll_eq {xs : List Balance} : ∀ {acc : Balance}, acc + xs.sum < 2 ^ 128 → addAll xs acc = some (acc + xs.sum) := by
  induction xs with
  | nil => intro acc _; simp [addAll]
  | cons x xs ih =>
    intro acc h
    rw [List.sum_cons] at h ⊢
    have : checked (2 ^ 128) (acc + x) = some (acc + x) := by
      rw [checked_eq_some_iff]; exact ⟨by omega, rfl⟩
    rw [addAll, this, Option.bind_some, ih (by omega), Nat.add_assoc]

/-! ## Invariant -/

/-- What holds of an account in every reachable state. -/
structure Covered (cfg : Config) (s : State) (who : AccountId) : Prop where
  valid : ∀ c ∈ schedulesOf s who, c.Valid
  covers : unvestedAll (schedulesOf s who) s.block ≤ (acct s who).freeze
  fits : (acct s who).freeze < 2 ^ 128
  few : (schedulesOf s who).length ≤ cfg.maxSchedules

/-- The schedules that still keep something back. -/
def live (s : State) (who : AccountId) : List Sched :=
  (schedulesOf s who).filter (fun c => unvested c s.block ≠ 0)

theorem unvestedAll_live (s : State) (who : AccountId) :
    unvestedAll (live s who) s.block = unvestedAll (schedulesOf s who) s.block := by
  unfold unvestedAll live
  induction schedulesOf s who with
  | nil => rfl
  | cons c l ih =>
    rw [List.filter_cons]
    by_cases h : unvested c s.block = 0
    · rw [if_neg (by simp [h]), ih]; simp [h]
    · rw [if_pos (by simp [h]), List.map_cons, List.sum_cons, ih]; simp

theorem schedulesOf_store (s : State) (who who' : AccountId) (l : List Sched) :
    schedulesOf (storeSchedules s who l) who' = if who' = who then l else schedulesOf s who' := by
  unfold schedulesOf storeSchedules
  by_cases hl : l = []
  · rw [if_pos hl]
    by_cases h : who' = who
    · subst h; simp [hl, SMap.get_erase_self]
    · rw [if_neg h, SMap.get_erase_ne _ (Ne.symm h)]
  · rw [if_neg hl]
    by_cases h : who' = who
    · subst h; simp [SMap.get_insert_self]
    · rw [if_neg h, SMap.get_insert_ne _ (Ne.symm h)]

theorem store_block (s : State) (who : AccountId) (l : List Sched) : (storeSchedules s who l).block = s.block := by
  unfold storeSchedules; split <;> rfl

theorem store_accounts (s : State) (who : AccountId) (l : List Sched) :
    (storeSchedules s who l).accounts = s.accounts := by
  unfold storeSchedules; split <;> rfl

theorem store_burned (s : State) (who : AccountId) (l : List Sched) : (storeSchedules s who l).burned = s.burned := by
  unfold storeSchedules; split <;> rfl

theorem acct_store (s : State) (who : AccountId) (l : List Sched) (w : AccountId) :
    acct (storeSchedules s who l) w = acct s w := by
  unfold acct; rw [store_accounts]

theorem acct_setAcct (s : State) (who : AccountId) (a : Account) (w : AccountId) :
    acct (setAcct s who a) w = if w = who then a else acct s w := by
  unfold acct setAcct
  by_cases h : w = who
  · subst h; simp [SMap.get_insert_self]
  · simp only [if_neg h, SMap.get_insert_ne _ (Ne.symm h)]

theorem pruneAndGet_eq {cfg : Config} {s : State} {who : AccountId} (h : Covered cfg s who) :
    pruneAndGet s who = .ok (storeSchedules s who (live s who), unvestedAll (schedulesOf s who) s.block) := by
  have hlive : (schedulesOf s who).filter (fun c => c.frozen s.block ≠ some 0) = live s who := by
    apply List.filter_congr
    intro c hc
    rw [frozen_eq (h.valid c hc)]
    simp
  have h1 : prune s who = .ok (storeSchedules s who (live s who), live s who) := by
    unfold prune
    rw [amounts_eq h.valid, hlive]
    rfl
  unfold pruneAndGet
  have hv : ∀ c ∈ live s who, c.Valid := fun c hc => h.valid c (List.mem_of_mem_filter hc)
  have hsum := unvestedAll_live s who
  have h2 : addAll ((live s who).map (unvested · s.block)) 0 = some (unvestedAll (schedulesOf s who) s.block) := by
    have := addAll_eq (xs := (live s who).map (unvested · s.block)) (acc := 0) (by
      have h3 := h.covers
      have h4 := h.fits
      unfold unvestedAll at hsum h3
      omega)
    rw [this, Nat.zero_add]
    exact congrArg some hsum
  simp only [h1, bind, Except.bind]
  rw [amounts_eq hv]
  simp only [okOr, h2]
  rfl

theorem setFreeze_ok_iff {env : Env} {s s' : State} {who : AccountId} {n : Balance} :
    setFreeze env s who n = .ok s' ↔ (n = 0 ∨ env.freezeOk = true) ∧ setAcct s who { acct s who with freeze := n } = s' := by
  unfold setFreeze
  simp only [bind_eq_ok_iff, ensure_eq_ok_iff, pure_eq_ok_iff]
  constructor
  · rintro ⟨_, h1, h2⟩; exact ⟨h1, h2⟩
  · rintro ⟨h1, h2⟩; exact ⟨(), h1, h2⟩

theorem doClaim_ok_iff {cfg : Config} {env : Env} {s : State} {who : AccountId} (h : Covered cfg s who) {r} :
    doClaim env s who = .ok r ↔
      (unvestedAll (schedulesOf s who) s.block = 0 ∨ env.freezeOk = true) ∧
      r = (setAcct (storeSchedules s who (live s who)) who
            { acct s who with freeze := unvestedAll (schedulesOf s who) s.block },
          unvestedAll (schedulesOf s who) s.block) := by
  unfold doClaim
  simp only [bind_eq_ok_iff, pruneAndGet_eq h, Except.ok.injEq, setFreeze_ok_iff, pure_eq_ok_iff]
  constructor
  · rintro ⟨p, rfl, s', ⟨h1, rfl⟩, rfl⟩
    exact ⟨h1, by rw [acct_store]⟩
  · rintro ⟨h1, rfl⟩
    exact ⟨_, rfl, _, ⟨h1, rfl⟩, by rw [acct_store]⟩

/-- The accounts after a transfer of the balances pallet. -/
theorem currencyTransfer_ok {cfg : Config} {env : Env} {s s' : State} {src dest : AccountId} {n : Balance}
    (h : currencyTransfer cfg env s src dest n = .ok s') :
    canWithdraw cfg env (acct s src) n ∧ canDeposit cfg (acct s dest) n ∧ s'.block = s.block ∧
    s'.schedules = s.schedules ∧ (∀ w, (acct s' w).freeze = (acct s w).freeze) ∧
    (∀ w, (acct s' w).reserved = (acct s w).reserved) ∧
    (src = dest → s' = s) ∧
    (src ≠ dest → (acct s' dest).free = (acct s dest).free + n ∧ (∀ w, w ≠ src → w ≠ dest → acct s' w = acct s w) ∧
      (if (acct s src).free - n < cfg.ed ∧ (acct s src).reserved = 0
        then (acct s' src).free = 0 ∧ s'.burned = s.burned + ((acct s src).free - n)
        else (acct s' src).free = (acct s src).free - n ∧ s'.burned = s.burned)) := by
  unfold currencyTransfer at h
  simp only [bind_eq_ok_iff, ensure_eq_ok_iff] at h
  obtain ⟨_, h1, _, h2, h⟩ := h
  refine ⟨h1, h2, ?_⟩
  by_cases he : src = dest
  · rw [if_pos he, pure_eq_ok_iff] at h
    subst h
    exact ⟨rfl, rfl, fun _ => rfl, fun _ => rfl, fun _ => rfl, fun e => absurd he e⟩
  · rw [if_neg he, pure_eq_ok_iff] at h
    subst h
    unfold increase decrease
    by_cases hc : (acct s src).free - n < cfg.ed ∧ (acct s src).reserved = 0
    · simp only [if_pos hc]
      refine ⟨rfl, rfl, ?_, ?_, fun e => absurd e he, fun _ => ⟨?_, ?_, ?_, rfl⟩⟩
      · intro w
        rw [acct_setAcct]
        split
        · rename_i e; subst e
          show (acct (setAcct s src { acct s src with free := 0 }) w).freeze = _
          rw [acct_setAcct, if_neg (Ne.symm he)]
        · show (acct (setAcct s src { acct s src with free := 0 }) w).freeze = _
          rw [acct_setAcct]
          split
          · rename_i e; rw [e]
          · rfl
      · intro w
        rw [acct_setAcct]
        split
        · rename_i e; subst e
          show (acct (setAcct s src { acct s src with free := 0 }) w).reserved = _
          rw [acct_setAcct, if_neg (Ne.symm he)]
        · show (acct (setAcct s src { acct s src with free := 0 }) w).reserved = _
          rw [acct_setAcct]
          split
          · rename_i e; rw [e]
          · rfl
      · rw [acct_setAcct, if_pos rfl]
        show (acct (setAcct s src { acct s src with free := 0 }) dest).free + n = _
        rw [acct_setAcct, if_neg (Ne.symm he)]
      · intro w h3 h4
        rw [acct_setAcct, if_neg h4]
        show acct (setAcct s src { acct s src with free := 0 }) w = _
        rw [acct_setAcct, if_neg h3]
      · rw [acct_setAcct, if_neg he]
        show (acct (setAcct s src { acct s src with free := 0 }) src).free = _
        rw [acct_setAcct, if_pos rfl]
    · simp only [if_neg hc]
      refine ⟨rfl, rfl, ?_, ?_, fun e => absurd e he, fun _ => ⟨?_, ?_, ?_, rfl⟩⟩
      · intro w
        rw [acct_setAcct]
        split
        · rename_i e; subst e
          rw [acct_setAcct, if_neg (Ne.symm he)]
        · rw [acct_setAcct]
          split
          · rename_i e; rw [e]
          · rfl
      · intro w
        rw [acct_setAcct]
        split
        · rename_i e; subst e
          rw [acct_setAcct, if_neg (Ne.symm he)]
        · rw [acct_setAcct]
          split
          · rename_i e; rw [e]
          · rfl
      · rw [acct_setAcct, if_pos rfl, acct_setAcct, if_neg (Ne.symm he)]
      · intro w h3 h4
        rw [acct_setAcct, if_neg h4, acct_setAcct, if_neg h3]
      · rw [acct_setAcct, if_neg he, acct_setAcct, if_pos rfl]

/-- The observable outcome of a successful vesting transfer. -/
structure Moved (cfg : Config) (env : Env) (s : State) (src dest : AccountId) (c : Sched) (s' : State) : Prop where
  valid : c.Valid
  least : cfg.minTransfer ≤ c.perPeriod * c.count
  block : s'.block = s.block
  withdraw : canWithdraw cfg env (acct s src) (c.perPeriod * c.count)
  deposit : canDeposit cfg (acct s dest) (c.perPeriod * c.count)
  fits : unvestedAll (schedulesOf s dest) s.block + c.perPeriod * c.count < 2 ^ 128
  room : (live s dest).length < cfg.maxSchedules
  schedules : ∀ w, schedulesOf s' w = if w = dest then live s dest ++ [c] else schedulesOf s w
  freeze : ∀ w, (acct s' w).freeze =
    if w = dest then unvestedAll (schedulesOf s dest) s.block + c.perPeriod * c.count else (acct s w).freeze
  reserved : ∀ w, (acct s' w).reserved = (acct s w).reserved
  self : src = dest → (∀ w, (acct s' w).free = (acct s w).free) ∧ s'.burned = s.burned
  free : src ≠ dest → (acct s' dest).free = (acct s dest).free + c.perPeriod * c.count ∧
    (∀ w, w ≠ src → w ≠ dest → (acct s' w).free = (acct s w).free) ∧
    (if (acct s src).free - c.perPeriod * c.count < cfg.ed ∧ (acct s src).reserved = 0
      then (acct s' src).free = 0 ∧ s'.burned = s.burned + ((acct s src).free - c.perPeriod * c.count)
      else (acct s' src).free = (acct s src).free - c.perPeriod * c.count ∧ s'.burned = s.burned)

theorem doTransfer_ok {cfg : Config} {env : Env} {s s' : State} {src dest : AccountId} {c : Sched}
    (hcov : Covered cfg s dest) (h : doTransfer cfg env s src dest c = .ok s') : Moved cfg env s src dest c s' := by
  unfold doTransfer at h
  simp only [bind_eq_ok_iff, pruneAndGet_eq hcov, Except.ok.injEq, ensure_eq_ok_iff, okOr_eq_ok_iff,
    pure_eq_ok_iff, setFreeze_ok_iff, ensureValid_ok_iff] at h
  obtain ⟨n, ⟨hv, rfl, hmin⟩, p, rfl, total, htot, s1, hs1, s2, ⟨_, rfl⟩, _, hroom, rfl⟩ := h
  rw [checked_eq_some_iff] at htot
  obtain ⟨hfits, rfl⟩ := htot
  obtain ⟨h1, h2, h3, h4, h5, h6, h7, h8⟩ := currencyTransfer_ok hs1
  simp only [acct_store, store_block, store_burned] at h1 h2 h3 h5 h6 h7 h8
  have hsch : ∀ w, schedulesOf s1 w = if w = dest then live s dest else schedulesOf s w := by
    intro w
    rw [← schedulesOf_store]
    unfold schedulesOf
    rw [h4]
  have hroom' : (schedulesOf s1 dest).length < cfg.maxSchedules := hroom
  rw [hsch, if_pos rfl] at hroom'
  refine ⟨hv, hmin, h3, h1, h2, hfits, hroom', ?_, ?_, ?_, ?_, ?_⟩
  · intro w
    by_cases hw : w = dest
    · subst hw
      rw [if_pos rfl]
      show ((s1.schedules.insert w (schedulesOf s1 w ++ [c])).get w).getD [] = _
      rw [SMap.get_insert_self, hsch, if_pos rfl]
      rfl
    · rw [if_neg hw]
      show ((s1.schedules.insert dest (schedulesOf s1 dest ++ [c])).get w).getD [] = _
      rw [SMap.get_insert_ne _ (Ne.symm hw)]
      have := hsch w
      rw [if_neg hw] at this
      exact this
  · intro w
    show (acct (setAcct s1 dest _) w).freeze = _
    rw [acct_setAcct]
    split
    · rfl
    · exact h5 w
  · intro w
    show (acct (setAcct s1 dest _) w).reserved = _
    rw [acct_setAcct]
    split
    · rename_i e; subst e; exact h6 w
    · exact h6 w
  · intro e
    have e1 := h7 e
    constructor
    · intro w
      show (acct (setAcct s1 dest _) w).free = _
      rw [acct_setAcct]
      split
      · rename_i e2; subst e2; rw [e1]; simp only [acct_store]
      · rw [e1, acct_store]
    · show s1.burned = _
      rw [e1, store_burned]
  · intro e
    obtain ⟨g1, g2, g3⟩ := h8 e
    have hf : ∀ w F, (acct (setAcct s1 dest { acct s1 dest with freeze := F }) w).free = (acct s1 w).free := by
      intro w F
      rw [acct_setAcct]
      split
      · rename_i e2; subst e2; rfl
      · rfl
    refine ⟨(hf _ _).trans g1, fun w h1 h2 => (hf _ _).trans (by rw [g2 w h1 h2]), ?_⟩
    split at g3
    · rename_i hc
      rw [if_pos hc]
      exact ⟨(hf _ _).trans g3.1, g3.2⟩
    · rename_i hc
      rw [if_neg hc]
      exact ⟨(hf _ _).trans g3.1, g3.2⟩

theorem sumTotals_ok {cfg : Config} {l : List Sched} : ∀ {acc t : Balance}, sumTotals cfg l acc = .ok t →
    (∀ c ∈ l, c.Valid) ∧ t = acc + (l.map (fun c => c.perPeriod * c.count)).sum ∧ (l ≠ [] → t < 2 ^ 128) := by
  induction l with
  | nil =>
    intro acc t h
    simp only [sumTotals, pure_eq_ok_iff] at h
    subst h
    simp
  | cons c l ih =>
    intro acc t h
    simp only [sumTotals, bind_eq_ok_iff, okOr_eq_ok_iff, ensureValid_ok_iff, checked_eq_some_iff] at h
    obtain ⟨n, ⟨hv, rfl, _⟩, a, ⟨hlt, rfl⟩, h⟩ := h
    obtain ⟨h1, h2, h3⟩ := ih h
    refine ⟨?_, ?_, ?_⟩
    · intro c' hc'
      rcases List.mem_cons.1 hc' with rfl | hc'
      · exact hv
      · exact h1 c' hc'
    · rw [h2, List.map_cons, List.sum_cons]; omega
    · intro _
      by_cases hl : l = []
      · subst hl
        simp at h2
        omega
      · exact h3 hl

/-- The observable outcome of a successful replacement of the schedules. -/
theorem doUpdate_ok {cfg : Config} {env : Env} {s s' : State} {who : AccountId} {l : List Sched}
    (h : doUpdate cfg env s who l = .ok s') :
    l.length ≤ cfg.maxSchedules ∧ (∀ c ∈ l, c.Valid) ∧ (l.map (fun c => c.perPeriod * c.count)).sum < 2 ^ 128 ∧
    (l.map (fun c => c.perPeriod * c.count)).sum ≤ (acct s who).free ∧
    s'.block = s.block ∧ s'.burned = s.burned ∧ (∀ w, schedulesOf s' w = if w = who then l else schedulesOf s w) ∧
    (∀ w, acct s' w = if w = who then { acct s who with freeze := (l.map (fun c => c.perPeriod * c.count)).sum }
      else acct s w) := by
  unfold doUpdate at h
  simp only [bind_eq_ok_iff, ensure_eq_ok_iff] at h
  obtain ⟨_, hlen, h⟩ := h
  refine ⟨hlen, ?_⟩
  split at h
  · rename_i hl
    subst hl
    rw [setFreeze_ok_iff] at h
    obtain ⟨_, rfl⟩ := h
    refine ⟨by simp, by simp, by simp, rfl, rfl, ?_, ?_⟩
    · intro w
      have := schedulesOf_store s who w []
      unfold storeSchedules at this
      rw [if_pos rfl] at this
      exact this
    · intro w
      rw [acct_setAcct]
      rfl
  · rename_i hl
    simp only [bind_eq_ok_iff, ensure_eq_ok_iff, setFreeze_ok_iff, pure_eq_ok_iff] at h
    obtain ⟨total, ht, _, hle, s1, ⟨_, rfl⟩, rfl⟩ := h
    obtain ⟨h1, h2, h3⟩ := sumTotals_ok ht
    rw [Nat.zero_add] at h2
    subst h2
    refine ⟨h1, h3 hl, hle, rfl, rfl, ?_, ?_⟩
    · intro w
      have := schedulesOf_store s who w l
      unfold storeSchedules at this
      rw [if_neg hl] at this
      exact this
    · intro w
      show acct (setAcct _ _ _) w = _
      rw [acct_setAcct]

theorem unvestedAll_le_totals {l : List Sched} (h : ∀ c ∈ l, c.Valid) (now : BlockNumber) :
    unvestedAll l now ≤ (l.map (fun c => c.perPeriod * c.count)).sum := by
  unfold unvestedAll
  induction l with
  | nil => simp
  | cons c l ih =>
    have h1 := unvested_le_total c (h c (by simp)).period now
    have h2 := ih (fun c hc => h c (by simp [hc]))
    simp only [List.map_cons, List.sum_cons]
    omega

/-- The three kinds of successful calls. -/
theorem dispatch_ok {cfg : Config} {env : Env} {s : State} {origin : Option AccountId} {c : Call} {r}
    (h : dispatch cfg env s origin c = .ok r) :
    (∃ who p, doClaim env s who = .ok p ∧ r = (p.1, some (who, p.2)) ∧
      ((c = .claim ∧ origin = some who) ∨ (c = .claimFor who ∧ origin ≠ none))) ∨
    (∃ src dest sch s', c = .transfer dest sch ∧ origin = some src ∧ doTransfer cfg env s src dest sch = .ok s' ∧
      r = (s', none)) ∨
    (∃ who l s', c = .update who l ∧ origin = none ∧ doUpdate cfg env s who l = .ok s' ∧ r = (s', none)) := by
  cases c with
  | claim =>
    simp only [dispatch, bind_eq_ok_iff, okOr_eq_ok_iff, pure_eq_ok_iff] at h
    obtain ⟨who, rfl, p, hp, rfl⟩ := h
    exact .inl ⟨who, p, hp, rfl, .inl ⟨rfl, rfl⟩⟩
  | transfer dest sch =>
    simp only [dispatch, bind_eq_ok_iff, okOr_eq_ok_iff, pure_eq_ok_iff] at h
    obtain ⟨src, rfl, _, _, s', hs, rfl⟩ := h
    exact .inr (.inl ⟨src, dest, sch, s', rfl, rfl, hs, rfl⟩)
  | update who l =>
    simp only [dispatch, bind_eq_ok_iff, ensure_eq_ok_iff, pure_eq_ok_iff] at h
    obtain ⟨_, rfl, s', hs, rfl⟩ := h
    exact .inr (.inr ⟨who, l, s', rfl, rfl, hs, rfl⟩)
  | claimFor dest =>
    simp only [dispatch, bind_eq_ok_iff, okOr_eq_ok_iff, pure_eq_ok_iff] at h
    obtain ⟨w, rfl, p, hp, rfl⟩ := h
    exact .inl ⟨dest, p, hp, rfl, .inr ⟨rfl, by simp⟩⟩

theorem covered_step {cfg : Config} {s : State} (h : ∀ who, Covered cfg s who) (x : Step) (who : AccountId) :
    Covered cfg (apply cfg s x) who := by
  have hw := h who
  cases x with
  | tick n =>
    refine ⟨hw.valid, ?_, hw.fits, hw.few⟩
    exact Nat.le_trans (unvestedAll_anti _ (Nat.le_add_right _ _)) hw.covers
  | elsewhere w free reserved other =>
    simp only [apply]
    split
    · have hf : (acct (setAcct s w ⟨free, reserved, other, (acct s w).freeze⟩) who).freeze = (acct s who).freeze := by
        rw [acct_setAcct]
        split
        · rename_i e; subst e; rfl
        · rfl
      exact ⟨hw.valid, by rw [hf]; exact hw.covers, by rw [hf]; exact hw.fits, hw.few⟩
    · exact hw
  | call env origin c =>
    simp only [apply]
    generalize hd : dispatch cfg env s origin c = d
    cases d with
    | error e => exact hw
    | ok r =>
      rcases dispatch_ok hd with ⟨w, p, hp, rfl, _⟩ | ⟨src, dest, sch, s', _, _, hs, rfl⟩ | ⟨w, l, s', _, _, hs, rfl⟩
      · rw [doClaim_ok_iff (h w)] at hp
        obtain ⟨_, rfl⟩ := hp
        have hsch : schedulesOf (setAcct (storeSchedules s w (live s w)) w
            { acct s w with freeze := unvestedAll (schedulesOf s w) s.block }) who =
            if who = w then live s w else schedulesOf s who := schedulesOf_store s w who (live s w)
        have hblk : (setAcct (storeSchedules s w (live s w)) w
            { acct s w with freeze := unvestedAll (schedulesOf s w) s.block }).block = s.block := store_block _ _ _
        by_cases e : who = w
        · subst e
          rw [if_pos rfl] at hsch
          refine ⟨?_, ?_, ?_, ?_⟩
          · rw [hsch]; exact fun c hc => hw.valid c (List.mem_of_mem_filter hc)
          · rw [hsch, hblk, unvestedAll_live, acct_setAcct, if_pos rfl]
          · rw [acct_setAcct, if_pos rfl]
            have h1 := hw.covers
            have h2 := hw.fits
            show unvestedAll _ _ < _
            omega
          · rw [hsch]
            exact Nat.le_trans (List.length_filter_le _ _) hw.few
        · rw [if_neg e] at hsch
          refine ⟨?_, ?_, ?_, ?_⟩
          · rw [hsch]; exact hw.valid
          · rw [hsch, hblk, acct_setAcct, if_neg e, acct_store]; exact hw.covers
          · rw [acct_setAcct, if_neg e, acct_store]; exact hw.fits
          · rw [hsch]; exact hw.few
      · have hm := doTransfer_ok (h dest) hs
        by_cases e : who = dest
        · subst e
          have hsch := hm.schedules who
          have hfr := hm.freeze who
          rw [if_pos rfl] at hsch hfr
          refine ⟨?_, ?_, ?_, ?_⟩
          · rw [hsch]
            intro c' hc'
            rcases List.mem_append.1 hc' with hc' | hc'
            · exact hw.valid c' (List.mem_of_mem_filter hc')
            · rw [List.mem_singleton] at hc'; subst hc'; exact hm.valid
          · rw [hsch, hfr, hm.block]
            have h1 := unvested_le_total sch hm.valid.period s.block
            have h2 := unvestedAll_live s who
            simp only [unvestedAll, List.map_append, List.sum_append, List.map_cons, List.map_nil, List.sum_cons,
              List.sum_nil] at h2 ⊢
            omega
          · rw [hfr]; exact hm.fits
          · rw [hsch, List.length_append, List.length_singleton]
            exact hm.room
        · have hsch := hm.schedules who
          have hfr := hm.freeze who
          rw [if_neg e] at hsch hfr
          exact ⟨by rw [hsch]; exact hw.valid, by rw [hsch, hfr, hm.block]; exact hw.covers,
            by rw [hfr]; exact hw.fits, by rw [hsch]; exact hw.few⟩
      · obtain ⟨h1, h2, h3, h4, h5, _, h6, h7⟩ := doUpdate_ok hs
        have hsch := h6 who
        have hac := h7 who
        by_cases e : who = w
        · subst e
          rw [if_pos rfl] at hsch hac
          exact ⟨by rw [hsch]; exact h2, by rw [hsch, hac]; exact unvestedAll_le_totals h2 _,
            by rw [hac]; exact h3, by rw [hsch]; exact h1⟩
        · rw [if_neg e] at hsch hac
          exact ⟨by rw [hsch]; exact hw.valid, by rw [hsch, hac, h5]; exact hw.covers,
            by rw [hac]; exact hw.fits, by rw [hsch]; exact hw.few⟩

theorem covered_run {cfg : Config} (hist : List Step) : ∀ {s : State}, (∀ who, Covered cfg s who) →
    ∀ who, Covered cfg (run cfg s hist) who := by
  induction hist with
  | nil => intro s h; exact h
  | cons x rest ih => intro s h; exact ih (covered_step h x)

/-! ## Backing -/

/-- The freeze is backed by tokens, and no account is left with dust. -/
structure Backed (cfg : Config) (s : State) (who : AccountId) : Prop where
  backed : (acct s who).freeze ≤ (acct s who).total
  dust : (acct s who).free = 0 ∨ cfg.ed ≤ (acct s who).free ∨ 0 < (acct s who).reserved

theorem backed_step {cfg : Config} {s : State} (h : ∀ who, Covered cfg s who) (hb : ∀ who, Backed cfg s who) (x : Step)
    (who : AccountId) : Backed cfg (apply cfg s x) who := by
  have hw := hb who
  cases x with
  | tick n => exact ⟨hw.backed, hw.dust⟩
  | elsewhere w free reserved other =>
    simp only [apply]
    split
    · rename_i hc
      by_cases e : who = w
      · subst e
        constructor
        · rw [acct_setAcct, if_pos rfl]; exact hc.1
        · rw [acct_setAcct, if_pos rfl]; exact hc.2
      · constructor
        · rw [acct_setAcct, if_neg e]; exact hw.backed
        · rw [acct_setAcct, if_neg e]; exact hw.dust
    · exact hw
  | call env origin c =>
    simp only [apply]
    generalize hd : dispatch cfg env s origin c = d
    cases d with
    | error e => exact hw
    | ok r =>
      have hw1 := hw.backed
      have hw2 := hw.dust
      unfold Account.total at hw1
      rcases dispatch_ok hd with ⟨w, p, hp, rfl, _⟩ | ⟨src, dest, sch, s', _, _, hs, rfl⟩ | ⟨w, l, s', _, _, hs, rfl⟩
      · rw [doClaim_ok_iff (h w)] at hp
        obtain ⟨_, rfl⟩ := hp
        by_cases e : who = w
        · subst e
          have h1 := (h who).covers
          constructor
          · rw [acct_setAcct, if_pos rfl]
            simp only [Account.total]
            omega
          · rw [acct_setAcct, if_pos rfl]; exact hw2
        · constructor
          · rw [acct_setAcct, if_neg e, acct_store]; exact hw1
          · rw [acct_setAcct, if_neg e, acct_store]; exact hw2
      · show Backed cfg s' who
        have hm := doTransfer_ok (h dest) hs
        have hcov := (h who).covers
        have hf := hm.freeze who
        have hr := hm.reserved who
        have hwd := hm.withdraw
        have hdep := hm.deposit
        unfold canWithdraw closable Account.frozen at hwd
        unfold canDeposit at hdep
        by_cases e : src = dest
        · subst e
          have hfree := (hm.self rfl).1 who
          by_cases ew : who = src
          · subst ew
            rw [if_pos rfl] at hf
            constructor
            · unfold Account.total
              omega
            · rw [hfree, hr]; exact hw2
          · rw [if_neg ew] at hf
            constructor
            · unfold Account.total
              omega
            · rw [hfree, hr]; exact hw2
        · obtain ⟨g1, g2, g3⟩ := hm.free e
          by_cases ew : who = dest
          · subst ew
            rw [if_pos rfl] at hf
            constructor
            · unfold Account.total
              omega
            · rw [g1, hr]; omega
          · rw [if_neg ew] at hf
            by_cases es : who = src
            · subst es
              split at g3
              · rename_i hc
                constructor
                · unfold Account.total
                  omega
                · exact .inl g3.1
              · rename_i hc
                constructor
                · unfold Account.total
                  omega
                · rw [g3.1, hr]
                  omega
            · have := g2 who es ew
              constructor
              · unfold Account.total
                omega
              · rw [this, hr]; exact hw2
      · obtain ⟨h1, h2, h3, h4, h5, _, h6, h7⟩ := doUpdate_ok hs
        have hac := h7 who
        by_cases e : who = w
        · subst e
          rw [if_pos rfl] at hac
          constructor
          · rw [hac]
            simp only [Account.total]
            omega
          · rw [hac]; exact hw2
        · rw [if_neg e] at hac
          constructor
          · rw [hac]; exact hw1
          · rw [hac]; exact hw2

theorem backed_run {cfg : Config} (hist : List Step) : ∀ {s : State}, (∀ who, Covered cfg s who) →
    (∀ who, Backed cfg s who) → ∀ who, Backed cfg (run cfg s hist) who := by
  induction hist with
  | nil => intro s _ h; exact h
  | cons x rest ih => intro s h hb; exact ih (covered_step h x) (backed_step h hb x)

end Verif.TimeRelease
