import Verif.TimeRelease.Lemmas
/-!
# Properties C60, C61, C62 and C74: the time-release pallet
-/

namespace Verif.TimeRelease

/-! ## Concrete history for the examples -/

/-- At most two schedules, existential deposit 10. -/
def exCfg : Config := ⟨0, 2, 10⟩

/-- Nothing stands in the way. -/
def exEnv : Env := ⟨true, true⟩

/-- Three accounts at the genesis. -/
def exStart : State :=
  ⟨100, ((SMap.empty.insert 1 ⟨1000, 0, 0, 0⟩).insert 2 ⟨500, 20, 300, 0⟩).insert 3 ⟨55, 0, 0, 0⟩, SMap.empty, 0⟩

/-- Ten tokens after each of three periods of five blocks. -/
def exSched : Sched := ⟨100, 5, 3, 10⟩

/-- A transfer, one to oneself, one too many, a claim after two periods, and a transfer that closes the
sender's account, burning 5. -/
def exHist : List Step :=
  [.call exEnv (some 1) (.transfer 2 exSched),
   .call exEnv (some 2) (.transfer 2 ⟨100, 1, 4, 20⟩),
   .call exEnv (some 1) (.transfer 2 ⟨100, 1, 4, 20⟩),
   .tick 11,
   .call exEnv (some 1) (.claimFor 2),
   .call exEnv (some 3) (.transfer 2 ⟨0, 1, 200, 0⟩),
   .call exEnv (some 3) (.transfer 1 ⟨200, 1, 5, 10⟩)]

/-- State after it, starting with the schedules of the genesis. -/
def exState : Option State := (genesis exCfg exEnv exStart [(1, ⟨0, 60, 2, 300⟩)]).map (fun s => run exCfg s exHist)

/-- A chain before the items of the genesis: no schedules, nothing frozen for them, no account with dust. -/
structure Fresh (cfg : Config) (s : State) : Prop where
  schedules : s.schedules = SMap.empty
  freeze : ∀ who, (acct s who).freeze = 0
  dust : ∀ who, (acct s who).free = 0 ∨ cfg.ed ≤ (acct s who).free ∨ 0 < (acct s who).reserved

theorem exStart_fresh : Fresh exCfg exStart := by
  have : ∀ who, acct exStart who = if who = 3 then ⟨55, 0, 0, 0⟩ else if who = 2 then ⟨500, 20, 300, 0⟩ else
      if who = 1 then ⟨1000, 0, 0, 0⟩ else .empty := by
    intro who
    unfold acct exStart
    simp only [SMap.get_insert]
    by_cases h3 : who = 3
    · simp [h3]
    · by_cases h2 : who = 2
      · simp [h2]
      · by_cases h1 : who = 1
        · simp [h1]
        · simp only [if_neg h3, if_neg h2, if_neg h1, if_neg (Ne.symm h3), if_neg (Ne.symm h2), if_neg (Ne.symm h1)]
          rfl
  refine ⟨rfl, ?_, ?_⟩
  · intro who
    rw [this]
    repeat' split
    all_goals rfl
  · intro who
    rw [this]
    repeat' split
    all_goals decide

theorem genesis_run {cfg : Config} {env : Env} (items : List (AccountId × Sched)) : ∀ {s s1 : State},
    genesis cfg env s items = some s1 → ∃ hist, s1 = run cfg s hist := by
  induction items with
  | nil => intro s s1 h; cases h; exact ⟨[], rfl⟩
  | cons x xs ih =>
    intro s s1 h
    rw [genesis, Option.bind_eq_some_iff] at h
    obtain ⟨s2, h1, h2⟩ := h
    obtain ⟨hist, rfl⟩ := ih h2
    refine ⟨.call env none (.update x.1 (schedulesOf s x.1 ++ [x.2])) :: hist, ?_⟩
    have : apply cfg s (.call env none (.update x.1 (schedulesOf s x.1 ++ [x.2]))) = s2 := by
      unfold genesisItem at h1
      generalize hd : doUpdate cfg env s x.1 (schedulesOf s x.1 ++ [x.2]) = d at h1
      cases d with
      | error e => cases h1
      | ok s3 =>
        cases h1
        simp [apply, dispatch, hd, ensure, bind, Except.bind, pure, Except.pure]
    show _ = run cfg (apply cfg s _) hist
    rw [this]

theorem start_covered {cfg : Config} {s : State} (h : Fresh cfg s) (who : AccountId) : Covered cfg s who := by
  have : schedulesOf s who = [] := by unfold schedulesOf; rw [h.schedules]; rfl
  refine ⟨?_, ?_, ?_, ?_⟩
  · rw [this]; simp
  · rw [this]; simp [unvestedAll]
  · rw [h.freeze]; decide
  · rw [this]; simp

theorem reach_covered {cfg : Config} {env : Env} {s0 s1 : State} {items} (h0 : Fresh cfg s0)
    (hg : genesis cfg env s0 items = some s1) (hist : List Step) (who : AccountId) : Covered cfg (run cfg s1 hist) who := by
  obtain ⟨h, rfl⟩ := genesis_run items hg
  exact covered_run hist (covered_run h (start_covered h0)) who

/-! ## C60 -/

/-- C60: for every schedule the pallet accepts and at all blocks, the frozen amount is `perPeriod` for each
period that has not ended; it never increases; it is the full amount until the first period has ended, and
zero from the end on, the end being `start + period * count`. -/
theorem C60_curve (cfg : Config) (c : Sched) (t : Balance) (h : ensureValid cfg c = .ok t) :
    t = c.perPeriod * c.count ∧ c.total = some t ∧ c.end = some (c.start + c.period * c.count) ∧
    (∀ now, c.frozen now = some (unvested c now)) ∧
    (∀ t1 t2 x1 x2, t1 ≤ t2 → c.frozen t1 = some x1 → c.frozen t2 = some x2 → x2 ≤ x1) ∧
    (∀ now, now < c.start + c.period → c.frozen now = some t) ∧
    (∀ now, c.start + c.period * c.count ≤ now → c.frozen now = some 0) := by
  rw [ensureValid_ok_iff] at h
  obtain ⟨hv, rfl, _⟩ := h
  refine ⟨rfl, ?_, ?_, frozen_eq hv, ?_, ?_, ?_⟩
  · unfold Sched.total
    rw [checked_eq_some_iff]
    exact ⟨hv.total, rfl⟩
  · have := hv.ends
    unfold Sched.end checked
    rw [if_pos (by omega), Option.bind_some, if_pos (by omega)]
    congr 1
    omega
  · intro t1 t2 x1 x2 h h1 h2
    rw [frozen_eq hv] at h1 h2
    cases h1
    cases h2
    exact unvested_anti c h
  · intro now h
    rw [frozen_eq hv, unvested_eq c hv.period, Nat.div_eq_of_lt (by have := hv.period; omega), Nat.sub_zero]
  · intro now h
    rw [frozen_eq hv, unvested_eq c hv.period]
    have : c.count ≤ (now - c.start) / c.period := by
      rw [Nat.le_div_iff_mul_le hv.period, Nat.mul_comm]
      omega
    rw [Nat.sub_eq_zero_of_le this, Nat.mul_zero]

/-- C60: what is released by a block is released in whole periods: at the end of the `k`-th period exactly
`k` amounts have been released, and none in between. -/
theorem C60_steps (cfg : Config) (c : Sched) (t : Balance) (h : ensureValid cfg c = .ok t) (k : Nat) (hk : k ≤ c.count)
    (d : Nat) (hd : d < c.period) :
    c.frozen (c.start + k * c.period + d) = some (t - k * c.perPeriod) := by
  rw [ensureValid_ok_iff] at h
  obtain ⟨hv, rfl, _⟩ := h
  rw [frozen_eq hv, unvested_eq c hv.period]
  have h1 : (c.start + k * c.period + d - c.start) / c.period = k := by
    have : c.start + k * c.period + d - c.start = d + k * c.period := by omega
    rw [this, Nat.add_mul_div_right _ _ hv.period, Nat.div_eq_of_lt hd, Nat.zero_add]
  rw [h1, Nat.mul_sub, Nat.mul_comm k]

/-- Hypotheses met, also at the extremes of the integer types. -/
example : ensureValid exCfg exSched = .ok 30 ∧ ensureValid exCfg ⟨0, 1, 2 ^ 32 - 1, 1⟩ = .ok (2 ^ 32 - 1) ∧
    ensureValid exCfg ⟨2 ^ 32 - 2, 1, 1, 2 ^ 128 - 1⟩ = .ok (2 ^ 128 - 1) ∧
    [99, 104, 105, 110, 114, 115, 4000000000].map exSched.frozen =
      [some 30, some 30, some 20, some 10, some 10, some 0, some 0] := by decide +kernel

/-! ## C61 -/

/-- C61: after every history, the freeze of every account is at least the sum of the unvested amounts of its
schedules, and the number of schedules is within the limit. -/
theorem C61_freeze_covers (cfg : Config) (env : Env) (s0 s1 : State) (items) (h0 : Fresh cfg s0)
    (hg : genesis cfg env s0 items = some s1) (hist : List Step) (who : AccountId) :
    let s := run cfg s1 hist
    unvestedAll (schedulesOf s who) s.block ≤ (acct s who).freeze ∧
    (schedulesOf s who).length ≤ cfg.maxSchedules ∧ (∀ c ∈ schedulesOf s who, c.Valid) := by
  have h := reach_covered h0 hg hist who
  exact ⟨h.covers, h.few, h.valid⟩

/-- C61: the freeze is backed by tokens on the account. -/
theorem C61_backed (cfg : Config) (env : Env) (s0 s1 : State) (items) (h0 : Fresh cfg s0)
    (hg : genesis cfg env s0 items = some s1) (hist : List Step) (who : AccountId) :
    (acct (run cfg s1 hist) who).freeze ≤ (acct (run cfg s1 hist) who).total := by
  obtain ⟨h, rfl⟩ := genesis_run items hg
  have hb : ∀ who, Backed cfg s0 who := fun who => ⟨by rw [h0.freeze]; exact Nat.zero_le _, h0.dust who⟩
  exact (backed_run hist (covered_run h (start_covered h0)) (backed_run h (start_covered h0) hb) who).backed

/-- C61: right after a claim the freeze is exactly the sum of the unvested amounts, for the schedules before
and for those that remain; these are the schedules that keep anything back. -/
theorem C61_claim_exact (cfg : Config) (env : Env) (s0 s1 : State) (items) (h0 : Fresh cfg s0)
    (hg : genesis cfg env s0 items = some s1) (hist : List Step) (env' : Env) (origin : Option AccountId) (c : Call)
    (s' : State) (who : AccountId) (amount : Balance)
    (h : dispatch cfg env' (run cfg s1 hist) origin c = .ok (s', some (who, amount))) :
    let s := run cfg s1 hist
    s'.block = s.block ∧
    (acct s' who).freeze = unvestedAll (schedulesOf s who) s.block ∧
    (acct s' who).freeze = unvestedAll (schedulesOf s' who) s.block ∧
    schedulesOf s' who = (schedulesOf s who).filter (fun c => unvested c s.block ≠ 0) ∧
    (∀ w, (acct s' w).free = (acct s w).free ∧ (acct s' w).reserved = (acct s w).reserved) ∧
    (∀ w, w ≠ who → acct s' w = acct s w ∧ schedulesOf s' w = schedulesOf s w) ∧
    ((c = .claim ∧ origin = some who) ∨ (c = .claimFor who ∧ origin ≠ none)) := by
  have hcov := reach_covered h0 hg hist
  generalize run cfg s1 hist = s at *
  rcases dispatch_ok h with ⟨w, p, hp, hr, ho⟩ | ⟨_, _, _, _, _, _, _, hr⟩ | ⟨_, _, _, _, _, _, hr⟩
  · simp only [Prod.mk.injEq, Option.some.injEq] at hr
    obtain ⟨rfl, rfl, rfl⟩ := hr
    rw [doClaim_ok_iff (hcov who)] at hp
    obtain ⟨_, rfl⟩ := hp
    have hsch : ∀ w, schedulesOf (setAcct (storeSchedules s who (live s who)) who
        { acct s who with freeze := unvestedAll (schedulesOf s who) s.block }) w =
        if w = who then live s who else schedulesOf s w := fun w => schedulesOf_store s who w (live s who)
    dsimp only
    refine ⟨store_block _ _ _, ?_, ?_, ?_, ?_, ?_, ho⟩
    · rw [acct_setAcct, if_pos rfl]
    · rw [acct_setAcct, if_pos rfl, hsch, if_pos rfl, unvestedAll_live]
    · rw [hsch, if_pos rfl]; rfl
    · intro w
      rw [acct_setAcct, acct_store]
      split
      · rename_i e; subst e; exact ⟨rfl, rfl⟩
      · exact ⟨rfl, rfl⟩
    · intro w hw
      rw [acct_setAcct, if_neg hw, acct_store, hsch, if_neg hw]
      exact ⟨rfl, rfl⟩
  · cases hr
  · cases hr

theorem sumTotals_no_panic (cfg : Config) (l : List Sched) : ∀ acc, sumTotals cfg l acc ≠ .error .panic := by
  induction l with
  | nil => intro acc h; simp [sumTotals, pure, Except.pure] at h
  | cons c l ih =>
    intro acc h
    simp only [sumTotals, ensureValid, bind_eq_error_iff, ensure_eq_error_iff, okOr_eq_error_iff, pure_eq_error_iff,
      reduceCtorEq, and_false, false_or, or_false, exists_false] at h
    obtain ⟨_, _, _, _, h⟩ := h
    exact ih _ h

/-- C61: no call panics, in any reachable state. -/
theorem C61_no_panic (cfg : Config) (env : Env) (s0 s1 : State) (items) (h0 : Fresh cfg s0)
    (hg : genesis cfg env s0 items = some s1) (hist : List Step) (env' : Env) (origin : Option AccountId) (c : Call) :
    dispatch cfg env' (run cfg s1 hist) origin c ≠ .error .panic := by
  have hcov := reach_covered h0 hg hist
  generalize run cfg s1 hist = s at *
  intro h
  have hclaim : ∀ who, doClaim env' s who ≠ .error .panic := by
    intro who hc
    simp only [doClaim, pruneAndGet_eq (hcov who), setFreeze, bind_eq_error_iff, ensure_eq_error_iff, pure_eq_error_iff,
      reduceCtorEq, and_false, false_or, or_false, exists_false] at hc
  cases c with
  | claim =>
    simp only [dispatch, bind_eq_error_iff, okOr_eq_error_iff, pure_eq_error_iff, reduceCtorEq, and_false, false_or,
      or_false, exists_false] at h
    obtain ⟨_, _, h⟩ := h
    exact hclaim _ h
  | claimFor dest =>
    simp only [dispatch, bind_eq_error_iff, okOr_eq_error_iff, pure_eq_error_iff, reduceCtorEq, and_false, false_or,
      or_false, exists_false] at h
    obtain ⟨_, _, h⟩ := h
    exact hclaim _ h
  | update who l =>
    simp only [dispatch, doUpdate, setFreeze, bind_eq_error_iff, ensure_eq_error_iff, pure_eq_error_iff, reduceCtorEq,
      and_false, false_or, or_false, exists_false] at h
    obtain ⟨_, _, _, _, h⟩ := h
    split at h
    · simp only [bind_eq_error_iff, ensure_eq_error_iff, pure_eq_error_iff, reduceCtorEq, and_false, false_or,
        or_false, exists_false] at h
    · simp only [bind_eq_error_iff, ensure_eq_error_iff, pure_eq_error_iff, reduceCtorEq, and_false, false_or,
        or_false, exists_false] at h
      exact sumTotals_no_panic _ _ _ h
  | transfer dest sch =>
    simp only [dispatch, bind_eq_error_iff, okOr_eq_error_iff, pure_eq_error_iff, reduceCtorEq, and_false, false_or,
      or_false, exists_false] at h
    obtain ⟨src, _, h⟩ := h
    rcases h with h | ⟨_, _, h⟩
    · unfold selfCheck at h
      split at h
      · simp only [bind_eq_error_iff, okOr_eq_error_iff, ensure_eq_error_iff, reduceCtorEq, and_false, or_false,
          exists_false] at h
      · simp [pure, Except.pure] at h
    · simp only [doTransfer, pruneAndGet_eq (hcov dest), ensureValid, currencyTransfer, setFreeze, bind_eq_error_iff,
        ensure_eq_error_iff, okOr_eq_error_iff, pure_eq_error_iff, reduceCtorEq, and_false, false_or, or_false,
        exists_false] at h
      obtain ⟨_, _, _, _, _, _, _, _, h⟩ := h
      split at h <;> simp [pure, Except.pure] at h

/-- Hypotheses met. -/
example : exState.map (fun s => ((acct s 1, acct s 2, acct s 3), s.burned, schedulesOf s 1, schedulesOf s 2)) =
    some ((⟨1020, 0, 0, 350⟩, ⟨530, 20, 300, 10⟩, ⟨0, 0, 0, 0⟩), 5, [⟨0, 60, 2, 300⟩, ⟨200, 1, 5, 10⟩],
      [exSched, ⟨0, 1, 200, 0⟩]) := by
  decide +kernel

/-! ## C62 -/

/-- C62: a successful vesting transfer between different accounts gives the receiver exactly the total of the
schedule, takes it from the sender, who had it free and not frozen, and adds it to the freeze of the receiver
(brought up to date); a remainder of less than the existential deposit that the sender would be left with is
burned; nobody else is touched. -/
theorem C62_transfer_exact (cfg : Config) (env : Env) (s0 s1 : State) (items) (h0 : Fresh cfg s0)
    (hg : genesis cfg env s0 items = some s1) (hist : List Step) (env' : Env) (src dest : AccountId) (c : Sched)
    (s' : State) (e) (h : dispatch cfg env' (run cfg s1 hist) (some src) (.transfer dest c) = .ok (s', e)) :
    let s := run cfg s1 hist
    let amount := c.perPeriod * c.count
    c.total = some amount ∧
    (src ≠ dest →
      (acct s' dest).free = (acct s dest).free + amount ∧ amount ≤ (acct s src).free ∧
      (((acct s' src).free = (acct s src).free - amount ∧ s'.burned = s.burned) ∨
       ((acct s' src).free = 0 ∧ (acct s src).free - amount < cfg.ed ∧ (acct s src).reserved = 0 ∧
          s'.burned = s.burned + ((acct s src).free - amount)))) ∧
    (src = dest → (acct s' src).free = (acct s src).free ∧ amount ≤ (acct s src).free ∧ s'.burned = s.burned) ∧
    (acct s' dest).freeze = unvestedAll (schedulesOf s dest) s.block + amount ∧
    schedulesOf s' dest = (schedulesOf s dest).filter (fun c => unvested c s.block ≠ 0) ++ [c] ∧
    (amount ≠ 0 → max (acct s src).other (acct s src).freeze + amount ≤ (acct s src).total) ∧
    (∀ w, (acct s' w).reserved = (acct s w).reserved ∧ (w ≠ dest → (acct s' w).freeze = (acct s w).freeze ∧
      schedulesOf s' w = schedulesOf s w ∧ (w ≠ src → (acct s' w).free = (acct s w).free))) := by
  have hcov := reach_covered h0 hg hist
  generalize run cfg s1 hist = s at *
  rcases dispatch_ok h with ⟨_, _, _, _, hc | hc⟩ | ⟨src', dest', sch, s2, hc, ho, hs, hr⟩ | ⟨_, _, _, hc, _, _, _⟩
  · cases hc.1
  · cases hc.1
  · cases hc
    cases ho
    cases hr
    have hm := doTransfer_ok (hcov dest) hs
    have hsch := hm.schedules dest
    have hfr := hm.freeze dest
    rw [if_pos rfl] at hsch hfr
    have hwd := hm.withdraw
    unfold canWithdraw Account.frozen at hwd
    dsimp only
    refine ⟨?_, ?_, ?_, hfr, hsch, ?_, ?_⟩
    · unfold Sched.total
      rw [checked_eq_some_iff]
      exact ⟨hm.valid.total, rfl⟩
    · intro e
      obtain ⟨g1, g2, g3⟩ := hm.free e
      refine ⟨g1, by omega, ?_⟩
      split at g3
      · rename_i hc
        exact .inr ⟨g3.1, hc.1, hc.2, g3.2⟩
      · exact .inl g3
    · intro e
      exact ⟨(hm.self e).1 src, by omega, (hm.self e).2⟩
    · intro hne
      unfold Account.total
      omega
    · intro w
      refine ⟨hm.reserved w, fun hw => ⟨?_, ?_, ?_⟩⟩
      · rw [hm.freeze w, if_neg hw]
      · rw [hm.schedules w, if_neg hw]
      · intro hs
        by_cases e : src = dest
        · exact (hm.self e).1 w
        · exact (hm.free e).2.1 w hs hw
  · cases hc

/-- All tokens on all accounts. -/
def tokens (s : State) : Balance := s.accounts.sumV (fun _ a => a.total)

/-- An account that does not exist has nothing, and nothing on it is frozen. -/
example : Account.empty.total = 0 ∧ Account.empty.reserved = 0 ∧ Account.empty.frozen = 0 := by decide

theorem tokens_setAcct (s : State) (who : AccountId) (a : Account) :
    tokens (setAcct s who a) + (acct s who).total = tokens s + a.total := by
  have h := SMap.sumV_insert s.accounts who a (fun _ a => a.total)
  unfold tokens setAcct acct
  dsimp only
  have : SMap.contrib (fun _ (a : Account) => a.total) who (s.accounts.get who) =
      ((s.accounts.get who).getD Account.empty).total := by
    cases s.accounts.get who <;> rfl
  rw [this] at h
  exact h

theorem tokens_setFreeze {env : Env} {s s' : State} {who : AccountId} {n : Balance} (h : setFreeze env s who n = .ok s') :
    tokens s' = tokens s ∧ s'.burned = s.burned := by
  rw [setFreeze_ok_iff] at h
  obtain ⟨_, rfl⟩ := h
  have : tokens (setAcct s who { acct s who with freeze := n }) + (acct s who).total = tokens s + (acct s who).total :=
    tokens_setAcct s who { acct s who with freeze := n }
  exact ⟨by omega, rfl⟩

theorem tokens_transfer {cfg : Config} {env : Env} {s s' : State} {src dest : AccountId} {n : Balance}
    (h : currencyTransfer cfg env s src dest n = .ok s') : tokens s' + s'.burned = tokens s + s.burned := by
  have hwd := (currencyTransfer_ok h).1
  unfold canWithdraw at hwd
  unfold currencyTransfer at h
  simp only [bind_eq_ok_iff, ensure_eq_ok_iff] at h
  obtain ⟨_, _, _, _, h⟩ := h
  split at h
  · rw [pure_eq_ok_iff] at h; rw [h]
  · rename_i hne
    rw [pure_eq_ok_iff] at h
    subst h
    have hinc : ∀ s : State, tokens (increase s dest n) = tokens s + n ∧ (increase s dest n).burned = s.burned := by
      intro s
      have : tokens (setAcct s dest { acct s dest with free := (acct s dest).free + n }) +
          ((acct s dest).free + (acct s dest).reserved) = tokens s + ((acct s dest).free + n + (acct s dest).reserved) :=
        tokens_setAcct s dest { acct s dest with free := (acct s dest).free + n }
      exact ⟨by unfold increase; omega, rfl⟩
    rw [(hinc _).1, (hinc _).2]
    unfold decrease
    dsimp only
    split
    · rename_i hc
      have : tokens (setAcct s src { acct s src with free := 0 }) +
          ((acct s src).free + (acct s src).reserved) = tokens s + (0 + (acct s src).reserved) :=
        tokens_setAcct s src { acct s src with free := 0 }
      show tokens (setAcct s src { acct s src with free := 0 }) + n + (s.burned + ((acct s src).free - n)) = _
      omega
    · have : tokens (setAcct s src { acct s src with free := (acct s src).free - n }) +
          ((acct s src).free + (acct s src).reserved) = tokens s + ((acct s src).free - n + (acct s src).reserved) :=
        tokens_setAcct s src { acct s src with free := (acct s src).free - n }
      show tokens (setAcct s src { acct s src with free := (acct s src).free - n }) + n + s.burned = _
      omega

theorem tokens_prune {s : State} {who : AccountId} {p} (h : pruneAndGet s who = .ok p) :
    tokens p.1 = tokens s ∧ p.1.burned = s.burned := by
  simp only [pruneAndGet, prune, bind_eq_ok_iff, okOr_eq_ok_iff, pure_eq_ok_iff] at h
  obtain ⟨_, ⟨_, _, rfl⟩, _, _, _, _, rfl⟩ := h
  unfold tokens
  rw [store_accounts, store_burned]
  exact ⟨rfl, rfl⟩

/-- C62, full statement of its last part: no call changes the number of tokens. -/
def C62_full : Prop :=
  ∀ (cfg : Config) (s : State) (env : Env) (origin : Option AccountId) (c : Call), Fresh cfg s →
    tokens (apply cfg s (.call env origin c)) = tokens s

/-- C62 is false in its last part: account 3 holds 55 tokens and transfers 50; the remaining 5, less than the
existential deposit, are burned by the balances pallet. -/
theorem C62_full_false : ¬ C62_full := by
  intro hf
  have := hf exCfg exStart exEnv (some 3) (.transfer 1 ⟨0, 1, 1, 50⟩) exStart_fresh
  exact absurd this (by decide +kernel)

/-- C62. Missing: remainders below the existential deposit, which the balances pallet burns when a transfer
closes the account of the sender. Counting these, no call, successful or not, creates or destroys tokens; in
any state, also if the balances were corrupt. -/
theorem C62_conserved_partial (cfg : Config) (s : State) (env : Env) (origin : Option AccountId) (c : Call) :
    let s' := apply cfg s (.call env origin c)
    tokens s' + s'.burned = tokens s + s.burned := by
  simp only [apply]
  generalize hd : dispatch cfg env s origin c = d
  cases d with
  | error e => rfl
  | ok r =>
    rcases dispatch_ok hd with ⟨w, p, hp, rfl, _⟩ | ⟨src, dest, sch, s', _, _, hs, rfl⟩ | ⟨w, l, s', _, _, hs, rfl⟩
    · simp only [doClaim, bind_eq_ok_iff, pure_eq_ok_iff] at hp
      obtain ⟨q, hq, s2, hs2, rfl⟩ := hp
      have h1 := tokens_prune hq
      have h2 := tokens_setFreeze hs2
      dsimp only
      omega
    · simp only [doTransfer, bind_eq_ok_iff, pure_eq_ok_iff, ensure_eq_ok_iff] at hs
      obtain ⟨n, _, q, hq, t, _, s2, hs2, s3, hs3, _, _, rfl⟩ := hs
      have h1 := tokens_prune hq
      have h2 := tokens_transfer hs2
      have h3 := tokens_setFreeze hs3
      show tokens s3 + s3.burned = _
      omega
    · simp only [doUpdate, bind_eq_ok_iff, ensure_eq_ok_iff] at hs
      obtain ⟨_, _, hs⟩ := hs
      split at hs
      · have h1 := tokens_setFreeze hs
        exact congrArg₂ (· + ·) h1.1 h1.2
      · simp only [bind_eq_ok_iff, ensure_eq_ok_iff, pure_eq_ok_iff] at hs
        obtain ⟨_, _, _, _, s2, hs2, rfl⟩ := hs
        have h1 := tokens_setFreeze hs2
        exact congrArg₂ (· + ·) h1.1 h1.2

/-- C62: only `transfer` moves tokens; in particular root cannot take tokens by replacing schedules. -/
theorem C62_only_transfer_moves (cfg : Config) (env : Env) (s0 s1 : State) (items) (h0 : Fresh cfg s0)
    (hg : genesis cfg env s0 items = some s1) (hist : List Step) (env' : Env) (origin : Option AccountId) (c : Call)
    (hc : ∀ dest sch, c ≠ .transfer dest sch) (who : AccountId) :
    let s := run cfg s1 hist
    (acct (apply cfg s (.call env' origin c)) who).free = (acct s who).free := by
  have hcov := reach_covered h0 hg hist
  generalize run cfg s1 hist = s at *
  simp only [apply]
  generalize hd : dispatch cfg env' s origin c = d
  cases d with
  | error e => rfl
  | ok r =>
    rcases dispatch_ok hd with ⟨w, p, hp, rfl, _⟩ | ⟨src, dest, sch, s', rfl, _⟩ | ⟨w, l, s', _, _, hs, rfl⟩
    · rw [doClaim_ok_iff (hcov w)] at hp
      obtain ⟨_, rfl⟩ := hp
      dsimp only
      rw [acct_setAcct, acct_store]
      split
      · rename_i e; rw [e]
      · rfl
    · exact absurd rfl (hc dest sch)
    · have := (doUpdate_ok hs).2.2.2.2.2.2.2 who
      dsimp only
      rw [this]
      split
      · rename_i e; rw [e]
      · rfl

/-- Hypotheses met: a transfer between accounts, one to oneself and one that closes the account of the sender;
refused: more than is unfrozen, closing an account with something frozen, an invalid schedule. -/
example :
    (dispatch exCfg exEnv exStart (some 1) (.transfer 2 exSched)).isOk = true ∧
    (dispatch exCfg exEnv exStart (some 2) (.transfer 2 exSched)).isOk = true ∧
    (dispatch exCfg exEnv exStart (some 3) (.transfer 1 ⟨0, 1, 1, 50⟩)).isOk = true ∧
    (dispatch exCfg exEnv exStart (some 2) (.transfer 1 ⟨0, 1, 1, 221⟩)).isOk = false ∧
    (dispatch exCfg exEnv exStart (some 2) (.transfer 2 ⟨0, 1, 1, 221⟩)).isOk = false ∧
    (dispatch exCfg exEnv (setAcct exStart 3 ⟨55, 0, 5, 0⟩) (some 3) (.transfer 1 ⟨0, 1, 1, 50⟩)).isOk = false ∧
    (dispatch exCfg exEnv exStart (some 1) (.transfer 2 ⟨0, 0, 1, 50⟩)).isOk = false ∧
    (dispatch exCfg exEnv exStart (some 1) (.transfer 2 ⟨5, 2 ^ 31, 2, 5⟩)).isOk = false := by decide +kernel

/-! ## C74 -/

/-- C74, partial: the amount reported by a successful claim is the amount that stays frozen. Missing: it
should be the amount claimed, that is made available, see `C74_reports_wrong_amount`. -/
theorem C74_reports_remaining_partial (cfg : Config) (env : Env) (s0 s1 : State) (items) (h0 : Fresh cfg s0)
    (hg : genesis cfg env s0 items = some s1) (hist : List Step) (env' : Env) (origin : Option AccountId) (c : Call)
    (s' : State) (who : AccountId) (amount : Balance)
    (h : dispatch cfg env' (run cfg s1 hist) origin c = .ok (s', some (who, amount))) :
    amount = (acct s' who).freeze := by
  have hcov := reach_covered h0 hg hist
  generalize run cfg s1 hist = s at *
  rcases dispatch_ok h with ⟨w, p, hp, hr, ho⟩ | ⟨_, _, _, _, _, _, _, hr⟩ | ⟨_, _, _, _, _, _, hr⟩
  · simp only [Prod.mk.injEq, Option.some.injEq] at hr
    obtain ⟨rfl, rfl, rfl⟩ := hr
    rw [doClaim_ok_iff (hcov who)] at hp
    obtain ⟨_, rfl⟩ := hp
    dsimp only
    rw [acct_setAcct, if_pos rfl]
  · cases hr
  · cases hr

/-- C74 is false of the code: the field is documented as the amount claimed, but a claim after one of three
periods of ten tokens makes 10 available and reports 20, and one at the end, which makes the rest available,
reports 0. -/
theorem C74_reports_wrong_amount :
    let s := run exCfg exStart [.call exEnv (some 1) (.transfer 2 exSched), .tick 5]
    let d := dispatch exCfg exEnv s (some 2) .claim
    let s' := run exCfg s [.tick 10]
    let d' := dispatch exCfg exEnv s' (some 2) .claim
    (acct s 2).freeze = 30 ∧ d.toOption.map (fun r => ((acct r.1 2).freeze, r.2)) = some (20, some (2, 20)) ∧
    d'.toOption.map (fun r => ((acct r.1 2).freeze, r.2)) = some (0, some (2, 0)) := by
  decide +kernel

end Verif.TimeRelease
