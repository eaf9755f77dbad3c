import Verif.TimeRelease.Props
/-!
# When the calls of the time-release pallet succeed, and what they do

Property C88: for every call a condition in terms of the schedules and the accounts, equivalent to its
success; and the resulting schedules, accounts and burned remainder as functions of the state before.
-/

namespace Verif.TimeRelease

/-! ## Specification -/

/-- What a schedule pays out altogether. -/
def payout (c : Sched) : Balance := c.perPeriod * c.count

/-- What all schedules of a list pay out. -/
def payouts (l : List Sched) : Balance := (l.map payout).sum

/-- A schedule that may be used: periods of positive length, at least one, ending at a block number that
exists, an amount that is a balance and not below the least amount. -/
structure Usable (cfg : Config) (c : Sched) : Prop where
  period : 0 < c.period
  count : 0 < c.count
  ends : c.start + c.period * c.count < 2 ^ 32
  fits : payout c < 2 ^ 128
  least : cfg.minTransfer ≤ payout c

/-- What the schedules of an account keep back now. -/
def kept (s : State) (who : AccountId) : Balance := unvestedAll (schedulesOf s who) s.block

/-- The schedules of an account that keep something back now. -/
def running (s : State) (who : AccountId) : List Sched := (schedulesOf s who).filter (fun c => unvested c s.block ≠ 0)

/-- `n` tokens may leave an account: it has them free, what is frozen stays covered, and the account keeps the
existential deposit or may be closed. -/
def Payable (cfg : Config) (env : Env) (a : Account) (n : Balance) : Prop :=
  n = 0 ∨ (n ≤ a.free ∧ max a.other a.freeze + n ≤ a.free + a.reserved ∧
    (cfg.ed + n ≤ a.free ∨ (a.other = 0 ∧ a.freeze = 0 ∧ a.reserved = 0 ∧ env.canDie = true)))

/-- `n` tokens may be put on an account: it has the existential deposit then, and its tokens are a balance. -/
def Receivable (cfg : Config) (a : Account) (n : Balance) : Prop :=
  n = 0 ∨ (cfg.ed ≤ a.free + n ∧ a.free + a.reserved + n < 2 ^ 128)

/-- The condition of each call. -/
def Permitted (cfg : Config) (env : Env) (s : State) (origin : Option AccountId) : Call → Prop
  | .claim => ∃ who, origin = some who ∧ (kept s who = 0 ∨ env.freezeOk = true)
  | .claimFor who => origin ≠ none ∧ (kept s who = 0 ∨ env.freezeOk = true)
  | .transfer dest c => ∃ src, origin = some src ∧ Usable cfg c ∧
      Payable cfg env (acct s src) (payout c) ∧ Receivable cfg (acct s dest) (payout c) ∧
      kept s dest + payout c < 2 ^ 128 ∧ (running s dest).length < cfg.maxSchedules ∧
      (kept s dest + payout c = 0 ∨ env.freezeOk = true)
  | .update who l => origin = none ∧ l.length ≤ cfg.maxSchedules ∧ (∀ c ∈ l, Usable cfg c) ∧
      payouts l < 2 ^ 128 ∧ payouts l ≤ (acct s who).free ∧ (payouts l = 0 ∨ env.freezeOk = true)

/-- The account a claim is for. -/
def claimant (origin : Option AccountId) : Call → Option AccountId
  | .claim => origin
  | .claimFor who => some who
  | _ => none

/-- The schedules afterwards. -/
def schedulesAfter (s : State) (origin : Option AccountId) (c : Call) (w : AccountId) : List Sched :=
  match c with
  | .update who l => if w = who then l else schedulesOf s w
  | .transfer dest c => if w = dest then running s dest ++ [c] else schedulesOf s w
  | c => if some w = claimant origin c then running s w else schedulesOf s w

/-- The freeze afterwards. -/
def freezeAfter (s : State) (origin : Option AccountId) (c : Call) (w : AccountId) : Balance :=
  match c with
  | .update who l => if w = who then payouts l else (acct s w).freeze
  | .transfer dest c => if w = dest then kept s dest + payout c else (acct s w).freeze
  | c => if some w = claimant origin c then kept s w else (acct s w).freeze

/-- What remains on the paying account would be less than the existential deposit, and nothing is reserved. -/
def Dust (cfg : Config) (a : Account) (n : Balance) : Prop := a.free < cfg.ed + n ∧ a.reserved = 0

instance (cfg a n) : Decidable (Dust cfg a n) := by unfold Dust; infer_instance

/-- The free balance afterwards. -/
def freeAfter (cfg : Config) (s : State) (origin : Option AccountId) (c : Call) (w : AccountId) : Balance :=
  match c with
  | .transfer dest c =>
    if origin = some dest then (acct s w).free
    else if w = dest then (acct s w).free + payout c
    else if some w = origin then (if Dust cfg (acct s w) (payout c) then 0 else (acct s w).free - payout c)
    else (acct s w).free
  | _ => (acct s w).free

/-- The remainder burned. -/
def burnedBy (cfg : Config) (s : State) (origin : Option AccountId) : Call → Balance
  | .transfer dest c => match origin with
    | some src => if src ≠ dest ∧ Dust cfg (acct s src) (payout c) then (acct s src).free - payout c else 0
    | none => 0
  | _ => 0

/-! ## Steps -/

theorem usable_iff {cfg : Config} {c : Sched} {t : Balance} :
    ensureValid cfg c = .ok t ↔ Usable cfg c ∧ t = payout c := by
  rw [ensureValid_ok_iff]
  constructor
  · rintro ⟨⟨h1, h2, h3, h4⟩, rfl, h5⟩; exact ⟨⟨h1, h2, h3, h4, h5⟩, rfl⟩
  · rintro ⟨⟨h1, h2, h3, h4, h5⟩, rfl⟩; exact ⟨⟨h1, h2, h3, h4⟩, rfl, h5⟩

theorem payable_iff {cfg : Config} {env : Env} {a : Account} {n : Balance} :
    canWithdraw cfg env a n ↔ Payable cfg env a n := by
  unfold canWithdraw Payable closable Account.frozen
  by_cases hn : n = 0
  · simp [hn]
  · simp only [hn, false_or]
    constructor
    · rintro ⟨h1, h2, h3, h4⟩
      refine ⟨h1, by omega, ?_⟩
      by_cases h : a.free - n < cfg.ed
      · obtain ⟨g1, g2, g3⟩ := h3 h
        exact .inr ⟨by omega, by omega, g2, g3⟩
      · exact .inl (by omega)
    · rintro ⟨h1, h2, h3⟩
      refine ⟨h1, by omega, ?_, by omega⟩
      intro h
      rcases h3 with h3 | ⟨g1, g2, g3, g4⟩
      · omega
      · exact ⟨by omega, g3, g4⟩

theorem receivable_iff {cfg : Config} {a : Account} {n : Balance} : canDeposit cfg a n ↔ Receivable cfg a n := by
  unfold canDeposit Receivable
  constructor <;> rintro (h | ⟨h1, h2⟩)
  · exact .inl h
  · exact .inr ⟨h1, by omega⟩
  · exact .inl h
  · exact .inr ⟨h1, by omega⟩

theorem sumTotals_iff {cfg : Config} {l : List Sched} : ∀ {acc t : Balance}, acc < 2 ^ 128 →
    (sumTotals cfg l acc = .ok t ↔ (∀ c ∈ l, Usable cfg c) ∧ acc + payouts l < 2 ^ 128 ∧ t = acc + payouts l) := by
  induction l with
  | nil =>
    intro acc t hacc
    simp only [sumTotals, pure_eq_ok_iff, payouts, List.map_nil, List.sum_nil, Nat.add_zero]
    constructor
    · rintro rfl; exact ⟨by simp, hacc, rfl⟩
    · rintro ⟨_, _, rfl⟩; rfl
  | cons c l ih =>
    intro acc t hacc
    have hp : payouts (c :: l) = payout c + payouts l := by simp [payouts]
    simp only [sumTotals, bind_eq_ok_iff, okOr_eq_ok_iff, usable_iff, checked_eq_some_iff, hp]
    constructor
    · rintro ⟨n, ⟨hv, rfl⟩, a, ⟨hlt, rfl⟩, h⟩
      obtain ⟨h1, h2, h3⟩ := (ih hlt).1 h
      refine ⟨?_, by omega, by omega⟩
      intro c' hc'
      rcases List.mem_cons.1 hc' with rfl | hc'
      · exact hv
      · exact h1 c' hc'
    · rintro ⟨h1, h2, rfl⟩
      refine ⟨_, ⟨h1 c (by simp), rfl⟩, _, ⟨by omega, rfl⟩, (ih (by omega)).2 ⟨fun c' h => h1 c' (by simp [h]), by omega, by omega⟩⟩

/-- The state after the balances pallet moved tokens. -/
theorem currencyTransfer_iff {cfg : Config} {env : Env} {s s' : State} {src dest : AccountId} {n : Balance} :
    currencyTransfer cfg env s src dest n = .ok s' ↔
      Payable cfg env (acct s src) n ∧ Receivable cfg (acct s dest) n ∧
      s' = (if src = dest then s else increase (decrease cfg s src n) dest n) := by
  unfold currencyTransfer
  simp only [bind_eq_ok_iff, ensure_eq_ok_iff, payable_iff, receivable_iff]
  constructor
  · rintro ⟨_, h1, _, h2, h⟩
    refine ⟨h1, h2, ?_⟩
    split at h <;> simp_all [pure_eq_ok_iff]
  · rintro ⟨h1, h2, rfl⟩
    refine ⟨(), h1, (), h2, ?_⟩
    split <;> rfl

theorem doTransfer_iff {cfg : Config} {env : Env} {s : State} {src dest : AccountId} {c : Sched}
    (hcov : Covered cfg s dest) :
    (∃ s', doTransfer cfg env s src dest c = .ok s') ↔ Usable cfg c ∧
      Payable cfg env (acct s src) (payout c) ∧ Receivable cfg (acct s dest) (payout c) ∧
      kept s dest + payout c < 2 ^ 128 ∧ (running s dest).length < cfg.maxSchedules ∧
      (kept s dest + payout c = 0 ∨ env.freezeOk = true) := by
  unfold doTransfer
  simp only [bind_eq_ok_iff, pruneAndGet_eq hcov, Except.ok.injEq, ensure_eq_ok_iff, okOr_eq_ok_iff,
    pure_eq_ok_iff, setFreeze_ok_iff, usable_iff, currencyTransfer_iff, checked_eq_some_iff]
  have hsch : ∀ (n m : Balance) (a : Account), schedulesOf (setAcct (if src = dest then storeSchedules s dest (live s dest) else
      increase (decrease cfg (storeSchedules s dest (live s dest)) src n) dest m) dest a) dest = running s dest := by
    intro n m a
    have h1 : schedulesOf (storeSchedules s dest (live s dest)) dest = running s dest := by
      rw [schedulesOf_store, if_pos rfl]; rfl
    by_cases he : src = dest
    · rw [if_pos he]; exact h1
    · rw [if_neg he, ← h1]
      unfold increase decrease
      dsimp only
      split <;> rfl
  constructor
  · rintro ⟨s', n, ⟨hu, rfl⟩, p, rfl, total, ⟨hf, rfl⟩, s1, ⟨hp, hr, rfl⟩, s2, ⟨hz, rfl⟩, _, hroom, rfl⟩
    rw [acct_store] at hp hr
    rw [hsch] at hroom
    exact ⟨hu, hp, hr, hf, hroom, hz⟩
  · rintro ⟨hu, hp, hr, hf, hroom, hz⟩
    refine ⟨_, _, ⟨hu, rfl⟩, _, rfl, _, ⟨hf, rfl⟩, _, ⟨?_, ?_, rfl⟩, _, ⟨hz, rfl⟩, (), ?_, rfl⟩
    · rw [acct_store]; exact hp
    · rw [acct_store]; exact hr
    · rw [hsch]; exact hroom

theorem doUpdate_iff {cfg : Config} {env : Env} {s : State} {who : AccountId} {l : List Sched} :
    (∃ s', doUpdate cfg env s who l = .ok s') ↔ l.length ≤ cfg.maxSchedules ∧ (∀ c ∈ l, Usable cfg c) ∧
      payouts l < 2 ^ 128 ∧ payouts l ≤ (acct s who).free ∧ (payouts l = 0 ∨ env.freezeOk = true) := by
  unfold doUpdate
  simp only [bind_eq_ok_iff, ensure_eq_ok_iff]
  by_cases hl : l = []
  · subst hl
    simp only [if_pos, setFreeze_ok_iff, true_or, true_and]
    simp [payouts]
  · simp only [if_neg hl, bind_eq_ok_iff, ensure_eq_ok_iff, setFreeze_ok_iff, pure_eq_ok_iff,
      sumTotals_iff (show (0 : Nat) < 2 ^ 128 by decide), Nat.zero_add]
    constructor
    · rintro ⟨s', _, h1, t, ⟨h2, h3, rfl⟩, _, h4, s1, ⟨h5, rfl⟩, rfl⟩
      exact ⟨h1, h2, h3, h4, h5⟩
    · rintro ⟨h1, h2, h3, h4, h5⟩
      exact ⟨_, (), h1, _, ⟨h2, h3, rfl⟩, (), h4, _, ⟨h5, rfl⟩, rfl⟩

/-- A transfer to oneself passes the extra check whenever it passes the others. -/
theorem selfCheck_of {cfg : Config} {env : Env} {s : State} {src dest : AccountId} {c : Sched} (hu : Usable cfg c)
    (hp : Payable cfg env (acct s src) (payout c)) : selfCheck s src dest c = .ok () := by
  unfold selfCheck
  split
  · simp only [bind_eq_ok_iff, okOr_eq_ok_iff, ensure_eq_ok_iff]
    refine ⟨payout c, ?_, ?_⟩
    · unfold Sched.total
      rw [checked_eq_some_iff]
      exact ⟨hu.fits, rfl⟩
    · unfold balance
      rcases hp with h | ⟨h, _⟩
      · omega
      · exact h
  · rfl

/-! ## Property -/

/-- C88: in every reachable state, a call succeeds exactly if its condition holds. -/
theorem C88_accepted_iff (cfg : Config) (env : Env) (s0 s1 : State) (items) (h0 : Fresh cfg s0)
    (hg : genesis cfg env s0 items = some s1) (hist : List Step) (env' : Env) (origin : Option AccountId) (c : Call) :
    (∃ r, dispatch cfg env' (run cfg s1 hist) origin c = .ok r) ↔ Permitted cfg env' (run cfg s1 hist) origin c := by
  have hcov := reach_covered h0 hg hist
  generalize run cfg s1 hist = s at *
  cases c with
  | claim =>
    simp only [dispatch, bind_eq_ok_iff, okOr_eq_ok_iff, pure_eq_ok_iff, Permitted, doClaim_ok_iff (hcov _)]
    constructor
    · rintro ⟨r, who, rfl, p, ⟨h, rfl⟩, rfl⟩; exact ⟨who, rfl, h⟩
    · rintro ⟨who, rfl, h⟩; exact ⟨_, who, rfl, _, ⟨h, rfl⟩, rfl⟩
  | claimFor who =>
    simp only [dispatch, bind_eq_ok_iff, okOr_eq_ok_iff, pure_eq_ok_iff, Permitted, doClaim_ok_iff (hcov _)]
    constructor
    · rintro ⟨r, w, rfl, p, ⟨h, rfl⟩, rfl⟩; exact ⟨by simp, h⟩
    · rintro ⟨ho, h⟩
      obtain ⟨w, rfl⟩ := Option.ne_none_iff_exists'.1 ho
      exact ⟨_, w, rfl, _, ⟨h, rfl⟩, rfl⟩
  | transfer dest c =>
    simp only [dispatch, bind_eq_ok_iff, okOr_eq_ok_iff, pure_eq_ok_iff, Permitted]
    constructor
    · rintro ⟨r, src, rfl, _, _, s', h, rfl⟩
      exact ⟨src, rfl, (doTransfer_iff (hcov dest)).1 ⟨s', h⟩⟩
    · rintro ⟨src, rfl, h⟩
      obtain ⟨s', hs⟩ := (doTransfer_iff (hcov dest)).2 h
      exact ⟨_, src, rfl, (), selfCheck_of h.1 h.2.1, s', hs, rfl⟩
  | update who l =>
    simp only [dispatch, bind_eq_ok_iff, ensure_eq_ok_iff, pure_eq_ok_iff, Permitted]
    constructor
    · rintro ⟨r, _, rfl, s', h, rfl⟩
      exact ⟨rfl, doUpdate_iff.1 ⟨s', h⟩⟩
    · rintro ⟨rfl, h⟩
      obtain ⟨s', hs⟩ := doUpdate_iff.2 h
      exact ⟨_, (), rfl, s', hs, rfl⟩

/-- The `other` freezes are not touched by a transfer. -/
theorem doTransfer_other {cfg : Config} {env : Env} {s s' : State} {src dest : AccountId} {c : Sched}
    (h : doTransfer cfg env s src dest c = .ok s') (hcov : Covered cfg s dest) (w : AccountId) :
    (acct s' w).other = (acct s w).other := by
  unfold doTransfer at h
  simp only [bind_eq_ok_iff, pruneAndGet_eq hcov, Except.ok.injEq, ensure_eq_ok_iff, okOr_eq_ok_iff,
    pure_eq_ok_iff, setFreeze_ok_iff, usable_iff, currencyTransfer_iff, checked_eq_some_iff] at h
  obtain ⟨n, _, p, rfl, total, _, s1, ⟨_, _, hs1⟩, s2, ⟨_, rfl⟩, _, _, rfl⟩ := h
  have hset : ∀ (t : State) (x : AccountId) (a : Account), a.other = (acct t x).other →
      ∀ w, (acct (setAcct t x a) w).other = (acct t w).other := by
    intro t x a ha w
    rw [acct_setAcct]
    split
    · rename_i e; subst e; exact ha
    · rfl
  have h1 : ∀ w, (acct s1 w).other = (acct s w).other := by
    intro w
    rw [hs1]
    split
    · rw [acct_store]
    · have hd : ∀ w, (acct (decrease cfg (storeSchedules s dest (live s dest)) src n) w).other = (acct s w).other := by
        intro w
        unfold decrease
        dsimp only
        split
        · show (acct (setAcct _ _ _) w).other = _
          rw [hset _ _ _ (by rfl), acct_store]
        · rw [hset _ _ _ (by rfl), acct_store]
      unfold increase
      rw [hset _ _ _ (by rfl), hd]
  show (acct (setAcct s1 dest _) w).other = _
  rw [hset _ _ _ (by rfl), h1]

/-- C88: what a successful call does to every account and its schedules, what it burns and what it reports. -/
theorem C88_effect (cfg : Config) (env : Env) (s0 s1 : State) (items) (h0 : Fresh cfg s0)
    (hg : genesis cfg env s0 items = some s1) (hist : List Step) (env' : Env) (origin : Option AccountId) (c : Call)
    (s' : State) (e) (h : dispatch cfg env' (run cfg s1 hist) origin c = .ok (s', e)) :
    let s := run cfg s1 hist
    s'.block = s.block ∧
    (∀ w, schedulesOf s' w = schedulesAfter s origin c w) ∧
    (∀ w, acct s' w = ⟨freeAfter cfg s origin c w, (acct s w).reserved, (acct s w).other, freezeAfter s origin c w⟩) ∧
    s'.burned = s.burned + burnedBy cfg s origin c ∧
    e = (claimant origin c).map (fun who => (who, kept s who)) := by
  have hcov := reach_covered h0 hg hist
  generalize run cfg s1 hist = s at *
  have hclaim : ∀ (who : AccountId) (w : AccountId),
      schedulesOf (setAcct (storeSchedules s who (live s who)) who
        { acct s who with freeze := unvestedAll (schedulesOf s who) s.block }) w =
        (if some w = some who then running s w else schedulesOf s w) ∧
      acct (setAcct (storeSchedules s who (live s who)) who
        { acct s who with freeze := unvestedAll (schedulesOf s who) s.block }) w =
        ⟨(acct s w).free, (acct s w).reserved, (acct s w).other, if some w = some who then kept s w else (acct s w).freeze⟩ := by
    intro who w
    constructor
    · show schedulesOf (storeSchedules s who (live s who)) w = _
      rw [schedulesOf_store]
      by_cases hw : w = who
      · subst hw; simp [live, running]
      · simp [hw]
    · rw [acct_setAcct, acct_store]
      by_cases hw : w = who
      · subst hw; simp [kept]
      · simp [hw]
  cases c with
  | claim =>
    simp only [dispatch, bind_eq_ok_iff, okOr_eq_ok_iff, pure_eq_ok_iff, doClaim_ok_iff (hcov _)] at h
    obtain ⟨who, rfl, p, ⟨_, rfl⟩, h⟩ := h
    obtain ⟨rfl, rfl⟩ := Prod.mk.inj h
    refine ⟨store_block _ _ _, fun w => (hclaim who w).1, fun w => (hclaim who w).2, ?_, rfl⟩
    exact store_burned _ _ _
  | claimFor who =>
    simp only [dispatch, bind_eq_ok_iff, okOr_eq_ok_iff, pure_eq_ok_iff, doClaim_ok_iff (hcov _)] at h
    obtain ⟨_, rfl, p, ⟨_, rfl⟩, h⟩ := h
    obtain ⟨rfl, rfl⟩ := Prod.mk.inj h
    refine ⟨store_block _ _ _, fun w => (hclaim who w).1, fun w => (hclaim who w).2, ?_, rfl⟩
    exact store_burned _ _ _
  | update who l =>
    simp only [dispatch, bind_eq_ok_iff, ensure_eq_ok_iff, pure_eq_ok_iff] at h
    obtain ⟨_, rfl, t, ht, h⟩ := h
    obtain ⟨rfl, rfl⟩ := Prod.mk.inj h
    obtain ⟨_, _, _, _, hb, hu, hsch, hac⟩ := doUpdate_ok ht
    refine ⟨hb, hsch, ?_, hu, rfl⟩
    intro w
    rw [hac]
    by_cases hw : w = who
    · subst hw; simp only [if_true, freeAfter, freezeAfter]; rfl
    · simp [freeAfter, freezeAfter, hw]
  | transfer dest c =>
    simp only [dispatch, bind_eq_ok_iff, okOr_eq_ok_iff, pure_eq_ok_iff] at h
    obtain ⟨src, rfl, _, _, t, ht, h⟩ := h
    obtain ⟨rfl, rfl⟩ := Prod.mk.inj h
    have hm := doTransfer_ok (hcov dest) ht
    have hoth := doTransfer_other ht (hcov dest)
    have hdust : ((acct s src).free - c.perPeriod * c.count < cfg.ed ∧ (acct s src).reserved = 0) ↔
        Dust cfg (acct s src) (c.perPeriod * c.count) := by
      have hle : c.perPeriod * c.count ≤ (acct s src).free := by
        rcases payable_iff.1 hm.withdraw with h | ⟨h, _⟩ <;> omega
      unfold Dust
      constructor
      · rintro ⟨h1, h2⟩; exact ⟨by omega, h2⟩
      · rintro ⟨h1, h2⟩; exact ⟨by omega, h2⟩
    refine ⟨hm.block, hm.schedules, ?_, ?_, rfl⟩
    · intro w
      have hfree : (acct t w).free = freeAfter cfg s (some src) (.transfer dest c) w := by
        simp only [freeAfter]
        by_cases he : src = dest
        · rw [if_pos (by rw [he]), (hm.self he).1]
        · rw [if_neg (fun h => he (Option.some.inj h))]
          obtain ⟨g1, g2, g3⟩ := hm.free he
          by_cases hw : w = dest
          · rw [if_pos hw, hw, g1]; rfl
          · rw [if_neg hw]
            by_cases hw' : w = src
            · subst hw'
              rw [if_pos rfl]
              by_cases hd : Dust cfg (acct s w) (payout c)
              · rw [if_pos (hdust.2 hd)] at g3
                simp only [if_pos hd, g3.1]
              · rw [if_neg (fun h => hd (hdust.1 h))] at g3
                simp only [if_neg hd, g3.1]
                rfl
            · rw [if_neg (fun h => hw' (Option.some.inj h)), g2 w hw' hw]
      have := hm.freeze w
      have := hm.reserved w
      have := hoth w
      cases hA : acct t w
      simp_all [freezeAfter, kept, payout]
    · simp only [burnedBy]
      by_cases he : src = dest
      · rw [if_neg (fun h => h.1 he), (hm.self he).2, Nat.add_zero]
      · obtain ⟨_, _, g3⟩ := hm.free he
        by_cases hd : Dust cfg (acct s src) (payout c)
        · rw [if_pos (hdust.2 hd)] at g3
          rw [if_pos ⟨he, hd⟩, g3.2]; rfl
        · rw [if_neg (fun h => hd (hdust.1 h))] at g3
          rw [if_neg (fun h => hd h.2), g3.2, Nat.add_zero]

/-- Hypotheses met: in a reached state with running and finished schedules a claim, a transfer that closes the
sender's account, and a replacement succeed; a transfer above what is free of the freeze, one to an account
with as many running schedules as allowed, and a replacement by a signer fail. -/
example : ∃ s1, genesis exCfg exEnv exStart [(1, ⟨0, 60, 2, 300⟩)] = some s1 ∧
    let s := run exCfg s1 (exHist.take 4)
    (dispatch exCfg exEnv s (some 9) (.claimFor 2)).isOk = true ∧
    (dispatch exCfg exEnv s (some 3) (.transfer 1 ⟨200, 1, 5, 10⟩)).isOk = true ∧
    (dispatch exCfg exEnv s none (.update 2 [⟨0, 1, 5, 10⟩, exSched])).isOk = true ∧
    (dispatch exCfg exEnv s (some 1) (.transfer 3 ⟨200, 1, 1, 900⟩)).isOk = false ∧
    (dispatch exCfg exEnv (run exCfg s1 (exHist.take 2)) (some 1) (.transfer 2 exSched)).isOk = false ∧
    (dispatch exCfg exEnv s (some 2) (.update 2 [])).isOk = false ∧
    burnedBy exCfg s (some 3) (.transfer 1 ⟨200, 1, 5, 10⟩) = 5 ∧ (kept s 2, (running s 2).length) = (10, 1) := by
  exact ⟨_, rfl, by decide +kernel, by decide +kernel, by decide +kernel, by decide +kernel, by decide +kernel,
    by decide +kernel, by decide +kernel, by decide +kernel⟩

end Verif.TimeRelease
