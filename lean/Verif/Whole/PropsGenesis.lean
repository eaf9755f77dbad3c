import Verif.Whole.Genesis
import Verif.Whole.Props
import Verif.TimeRelease.PropsAccept
/-!
# C139: the tokens of the genesis
-/

namespace Verif.Whole
open TimeRelease (Sched Account acct schedulesOf Usable payouts)
open Tokens (total)

/-! ## Specification -/

/-- The balance that a list gives an account. -/
def given (l : List (AccountId × Balance)) (who : AccountId) : Balance :=
  ((l.filter (fun p => p.1 = who)).map Prod.snd).sum

/-- The schedules that a list gives an account, in the order of the list. -/
def itemsOf (items : List (AccountId × Sched)) (who : AccountId) : List Sched :=
  (items.filter (fun p => p.1 = who)).map Prod.snd

/-- What an account has at the genesis: what the list says, and the treasury at least the existential deposit. -/
def endowment (cfg : TimeRelease.Config) (treasury : AccountId) (l : List (AccountId × Balance)) (who : AccountId) : Balance :=
  if who = treasury then max cfg.ed (given l who) else given l who

/-- All tokens. -/
def supply (cfg : TimeRelease.Config) (treasury : AccountId) (l : List (AccountId × Balance)) : Balance :=
  (l.map Prod.snd).sum + (cfg.ed - given l treasury)

/-- Lists with which the chain starts. -/
structure Sound (cfg : TimeRelease.Config) (treasury : AccountId) (l : List (AccountId × Balance))
    (items : List (AccountId × Sched)) : Prop where
  deposit : ∀ p ∈ l, cfg.ed ≤ p.2
  once : (l.map Prod.fst).Nodup
  balance : (l.map Prod.snd).sum < 2 ^ 128
  usable : ∀ p ∈ items, Usable cfg p.2
  many : ∀ who, (itemsOf items who).length ≤ cfg.maxSchedules
  covered : ∀ who, payouts (itemsOf items who) ≤ endowment cfg treasury l who

/-! ## Lemmas -/

theorem given_nil (who : AccountId) : given [] who = 0 := rfl

theorem given_cons (p : AccountId × Balance) (l) (who : AccountId) :
    given (p :: l) who = (if p.1 = who then p.2 else 0) + given l who := by
  unfold given
  by_cases h : p.1 = who <;> simp [h]

theorem given_absent {l : List (AccountId × Balance)} {who : AccountId} (h : who ∉ l.map Prod.fst) : given l who = 0 := by
  unfold given
  rw [List.filter_eq_nil_iff.2]
  · rfl
  · intro p hp
    simp only [decide_eq_true_eq]
    rintro rfl
    exact h (List.mem_map_of_mem hp)

theorem given_mem {l : List (AccountId × Balance)} {p : AccountId × Balance} (h : p ∈ l) : p.2 ≤ given l p.1 := by
  induction l with
  | nil => cases h
  | cons q l ih =>
    rw [given_cons]
    rcases List.mem_cons.1 h with rfl | h
    · rw [if_pos rfl]; omega
    · have := ih h; omega

theorem given_le (l : List (AccountId × Balance)) (who : AccountId) : given l who ≤ (l.map Prod.snd).sum := by
  induction l with
  | nil => exact Nat.le_refl _
  | cons q l ih =>
    rw [given_cons, List.map_cons, List.sum_cons]
    split <;> omega

theorem acct_setAcct' (s : TimeRelease.State) (who : AccountId) (a : Account) (w : AccountId) :
    acct (TimeRelease.setAcct s who a) w = if w = who then a else acct s w := TimeRelease.acct_setAcct s who a w

/-- The balances pallet gives what the list says. -/
theorem endow_acct {l : List (AccountId × Balance)} : ∀ {s : TimeRelease.State}, (l.map Prod.fst).Nodup →
    (∀ p ∈ l, acct s p.1 = Account.empty) → ∀ who,
      acct (endow s l) who = if who ∈ l.map Prod.fst then ⟨given l who, 0, 0, 0⟩ else acct s who := by
  induction l with
  | nil => intro s _ _ who; rfl
  | cons p l ih =>
    intro s hn he who
    rw [List.map_cons, List.nodup_cons] at hn
    show acct (endow (TimeRelease.setAcct s p.1 ⟨p.2, 0, 0, 0⟩) l) who = _
    rw [ih hn.2]
    · rw [List.map_cons, given_cons, acct_setAcct']
      by_cases h1 : who = p.1
      · subst h1
        rw [if_neg hn.1, if_pos rfl, if_pos List.mem_cons_self, if_pos rfl, given_absent hn.1]
        rfl
      · by_cases h2 : who ∈ l.map Prod.fst
        · rw [if_pos h2, if_pos (List.mem_cons_of_mem _ h2), if_neg (Ne.symm h1), Nat.zero_add]
        · rw [if_neg h2, if_neg h1, if_neg (fun h => (List.mem_cons.1 h).elim h1 h2)]
    · intro q hq
      rw [acct_setAcct', if_neg]
      · exact he q (List.mem_cons_of_mem _ hq)
      · rintro h
        exact hn.1 (h ▸ List.mem_map_of_mem hq)

theorem endow_rest (l : List (AccountId × Balance)) (s : TimeRelease.State) :
    (endow s l).schedules = s.schedules ∧ (endow s l).block = s.block ∧ (endow s l).burned = s.burned := by
  induction l generalizing s with
  | nil => exact ⟨rfl, rfl, rfl⟩
  | cons p l ih => exact ih (TimeRelease.setAcct s p.1 ⟨p.2, 0, 0, 0⟩)

theorem endow_tokens {l : List (AccountId × Balance)} : ∀ {s : TimeRelease.State}, (l.map Prod.fst).Nodup →
    (∀ p ∈ l, acct s p.1 = Account.empty) →
      TimeRelease.tokens (endow s l) = TimeRelease.tokens s + (l.map Prod.snd).sum := by
  induction l with
  | nil => intro s _ _; rfl
  | cons p l ih =>
    intro s hn he
    rw [List.map_cons, List.nodup_cons] at hn
    show TimeRelease.tokens (endow (TimeRelease.setAcct s p.1 ⟨p.2, 0, 0, 0⟩) l) = _
    rw [ih hn.2]
    · have := TimeRelease.tokens_setAcct s p.1 ⟨p.2, 0, 0, 0⟩
      rw [he p (by simp)] at this
      simp only [Account.total, Account.empty] at this
      simp only [List.map_cons, List.sum_cons]
      omega
    · intro q hq
      rw [acct_setAcct', if_neg]
      · exact he q (List.mem_cons_of_mem _ hq)
      · rintro h
        exact hn.1 (h ▸ List.mem_map_of_mem hq)

theorem acct_noTokens (b : BlockNumber) (who : AccountId) : acct (noTokens b) who = Account.empty := rfl

/-- Before the schedules. -/
theorem fresh_build {cfg : TimeRelease.Config} (treasury : AccountId) (b : BlockNumber) {l : List (AccountId × Balance)}
    (h1 : ∀ p ∈ l, cfg.ed ≤ p.2) (h2 : (l.map Prod.fst).Nodup) :
    let s := buildTreasury cfg treasury (endow (noTokens b) l)
    (∀ who, acct s who = ⟨endowment cfg treasury l who, 0, 0, 0⟩) ∧ s.schedules = SMap.empty ∧ s.block = b ∧ s.burned = 0 ∧
    TimeRelease.tokens s = supply cfg treasury l ∧ TimeRelease.Fresh cfg s := by
  have ha : ∀ who, acct (endow (noTokens b) l) who = ⟨given l who, 0, 0, 0⟩ := by
    intro who
    rw [endow_acct h2 (fun p _ => acct_noTokens b p.1)]
    split
    · rfl
    · rename_i h; rw [given_absent h]; rfl
  have hr := endow_rest l (noTokens b)
  have ht := endow_tokens h2 (fun p _ => acct_noTokens b p.1)
  have h0 : TimeRelease.tokens (noTokens b) = 0 := rfl
  rw [h0, Nat.zero_add] at ht
  have hdust : ∀ who, given l who = 0 ∨ cfg.ed ≤ given l who := by
    intro who
    by_cases h : who ∈ l.map Prod.fst
    · right
      obtain ⟨p, hp, rfl⟩ := List.mem_map.1 h
      exact Nat.le_trans (h1 p hp) (given_mem hp)
    · exact .inl (given_absent h)
  intro s
  have hs : (∀ who, acct s who = ⟨endowment cfg treasury l who, 0, 0, 0⟩) ∧ s.schedules = SMap.empty ∧ s.block = b ∧
      s.burned = 0 ∧ TimeRelease.tokens s = supply cfg treasury l := by
    show (∀ who, acct (buildTreasury _ _ _) who = _) ∧ (buildTreasury _ _ _).schedules = _ ∧
      (buildTreasury _ _ _).block = _ ∧ (buildTreasury _ _ _).burned = _ ∧ TimeRelease.tokens (buildTreasury _ _ _) = _
    unfold buildTreasury TimeRelease.balance
    rw [ha]
    dsimp only
    split
    · rename_i hlt
      refine ⟨fun who => ?_, hr.1, hr.2.1, hr.2.2, ?_⟩
      · rw [acct_setAcct']
        unfold endowment
        split
        · rename_i e; subst e
          rw [Nat.max_eq_left (by omega)]
        · exact ha who
      · have := TimeRelease.tokens_setAcct (endow (noTokens b) l) treasury ⟨cfg.ed, 0, 0, 0⟩
        rw [ha] at this
        simp only [Account.total] at this
        unfold supply
        omega
    · rename_i hlt
      refine ⟨fun who => ?_, hr.1, hr.2.1, hr.2.2, ?_⟩
      · rw [ha]
        unfold endowment
        split
        · rename_i e; subst e
          rw [Nat.max_eq_right (by omega)]
        · rfl
      · unfold supply
        omega
  obtain ⟨e1, e2, e3, e4, e5⟩ := hs
  refine ⟨e1, e2, e3, e4, e5, e2, fun who => by rw [e1], fun who => ?_⟩
  rw [e1]
  dsimp only
  unfold endowment
  split
  · right; left; exact Nat.le_max_left _ _
  · rcases hdust who with h | h
    · exact .inl h
    · exact .inr (.inl h)

theorem itemsOf_cons (p : AccountId × Sched) (items) (who : AccountId) :
    itemsOf (p :: items) who = (if p.1 = who then [p.2] else []) ++ itemsOf items who := by
  unfold itemsOf
  by_cases h : p.1 = who <;> simp [h]

theorem payouts_append (a b : List Sched) : payouts (a ++ b) = payouts a + payouts b := by
  simp [payouts]

/-- The schedules of the genesis, from any state in which the freezes are those of the schedules. -/
theorem genesis_iff {cfg : TimeRelease.Config} {items : List (AccountId × Sched)} : ∀ {s : TimeRelease.State},
    (∀ who, (acct s who).free < 2 ^ 128) →
    (∀ who, (schedulesOf s who).length ≤ cfg.maxSchedules ∧ (∀ c ∈ schedulesOf s who, Usable cfg c) ∧
      payouts (schedulesOf s who) ≤ (acct s who).free ∧ (acct s who).freeze = payouts (schedulesOf s who)) →
    ((∃ s', TimeRelease.genesis cfg ⟨true, true⟩ s items = some s') ↔
      (∀ p ∈ items, Usable cfg p.2) ∧ ∀ who, (schedulesOf s who ++ itemsOf items who).length ≤ cfg.maxSchedules ∧
        payouts (schedulesOf s who ++ itemsOf items who) ≤ (acct s who).free) ∧
    ∀ s', TimeRelease.genesis cfg ⟨true, true⟩ s items = some s' →
      (∀ who, schedulesOf s' who = schedulesOf s who ++ itemsOf items who) ∧
      (∀ who, acct s' who = { acct s who with freeze := payouts (schedulesOf s who ++ itemsOf items who) }) ∧
      s'.block = s.block ∧ s'.burned = s.burned := by
  induction items with
  | nil =>
    intro s hb hs
    refine ⟨⟨fun _ => ⟨by simp, fun who => ?_⟩, fun _ => ⟨s, rfl⟩⟩, fun s' h => ?_⟩
    · simpa [itemsOf] using ⟨(hs who).1, (hs who).2.2.1⟩
    · cases h
      refine ⟨by simp [itemsOf], fun who => ?_, rfl, rfl⟩
      have : itemsOf [] who = [] := rfl
      rw [this, List.append_nil, ← (hs who).2.2.2]
  | cons p items ih =>
    intro s hb hs
    have hcat : ∀ (s2 : TimeRelease.State), (∀ w, schedulesOf s2 w = if w = p.1 then schedulesOf s p.1 ++ [p.2]
        else schedulesOf s w) → ∀ w, schedulesOf s2 w ++ itemsOf items w = schedulesOf s w ++ itemsOf (p :: items) w := by
      intro s2 h w
      rw [h, itemsOf_cons]
      by_cases e : w = p.1
      · subst e; simp
      · rw [if_neg e, if_neg (Ne.symm e)]; simp
    have hstep : ∀ s2, TimeRelease.genesisItem cfg ⟨true, true⟩ s p.1 p.2 = some s2 →
        (schedulesOf s p.1 ++ [p.2]).length ≤ cfg.maxSchedules ∧ Usable cfg p.2 ∧
        payouts (schedulesOf s p.1 ++ [p.2]) ≤ (acct s p.1).free ∧ s2.block = s.block ∧ s2.burned = s.burned ∧
        (∀ w, schedulesOf s2 w = if w = p.1 then schedulesOf s p.1 ++ [p.2] else schedulesOf s w) ∧
        (∀ w, acct s2 w = if w = p.1 then { acct s p.1 with freeze := payouts (schedulesOf s p.1 ++ [p.2]) } else acct s w) := by
      intro s2 h
      unfold TimeRelease.genesisItem at h
      generalize hd : TimeRelease.doUpdate cfg ⟨true, true⟩ s p.1 (schedulesOf s p.1 ++ [p.2]) = d at h
      cases d with
      | error e => cases h
      | ok s3 =>
        cases h
        obtain ⟨a1, a2, a3, a4, a5⟩ := TimeRelease.doUpdate_iff.1 ⟨s2, hd⟩
        obtain ⟨_, _, _, _, b1, b2, b3, b4⟩ := TimeRelease.doUpdate_ok hd
        exact ⟨a1, a2 _ (by simp), a4, b1, b2, b3, b4⟩
    have hinv : ∀ s2, TimeRelease.genesisItem cfg ⟨true, true⟩ s p.1 p.2 = some s2 →
        (∀ who, (acct s2 who).free < 2 ^ 128) ∧ (∀ who, (acct s2 who).free = (acct s who).free) ∧
        (∀ who, (schedulesOf s2 who).length ≤ cfg.maxSchedules ∧ (∀ c ∈ schedulesOf s2 who, Usable cfg c) ∧
        payouts (schedulesOf s2 who) ≤ (acct s2 who).free ∧ (acct s2 who).freeze = payouts (schedulesOf s2 who)) := by
      intro s2 h
      obtain ⟨c1, c2, c3, c4, c5, c6, c7⟩ := hstep s2 h
      have hf : ∀ who, (acct s2 who).free = (acct s who).free := by
        intro who
        rw [c7]
        split
        · rename_i e; rw [e]
        · rfl
      refine ⟨fun who => by rw [hf]; exact hb who, hf, fun who => ?_⟩
      rw [c6, c7]
      by_cases e : who = p.1
      · subst e
        simp only [if_true]
        refine ⟨c1, fun c hc => ?_, c3, trivial⟩
        rcases List.mem_append.1 hc with hc | hc
        · exact (hs p.1).2.1 c hc
        · rw [List.mem_singleton.1 hc]; exact c2
      · simp only [if_neg e]
        exact hs who
    constructor
    · constructor
      · rintro ⟨s', h⟩
        rw [TimeRelease.genesis, Option.bind_eq_some_iff] at h
        obtain ⟨s2, h2, h3⟩ := h
        obtain ⟨c1, c2, c3, c4, c5, c6, c7⟩ := hstep s2 h2
        obtain ⟨i1, i2, i3⟩ := hinv s2 h2
        obtain ⟨k1, k2⟩ := (ih i1 i3).1.1 ⟨s', h3⟩
        refine ⟨fun q hq => ?_, fun who => ?_⟩
        · rcases List.mem_cons.1 hq with rfl | hq
          · exact c2
          · exact k1 q hq
        · rw [← hcat s2 c6, ← i2]
          exact k2 who
      · rintro ⟨h1, h2⟩
        have hd : ∃ s2, TimeRelease.genesisItem cfg ⟨true, true⟩ s p.1 p.2 = some s2 := by
          have hle : ∀ w, (schedulesOf s w ++ itemsOf (p :: items) w).length ≤ cfg.maxSchedules := fun w => (h2 w).1
          have := h2 p.1
          rw [itemsOf_cons, if_pos rfl, ← List.append_assoc, payouts_append] at this
          obtain ⟨s2, hs2⟩ := TimeRelease.doUpdate_iff (cfg := cfg) (env := ⟨true, true⟩) (s := s) (who := p.1)
            (l := schedulesOf s p.1 ++ [p.2]) |>.2 ⟨by
              have := this.1
              simp only [List.length_append] at this ⊢
              omega, fun c hc => by
              rcases List.mem_append.1 hc with hc | hc
              · exact (hs p.1).2.1 c hc
              · rw [List.mem_singleton.1 hc]; exact h1 p (by simp), by have := hb p.1; omega, by omega, .inr rfl⟩
          exact ⟨s2, by unfold TimeRelease.genesisItem; rw [hs2]; rfl⟩
        obtain ⟨s2, hs2⟩ := hd
        obtain ⟨c1, c2, c3, c4, c5, c6, c7⟩ := hstep s2 hs2
        obtain ⟨i1, i2, i3⟩ := hinv s2 hs2
        obtain ⟨s', hs'⟩ := (ih i1 i3).1.2 ⟨fun q hq => h1 q (List.mem_cons_of_mem _ hq), fun who => by
          rw [hcat s2 c6, i2]
          exact h2 who⟩
        exact ⟨s', by rw [TimeRelease.genesis, hs2]; exact hs'⟩
    · intro s' h
      rw [TimeRelease.genesis, Option.bind_eq_some_iff] at h
      obtain ⟨s2, h2, h3⟩ := h
      obtain ⟨c1, c2, c3, c4, c5, c6, c7⟩ := hstep s2 h2
      obtain ⟨i1, i2, i3⟩ := hinv s2 h2
      obtain ⟨k1, k2, k3, k4⟩ := (ih i1 i3).2 s' h3
      refine ⟨fun who => by rw [k1, hcat s2 c6], fun who => ?_, k3.trans c4, k4.trans c5⟩
      rw [k2, hcat s2 c6, c7]
      split
      · rename_i e; rw [e]
      · rfl

/-! ## C139 -/

/-- C139: the chain starts just if every account of the list has the existential deposit, none is named twice and the
supply is a balance, every schedule may be used, no account has more schedules than allowed, and every account has the
tokens of its schedules. -/
theorem C139_starts (cfg : TimeRelease.Config) (treasury : AccountId) (b : BlockNumber) (l : List (AccountId × Balance))
    (items : List (AccountId × Sched)) (hed : cfg.ed < 2 ^ 128) :
    (∃ s, build cfg treasury b l items = some s) ↔ Sound cfg treasury l items := by
  unfold build buildBalances
  by_cases h : (∀ p ∈ l, cfg.ed ≤ p.2) ∧ (l.map Prod.fst).Nodup ∧ (l.map Prod.snd).sum < 2 ^ 128
  · rw [if_pos h, Option.bind_some]
    obtain ⟨h1, h2, h3⟩ := h
    obtain ⟨e1, e2, -, -, -, -⟩ := fresh_build (cfg := cfg) treasury b h1 h2
    have hsch : ∀ who, schedulesOf (buildTreasury cfg treasury (endow (noTokens b) l)) who = [] := by
      intro who
      unfold schedulesOf
      rw [e2]
      rfl
    have hlt : ∀ who, endowment cfg treasury l who < 2 ^ 128 := by
      intro who
      have := given_le l who
      unfold endowment
      split
      · exact Nat.max_lt.2 ⟨hed, by omega⟩
      · omega
    have key := (genesis_iff (cfg := cfg) (items := items) (s := buildTreasury cfg treasury (endow (noTokens b) l))
      (fun who => by rw [e1]; exact hlt who)
      (fun who => by rw [hsch, e1]; simp [payouts])).1
    rw [key]
    simp only [hsch, List.nil_append, e1]
    exact ⟨fun h => ⟨h1, h2, h3, h.1, fun who => (h.2 who).1, fun who => (h.2 who).2⟩,
      fun h => ⟨h.usable, fun who => ⟨h.many who, h.covered who⟩⟩⟩
  · rw [if_neg h]
    constructor
    · rintro ⟨s, hs⟩; cases hs
    · rintro hs
      exact absurd ⟨hs.deposit, hs.once, hs.balance⟩ h

theorem built {cfg : TimeRelease.Config} {treasury : AccountId} {b : BlockNumber} {l : List (AccountId × Balance)}
    {items : List (AccountId × Sched)} {s : TimeRelease.State} (hed : cfg.ed < 2 ^ 128)
    (h : build cfg treasury b l items = some s) :
    let s0 := buildTreasury cfg treasury (endow (noTokens b) l)
    TimeRelease.genesis cfg ⟨true, true⟩ s0 items = some s ∧ (∀ p ∈ l, cfg.ed ≤ p.2) ∧ (l.map Prod.fst).Nodup ∧
    (∀ who, schedulesOf s who = itemsOf items who) ∧
    (∀ who, acct s who = ⟨endowment cfg treasury l who, 0, 0, payouts (itemsOf items who)⟩) ∧ s.block = b ∧
    s.burned = 0 := by
  unfold build buildBalances at h
  split at h
  · rename_i hc
    obtain ⟨h1, h2, h3⟩ := hc
    rw [Option.bind_some] at h
    obtain ⟨e1, e2, e3, e4, -, -⟩ := fresh_build (cfg := cfg) treasury b h1 h2
    have hsch : ∀ who, schedulesOf (buildTreasury cfg treasury (endow (noTokens b) l)) who = [] := by
      intro who
      unfold schedulesOf
      rw [e2]
      rfl
    have hlt : ∀ who, endowment cfg treasury l who < 2 ^ 128 := by
      intro who
      have := given_le l who
      unfold endowment
      split
      · exact Nat.max_lt.2 ⟨hed, by omega⟩
      · omega
    obtain ⟨k1, k2, k3, k4⟩ := (genesis_iff (cfg := cfg) (items := items)
      (s := buildTreasury cfg treasury (endow (noTokens b) l))
      (fun who => by rw [e1]; exact hlt who)
      (fun who => by rw [hsch, e1]; simp [payouts])).2 s h
    refine ⟨h, h1, h2, fun who => by rw [k1, hsch]; rfl, fun who => ?_, k3.trans e3, k4.trans e4⟩
    rw [k2, hsch, e1]
    rfl
  · cases h

/-- What is put on the accounts by the items of the genesis are freezes, not tokens. -/
theorem genesis_tokens {cfg : TimeRelease.Config} {env : TimeRelease.Env} {items : List (AccountId × Sched)} :
    ∀ {s s' : TimeRelease.State}, TimeRelease.genesis cfg env s items = some s' →
      TimeRelease.tokens s' + s'.burned = TimeRelease.tokens s + s.burned := by
  induction items with
  | nil => intro s s' h; cases h; rfl
  | cons p items ih =>
    intro s s' h
    rw [TimeRelease.genesis, Option.bind_eq_some_iff] at h
    obtain ⟨s2, h2, h3⟩ := h
    rw [ih h3]
    have := TimeRelease.C62_conserved_partial cfg s env none (.update p.1 (schedulesOf s p.1 ++ [p.2]))
    unfold TimeRelease.genesisItem at h2
    generalize hd : TimeRelease.doUpdate cfg env s p.1 (schedulesOf s p.1 ++ [p.2]) = d at h2
    cases d with
    | error e => cases h2
    | ok s3 =>
      cases h2
      simpa [TimeRelease.apply, TimeRelease.dispatch, hd, ensure, bind, Except.bind, pure, Except.pure] using this

/-- C139: at the start every account has the tokens and schedules of the lists, in their order, nothing is reserved, what
its schedules pay out is frozen, and there are no other tokens than those of the list and a deposit of the treasury. What
is proved about chains from a genesis is proved about this chain. -/
theorem C139_contents (cfg : Tokens.Config) (treasury : AccountId) (b : BlockNumber) (l : List (AccountId × Balance))
    (items : List (AccountId × Sched)) (hed : cfg.release.ed < 2 ^ 128) (s : TimeRelease.State)
    (h : build cfg.release treasury b l items = some s) :
    (∀ who, acct s who = ⟨endowment cfg.release treasury l who, 0, 0, payouts (itemsOf items who)⟩) ∧
    (∀ who, schedulesOf s who = itemsOf items who) ∧ s.block = b ∧
    TimeRelease.tokens s = supply cfg.release treasury l ∧ s.burned = 0 ∧ Tokens.Start cfg s := by
  obtain ⟨k0, h1, h2, k1, k2, k3, k4⟩ := built hed h
  obtain ⟨e1, -, -, e4, e5, e6⟩ := fresh_build (cfg := cfg.release) treasury b h1 h2
  have ht := genesis_tokens k0
  refine ⟨k2, k1, k3, by omega, k4, ⟨⟨true, true⟩, _, items, e6, fun who => ?_, k0⟩⟩
  rw [e1]

/-- C139: tokens do not appear later. After whatever happens on the chain, the tokens on all accounts and those burned are
the tokens of the genesis, and no account has more than there are. -/
theorem C139_supply (cfg : Config) (treasury : AccountId) (b : BlockNumber) (l : List (AccountId × Balance))
    (items : List (AccountId × Sched)) (hed : cfg.wrapped.wallet.tokens.release.ed < 2 ^ 128) (s : TimeRelease.State)
    (h : build cfg.wrapped.wallet.tokens.release treasury b l items = some s) (n : Nat) (es : List Event) :
    let t := (run cfg (Wrapped.genesis n s) es).world.tokens
    TimeRelease.tokens t.ledger + t.ledger.burned + t.burned = supply cfg.wrapped.wallet.tokens.release treasury l ∧
    ∀ who, total t who ≤ supply cfg.wrapped.wallet.tokens.release treasury l := by
  intro t
  obtain ⟨-, -, -, k4, k5, -⟩ := C139_contents cfg.wrapped.wallet.tokens treasury b l items hed s h
  have hev : Tokens.everything t = supply cfg.wrapped.wallet.tokens.release treasury l := by
    obtain ⟨q, e⟩ := tokens_history cfg (Wrapped.genesis n s) es
    have : ∀ (q : List Tokens.Step) (u : Tokens.State),
        Tokens.everything (Tokens.run cfg.wrapped.wallet.tokens u q) = Tokens.everything u := by
      intro q
      induction q with
      | nil => exact fun u => rfl
      | cons y q ih => exact fun u => (ih (Tokens.apply _ u y)).trans (Tokens.everything_step y)
    have e' : t = _ := e
    rw [e', this]
    show TimeRelease.tokens s + s.burned + 0 = _
    rw [k4, k5]
    rfl
  refine ⟨hev, fun who => ?_⟩
  have := SMap.contrib_le_sumV t.ledger.accounts who (fun _ a => a.total)
  have hle : total t who ≤ TimeRelease.tokens t.ledger := by
    refine Nat.le_trans ?_ this
    unfold total acct SMap.contrib
    cases t.ledger.accounts.get who with
    | none => exact Nat.le_refl _
    | some a => exact Nat.le_refl _
  unfold Tokens.everything at hev
  omega

/-! ## Examples -/

/-- The balances of the genesis of the main network, `resources/frequency.json`; account 13 is the treasury. -/
def mainnet : List (AccountId × Balance) :=
  [(1, 4999970000000000), (2, 10000000000), (3, 10000000000), (4, 10000000000), (5, 39999970000000000), (6, 10000000000),
   (7, 10000000000), (8, 10000000000), (9, 1999970000000000), (10, 10000000000), (11, 10000000000), (12, 10000000000),
   (13, 52998860000000000), (14, 1000000000000), (15, 20000000000), (16, 20000000000), (17, 20000000000),
   (18, 20000000000), (19, 20000000000), (20, 20000000000), (21, 20000000000)]

/-- The configuration of the main network, `runtime/common/src/constants.rs`. -/
def mainnetCfg : TimeRelease.Config := ⟨0, 50, 1000000⟩

/-- On the main network there are 1,000,000,000 tokens with 8 decimals. -/
example : (build mainnetCfg 13 0 mainnet []).isSome = true ∧ supply mainnetCfg 13 mainnet = 1000000000 * 10 ^ 8 := by
  decide +kernel

/-- With two schedules for account 2, which are covered, and with a third, which is not; the treasury 7 gets a deposit. -/
example :
    let l := [(1, 500), (2, 300)]
    let items : List (AccountId × Sched) := [(2, ⟨0, 10, 4, 25⟩), (2, ⟨5, 10, 1, 200⟩)]
    (build ⟨50, 3, 10⟩ 7 0 l items).map (fun s => (acct s 2, acct s 7, TimeRelease.tokens s)) =
      some (⟨300, 0, 0, 300⟩, ⟨10, 0, 0, 0⟩, 810) ∧
    (build ⟨50, 3, 10⟩ 7 0 l (items ++ [(2, ⟨5, 10, 1, 50⟩)])).isNone = true ∧
    (build ⟨50, 3, 10⟩ 7 0 (l ++ [(1, 20)]) items).isNone = true ∧
    (build ⟨50, 3, 10⟩ 7 0 (l ++ [(3, 9)]) items).isNone = true ∧
    (build ⟨50, 3, 10⟩ 7 0 l [(2, ⟨0, 10, 4, 12⟩)]).isNone = true ∧
    (build ⟨50, 1, 10⟩ 7 0 l items).isNone = true := by decide +kernel

end Verif.Whole
