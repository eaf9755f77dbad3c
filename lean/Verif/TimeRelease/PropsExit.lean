import Verif.TimeRelease.PropsAccept
/-!
# Vested tokens become free in time

Property C100: once the schedules of an account have ended, a claim by anybody removes the freeze and the
schedules, whatever else happened meanwhile; and no call signed by somebody else lowers what an account can
spend or disturbs its running schedules.
-/

namespace Verif.TimeRelease

/-! ## Specification -/

/-- What can leave an account: the free tokens less the part of the freezes and locks that the reserved tokens
do not cover. -/
def spendable (a : Account) : Balance := a.free - (max a.other a.freeze - a.reserved)

/-- The block with which a schedule ends. -/
def lastBlock (c : Sched) : BlockNumber := c.start + c.period * c.count

/-- The step gives nobody's schedules to `who`: it is not a vesting transfer to `who`, and not root replacing
the schedules of `who`. -/
def AddsNothing (who : AccountId) : Step → Prop
  | .call _ _ (.transfer dest _) => dest ≠ who
  | .call _ _ (.update w _) => w ≠ who
  | _ => True

/-! ## Steps -/

theorem kept_zero {cfg : Config} {s : State} {who : AccountId} (hc : Covered cfg s who)
    (h : ∀ c ∈ schedulesOf s who, lastBlock c ≤ s.block) : kept s who = 0 ∧ running s who = [] := by
  have hz : ∀ c ∈ schedulesOf s who, unvested c s.block = 0 := by
    intro c hm
    have hv := hc.valid c hm
    have h2 : c.start + c.period * c.count ≤ s.block := h c hm
    rw [unvested_eq c hv.period]
    have : c.count ≤ (s.block - c.start) / c.period := by
      rw [Nat.le_div_iff_mul_le hv.period, Nat.mul_comm]
      omega
    rw [Nat.sub_eq_zero_of_le this, Nat.mul_zero]
  constructor
  · unfold kept unvestedAll
    have : ∀ l : List Sched, (∀ c ∈ l, unvested c s.block = 0) → (l.map (unvested · s.block)).sum = 0 := by
      intro l
      induction l with
      | nil => intro _; rfl
      | cons c l ih =>
        intro hl
        rw [List.map_cons, List.sum_cons, hl c (by simp), ih (fun c h => hl c (by simp [h]))]
    exact this _ hz
  · unfold running
    rw [List.filter_eq_nil_iff]
    intro c hm
    simp [hz c hm]

/-- A step that adds nothing leaves no schedule that was not there before, and does not turn the clock back. -/
theorem no_more {cfg : Config} {env : Env} {s0 s1 : State} {items} (h0 : Fresh cfg s0)
    (hg : genesis cfg env s0 items = some s1) (hist : List Step) (x : Step) (who : AccountId) (hx : AddsNothing who x) :
    (run cfg s1 hist).block ≤ (apply cfg (run cfg s1 hist) x).block ∧
    ∀ c ∈ schedulesOf (apply cfg (run cfg s1 hist) x) who, c ∈ schedulesOf (run cfg s1 hist) who := by
  cases x with
  | tick n => exact ⟨Nat.le_add_right _ _, fun c h => h⟩
  | elsewhere w f r o =>
    unfold apply
    dsimp only
    split
    · exact ⟨Nat.le_refl _, fun c h => h⟩
    · exact ⟨Nat.le_refl _, fun c h => h⟩
  | call e o c =>
    cases hd : dispatch cfg e (run cfg s1 hist) o c with
    | error er =>
      unfold apply
      simp only [hd]
      exact ⟨Nat.le_refl _, fun c h => h⟩
    | ok r =>
      obtain ⟨hb, hs, _⟩ := C88_effect cfg env s0 s1 items h0 hg hist e o c r.1 r.2 hd
      have ha : apply cfg (run cfg s1 hist) (.call e o c) = r.1 := by
        unfold apply
        simp only [hd]
      rw [ha]
      refine ⟨Nat.le_of_eq hb.symm, ?_⟩
      intro d hm
      rw [hs] at hm
      cases c with
      | claim =>
        simp only [schedulesAfter] at hm
        split at hm
        · exact (List.mem_filter.1 hm).1
        · exact hm
      | claimFor w =>
        simp only [schedulesAfter] at hm
        split at hm
        · exact (List.mem_filter.1 hm).1
        · exact hm
      | transfer dest c =>
        simp only [schedulesAfter, if_neg (Ne.symm (show dest ≠ who from hx))] at hm
        exact hm
      | update w l =>
        simp only [schedulesAfter, if_neg (Ne.symm (show w ≠ who from hx))] at hm
        exact hm

theorem run_append (cfg : Config) (s : State) (a b : List Step) : run cfg s (a ++ b) = run cfg (run cfg s a) b :=
  List.foldl_append

theorem no_more_run {cfg : Config} {env : Env} {s0 s1 : State} {items} (h0 : Fresh cfg s0)
    (hg : genesis cfg env s0 items = some s1) (who : AccountId) : ∀ (later hist : List Step),
    (∀ x ∈ later, AddsNothing who x) →
    ∀ c ∈ schedulesOf (run cfg s1 (hist ++ later)) who, c ∈ schedulesOf (run cfg s1 hist) who := by
  intro later
  induction later with
  | nil => intro hist _ c h; rwa [List.append_nil] at h
  | cons x xs ih =>
    intro hist hl c hm
    rw [List.append_cons] at hm
    have h1 := ih (hist ++ [x]) (fun y hy => hl y (by simp [hy])) c hm
    rw [run_append] at h1
    exact (no_more h0 hg hist x who (hl x (by simp))).2 c h1

/-! ## Property -/

/-- C100: an account that is given no further schedules has, at every block from the end of its last schedule
on, a claim that frees everything: the owner's `claim`, or a `claim_for` whoever signs it, and whether or not
freezes can be set; it succeeds, the freeze is gone and no schedule is left. In between anything may happen, including claims, failed calls, and
transfers from the account. -/
theorem C100_free_at_the_end (cfg : Config) (env : Env) (s0 s1 : State) (items) (h0 : Fresh cfg s0)
    (hg : genesis cfg env s0 items = some s1) (hist later : List Step) (who signer : AccountId) (env' : Env)
    (call : Call) (hcall : call = .claimFor who ∨ (call = .claim ∧ signer = who))
    (hl : ∀ x ∈ later, AddsNothing who x)
    (hend : ∀ c ∈ schedulesOf (run cfg s1 hist) who, lastBlock c ≤ (run cfg s1 (hist ++ later)).block) :
    ∃ s', dispatch cfg env' (run cfg s1 (hist ++ later)) (some signer) call = .ok (s', some (who, 0)) ∧
      schedulesOf s' who = [] ∧ (acct s' who).freeze = 0 ∧
      (acct s' who).free = (acct (run cfg s1 (hist ++ later)) who).free ∧
      spendable (acct s' who) = (acct s' who).free - ((acct s' who).other - (acct s' who).reserved) := by
  have hclaim : claimant (some signer) call = some who := by
    rcases hcall with rfl | ⟨rfl, rfl⟩ <;> rfl
  obtain ⟨hk, hr⟩ := kept_zero (reach_covered h0 hg (hist ++ later) who)
    (fun c h => hend c (no_more_run h0 hg who later hist hl c h))
  obtain ⟨⟨s', e⟩, hok⟩ := (C88_accepted_iff cfg env s0 s1 items h0 hg (hist ++ later) env' (some signer) call).2 (by
    rcases hcall with rfl | ⟨rfl, rfl⟩
    · exact ⟨by simp, .inl hk⟩
    · exact ⟨_, rfl, .inl hk⟩)
  obtain ⟨_, hs, ha, _, he⟩ := C88_effect cfg env s0 s1 items h0 hg (hist ++ later) env' (some signer) call s' e hok
  have hA : acct s' who = ⟨(acct (run cfg s1 (hist ++ later)) who).free, (acct (run cfg s1 (hist ++ later)) who).reserved,
      (acct (run cfg s1 (hist ++ later)) who).other, 0⟩ := by
    rw [ha who]
    rcases hcall with rfl | ⟨rfl, rfl⟩ <;> simp [freeAfter, freezeAfter, claimant, hk]
  refine ⟨s', ?_, ?_, ?_, ?_, ?_⟩
  · rw [hok, he]
    simp [hclaim, hk]
  · rw [hs]
    rcases hcall with rfl | ⟨rfl, rfl⟩ <;> simp [schedulesAfter, claimant, hr]
  · rw [hA]
  · rw [hA]
  · unfold spendable
    rw [hA, Nat.max_zero]

/-- C100: no call signed by somebody else lowers what an account can spend, takes tokens off it, or alters its
running schedules; at most it adds a schedule together with the tokens the schedule keeps back. -/
theorem C100_others_do_no_harm (cfg : Config) (env : Env) (s0 s1 : State) (items) (h0 : Fresh cfg s0)
    (hg : genesis cfg env s0 items = some s1) (hist : List Step) (env' : Env) (who signer : AccountId)
    (hne : signer ≠ who) (c : Call) (s' : State) (e)
    (h : dispatch cfg env' (run cfg s1 hist) (some signer) c = .ok (s', e)) :
    let s := run cfg s1 hist
    spendable (acct s who) ≤ spendable (acct s' who) ∧ (acct s who).free ≤ (acct s' who).free ∧
    (running s who).Sublist (schedulesOf s' who) ∧
    kept s' who + (acct s who).free ≤ kept s who + (acct s' who).free := by
  obtain ⟨hb, hs, ha, _⟩ := C88_effect cfg env s0 s1 items h0 hg hist env' (some signer) c s' e h
  have hcov := reach_covered h0 hg hist who
  have hperm := (C88_accepted_iff cfg env s0 s1 items h0 hg hist env' (some signer) c).1 ⟨_, h⟩
  dsimp only
  generalize run cfg s1 hist = s at *
  have hk : kept s' who = unvestedAll (schedulesOf s' who) s.block := by unfold kept; rw [hb]
  have hrun : unvestedAll (running s who) s.block = kept s who := unvestedAll_live s who
  have hsame : schedulesOf s' who = schedulesOf s who → kept s' who = kept s who := by
    intro h; rw [hk, h]; rfl
  have hsub : (running s who).Sublist (schedulesOf s who) := List.filter_sublist
  have hcv : kept s who ≤ (acct s who).freeze := hcov.covers
  have hA := ha who
  have hS := hs who
  have keep : freeAfter cfg s (some signer) c who = (acct s who).free →
      freezeAfter s (some signer) c who ≤ (acct s who).freeze → (running s who).Sublist (schedulesOf s' who) →
      kept s' who ≤ kept s who →
      spendable (acct s who) ≤ spendable (acct s' who) ∧ (acct s who).free ≤ (acct s' who).free ∧
      (running s who).Sublist (schedulesOf s' who) ∧
      kept s' who + (acct s who).free ≤ kept s who + (acct s' who).free := by
    intro h1 h2 h3 h4
    rw [hA, h1]
    refine ⟨?_, Nat.le_refl _, h3, Nat.add_le_add_right h4 _⟩
    unfold spendable
    dsimp only
    omega
  cases c with
  | claim =>
    have hw : ¬ who = signer := fun h => hne h.symm
    simp only [schedulesAfter, claimant, Option.some.injEq, if_neg hw] at hS
    refine keep rfl ?_ ?_ (Nat.le_of_eq (hsame hS))
    · simp only [freezeAfter, claimant, Option.some.injEq, if_neg hw]; exact Nat.le_refl _
    · rw [hS]; exact hsub
  | claimFor w =>
    by_cases hw : who = w
    · subst hw
      simp only [schedulesAfter, claimant, if_true] at hS
      refine keep rfl ?_ ?_ ?_
      · simp only [freezeAfter, claimant, if_true]; exact hcv
      · rw [hS]
      · rw [hk, hS, hrun]
    · simp only [schedulesAfter, claimant, Option.some.injEq, if_neg hw] at hS
      refine keep rfl ?_ ?_ (Nat.le_of_eq (hsame hS))
      · simp only [freezeAfter, claimant, Option.some.injEq, if_neg hw]; exact Nat.le_refl _
      · rw [hS]; exact hsub
  | update w l =>
    exact absurd hperm.1 (by simp)
  | transfer dest c =>
    by_cases hd : who = dest
    · subst hd
      have h1 : some signer ≠ some who := fun h => hne (Option.some.inj h)
      simp only [schedulesAfter, if_true] at hS
      simp only [freeAfter, freezeAfter, if_neg h1, if_true] at hA
      obtain ⟨_, _, hu, _⟩ := hperm
      have hv : unvested c s.block ≤ payout c := unvested_le_total c hu.period s.block
      have hk2 : kept s' who = kept s who + unvested c s.block := by
        rw [hk, hS, ← hrun]
        simp [unvestedAll]
      rw [hA]
      refine ⟨?_, Nat.le_add_right _ _, ?_, ?_⟩
      · unfold spendable
        dsimp only
        omega
      · rw [hS]; exact List.sublist_append_left _ _
      · dsimp only
        omega
    · have h1 : some who ≠ some signer := fun h => hne (Option.some.inj h).symm
      simp only [schedulesAfter, if_neg hd] at hS
      refine keep ?_ ?_ ?_ (Nat.le_of_eq (hsame hS))
      · simp only [freeAfter, if_neg hd, if_neg h1, ite_self]
      · simp only [freezeAfter, if_neg hd]; exact Nat.le_refl _
      · rw [hS]; exact hsub

/-- Hypotheses met: account 2 has a schedule ending with block 115; it is claimed for early, the account spends
and gets tokens elsewhere, time passes to block 121; then a claim that cannot set a freeze still frees
everything, while it could not at block 111. The transfer from account 1 to account 2
before that even raises what account 2 can spend, since another lock of 300 covers the 30 it brings. -/
example : ∃ s1, genesis exCfg exEnv exStart [(1, ⟨0, 60, 2, 300⟩)] = some s1 ∧
    let hist := exHist.take 1
    let later := [.call exEnv (some 7) (.claimFor 2), .elsewhere 2 400 20 300, .tick 11,
      .call exEnv (some 2) (.transfer 1 exSched), .call exEnv (some 3) (.update 3 []), .tick 10]
    (schedulesOf (run exCfg s1 hist) 2).map lastBlock = [115] ∧ (run exCfg s1 (hist ++ later)).block = 121 ∧
    (acct (run exCfg s1 (hist ++ later)) 2).freeze = 30 ∧
    (dispatch exCfg ⟨false, true⟩ (run exCfg s1 (hist ++ later)) (some 9) (.claimFor 2)).isOk = true ∧
    (dispatch exCfg ⟨false, true⟩ (run exCfg s1 (hist ++ later.take 4)) (some 9) (.claimFor 2)).isOk = false ∧
    (spendable (acct s1 2), spendable (acct (run exCfg s1 hist) 2)) = (220, 250) := by
  exact ⟨_, rfl, by decide +kernel, by decide +kernel, by decide +kernel, by decide +kernel, by decide +kernel,
    by decide +kernel⟩

/-- The steps in between give account 2 no schedules. -/
example : ∀ x ∈ ([.call exEnv (some 7) (.claimFor 2), .elsewhere 2 400 20 300, .tick 11,
    .call exEnv (some 2) (.transfer 1 exSched), .call exEnv (some 3) (.update 3 []), .tick 10] : List Step),
    AddsNothing 2 x := by
  simp [AddsNothing]

end Verif.TimeRelease
