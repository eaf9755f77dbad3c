import Verif.TimeRelease.PropsAccept
/-!
# C169: transfers with schedules and claims can come in any order
-/

namespace Verif.TimeRelease

/-! ## Specification -/

/-- A signed call. -/
structure Item where
  env : Env
  who : AccountId
  call : Call

/-- The state after it, if it succeeds. -/
def exec (cfg : Config) (s : State) (x : Item) : Option State :=
  ((dispatch cfg x.env s (some x.who) x.call).toOption).map Prod.fst

/-- The state after all of them, if all succeed, one after the other. -/
def execAll (cfg : Config) : State → List Item → Option State
  | s, [] => some s
  | s, x :: h => (exec cfg s x).bind (fun t => execAll cfg t h)

/-- The account that receives tokens, or that a claim is for. -/
def Item.target (x : Item) : AccountId :=
  match x.call with
  | .claim => x.who
  | .transfer dest _ => dest
  | .update who _ => who
  | .claimFor dest => dest

/-- The account that pays. -/
def Item.payer (x : Item) : Option AccountId :=
  match x.call with
  | .transfer _ _ => some x.who
  | _ => none

/-- Who pays in one of them neither pays nor receives tokens in the other, and no claim is made for it there. -/
def Apart (x y : Item) : Prop :=
  (∀ a, x.payer = some a → y.payer ≠ some a ∧ y.target ≠ a) ∧ ∀ a, y.payer = some a → x.payer ≠ some a ∧ x.target ≠ a

/-- All schedules sent to `w` have yet to pay out everything. -/
def Unbegun (now : BlockNumber) (h : List Item) (w : AccountId) : Prop :=
  ∀ x ∈ h, ∀ c, x.call = .transfer w c → unvested c now = payout c

/-- The same tokens on every account, the same schedules up to their order, the same burned, and, for accounts with `P`, the same
freeze; for every account, the same freeze after a claim. -/
structure Same (P : AccountId → Prop) (s t : State) : Prop where
  block : s.block = t.block
  free : ∀ w, (acct s w).free = (acct t w).free
  reserved : ∀ w, (acct s w).reserved = (acct t w).reserved
  other : ∀ w, (acct s w).other = (acct t w).other
  schedules : ∀ w, (schedulesOf s w).Perm (schedulesOf t w)
  burned : s.burned = t.burned
  freeze : ∀ w, P w → (acct s w).freeze = (acct t w).freeze
  kept : ∀ w, kept s w = kept t w

/-! ## Reachable states -/

/-- Reachable states. -/
def Reach (cfg : Config) (s : State) : Prop :=
  ∃ env s0 s1 items hist, Fresh cfg s0 ∧ genesis cfg env s0 items = some s1 ∧ s = run cfg s1 hist

theorem exec_some {cfg : Config} {s s' : State} {x : Item} :
    exec cfg s x = some s' ↔ ∃ e, dispatch cfg x.env s (some x.who) x.call = .ok (s', e) := by
  unfold exec
  cases dispatch cfg x.env s (some x.who) x.call with
  | error e => simp [Except.toOption]
  | ok r =>
    obtain ⟨t, e⟩ := r
    simp [Except.toOption]

theorem exec_reach {cfg : Config} {s s' : State} {x : Item} (hr : Reach cfg s) (h : exec cfg s x = some s') : Reach cfg s' := by
  obtain ⟨env, s0, s1, items, hist, h0, hg, rfl⟩ := hr
  obtain ⟨e, he⟩ := exec_some.1 h
  refine ⟨env, s0, s1, items, hist ++ [.call x.env (some x.who) x.call], h0, hg, ?_⟩
  unfold run at *
  rw [List.foldl_append]
  simp [apply, he]

theorem exec_iff {cfg : Config} {s : State} (hr : Reach cfg s) (x : Item) :
    (∃ s', exec cfg s x = some s') ↔ Permitted cfg x.env s (some x.who) x.call := by
  obtain ⟨env, s0, s1, items, hist, h0, hg, rfl⟩ := hr
  rw [← C88_accepted_iff cfg env s0 s1 items h0 hg hist x.env (some x.who) x.call]
  constructor
  · rintro ⟨s', h⟩; obtain ⟨e, he⟩ := exec_some.1 h; exact ⟨_, he⟩
  · rintro ⟨⟨s', e⟩, h⟩; exact ⟨s', exec_some.2 ⟨e, h⟩⟩

theorem kept_le {cfg : Config} {s : State} (hr : Reach cfg s) (w : AccountId) :
    kept s w ≤ (acct s w).free + (acct s w).reserved := by
  obtain ⟨env, s0, s1, items, hist, h0, hg, rfl⟩ := hr
  exact Nat.le_trans (C61_freeze_covers cfg env s0 s1 items h0 hg hist w).1 (C61_backed cfg env s0 s1 items h0 hg hist w)

/-! ## One call -/

/-- What arrives at an account, from others or itself. -/
def Item.arrive (x : Item) (w : AccountId) : Balance :=
  match x.call with
  | .transfer dest c => if dest = w then payout c else 0
  | _ => 0

/-- What is added to an account. -/
def Item.gain (x : Item) (w : AccountId) : Balance :=
  match x.call with
  | .transfer dest c => if dest = w ∧ x.who ≠ w then payout c else 0
  | _ => 0

/-- The schedules that are added. -/
def Item.gets (x : Item) (w : AccountId) : List Sched :=
  match x.call with
  | .transfer dest c => if dest = w then [c] else []
  | _ => []

def inflow (h : List Item) (w : AccountId) : Balance := (h.map (fun x => x.arrive w)).sum
def gains (h : List Item) (w : AccountId) : Balance := (h.map (fun x => x.gain w)).sum
def sent (h : List Item) (w : AccountId) : List Sched := h.flatMap (fun x => x.gets w)

/-- Conditions under which the order does not matter: no call of root, nothing stands in the way of a freeze, schedules that
have not ended, and no recipient that is left below the existential deposit. -/
structure Steady (cfg : Config) (s : State) (x : Item) : Prop where
  ordinary : ∀ w l, x.call ≠ .update w l
  freezeOk : x.env.freezeOk = true
  runs : ∀ d c, x.call = .transfer d c → unvested c s.block ≠ 0
  deposit : ∀ d c, x.call = .transfer d c → cfg.ed ≤ payout c ∨ cfg.ed ≤ (acct s d).free

/-- What a call does, account by account. -/
structure Done (cfg : Config) (s s' : State) (x : Item) : Prop where
  block : s'.block = s.block
  reserved : ∀ w, (acct s' w).reserved = (acct s w).reserved
  other : ∀ w, (acct s' w).other = (acct s w).other
  free : ∀ w, x.payer ≠ some w → (acct s' w).free = (acct s w).free + x.gain w
  paid : ∀ w, x.payer = some w → (acct s' w).free = freeAfter cfg s (some x.who) x.call w
  schedules : ∀ w, schedulesOf s' w = if x.target = w then running s w ++ x.gets w else schedulesOf s w
  untouched : ∀ w, x.target ≠ w → (acct s' w).freeze = (acct s w).freeze
  freeze : ∀ w, x.target = w → (acct s' w).freeze = kept s w + x.arrive w
  burned : s'.burned = s.burned + burnedBy cfg s (some x.who) x.call

theorem done_of {cfg : Config} {s s' : State} {x : Item} (hr : Reach cfg s) (ho : ∀ w l, x.call ≠ .update w l)
    (h : exec cfg s x = some s') : Done cfg s s' x := by
  obtain ⟨env, s0, s1, items, hist, h0, hg, rfl⟩ := hr
  obtain ⟨e, he⟩ := exec_some.1 h
  obtain ⟨h1, h2, h3, h4, -⟩ := C88_effect cfg env s0 s1 items h0 hg hist x.env (some x.who) x.call s' e he
  generalize run cfg s1 hist = s at *
  obtain ⟨env', who, call⟩ := x
  dsimp only at *
  cases call with
  | update w l => exact absurd rfl (ho w l)
  | claim =>
    refine ⟨h1, fun w => by rw [h3], fun w => by rw [h3], fun w _ => ?_, fun w hw => ?_, fun w => ?_, fun w hw => ?_,
      fun w hw => ?_, h4⟩
    · rw [h3]; rfl
    · cases hw
    · rw [h2]
      simp only [schedulesAfter, claimant, Item.target, Item.gets, Option.some.injEq, List.append_nil]
      by_cases hw : who = w
      · simp [hw]
      · rw [if_neg hw, if_neg (Ne.symm hw)]
    · have hw : w ≠ who := fun e => hw e.symm
      rw [h3]; simp [freezeAfter, claimant, hw]
    · have hw : who = w := hw
      rw [h3]; simp [freezeAfter, claimant, hw, Item.arrive]
  | claimFor d =>
    refine ⟨h1, fun w => by rw [h3], fun w => by rw [h3], fun w _ => ?_, fun w hw => ?_, fun w => ?_, fun w hw => ?_,
      fun w hw => ?_, h4⟩
    · rw [h3]; rfl
    · cases hw
    · rw [h2]
      simp only [schedulesAfter, claimant, Item.target, Item.gets, Option.some.injEq, List.append_nil]
      by_cases hw : d = w
      · simp [hw]
      · rw [if_neg hw, if_neg (Ne.symm hw)]
    · have hw : w ≠ d := fun e => hw e.symm
      rw [h3]; simp [freezeAfter, claimant, hw]
    · have hw : d = w := hw
      rw [h3]; simp [freezeAfter, claimant, hw, Item.arrive]
  | transfer d c =>
    refine ⟨h1, fun w => by rw [h3], fun w => by rw [h3], fun w hw => ?_, fun w hw => ?_, fun w => ?_, fun w hw => ?_,
      fun w hw => ?_, h4⟩
    · have hw : who ≠ w := fun e => hw (by rw [← e]; rfl)
      rw [h3]
      simp only [freeAfter, Item.gain, Option.some.injEq]
      by_cases hd : d = w
      · subst hd
        simp [hw]
      · by_cases hs : who = d
        · simp [hd, hs]
        · simp [hd, hs, Ne.symm hd, Ne.symm hw]
    · rw [h3]
    · rw [h2]
      simp only [schedulesAfter, Item.target, Item.gets]
      by_cases hw : d = w
      · simp [hw]
      · simp [hw, Ne.symm hw]
    · have hw : w ≠ d := fun e => hw e.symm
      rw [h3]; simp [freezeAfter, hw]
    · have hw : d = w := hw
      rw [h3]; simp [freezeAfter, hw, Item.arrive]

theorem inflow_cons (x : Item) (h : List Item) (w : AccountId) : inflow (x :: h) w = x.arrive w + inflow h w := by simp [inflow]
theorem gains_cons (x : Item) (h : List Item) (w : AccountId) : gains (x :: h) w = x.gain w + gains h w := by simp [gains]
theorem sent_cons (x : Item) (h : List Item) (w : AccountId) : sent (x :: h) w = x.gets w ++ sent h w := by simp [sent]

theorem gets_target {x : Item} {w : AccountId} (h : x.target ≠ w) : x.gets w = [] := by
  obtain ⟨env, who, call⟩ := x
  cases call <;> simp_all [Item.target, Item.gets]

theorem arrive_target {x : Item} {w : AccountId} (h : x.target ≠ w) : x.arrive w = 0 := by
  obtain ⟨env, who, call⟩ := x
  cases call <;> simp_all [Item.target, Item.arrive]

theorem arrive_target' {x : Item} {w : AccountId} (h : ∀ c, x.call ≠ .transfer w c) : x.arrive w = 0 := by
  obtain ⟨env, who, call⟩ := x
  cases call with
  | transfer d c =>
    have : d ≠ w := fun e => h c (by rw [← e])
    simp [Item.arrive, this]
  | _ => rfl

theorem gain_arrive {x : Item} {w : AccountId} (h : x.payer ≠ some w) : x.gain w = x.arrive w := by
  obtain ⟨env, who, call⟩ := x
  cases call <;> simp_all [Item.payer, Item.gain, Item.arrive]

theorem gets_eq {x : Item} {w : AccountId} {c : Sched} : c ∈ x.gets w ↔ x.call = .transfer w c := by
  obtain ⟨env, who, call⟩ := x
  cases call with
  | transfer d c' =>
    simp only [Item.gets, Call.transfer.injEq]
    by_cases hd : d = w
    · simp [hd, eq_comm]
    · simp [hd]
  | _ => simp [Item.gets]

theorem gets_length {x : Item} {w : AccountId} (hz : x.gets w ≠ []) : (x.gets w).length = 1 := by
  obtain ⟨env, who, call⟩ := x
  cases call with
  | transfer d c' =>
    simp only [Item.gets] at hz ⊢
    split at hz
    · rename_i hd; rw [if_pos hd]; rfl
    · exact absurd rfl hz
  | _ => simp [Item.gets] at hz

/-- What is running afterwards. -/
theorem running_done {cfg : Config} {s s' : State} {x : Item} (hd : Done cfg s s' x) (hs : Steady cfg s x) (w : AccountId) :
    running s' w = running s w ++ x.gets w := by
  unfold running
  rw [hd.schedules, hd.block]
  split
  · rename_i ht
    rw [List.filter_append]
    congr 1
    · simp [running]
    · rw [List.filter_eq_self]
      intro c hc
      simpa using hs.runs w c (gets_eq.1 hc)
  · rename_i ht
    rw [gets_target ht, List.append_nil]

theorem kept_running (s : State) (w : AccountId) : unvestedAll (running s w) s.block = kept s w := unvestedAll_live s w

theorem unvestedAll_append (l l' : List Sched) (now : BlockNumber) :
    unvestedAll (l ++ l') now = unvestedAll l now + unvestedAll l' now := by simp [unvestedAll]

theorem unvestedAll_perm {l l' : List Sched} (h : l.Perm l') (now : BlockNumber) : unvestedAll l now = unvestedAll l' now :=
  (h.map _).sum_nat

/-! ## When all succeed -/

/-- When a list of calls succeeds, whatever their order. -/
structure Fits (cfg : Config) (s : State) (h : List Item) : Prop where
  usable : ∀ x ∈ h, ∀ d c, x.call = .transfer d c → Usable cfg c
  payable : ∀ x ∈ h, ∀ d c, x.call = .transfer d c → Payable cfg x.env (acct s x.who) (payout c)
  room : ∀ w, sent h w ≠ [] → (running s w).length + (sent h w).length ≤ cfg.maxSchedules
  fits : ∀ w, sent h w ≠ [] → (acct s w).free + (acct s w).reserved + inflow h w < 2 ^ 128

theorem Fits.perm {cfg : Config} {s : State} {h h' : List Item} (hp : h.Perm h') (f : Fits cfg s h) : Fits cfg s h' := by
  have h1 : ∀ w, (sent h w).Perm (sent h' w) := fun w => hp.flatMap_right _
  have h2 : ∀ w, inflow h w = inflow h' w := fun w => (hp.map _).sum_nat
  refine ⟨fun x hx => f.usable x (hp.mem_iff.2 hx), fun x hx => f.payable x (hp.mem_iff.2 hx), fun w hw => ?_, fun w hw => ?_⟩
  · rw [← (h1 w).length_eq]
    exact f.room w (fun e => hw (List.nil_perm.1 (e ▸ h1 w)))
  · rw [← h2]
    exact f.fits w (fun e => hw (List.nil_perm.1 (e ▸ h1 w)))

theorem payout_pos {c : Sched} {now : BlockNumber} (hu : 0 < c.period) (h : unvested c now ≠ 0) : payout c ≠ 0 := by
  have := unvested_le_total c hu now
  unfold payout
  omega

theorem sent_mem {h : List Item} {w : AccountId} (hz : sent h w ≠ []) : ∃ y ∈ h, ∃ c, y.call = .transfer w c := by
  obtain ⟨c, hc⟩ := List.exists_mem_of_ne_nil _ hz
  obtain ⟨y, hy, hc⟩ := List.mem_flatMap.1 hc
  exact ⟨y, hy, c, gets_eq.1 hc⟩

theorem payer_transfer {x : Item} {d : AccountId} {c : Sched} (h : x.call = .transfer d c) : x.payer = some x.who := by
  simp [Item.payer, h]

theorem target_transfer {x : Item} {d : AccountId} {c : Sched} (h : x.call = .transfer d c) : x.target = d := by
  simp [Item.target, h]

/-- Whoever pays later is not touched. -/
theorem payer_same {cfg : Config} {s s' : State} {x y : Item} (hd : Done cfg s s' x) (ha : Apart x y) {w : AccountId}
    (hp : y.payer = some w) : acct s' w = acct s w := by
  obtain ⟨h1, h2⟩ := ha.2 w hp
  have e1 := hd.reserved w
  have e2 := hd.other w
  have e3 := hd.free w h1
  have e4 := hd.untouched w h2
  rw [gain_arrive h1, arrive_target h2] at e3
  generalize acct s' w = p at *
  generalize acct s w = q at *
  cases p; cases q
  simp_all

theorem steady_done {cfg : Config} {s s' : State} {x y : Item} (hd : Done cfg s s' x) (ha : Apart x y) (hs : Steady cfg s y) :
    Steady cfg s' y := by
  refine ⟨hs.ordinary, hs.freezeOk, fun d c hc => by rw [hd.block]; exact hs.runs d c hc, fun d c hc => ?_⟩
  have hn : x.payer ≠ some d := fun e => (ha.1 d e).2 (target_transfer hc)
  have := hd.free d hn
  rcases hs.deposit d c hc with h | h
  · exact .inl h
  · right; omega

theorem inflow_zero {h : List Item} {w : AccountId} (hz : sent h w = []) : inflow h w = 0 := by
  induction h with
  | nil => rfl
  | cons x h ih =>
    rw [sent_cons, List.append_eq_nil_iff] at hz
    rw [inflow_cons, ih hz.2, arrive_target' (fun c hc => ?_)]
    have := gets_eq.2 hc
    rw [hz.1] at this
    exact absurd this List.not_mem_nil

/-- One more call in front. -/
theorem fits_cons {cfg : Config} {s s' : State} {x : Item} {h : List Item} (hr : Reach cfg s) (hx : exec cfg s x = some s')
    (ha : ∀ y ∈ h, Apart x y) (hs : Steady cfg s x) : Fits cfg s' h ↔ Fits cfg s (x :: h) := by
  have hd := done_of hr hs.ordinary hx
  have hrun := running_done hd hs
  have hperm := (exec_iff hr x).1 ⟨s', hx⟩
  have hfree : ∀ w, sent h w ≠ [] → (acct s' w).free = (acct s w).free + x.arrive w := by
    intro w hw
    obtain ⟨y, hy, c, hc⟩ := sent_mem hw
    have hn : x.payer ≠ some w := fun e => ((ha y hy).1 w e).2 (target_transfer hc)
    rw [hd.free w hn, gain_arrive hn]
  constructor
  · intro f
    refine ⟨?_, ?_, fun w hw => ?_, fun w hw => ?_⟩
    · intro y hy d c hc
      rcases List.mem_cons.1 hy with rfl | hy
      · rw [hc] at hperm
        obtain ⟨_, _, hu, _⟩ := hperm
        exact hu
      · exact f.usable y hy d c hc
    · intro y hy d c hc
      rcases List.mem_cons.1 hy with rfl | hy
      · rw [hc] at hperm
        obtain ⟨src, e, _, hp, _⟩ := hperm
        cases e
        exact hp
      · have := f.payable y hy d c hc
        rwa [payer_same hd (ha y hy) (payer_transfer hc)] at this
    · rw [sent_cons] at hw ⊢
      by_cases hz : sent h w = []
      · rw [hz, List.append_nil] at hw ⊢
        obtain ⟨c, hc⟩ := List.exists_mem_of_ne_nil _ hw
        have hc := gets_eq.1 hc
        rw [hc] at hperm
        obtain ⟨_, _, _, _, _, _, hl, _⟩ := hperm
        rw [gets_length hw]
        exact hl
      · have := f.room w hz
        rw [hrun, List.length_append] at this
        rw [List.length_append]; omega
    · rw [inflow_cons]
      by_cases hz : sent h w = []
      · have h0 : inflow h w = 0 := inflow_zero hz
        rw [sent_cons, hz, List.append_nil] at hw
        obtain ⟨c, hc⟩ := List.exists_mem_of_ne_nil _ hw
        have hc := gets_eq.1 hc
        have hr := hs.runs w c hc
        have ha : x.arrive w = payout c := by simp [Item.arrive, hc]
        rw [hc] at hperm
        obtain ⟨_, _, hu, _, hrec, _⟩ := hperm
        rcases hrec with hz | ⟨-, hrec⟩
        · exact absurd hz (payout_pos hu.period hr)
        · omega
      · have := f.fits w hz
        rw [hfree w hz, hd.reserved] at this
        omega
  · intro f
    refine ⟨fun y hy => f.usable y (List.mem_cons_of_mem _ hy), fun y hy d c hc => ?_, fun w hw => ?_, fun w hw => ?_⟩
    · rw [payer_same hd (ha y hy) (payer_transfer hc)]
      exact f.payable y (List.mem_cons_of_mem _ hy) d c hc
    · have := f.room w (by rw [sent_cons]; simp [hw])
      rw [sent_cons, List.length_append] at this
      rw [hrun, List.length_append]; omega
    · have := f.fits w (by rw [sent_cons]; simp [hw])
      rw [inflow_cons] at this
      rw [hfree w hw, hd.reserved]
      omega

theorem fits_exec {cfg : Config} {s : State} {x : Item} {h : List Item} (hr : Reach cfg s) (hs : Steady cfg s x)
    (f : Fits cfg s (x :: h)) : ∃ s', exec cfg s x = some s' := by
  rw [exec_iff hr]
  obtain ⟨env, who, call⟩ := x
  cases call with
  | claim => exact ⟨who, rfl, .inr hs.freezeOk⟩
  | claimFor d => exact ⟨by simp, .inr hs.freezeOk⟩
  | update w l => exact absurd rfl (hs.ordinary w l)
  | transfer d c =>
    have hu := f.usable _ List.mem_cons_self d c rfl
    have hg : sent (⟨env, who, .transfer d c⟩ :: h) d = c :: sent h d := by simp [sent_cons, Item.gets]
    have hi : inflow (⟨env, who, .transfer d c⟩ :: h) d = payout c + inflow h d := by simp [inflow_cons, Item.arrive]
    have h1 := f.room d (by rw [hg]; simp)
    have h2 := f.fits d (by rw [hg]; simp)
    rw [hg, List.length_cons] at h1
    rw [hi] at h2
    have hk := kept_le hr d
    refine ⟨who, rfl, hu, f.payable _ List.mem_cons_self d c rfl, .inr ⟨?_, by omega⟩, by omega, by omega, .inr hs.freezeOk⟩
    rcases hs.deposit d c rfl with h | h <;> omega

/-- All succeed just when they fit. -/
theorem execAll_iff {cfg : Config} {h : List Item} : ∀ {s : State}, Reach cfg s → h.Pairwise Apart → (∀ x ∈ h, Steady cfg s x) →
    ((execAll cfg s h).isSome = true ↔ Fits cfg s h) := by
  induction h with
  | nil =>
    intro s _ _ _
    exact ⟨fun _ => ⟨by simp, by simp, by simp [sent], by simp [sent]⟩, fun _ => rfl⟩
  | cons x h ih =>
    intro s hr hp hs
    obtain ⟨ha, hp⟩ := List.pairwise_cons.1 hp
    have hsx := hs x List.mem_cons_self
    have step : ∀ s', exec cfg s x = some s' → ((execAll cfg s' h).isSome = true ↔ Fits cfg s (x :: h)) := by
      intro s' hx
      have hd := done_of hr hsx.ordinary hx
      rw [← fits_cons hr hx ha hsx]
      exact ih (exec_reach hr hx) hp (fun y hy => steady_done hd (ha y hy) (hs y (List.mem_cons_of_mem _ hy)))
    constructor
    · intro he
      cases hx : exec cfg s x with
      | none => simp [execAll, hx] at he
      | some s' =>
        simp only [execAll, hx, Option.bind_some] at he
        exact (step s' hx).1 he
    · intro f
      obtain ⟨s', hx⟩ := fits_exec hr hsx f
      simp only [execAll, hx, Option.bind_some]
      exact (step s' hx).2 f

/-! ## What they leave -/

/-- What a list of calls leaves, account by account. -/
structure Left (cfg : Config) (s t : State) (h : List Item) : Prop where
  block : t.block = s.block
  reserved : ∀ w, (acct t w).reserved = (acct s w).reserved
  other : ∀ w, (acct t w).other = (acct s w).other
  free : ∀ w, (∀ x ∈ h, x.payer ≠ some w) → (acct t w).free = (acct s w).free + gains h w
  paid : ∀ x ∈ h, ∀ w, x.payer = some w → (acct t w).free = freeAfter cfg s (some x.who) x.call w
  running : ∀ w, running t w = running s w ++ sent h w
  schedules : ∀ w, (∃ x ∈ h, x.target = w) → schedulesOf t w = TimeRelease.running s w ++ sent h w
  untouched : ∀ w, (∀ x ∈ h, x.target ≠ w) → (acct t w).freeze = (acct s w).freeze ∧ schedulesOf t w = schedulesOf s w
  freeze : ∀ w, (∃ x ∈ h, x.target = w) → Unbegun s.block h w → (acct t w).freeze = kept t w
  burned : t.burned = s.burned + (h.map (fun x => burnedBy cfg s (some x.who) x.call)).sum

theorem freeAfter_congr {cfg : Config} {s s' : State} {x : Item} {w : AccountId} (hp : x.payer = some w)
    (h : acct s' w = acct s w) : freeAfter cfg s' (some x.who) x.call w = freeAfter cfg s (some x.who) x.call w := by
  unfold freeAfter
  split <;> rw [h]

theorem burnedBy_congr {cfg : Config} {s s' : State} {x : Item} (h : ∀ w, x.payer = some w → acct s' w = acct s w) :
    burnedBy cfg s' (some x.who) x.call = burnedBy cfg s (some x.who) x.call := by
  unfold burnedBy
  split
  · rename_i d c hc
    dsimp only
    rw [h x.who (payer_transfer hc)]
  · rfl

theorem gains_zero {h : List Item} {w : AccountId} (h1 : ∀ z ∈ h, z.payer ≠ some w) (h2 : ∀ z ∈ h, z.target ≠ w) :
    gains h w = 0 := by
  induction h with
  | nil => rfl
  | cons z h ih =>
    rw [gains_cons, ih (fun a b => h1 a (List.mem_cons_of_mem _ b)) (fun a b => h2 a (List.mem_cons_of_mem _ b)),
      gain_arrive (h1 z List.mem_cons_self), arrive_target (h2 z List.mem_cons_self)]

theorem left_of {cfg : Config} {h : List Item} : ∀ {s t : State}, Reach cfg s → h.Pairwise Apart → (∀ x ∈ h, Steady cfg s x) →
    execAll cfg s h = some t → Left cfg s t h := by
  induction h with
  | nil =>
    intro s t _ _ _ he
    cases he
    exact ⟨rfl, fun _ => rfl, fun _ => rfl, fun _ _ => by simp [gains], by simp, fun _ => by simp [sent], fun _ => by simp,
      fun _ _ => ⟨rfl, rfl⟩, fun _ => by simp, by simp⟩
  | cons x h ih =>
    intro s t hr hp hs he
    obtain ⟨ha, hp⟩ := List.pairwise_cons.1 hp
    have hsx := hs x List.mem_cons_self
    cases hx : exec cfg s x with
    | none => simp [execAll, hx] at he
    | some s' =>
      simp only [execAll, hx, Option.bind_some] at he
      have hd := done_of hr hsx.ordinary hx
      have hrun := running_done hd hsx
      have l := ih (exec_reach hr hx) hp (fun y hy => steady_done hd (ha y hy) (hs y (List.mem_cons_of_mem _ hy))) he
      refine ⟨l.block.trans hd.block, fun w => (l.reserved w).trans (hd.reserved w), fun w => (l.other w).trans (hd.other w),
        fun w hw => ?_, fun y hy w hw => ?_, fun w => ?_, fun w hw => ?_, fun w hw => ?_, fun w hw hu => ?_, ?_⟩
      · rw [l.free w (fun y hy => hw y (List.mem_cons_of_mem _ hy)), hd.free w (hw x List.mem_cons_self), gains_cons]; omega
      · rcases List.mem_cons.1 hy with rfl | hy
        · have h1 : ∀ z ∈ h, z.payer ≠ some w := fun z hz => ((ha z hz).1 w hw).1
          have h2 : gains h w = 0 := gains_zero h1 (fun z hz => ((ha z hz).1 w hw).2)
          rw [l.free w h1, h2, hd.paid w hw, Nat.add_zero]
        · rw [l.paid y hy w hw, freeAfter_congr hw (payer_same hd (ha y hy) hw)]
      · rw [l.running w, hrun, sent_cons, List.append_assoc]
      · by_cases hl : ∃ y ∈ h, y.target = w
        · rw [l.schedules w hl, hrun, sent_cons, List.append_assoc]
        · have hn : ∀ y ∈ h, y.target ≠ w := fun y hy e => hl ⟨y, hy, e⟩
          have hxt : x.target = w := by
            obtain ⟨y, hy, e⟩ := hw
            rcases List.mem_cons.1 hy with rfl | hy
            · exact e
            · exact absurd e (hn y hy)
          have h0 : sent h w = [] := by
            unfold sent
            rw [List.flatMap_eq_nil_iff]
            exact fun y hy => gets_target (hn y hy)
          rw [(l.untouched w hn).2, hd.schedules, if_pos hxt, sent_cons, h0, List.append_nil]
      · obtain ⟨h1, h2⟩ := l.untouched w (fun y hy => hw y (List.mem_cons_of_mem _ hy))
        have h3 := hw x List.mem_cons_self
        exact ⟨h1.trans (hd.untouched w h3), by rw [h2, hd.schedules, if_neg h3]⟩
      · by_cases hl : ∃ y ∈ h, y.target = w
        · exact l.freeze w hl (by rw [hd.block]; exact fun y hy => hu y (List.mem_cons_of_mem _ hy))
        · have hn : ∀ y ∈ h, y.target ≠ w := fun y hy e => hl ⟨y, hy, e⟩
          have hxt : x.target = w := by
            obtain ⟨y, hy, e⟩ := hw
            rcases List.mem_cons.1 hy with rfl | hy
            · exact e
            · exact absurd e (hn y hy)
          obtain ⟨h1, h2⟩ := l.untouched w hn
          unfold kept
          rw [h1, h2, hd.freeze w hxt, hd.schedules, if_pos hxt, unvestedAll_append, l.block, hd.block, kept_running]
          congr 1
          have hux := hu x List.mem_cons_self
          obtain ⟨env, who, call⟩ := x
          cases call with
          | transfer d c =>
            have hxt : d = w := hxt
            subst hxt
            simp [Item.arrive, Item.gets, unvestedAll, hux c rfl]
          | _ => simp [Item.arrive, Item.gets, unvestedAll]
      · rw [l.burned, hd.burned]
        have : (h.map (fun y => burnedBy cfg s' (some y.who) y.call)) = h.map (fun y => burnedBy cfg s (some y.who) y.call) :=
          List.map_congr_left (fun y hy => burnedBy_congr (fun w hw => payer_same hd (ha y hy) hw))
        rw [this, List.map_cons, List.sum_cons]; omega

theorem left_same {cfg : Config} {s t t' : State} {h h' : List Item} (hp : h.Perm h') (l : Left cfg s t h) (l' : Left cfg s t' h') :
    Same (Unbegun s.block h) t t' := by
  have hsent : ∀ w, (sent h w).Perm (sent h' w) := fun w => hp.flatMap_right _
  have hk : ∀ w, kept t w = kept t' w := by
    intro w
    rw [← kept_running, ← kept_running, l.running, l'.running, l.block, l'.block]
    exact unvestedAll_perm ((hsent w).append_left _) _
  refine ⟨l.block.trans l'.block.symm, fun w => ?_, fun w => (l.reserved w).trans (l'.reserved w).symm,
    fun w => (l.other w).trans (l'.other w).symm, fun w => ?_, ?_, fun w hu => ?_, hk⟩
  · by_cases hw : ∃ x ∈ h, x.payer = some w
    · obtain ⟨x, hx, e⟩ := hw
      rw [l.paid x hx w e, l'.paid x (hp.mem_iff.1 hx) w e]
    · have hn : ∀ x ∈ h, x.payer ≠ some w := fun x hx e => hw ⟨x, hx, e⟩
      rw [l.free w hn, l'.free w (fun x hx => hn x (hp.mem_iff.2 hx))]
      congr 1
      exact (hp.map _).sum_nat
  · by_cases hw : ∃ x ∈ h, x.target = w
    · rw [l.schedules w hw, l'.schedules w (by obtain ⟨x, hx, e⟩ := hw; exact ⟨x, hp.mem_iff.1 hx, e⟩)]
      exact (hsent w).append_left _
    · have hn : ∀ x ∈ h, x.target ≠ w := fun x hx e => hw ⟨x, hx, e⟩
      rw [(l.untouched w hn).2, (l'.untouched w (fun x hx => hn x (hp.mem_iff.2 hx))).2]
  · rw [l.burned, l'.burned]
    congr 1
    exact (hp.map _).sum_nat
  · by_cases hw : ∃ x ∈ h, x.target = w
    · rw [l.freeze w hw hu, l'.freeze w (by obtain ⟨x, hx, e⟩ := hw; exact ⟨x, hp.mem_iff.1 hx, e⟩)
        (fun x hx => hu x (hp.mem_iff.2 hx)), hk]
    · have hn : ∀ x ∈ h, x.target ≠ w := fun x hx e => hw ⟨x, hx, e⟩
      rw [(l.untouched w hn).1, (l'.untouched w (fun x hx => hn x (hp.mem_iff.2 hx))).1]

/-! ## Theorems -/

/-- C169 in full. -/
def C169_full : Prop :=
  ∀ (cfg : Config) (env : Env) (s0 s1 : State) (items), Fresh cfg s0 → genesis cfg env s0 items = some s1 →
    ∀ (hist : List Step) (h h' : List Item), h.Perm h' → h.Pairwise Apart →
    (∀ x ∈ h, x.env.freezeOk = true ∧ ∀ w l, x.call ≠ .update w l) →
    ∀ t, execAll cfg (run cfg s1 hist) h = some t →
      ∃ t', execAll cfg (run cfg s1 hist) h' = some t' ∧ Same (fun _ => True) t t'

/-- Two of three periods of this schedule are over at block 100. -/
def begun : Item := ⟨exEnv, 1, .transfer 3 ⟨90, 5, 3, 10⟩⟩

/-- Another one for the same account. -/
def later : Item := ⟨exEnv, 2, .transfer 3 ⟨100, 5, 2, 10⟩⟩

/-- False of the code: a transfer freezes all its tokens, also those that its schedule has paid out by now; the next transfer to
the account, or a claim, frees these. So the freeze depends on which of two transfers came last: 30 of the 50 tokens that arrived,
or all. -/
theorem C169_full_false : ¬ C169_full := by
  intro hf
  have h1 : (execAll exCfg exStart [begun, later]).map (fun t => (acct t 3).freeze) = some 30 := by decide +kernel
  have h2 : (execAll exCfg exStart [later, begun]).map (fun t => (acct t 3).freeze) = some 50 := by decide +kernel
  obtain ⟨t, ht⟩ := Option.isSome_iff_exists.1 (show (execAll exCfg exStart [begun, later]).isSome = true by decide +kernel)
  obtain ⟨t', ht', hs⟩ := hf exCfg exEnv exStart exStart [] exStart_fresh rfl [] [begun, later] [later, begun]
    (List.Perm.swap _ _ _) (by simp [Apart, begun, later, Item.payer, Item.target]) (by simp [begun, later, exEnv]) t ht
  have ht' : execAll exCfg exStart [later, begun] = some t' := ht'
  have := hs.freeze 3 trivial
  rw [ht] at h1
  rw [ht'] at h2
  simp only [Option.map_some, Option.some.injEq] at h1 h2
  omega

/-- A schedule that is over when it is sent takes a place until the next transfer or claim. With one place left, it has to come
before the other. -/
example : let s := run exCfg exStart [.call exEnv (some 1) (.transfer 3 ⟨100, 50, 2, 10⟩)]
    (execAll exCfg s [⟨exEnv, 1, .transfer 3 ⟨50, 5, 3, 10⟩⟩, later]).isSome = true ∧
    (execAll exCfg s [later, ⟨exEnv, 1, .transfer 3 ⟨50, 5, 3, 10⟩⟩]).isSome = false := by decide +kernel

/-- Five tokens, less than the existential deposit, cannot be sent to a new account, unless others have come before. -/
example : (execAll exCfg exStart [⟨exEnv, 1, .transfer 7 ⟨100, 5, 3, 10⟩⟩, ⟨exEnv, 2, .transfer 7 ⟨100, 5, 1, 5⟩⟩]).isSome = true ∧
    (execAll exCfg exStart [⟨exEnv, 2, .transfer 7 ⟨100, 5, 1, 5⟩⟩, ⟨exEnv, 1, .transfer 7 ⟨100, 5, 3, 10⟩⟩]).isSome = false := by
  decide +kernel

theorem Apart.symm {x y : Item} (h : Apart x y) : Apart y x := ⟨h.2, h.1⟩

/-- C169: transfers with schedules and claims, where nobody who pays is paid, claims or pays again. If all succeed in one order,
they do in every order. All accounts have the same tokens and, up to their order, the same schedules then, and the same freeze
after a claim; also before it, if no schedule sent to the account has begun to pay out. Missing: schedules that have ended when
they are sent, amounts below the existential deposit for accounts that have not got it either, and the freeze when schedules have
begun to pay out (`C169_full_false` and the examples after it). -/
theorem C169_all_partial (cfg : Config) (env : Env) (s0 s1 : State) (items) (h0 : Fresh cfg s0)
    (hg : genesis cfg env s0 items = some s1) (hist : List Step) (h h' : List Item) (hp : h.Perm h') (ha : h.Pairwise Apart) :
    let s := run cfg s1 hist
    (∀ x ∈ h, x.env.freezeOk = true ∧ (∀ w l, x.call ≠ .update w l) ∧ ∀ d c, x.call = .transfer d c →
      unvested c s.block ≠ 0 ∧ (cfg.ed ≤ payout c ∨ cfg.ed ≤ (acct s d).free)) →
    ∀ t, execAll cfg s h = some t → ∃ t', execAll cfg s h' = some t' ∧ Same (Unbegun s.block h) t t' := by
  intro s hc t ht
  have hr : Reach cfg s := ⟨env, s0, s1, items, hist, h0, hg, rfl⟩
  have hs : ∀ x ∈ h, Steady cfg s x := fun x hx =>
    ⟨(hc x hx).2.1, (hc x hx).1, fun d c e => ((hc x hx).2.2 d c e).1, fun d c e => ((hc x hx).2.2 d c e).2⟩
  have hs' : ∀ x ∈ h', Steady cfg s x := fun x hx => hs x (hp.mem_iff.2 hx)
  have ha' : h'.Pairwise Apart := (hp.pairwise_iff (fun h => Apart.symm h)).1 ha
  have f : Fits cfg s h := (execAll_iff hr ha hs).1 (by rw [ht]; rfl)
  have f' := (execAll_iff hr ha' hs').2 (f.perm hp)
  obtain ⟨t', ht'⟩ := Option.isSome_iff_exists.1 f'
  exact ⟨t', ht', left_same hp (left_of hr ha hs ht) (left_of hr ha' hs' ht')⟩

/-- C169: when exactly all of them succeed: every schedule is usable, whoever pays can, and for every account that is paid there
is room for all its schedules, and all its tokens are a balance. None of this depends on the order. -/
theorem C169_when_partial (cfg : Config) (env : Env) (s0 s1 : State) (items) (h0 : Fresh cfg s0)
    (hg : genesis cfg env s0 items = some s1) (hist : List Step) (h : List Item) (ha : h.Pairwise Apart) :
    let s := run cfg s1 hist
    (∀ x ∈ h, x.env.freezeOk = true ∧ (∀ w l, x.call ≠ .update w l) ∧ ∀ d c, x.call = .transfer d c →
      unvested c s.block ≠ 0 ∧ (cfg.ed ≤ payout c ∨ cfg.ed ≤ (acct s d).free)) →
    ((execAll cfg s h).isSome = true ↔
      (∀ x ∈ h, ∀ d c, x.call = .transfer d c → Usable cfg c ∧ Payable cfg x.env (acct s x.who) (payout c)) ∧
      ∀ w, sent h w ≠ [] → (running s w).length + (sent h w).length ≤ cfg.maxSchedules ∧
        (acct s w).free + (acct s w).reserved + inflow h w < 2 ^ 128) := by
  intro s hc
  have hr : Reach cfg s := ⟨env, s0, s1, items, hist, h0, hg, rfl⟩
  have hs : ∀ x ∈ h, Steady cfg s x := fun x hx =>
    ⟨(hc x hx).2.1, (hc x hx).1, fun d c e => ((hc x hx).2.2 d c e).1, fun d c e => ((hc x hx).2.2 d c e).2⟩
  rw [execAll_iff hr ha hs]
  exact ⟨fun f => ⟨fun x hx d c e => ⟨f.usable x hx d c e, f.payable x hx d c e⟩, fun w hw => ⟨f.room w hw, f.fits w hw⟩⟩,
    fun f => ⟨fun x hx d c e => (f.1 x hx d c e).1, fun x hx d c e => (f.1 x hx d c e).2, fun w hw => (f.2 w hw).1,
      fun w hw => (f.2 w hw).2⟩⟩

/-- Two transfers to a new account, one of which has begun, and a claim for it by a third. -/
def exOrder : List Item :=
  [⟨exEnv, 1, .transfer 7 ⟨90, 5, 3, 10⟩⟩, ⟨exEnv, 2, .transfer 7 ⟨100, 5, 2, 10⟩⟩, ⟨exEnv, 3, .claimFor 7⟩]

/-- Case for `C169_all_partial` and `C169_when_partial`: they succeed in this and in the opposite order, with all schedules kept and
50 tokens. -/
example : exOrder.Pairwise Apart ∧
    (∀ x ∈ exOrder, x.env.freezeOk = true ∧ (∀ w l, x.call ≠ .update w l) ∧ ∀ d c, x.call = .transfer d c →
      unvested c exStart.block ≠ 0 ∧ (exCfg.ed ≤ payout c ∨ exCfg.ed ≤ (acct exStart d).free)) ∧
    [exOrder, exOrder.reverse].map (fun h => (execAll exCfg exStart h).map
      (fun t => ((acct t 7).free, (schedulesOf t 7).length, kept t 7, (acct t 1).free, (acct t 2).free))) =
      [some (50, 2, 30, 970, 480), some (50, 2, 30, 970, 480)] := by
  refine ⟨by simp [exOrder, Apart, Item.payer, Item.target], ?_, by decide +kernel⟩
  intro x hx
  simp only [exOrder, List.mem_cons, List.not_mem_nil, or_false] at hx
  rcases hx with rfl | rfl | rfl
  · refine ⟨rfl, by simp, fun d c e => ?_⟩; cases e; decide +kernel
  · refine ⟨rfl, by simp, fun d c e => ?_⟩; cases e; decide +kernel
  · exact ⟨rfl, by simp, by simp⟩

/-- Its freeze is 50 or 30, until the next claim; that of a schedule that has not begun is the same in both orders. -/
example : [exOrder, exOrder.reverse].map (fun h => (execAll exCfg exStart h).map (fun t => (acct t 7).freeze)) =
      [some 30, some 50] ∧
    [[later, ⟨exEnv, 3, .claim⟩], [⟨exEnv, 3, .claim⟩, later]].map (fun h => (execAll exCfg exStart h).map
      (fun t => (acct t 3).freeze)) = [some 20, some 20] := by decide +kernel

end Verif.TimeRelease
