import Verif.TimeRelease.Props
/-!
# What the events of the time-release pallet tell

C123: whoever follows `ReleaseScheduleAdded`, `Claimed` and `ReleaseSchedulesUpdated` knows what is held back on every
account.
-/

namespace Verif.TimeRelease

/-! ## Events -/

/-- `Event`, lib.rs 136-161. -/
inductive Event where
  | added (src dest : AccountId) (c : Sched)
  | claimed (who : AccountId) (amount : Balance)
  | updated (who : AccountId)
  deriving DecidableEq, Repr

/-- The event of a step: `Claimed` 250 and 334, `ReleaseScheduleAdded` 285-289, `ReleaseSchedulesUpdated` 316. A call
that fails deposits none. -/
def eventOf (cfg : Config) (s : State) : Step → Option Event
  | .call env origin c => match dispatch cfg env s origin c with
    | .ok p => match c with
      | .transfer dest c => origin.map (fun src => .added src dest c)
      | .update who _ => some (.updated who)
      | .claim | .claimFor _ => p.2.map (fun x => .claimed x.1 x.2)
    | .error _ => none
  | _ => none

/-- The events of a history with their blocks. -/
def log (cfg : Config) (s : State) : List Step → List (BlockNumber × Event)
  | [] => []
  | x :: xs => (eventOf cfg s x).toList.map (s.block, ·) ++ log cfg (apply cfg s x) xs

/-! ## Specification -/

/-- What somebody knows of an account who knows its schedules and its freeze at the start and then nothing but the
events. -/
structure View where
  schedules : Option (List Sched)
  freeze : Option Balance
  deriving DecidableEq, Repr

/-- What they conclude from an event. -/
def View.see (who : AccountId) (v : View) : BlockNumber × Event → View
  | (b, .added _ dest c) => if dest = who then
      ⟨v.schedules.map (· ++ [c]), v.schedules.map (fun l => unvestedAll l b + c.perPeriod * c.count)⟩ else v
  | (_, .claimed w n) => if w = who then ⟨if n = 0 then some [] else v.schedules, some n⟩ else v
  | (_, .updated w) => if w = who then ⟨none, none⟩ else v

/-- What they know after a history. -/
def view (cfg : Config) (s : State) (hist : List Step) (who : AccountId) : View :=
  (log cfg s hist).foldl (View.see who) ⟨some (schedulesOf s who), some (acct s who).freeze⟩

/-- C123 as stated: the events determine which schedules hold back something, and how much is frozen. -/
def C123_full : Prop :=
  ∀ (cfg : Config) (env : Env) (s0 s1 : State) (items : List (AccountId × Sched)), Fresh cfg s0 →
    genesis cfg env s0 items = some s1 → ∀ (h1 h2 : List Step) (who : AccountId),
    (run cfg s1 h1).block = (run cfg s1 h2).block → log cfg s1 h1 = log cfg s1 h2 →
    live (run cfg s1 h1) who = live (run cfg s1 h2) who ∧
    (acct (run cfg s1 h1) who).freeze = (acct (run cfg s1 h2) who).freeze

/-! ## Proofs -/

/-- What is known is right. -/
structure Agrees (s : State) (who : AccountId) (v : View) : Prop where
  schedules : ∀ l, v.schedules = some l → live s who = l.filter (fun c => unvested c s.block ≠ 0)
  freeze : ∀ n, v.freeze = some n → (acct s who).freeze = n

theorem unvestedAll_filter (l : List Sched) (b : BlockNumber) :
    unvestedAll (l.filter (fun c => unvested c b ≠ 0)) b = unvestedAll l b := by
  unfold unvestedAll
  induction l with
  | nil => rfl
  | cons c l ih =>
    rw [List.filter_cons]
    by_cases h : unvested c b = 0
    · rw [if_neg (by simp [h]), ih]; simp [h]
    · rw [if_pos (by simp [h])]; simp only [List.map_cons, List.sum_cons, ih]

theorem filter_later (l : List Sched) (b : BlockNumber) (n : Nat) :
    (l.filter (fun c => unvested c b ≠ 0)).filter (fun c => unvested c (b + n) ≠ 0) =
      l.filter (fun c => unvested c (b + n) ≠ 0) := by
  rw [List.filter_filter]
  apply List.filter_congr
  intro c _
  have := unvested_anti c (t1 := b) (t2 := b + n) (Nat.le_add_right _ _)
  by_cases h : unvested c (b + n) = 0
  · simp [h]
  · have : unvested c b ≠ 0 := by omega
    simp [h, this]

/-- The amount not yet vested, as the view tells it. -/
theorem Agrees.unvested {s : State} {who : AccountId} {v : View} (h : Agrees s who v) {l : List Sched}
    (hl : v.schedules = some l) : unvestedAll (schedulesOf s who) s.block = unvestedAll l s.block := by
  rw [← unvestedAll_live, h.schedules l hl, unvestedAll_filter]

theorem unvestedAll_zero {l : List Sched} {b : BlockNumber} (h : unvestedAll l b = 0) :
    l.filter (fun c => TimeRelease.unvested c b ≠ 0) = [] := by
  rw [List.filter_eq_nil_iff]
  intro c hc
  have : TimeRelease.unvested c b ≤ unvestedAll l b := by
    unfold unvestedAll
    clear h
    induction l with
    | nil => cases hc
    | cons d l ih =>
      simp only [List.map_cons, List.sum_cons]
      rcases List.mem_cons.mp hc with rfl | hc
      · omega
      · have := ih hc; omega
  simp only [ne_eq, decide_not, Bool.not_eq_true', decide_eq_false_iff_not, not_not]
  omega

theorem agrees_step {cfg : Config} {s : State} (hc : ∀ who, Covered cfg s who) {who : AccountId} {v : View}
    (h : Agrees s who v) (x : Step) :
    Agrees (apply cfg s x) who (((eventOf cfg s x).toList.map (s.block, ·)).foldl (View.see who) v) := by
  cases x with
  | tick n =>
    refine ⟨fun l hl => ?_, h.freeze⟩
    have := h.schedules l hl
    show (schedulesOf s who).filter (fun c => unvested c (s.block + n) ≠ 0) = _
    rw [← filter_later, show (schedulesOf s who).filter (fun c => unvested c s.block ≠ 0) = _ from this, filter_later]
    rfl
  | elsewhere w free reserved other =>
    simp only [apply, eventOf, Option.toList_none, List.map_nil, List.foldl_nil]
    split
    · refine ⟨h.schedules, fun n hn => ?_⟩
      rw [acct_setAcct]
      split
      · rename_i e; subst e; exact h.freeze n hn
      · exact h.freeze n hn
    · exact h
  | call env origin c =>
    simp only [apply, eventOf]
    generalize hd : dispatch cfg env s origin c = d
    cases d with
    | error e => exact h
    | ok r =>
      rcases dispatch_ok hd with ⟨w, p, hp, rfl, ho⟩ | ⟨src, dest, sch, s', rfl, rfl, hs, rfl⟩ | ⟨w, l, s', rfl, _, hs, rfl⟩
      · have hev : (match c with
            | .transfer dest c => origin.map (fun src => Event.added src dest c)
            | .update who _ => some (Event.updated who)
            | .claim | .claimFor _ => (some (w, p.2)).map (fun x => Event.claimed x.1 x.2)) =
            some (.claimed w p.2) := by
          rcases ho with ⟨rfl, _⟩ | ⟨rfl, _⟩ <;> rfl
        simp only [hev, Option.toList_some, List.map_cons, List.map_nil, List.foldl_cons, List.foldl_nil, View.see]
        rw [doClaim_ok_iff (hc w)] at hp
        obtain ⟨_, rfl⟩ := hp
        have hsch : ∀ a, schedulesOf (setAcct (storeSchedules s w (live s w)) w
            { acct s w with freeze := unvestedAll (schedulesOf s w) s.block }) a =
            if a = w then live s w else schedulesOf s a := fun a => schedulesOf_store s w a (live s w)
        have hblk : (setAcct (storeSchedules s w (live s w)) w
            { acct s w with freeze := unvestedAll (schedulesOf s w) s.block }).block = s.block := store_block _ _ _
        have hfr : ∀ a, (acct (setAcct (storeSchedules s w (live s w)) w
            { acct s w with freeze := unvestedAll (schedulesOf s w) s.block }) a).freeze =
            if a = w then unvestedAll (schedulesOf s w) s.block else (acct s a).freeze := by
          intro a
          rw [acct_setAcct]
          split
          · rfl
          · rw [acct_store]
        generalize setAcct (storeSchedules s w (live s w)) w
            { acct s w with freeze := unvestedAll (schedulesOf s w) s.block } = s' at hsch hblk hfr
        have hlive : live s' who = if who = w then live s w else live s who := by
          show (schedulesOf s' who).filter _ = _
          rw [hsch, hblk]
          split
          · unfold live; rw [List.filter_filter]; simp
          · rfl
        by_cases e : w = who
        · subst e
          rw [if_pos rfl]
          refine ⟨fun l hv => ?_, fun n hn => ?_⟩
          · simp only at hv
            rw [hlive, if_pos rfl, hblk]
            split at hv
            · rename_i h0
              cases hv
              exact unvestedAll_zero h0
            · exact h.schedules l hv
          · cases hn
            rw [hfr, if_pos rfl]
        · rw [if_neg e]
          refine ⟨fun l hv => ?_, fun n hn => ?_⟩
          · rw [hlive, if_neg (Ne.symm e), hblk]
            exact h.schedules l hv
          · rw [hfr, if_neg (Ne.symm e)]
            exact h.freeze n hn
      · have hm := doTransfer_ok (hc dest) hs
        simp only [Option.map_some, Option.toList_some, List.map_cons, List.map_nil, List.foldl_cons, List.foldl_nil,
          View.see]
        by_cases e : dest = who
        · subst e
          rw [if_pos rfl]
          refine ⟨fun l hv => ?_, fun n hn => ?_⟩
          · simp only [Option.map_eq_some_iff] at hv
            obtain ⟨l, hl, rfl⟩ := hv
            unfold live
            rw [hm.schedules, if_pos rfl, hm.block, List.filter_append, List.filter_append, h.schedules l hl,
              List.filter_filter]
            simp
          · simp only [Option.map_eq_some_iff] at hn
            obtain ⟨l, hl, rfl⟩ := hn
            rw [hm.freeze, if_pos rfl, h.unvested hl]
        · rw [if_neg e]
          refine ⟨fun l hv => ?_, fun n hn => ?_⟩
          · unfold live
            rw [hm.schedules, if_neg (Ne.symm e), hm.block]
            exact h.schedules l hv
          · rw [hm.freeze, if_neg (Ne.symm e)]
            exact h.freeze n hn
      · obtain ⟨h1, h2, h3, h4, h5, _, h6, h7⟩ := doUpdate_ok hs
        simp only [Option.toList_some, List.map_cons, List.map_nil, List.foldl_cons, List.foldl_nil, View.see]
        by_cases e : w = who
        · rw [if_pos e]
          exact ⟨fun l hv => (by cases hv), fun n hn => (by cases hn)⟩
        · rw [if_neg e]
          refine ⟨fun l hv => ?_, fun n hn => ?_⟩
          · unfold live
            rw [h6, if_neg (Ne.symm e), h5]
            exact h.schedules l hv
          · rw [h7, if_neg (Ne.symm e)]
            exact h.freeze n hn

theorem agrees_run {cfg : Config} (hist : List Step) : ∀ {s : State}, (∀ who, Covered cfg s who) →
    ∀ {who : AccountId} {v : View}, Agrees s who v →
      Agrees (run cfg s hist) who ((log cfg s hist).foldl (View.see who) v) := by
  induction hist with
  | nil => intro s _ who v h; exact h
  | cons x rest ih =>
    intro s hc who v h
    rw [log, List.foldl_append]
    exact ih (covered_step hc x) (agrees_step hc h x)

/-! ## C123 -/

/-- C123, partial: what follows from the events is right. The schedules known that still hold back something are those
of the account, so that the amount not yet vested is known for now and all later blocks; and the freeze known is that
of the account. Missing: after an update by root the schedules are not known, see `C123_full_false`. -/
theorem C123_view_right_partial (cfg : Config) (env : Env) (s0 s1 : State) (items) (h0 : Fresh cfg s0)
    (hg : genesis cfg env s0 items = some s1) (hist : List Step) (who : AccountId) :
    (∀ l, (view cfg s1 hist who).schedules = some l →
      live (run cfg s1 hist) who = l.filter (fun c => unvested c (run cfg s1 hist).block ≠ 0) ∧
      ∀ b, (run cfg s1 hist).block ≤ b → unvestedAll (schedulesOf (run cfg s1 hist) who) b = unvestedAll l b) ∧
    (∀ n, (view cfg s1 hist who).freeze = some n → (acct (run cfg s1 hist) who).freeze = n) := by
  have hag : Agrees (run cfg s1 hist) who _ := agrees_run (cfg := cfg) hist (s := s1) (reach_covered h0 hg []) (who := who)
    (v := ⟨some (schedulesOf s1 who), some (acct s1 who).freeze⟩)
    ⟨fun l hl => by cases hl; rfl, fun n hn => by cases hn; rfl⟩
  refine ⟨fun l hl => ?_, hag.freeze⟩
  have h1 := hag.schedules l hl
  refine ⟨h1, fun b hb => ?_⟩
  obtain ⟨n, rfl⟩ := Nat.exists_eq_add_of_le hb
  show unvestedAll (schedulesOf (run cfg s1 hist) who) ((run cfg s1 hist).block + n) = _
  rw [← unvestedAll_filter, ← filter_later,
    show (schedulesOf (run cfg s1 hist) who).filter (fun c => unvested c (run cfg s1 hist).block ≠ 0) = _ from h1,
    filter_later, unvestedAll_filter]

/-- C123: schedules and freeze are known as long as root has not updated the account, and again as soon as a claim
for the account reports zero. -/
theorem C123_view_known (cfg : Config) (s1 : State) (hist : List Step) (who : AccountId)
    (h : (∀ b, (b, Event.updated who) ∉ log cfg s1 hist) ∨
      ∃ pre b post, log cfg s1 hist = pre ++ (b, Event.claimed who 0) :: post ∧ ∀ b, (b, Event.updated who) ∉ post) :
    (view cfg s1 hist who).schedules.isSome = true ∧ (view cfg s1 hist who).freeze.isSome = true := by
  have key : ∀ (l : List (BlockNumber × Event)) (v : View), v.schedules.isSome = true → v.freeze.isSome = true →
      (∀ b, (b, Event.updated who) ∉ l) →
      (l.foldl (View.see who) v).schedules.isSome = true ∧ (l.foldl (View.see who) v).freeze.isSome = true := by
    intro l
    induction l with
    | nil => intro v h1 h2 _; exact ⟨h1, h2⟩
    | cons x l ih =>
      intro v h1 h2 h3
      have h4 : (v.see who x).schedules.isSome = true ∧ (v.see who x).freeze.isSome = true := by
        obtain ⟨b, e⟩ := x
        cases e with
        | added src dest c =>
          simp only [View.see]
          split
          · simpa using h1
          · exact ⟨h1, h2⟩
        | claimed w n =>
          simp only [View.see]
          split
          · refine ⟨?_, rfl⟩
            simp only
            split
            · rfl
            · exact h1
          · exact ⟨h1, h2⟩
        | updated w =>
          simp only [View.see]
          split
          · rename_i e; subst e; exact absurd (List.mem_cons_self) (h3 b)
          · exact ⟨h1, h2⟩
      exact ih _ h4.1 h4.2 (fun b hb => h3 b (List.mem_cons_of_mem _ hb))
  unfold view
  rcases h with h | ⟨pre, b, post, h1, h2⟩
  · exact key _ _ rfl rfl h
  · rw [h1, List.foldl_append, List.foldl_cons]
    exact key _ _ (by simp [View.see]) (by simp [View.see]) h2

/-- C123: every call that succeeds announces itself, with what it was asked for, and nothing else does. -/
theorem C123_announced (cfg : Config) (s : State) (x : Step) (e : Event) :
    eventOf cfg s x = some e ↔
      ∃ env origin c r, x = .call env origin c ∧ dispatch cfg env s origin c = .ok r ∧
        ((∃ src dest sch, c = .transfer dest sch ∧ origin = some src ∧ e = .added src dest sch) ∨
          (∃ who l, c = .update who l ∧ e = .updated who) ∨
          (∃ who, ((c = .claim ∧ origin = some who) ∨ c = .claimFor who) ∧
            ∃ n, e = .claimed who n ∧ r.2 = some (who, n))) := by
  constructor
  · intro h
    cases x with
    | tick n => cases h
    | elsewhere => cases h
    | call env origin c =>
      simp only [eventOf] at h
      generalize hd : dispatch cfg env s origin c = d at h
      cases d with
      | error e => cases h
      | ok r =>
        refine ⟨env, origin, c, r, rfl, hd, ?_⟩
        rcases dispatch_ok hd with ⟨w, p, hp, rfl, ho⟩ | ⟨src, dest, sch, s', rfl, rfl, hs, rfl⟩ | ⟨w, l, s', rfl, _, hs, rfl⟩
        · right; right
          rcases ho with ⟨rfl, rfl⟩ | ⟨rfl, ho⟩
          · cases h; exact ⟨w, .inl ⟨rfl, rfl⟩, p.2, rfl, rfl⟩
          · cases h; exact ⟨w, .inr rfl, p.2, rfl, rfl⟩
        · cases h; exact .inl ⟨src, dest, sch, rfl, rfl, rfl⟩
        · cases h; exact .inr (.inl ⟨w, l, rfl, rfl⟩)
  · rintro ⟨env, origin, c, r, rfl, hd, h⟩
    simp only [eventOf, hd]
    rcases h with ⟨src, dest, sch, rfl, rfl, rfl⟩ | ⟨who, l, rfl, rfl⟩ | ⟨who, h, n, rfl, hr⟩
    · rfl
    · rfl
    · rcases h with ⟨rfl, _⟩ | rfl <;> simp [hr]

/-- C123 is false of the code: the event of an update does not tell the new schedules. -/
theorem C123_full_false : ¬ C123_full := fun hf => by
  have := (hf exCfg exEnv exStart exStart [] exStart_fresh rfl
    [.call exEnv none (.update 1 [⟨100, 5, 3, 10⟩])] [.call exEnv none (.update 1 [⟨200, 7, 9, 10⟩])] 1
    (by decide +kernel) (by decide +kernel)).2
  exact absurd this (by decide +kernel)

/-- Such a view: account 2 after the history of the examples, and account 1 after an update and a claim at the end. -/
example : (genesis exCfg exEnv exStart [(1, ⟨0, 60, 2, 300⟩)]).map (fun s => view exCfg s exHist 2) =
      some ⟨some [exSched, ⟨100, 1, 4, 20⟩, ⟨0, 1, 200, 0⟩], some 10⟩ ∧
    view exCfg exStart [.call exEnv none (.update 1 [⟨100, 5, 3, 10⟩])] 1 = ⟨none, none⟩ ∧
    view exCfg exStart [.call exEnv none (.update 1 [⟨100, 5, 3, 10⟩]), .tick 50, .call exEnv (some 2) (.claimFor 1)] 1 =
      ⟨some [], some 0⟩ := by
  decide +kernel

end Verif.TimeRelease
