import Verif.Governance.PropsRoot
/-!
# C155: what vetoes and cancellations are good for
-/

namespace Verif.Governance

/-! ## Specification -/

/-- At least two thirds of the council. -/
def CouncilTwoThirds (o : Origin) : Prop := ∃ yes seats, o = .council yes seats ∧ 2 * seats ≤ 3 * yes

/-- C155 in full: after a veto no referendum on the proposal is opened within the cool-off period of seven days; and two
thirds of the council can stop a referendum as long as its call is not executed, whether votes are open or it passed. -/
def C155_full : Prop :=
  ∀ h : List Step,
    let s := run mainnet .init h
    (∀ t who c, (t, .done (.technicalMember who) (.vetoExternal c)) ∈ s.log →
      ∀ T i (r : Referendum), (T, .started i) ∈ s.log → s.referenda[i]? = some r → r.proposal = c → t ≤ T → t + 50400 ≤ T) ∧
    (∀ (i : Nat) (r : Referendum), s.referenda[i]? = some r → r.status = .ongoing →
      ∀ o, CouncilTwoThirds o → ∃ c s', dispatch mainnet s o c = some s' ∧
        ∃ r' : Referendum, s'.referenda[i]? = some r' ∧ r'.status = .cancelled) ∧
    (∀ x ∈ s.agenda, x.origin = .root →
      ∀ o, CouncilTwoThirds o → ∃ c s', dispatch mainnet s o c = some s' ∧ x ∉ s'.agenda)

/-! ## Vetoes -/

/-- A proposal that may not come by itself until `u`, and is not about to. -/
structure Barred (c : Call) (u : BlockNumber) (n : Nat) (s : State) : Prop where
  veto : ∃ v, veto? s c = some v ∧ (u ≤ v.1 ∨ 2 ^ 32 - 1 ≤ v.1)
  next : s.next ≠ some (c, .superMajorityApprove)
  queue : c ∉ s.queue
  refs : ∀ (i : Nat) (r : Referendum), n ≤ i → s.referenda[i]? = some r → r.proposal = c → r.threshold ≠ .superMajorityApprove

theorem Barred.notFree {c : Call} {u : BlockNumber} {n : Nat} {s : State} (h : Barred c u n s) (hu : s.now < u)
    (hm : s.now < 2 ^ 32 - 1) : free s c = false := by
  obtain ⟨v, h1, h2⟩ := h.veto
  simp only [free, h1, decide_eq_false_iff_not]
  omega

theorem veto_cons (s : State) (c c' : Call) (x : BlockNumber × List AccountId) :
    veto? { s with vetoed := (c', x) :: s.vetoed.filter (fun v => v.1 ≠ c') } c = if c' = c then some x else veto? s c := by
  unfold veto?
  simp only [List.find?_cons]
  by_cases e : c' = c
  · simp [e]
  · simp only [e, decide_false, if_false]
    congr 1
    induction s.vetoed with
    | nil => rfl
    | cons y l ih =>
      by_cases hy : y.1 = c'
      · rw [List.filter_cons_of_neg (by simpa using hy), ih, List.find?_cons]
        have : y.1 ≠ c := fun h => e (hy ▸ h)
        simp [this]
      · rw [List.filter_cons_of_pos (by simpa using hy), List.find?_cons, List.find?_cons]
        by_cases h2 : y.1 = c
        · simp [h2]
        · simp only [h2, decide_false]
          exact ih

theorem veto_congr {s s' : State} (h : s'.vetoed = s.vetoed) (c : Call) : veto? s' c = veto? s c := by
  unfold veto?; rw [h]

theorem Barred.same {c : Call} {u : BlockNumber} {n : Nat} {s s' : State} (h : Barred c u n s) (hv : s'.vetoed = s.vetoed)
    (hn : s'.next = s.next ∨ s'.next = none) (hq : ∀ x ∈ s'.queue, x ∈ s.queue)
    (hr : ∀ (i : Nat) (r' : Referendum), s'.referenda[i]? = some r' → ∃ r, s.referenda[i]? = some r ∧
      r.proposal = r'.proposal ∧ r.threshold = r'.threshold) : Barred c u n s' := by
  refine ⟨?_, ?_, fun hx => h.queue (hq c hx), fun i r' hi h' hp => ?_⟩
  · rw [veto_congr hv]; exact h.veto
  · rcases hn with hn | hn
    · rw [hn]; exact h.next
    · rw [hn]; simp
  · obtain ⟨r, a1, a2, a3⟩ := hr i r' h'
    rw [← a3]; exact h.refs i r hi a1 (a2.trans hp)

theorem set_back {l : List Referendum} {i : Nat} {r q : Referendum} (hr : l[i]? = some r) (h1 : r.proposal = q.proposal)
    (h2 : r.threshold = q.threshold) (j : Nat) (r' : Referendum) (h : (l.set i q)[j]? = some r') :
    ∃ r, l[j]? = some r ∧ r.proposal = r'.proposal ∧ r.threshold = r'.threshold := by
  by_cases e : i = j
  · subst e
    rw [List.getElem?_set_self (List.getElem?_eq_some_iff.1 hr).1] at h
    obtain rfl := Option.some.inj h
    exact ⟨r, hr, h1, h2⟩
  · rw [List.getElem?_set_ne e] at h
    exact ⟨r', h, rfl, rfl⟩

theorem cancel_back (s : State) (i j : Nat) (r' : Referendum) (h : (cancel s i).referenda[j]? = some r') :
    ∃ r, s.referenda[j]? = some r ∧ r.proposal = r'.proposal ∧ r.threshold = r'.threshold := by
  unfold cancel at h
  cases hr : s.referenda[i]? with
  | none => simp only [hr] at h; exact ⟨r', h, rfl, rfl⟩
  | some r => simp only [hr] at h; exact set_back (q := { r with status := .cancelled }) hr rfl rfl j r' h

theorem Barred.inject {c : Call} {u : BlockNumber} {n : Nat} {s : State} (h : Barred c u n s) {e : BlockNumber} {p : Call}
    {t : Threshold} {d : Nat} (hp : p = c → t ≠ .superMajorityApprove) : Barred c u n (inject s e p t d) := by
  refine ⟨h.veto, h.next, h.queue, fun i r hi hr hc => ?_⟩
  have hr' : (s.referenda ++ [⟨p, t, d, e, ⟨0, 0, 0⟩, .ongoing⟩])[i]? = some r := hr
  rw [List.getElem?_append] at hr'
  split at hr'
  · exact h.refs i r hi hr' hc
  · rw [List.getElem?_singleton] at hr'
    split at hr'
    · obtain rfl := Option.some.inj hr'; exact hp hc
    · cases hr'

theorem cancel_queue (s : State) (i : Nat) : (cancel s i).queue = s.queue := by
  unfold cancel; cases s.referenda[i]? <;> rfl

theorem Barred.cancel {c : Call} {u : BlockNumber} {n : Nat} {s : State} (h : Barred c u n s) (i : Nat) :
    Barred c u n (cancel s i) :=
  h.same ((cancel_rest _ _).2.2.2.2.2.2) (.inl (cancel_rest _ _).2.1) (fun x hx => by rw [cancel_queue] at hx; exact hx)
    (cancel_back s i)

theorem Barred.quiet {c : Call} {u : BlockNumber} {n : Nat} {s s' : State} (h : Barred c u n s) (hv : s'.vetoed = s.vetoed)
    (hn : s'.next = s.next ∨ s'.next = none) (hq : ∀ x ∈ s'.queue, x ∈ s.queue) (hr : s'.referenda = s.referenda) :
    Barred c u n s' := h.same hv hn hq (fun _ r' h' => ⟨r', hr ▸ h', rfl, rfl⟩)

theorem effect_now {cfg : Config} {s s' : State} {o : Origin} {c : Call} (he : effect cfg s o c = some s') : s'.now = s.now := by
  cases c with
  | propose c =>
    simp only [effect] at he
    cases o with
    | signed w => simp only [Option.ite_none_right_eq_some, Option.some.injEq] at he; rw [← he.2]
    | _ => cases he
  | externalPropose c => simp only [effect, Option.ite_none_right_eq_some, Option.some.injEq] at he; rw [← he.2]
  | externalProposeMajority c => simp only [effect, Option.ite_none_right_eq_some, Option.some.injEq] at he; rw [← he.2]
  | externalProposeDefault c => simp only [effect, Option.ite_none_right_eq_some, Option.some.injEq] at he; rw [← he.2]
  | fastTrack c v d =>
    simp only [effect] at he
    split_ifs at he
    split at he
    · cases he
    · split_ifs at he
      rw [← Option.some.inj he]; rfl
  | vetoExternal c =>
    simp only [effect] at he
    cases o with
    | technicalMember w =>
      simp only at he
      split at he
      · cases he
      · split_ifs at he
        rw [← Option.some.inj he]
    | _ => cases he
  | emergencyCancel i =>
    simp only [effect] at he
    split_ifs at he
    split at he
    · cases he
    · split_ifs at he
      rw [← Option.some.inj he]; exact (cancel_rest _ _).1
  | cancelReferendum i =>
    simp only [effect, Option.ite_none_right_eq_some, Option.some.injEq] at he; rw [← he.2]; exact (cancel_rest _ _).1
  | cancelProposal i => simp only [effect, Option.ite_none_right_eq_some, Option.some.injEq] at he; rw [← he.2]
  | blacklist c i =>
    simp only [effect] at he
    by_cases ho : o = .root
    · rw [if_pos ho] at he
      cases i with
      | none => rw [← Option.some.inj he]
      | some i =>
        simp only at he
        split at he
        · split at he
          · rw [← Option.some.inj he]; exact (cancel_rest _ _).1
          · rw [← Option.some.inj he]
        · rw [← Option.some.inj he]
    · rw [if_neg ho] at he; cases he
  | clearPublicProposals => simp only [effect, Option.ite_none_right_eq_some, Option.some.injEq] at he; rw [← he.2]
  | schedule b c => simp only [effect, Option.ite_none_right_eq_some, Option.some.injEq] at he; rw [← he.2]
  | cancelNamed i => simp only [effect] at he; split_ifs at he; rw [← Option.some.inj he]
  | other n => simp only [effect, Option.some.injEq] at he; rw [← he]

theorem effect_barred {cfg : Config} {s s' : State} {o : Origin} {x c : Call} {u : BlockNumber} {n : Nat}
    (he : effect cfg s o x = some s') (h : Barred c u n s) (hu : s.now < u) (hm : s.now < 2 ^ 32 - 1)
    (huc : u ≤ s.now + cfg.cooloff) : Barred c u n s' := by
  have hf := h.notFree hu hm
  cases x with
  | propose p =>
    simp only [effect] at he
    cases o with
    | signed w =>
      simp only [Option.ite_none_right_eq_some, Option.some.injEq] at he
      obtain ⟨hp, rfl⟩ := he
      refine ⟨h.veto, h.next, fun hx => ?_, h.refs⟩
      rcases List.mem_append.1 hx with hx | hx
      · exact h.queue hx
      · obtain rfl := List.mem_singleton.1 hx
        rw [hf] at hp; cases hp
    | _ => cases he
  | externalPropose p =>
    simp only [effect, Option.ite_none_right_eq_some, Option.some.injEq] at he
    obtain ⟨⟨_, _, hp⟩, rfl⟩ := he
    refine ⟨h.veto, fun hx => ?_, h.queue, h.refs⟩
    simp only [Option.some.injEq, Prod.mk.injEq] at hx
    obtain ⟨rfl, _⟩ := hx
    rw [hf] at hp; cases hp
  | externalProposeMajority p =>
    simp only [effect, Option.ite_none_right_eq_some, Option.some.injEq] at he
    obtain ⟨_, rfl⟩ := he
    exact ⟨h.veto, by simp, h.queue, h.refs⟩
  | externalProposeDefault p =>
    simp only [effect, Option.ite_none_right_eq_some, Option.some.injEq] at he
    obtain ⟨_, rfl⟩ := he
    exact ⟨h.veto, by simp, h.queue, h.refs⟩
  | fastTrack p v d =>
    simp only [effect] at he
    split_ifs at he
    split at he
    · cases he
    · split_ifs at he
      next hpt =>
        obtain rfl := Option.some.inj he
        have h1 : Barred c u n { s with next := none } := h.quiet rfl (.inr rfl) (fun _ hx => hx) rfl
        exact h1.inject (fun _ => by tauto)
  | vetoExternal p =>
    simp only [effect] at he
    cases o with
    | technicalMember w =>
      simp only at he
      split at he
      · cases he
      · split_ifs at he
        obtain rfl := Option.some.inj he
        refine ⟨?_, by simp, h.queue, h.refs⟩
        have := veto_cons s c p (s.now + cfg.cooloff, w :: ((veto? s p).map Prod.snd).getD [])
        by_cases e : p = c
        · rw [if_pos e] at this
          exact ⟨_, this, .inl huc⟩
        · rw [if_neg e] at this
          obtain ⟨v, h1, h2⟩ := h.veto
          exact ⟨v, this.trans h1, h2⟩
    | _ => cases he
  | emergencyCancel i =>
    simp only [effect] at he
    split_ifs at he
    split at he
    · cases he
    · split_ifs at he
      obtain rfl := Option.some.inj he
      exact Barred.cancel (h.quiet (s' := { s with cancelled := _ :: s.cancelled }) rfl (.inl rfl) (fun _ hx => hx) rfl) i
  | cancelReferendum i =>
    simp only [effect, Option.ite_none_right_eq_some, Option.some.injEq] at he
    obtain ⟨_, rfl⟩ := he
    exact h.cancel i
  | cancelProposal i =>
    simp only [effect, Option.ite_none_right_eq_some, Option.some.injEq] at he
    obtain ⟨_, rfl⟩ := he
    exact h.quiet rfl (.inl rfl) (fun x hx => List.mem_of_mem_eraseIdx hx) rfl
  | blacklist p i =>
    simp only [effect] at he
    by_cases ho : o = .root
    swap
    · rw [if_neg ho] at he; cases he
    rw [if_pos ho] at he
    have key : Barred c u n { s with
        vetoed := (p, 2 ^ 32 - 1, []) :: s.vetoed.filter (fun v => v.1 ≠ p)
        queue := s.queue.filter (fun q => q ≠ p)
        next := if s.next.map Prod.fst = some p then none else s.next } := by
      refine ⟨?_, ?_, fun hx => h.queue (List.mem_of_mem_filter hx), h.refs⟩
      · have := veto_cons s c p (2 ^ 32 - 1, [])
        by_cases e : p = c
        · rw [if_pos e] at this
          exact ⟨_, this, .inr (Nat.le_refl _)⟩
        · rw [if_neg e] at this
          obtain ⟨v, h1, h2⟩ := h.veto
          exact ⟨v, this.trans h1, h2⟩
      · show (if s.next.map Prod.fst = some p then none else s.next) ≠ _
        by_cases e : s.next.map Prod.fst = some p
        · rw [if_pos e]; simp
        · rw [if_neg e]; exact h.next
    have fin : ∀ i, Barred c u n (cancel { s with
        vetoed := (p, 2 ^ 32 - 1, []) :: s.vetoed.filter (fun v => v.1 ≠ p)
        queue := s.queue.filter (fun q => q ≠ p)
        next := if s.next.map Prod.fst = some p then none else s.next } i) := fun i => key.cancel i
    cases i with
    | none => rw [← Option.some.inj he]; exact key
    | some i =>
      simp only at he
      split at he
      · split at he
        · rw [← Option.some.inj he]; exact fin i
        · rw [← Option.some.inj he]; exact key
      · rw [← Option.some.inj he]; exact key
  | clearPublicProposals =>
    simp only [effect, Option.ite_none_right_eq_some, Option.some.injEq] at he
    obtain ⟨_, rfl⟩ := he
    exact h.quiet rfl (.inl rfl) (fun x hx => by simp at hx) rfl
  | schedule b p =>
    simp only [effect, Option.ite_none_right_eq_some, Option.some.injEq] at he
    obtain ⟨_, rfl⟩ := he
    exact h.quiet rfl (.inl rfl) (fun _ hx => hx) rfl
  | cancelNamed i =>
    simp only [effect] at he
    split_ifs at he
    rw [← Option.some.inj he]
    exact h.quiet rfl (.inl rfl) (fun _ hx => hx) rfl
  | other n =>
    simp only [effect, Option.some.injEq] at he
    rw [← he]; exact h

/-! ## What all steps keep -/

/-- A property of states that every part of a step keeps. -/
structure Closed (cfg : Config) (P : State → Prop) : Prop where
  call : ∀ {s s' : State} (o : Origin) (c : Call), P s → dispatch cfg s o c = some s' → P s'
  external : ∀ {s s' : State}, P s → launchExternal cfg s = some s' → P s'
  queued : ∀ {s s' : State}, P s → launchPublic cfg s = some s' → P s'
  bake : ∀ {s : State} (e i : Nat), P s → P (bake e s i)
  drop : ∀ {s : State} (f : Task → Bool), P s → P { s with agenda := s.agenda.filter f }
  tick : ∀ {s : State}, P s → P { s with now := s.now + 1 }
  votes : ∀ {s : State} (i : Nat) (r : Referendum) (y : Tally), P s → s.referenda[i]? = some r → r.status = .ongoing →
    P { s with referenda := s.referenda.set i { r with tally := y } }
  reorder : ∀ {s : State} (q : List Call), P s → q.isPerm s.queue → P { s with queue := q }

theorem Closed.step {cfg : Config} {P : State → Prop} (hc : Closed cfg P) {s : State} (h : P s) (x : Step) : P (apply cfg s x) := by
  cases x with
  | call o c =>
    simp only [apply]
    split
    · exact h
    · cases hd : dispatch cfg s o c with
      | none => exact h
      | some s' => exact hc.call o c h hd
  | votes i y =>
    simp only [apply]
    split
    · split
      · exact hc.votes _ _ _ h ‹_› ‹_›
      · exact h
    · exact h
  | reorder q =>
    simp only [apply]
    split
    · exact hc.reorder q h ‹_›
    · exact h
  | block e =>
    simp only [apply]
    have h1 := hc.tick h
    have h2 : P (beginBlock cfg e { s with now := s.now + 1 }) := by
      have bakes : ∀ (l : List Nat) (s : State), P s → P (l.foldl (Governance.bake e) s) := by
        intro l
        induction l with
        | nil => intro s h; exact h
        | cons i l ih => intro s h; exact ih _ (hc.bake e i h)
      have launch : ∀ s : State, P s → P (launchNext cfg s) := by
        intro s h
        unfold launchNext
        cases he : launchExternal cfg s with
        | none =>
          cases hp : launchPublic cfg s with
          | none => simp only [Option.getD_none]; split <;> exact h
          | some s' => simp only [Option.getD_none, Option.getD_some]; split <;> exact hc.queued h hp
        | some s'' =>
          cases hp : launchPublic cfg s with
          | none => simp only [Option.getD_none, Option.getD_some]; split <;> exact hc.external h he
          | some s' =>
            simp only [Option.getD_some]
            split
            · exact hc.queued h hp
            · exact hc.external h he
      unfold beginBlock
      refine bakes _ _ ?_
      split
      · exact launch _ h1
      · exact h1
    have performs : ∀ (l : List Task) (s : State), P s → P (l.foldl (perform cfg) s) := by
      intro l
      induction l with
      | nil => intro s h; exact h
      | cons t l ih =>
        intro s h
        refine ih _ ?_
        unfold perform
        cases hd : dispatch cfg s t.origin t.call with
        | none => exact h
        | some s' => exact hc.call _ _ h hd
    exact performs _ _ (hc.drop _ h2)

theorem Closed.run {cfg : Config} {P : State → Prop} (hc : Closed cfg P) (l : List Step) : ∀ {s : State}, P s → P (run cfg s l) := by
  induction l with
  | nil => intro s h; exact h
  | cons x l ih => intro s h; exact ih (hc.step h x)

theorem bake_now (e i : Nat) (s : State) : (bake e s i).now = s.now := by
  unfold bake
  split
  · rfl
  · split
    · simp only
      split <;> rfl
    · rfl

/-- A veto holds until it ends. -/
theorem barred_closed (cfg : Config) (c : Call) (u : BlockNumber) (n : Nat) :
    Closed cfg (fun s => u ≤ s.now + cfg.cooloff ∧ (s.now < u → s.now < 2 ^ 32 - 1 → Barred c u n s)) where
  call := by
    intro s s' o x ⟨h1, h2⟩ hd
    unfold dispatch at hd
    rw [Option.map_eq_some_iff] at hd
    obtain ⟨s1, he, rfl⟩ := hd
    have hn := effect_now he
    refine ⟨by show u ≤ s1.now + _; rw [hn]; exact h1, fun hu hm => ?_⟩
    have hu : s.now < u := hn ▸ hu
    have hm : s.now < 2 ^ 32 - 1 := hn ▸ hm
    exact (effect_barred he (h2 hu hm) hu hm h1).quiet rfl (.inl rfl) (fun _ hx => hx) rfl
  external := by
    intro s s' ⟨h1, h2⟩ hs
    unfold launchExternal at hs
    split at hs
    · cases hs
    next p t hn =>
      obtain rfl := Option.some.inj hs
      refine ⟨h1, fun hu hm => ?_⟩
      have hb := h2 hu hm
      refine (hb.quiet (s' := { s with next := none, lastExternal := true }) rfl (.inr rfl) (fun _ hx => hx) rfl).inject ?_
      rintro rfl rfl
      exact hb.next hn
  queued := by
    intro s s' ⟨h1, h2⟩ hs
    unfold launchPublic at hs
    split at hs
    · cases hs
    next p rest hq =>
      obtain rfl := Option.some.inj hs
      refine ⟨h1, fun hu hm => ?_⟩
      have hb := h2 hu hm
      refine (hb.quiet (s' := { s with queue := rest, lastExternal := false }) rfl (.inl rfl)
        (fun x hx => by rw [hq]; exact List.mem_cons_of_mem _ hx) rfl).inject ?_
      rintro rfl
      exact absurd (by rw [hq]; simp) hb.queue
  bake := by
    intro s e i ⟨h1, h2⟩
    refine ⟨by rw [bake_now]; exact h1, fun hu hm => ?_⟩
    rw [bake_now] at hu hm
    have hb := h2 hu hm
    unfold Governance.bake
    split
    · exact hb
    next r hr =>
      split
      · simp only
        split
        · exact hb.same rfl (.inl rfl) (fun _ hx => hx) (set_back hr rfl rfl)
        · exact hb.same rfl (.inl rfl) (fun _ hx => hx) (set_back hr rfl rfl)
      · exact hb
  drop := fun f ⟨h1, h2⟩ => ⟨h1, fun hu hm => (h2 hu hm).quiet rfl (.inl rfl) (fun _ hx => hx) rfl⟩
  tick := by
    intro s ⟨h1, h2⟩
    refine ⟨by show u ≤ s.now + 1 + _; omega, fun hu hm => ?_⟩
    have hu : s.now + 1 < u := hu
    have hm : s.now + 1 < 2 ^ 32 - 1 := hm
    exact (h2 (by omega) (by omega)).quiet rfl (.inl rfl) (fun _ hx => hx) rfl
  votes := fun i r y ⟨h1, h2⟩ hr _ => ⟨h1, fun hu hm =>
    (h2 hu hm).same rfl (.inl rfl) (fun _ hx => hx) (set_back hr rfl rfl)⟩
  reorder := fun q ⟨h1, h2⟩ hq => ⟨h1, fun hu hm =>
    (h2 hu hm).quiet rfl (.inl rfl) (fun x hx => (List.isPerm_iff.1 hq).mem_iff.1 hx) rfl⟩

/-! ## Cancellations -/

/-- What is known about referenda that passed, that the council cancelled, and that the scheduler has to carry out. -/
structure Stopped (s : State) : Prop where
  passed : ∀ t i e, (t, .passed i e) ∈ s.log → (∃ r : Referendum, s.referenda[i]? = some r ∧ r.status ≠ .ongoing) ∧
    ∀ t' o, (t', .done o (.emergencyCancel i)) ∉ s.log
  stopped : ∀ t o i, (t, .done o (.emergencyCancel i)) ∈ s.log → ∃ r : Referendum, s.referenda[i]? = some r ∧ r.status = .cancelled
  tasks : ∀ x ∈ s.agenda, ∀ i, x.name = some i → ∃ t e, (t, .passed i e) ∈ s.log

/-- What a call does to referenda, the record and the agenda. -/
structure Shape (s s' : State) : Prop where
  log : ∀ t e, (t, e) ∈ s'.log → (t, e) ∈ s.log ∨ ∃ i, e = .started i
  kept : ∀ x ∈ s.log, x ∈ s'.log
  refs : ∀ (i : Nat) (r : Referendum), s.referenda[i]? = some r → ∃ r' : Referendum, s'.referenda[i]? = some r' ∧
    (r.status ≠ .ongoing → r'.status ≠ .ongoing) ∧ (r.status = .cancelled → r'.status = .cancelled)
  tasks : ∀ x ∈ s'.agenda, x ∈ s.agenda ∨ x.name = none

theorem Shape.of_eq {s s' : State} (h1 : s'.log = s.log) (h2 : s'.referenda = s.referenda) (h3 : ∀ x ∈ s'.agenda, x ∈ s.agenda ∨ x.name = none) :
    Shape s s' := ⟨fun _ _ h => .inl (h1 ▸ h), fun _ h => h1 ▸ h, fun _ r h => ⟨r, h2 ▸ h, id, id⟩, h3⟩

theorem Shape.trans {a b c : State} (h : Shape a b) (h' : Shape b c) : Shape a c := by
  refine ⟨fun t e hx => ?_, fun x hx => h'.kept x (h.kept x hx), fun i r hr => ?_, fun x hx => ?_⟩
  · rcases h'.log t e hx with h1 | h1
    · exact h.log t e h1
    · exact .inr h1
  · obtain ⟨r1, a1, a2, a3⟩ := h.refs i r hr
    obtain ⟨r2, b1, b2, b3⟩ := h'.refs i r1 a1
    exact ⟨r2, b1, b2 ∘ a2, b3 ∘ a3⟩
  · rcases h'.tasks x hx with h1 | h1
    · exact h.tasks x h1
    · exact .inr h1

theorem set_status {l : List Referendum} {i : Nat} {r q : Referendum} (hr : l[i]? = some r)
    (h1 : r.status ≠ .ongoing → q.status ≠ .ongoing) (h2 : r.status = .cancelled → q.status = .cancelled) (j : Nat) (r' : Referendum)
    (h : l[j]? = some r') : ∃ q' : Referendum, (l.set i q)[j]? = some q' ∧
    (r'.status ≠ .ongoing → q'.status ≠ .ongoing) ∧ (r'.status = .cancelled → q'.status = .cancelled) := by
  by_cases e : i = j
  · subst e
    obtain rfl := Option.some.inj (hr.symm.trans h)
    exact ⟨q, by rw [List.getElem?_set_self (List.getElem?_eq_some_iff.1 hr).1], h1, h2⟩
  · exact ⟨r', by rw [List.getElem?_set_ne e]; exact h, id, id⟩

theorem cancel_shape (s : State) (i : Nat) : Shape s (cancel s i) := by
  unfold cancel
  cases hr : s.referenda[i]? with
  | none => exact .of_eq rfl rfl (fun _ h => .inl h)
  | some r =>
    exact ⟨fun _ _ h => .inl h, fun _ h => h,
      set_status (q := { r with status := .cancelled }) hr (fun _ => by simp) (fun _ => rfl), fun _ h => .inl h⟩

theorem inject_shape (s : State) (e : BlockNumber) (p : Call) (t : Threshold) (d : Nat) : Shape s (inject s e p t d) := by
  refine ⟨fun t' e' h => ?_, fun x h => List.mem_append_left _ h, fun i r hr => ⟨r, ?_, id, id⟩, fun _ h => .inl h⟩
  · rcases List.mem_append.1 h with h | h
    · exact .inl h
    · rw [List.mem_singleton] at h; cases h; exact .inr ⟨_, rfl⟩
  · show (s.referenda ++ _)[i]? = some r
    rw [List.getElem?_append_left (List.getElem?_eq_some_iff.1 hr).1]
    exact hr

theorem cancel_at (s : State) (i : Nat) (r : Referendum) (hr : s.referenda[i]? = some r) :
    (cancel s i).referenda[i]? = some { r with status := .cancelled } := by
  unfold cancel
  simp only [hr]
  rw [List.getElem?_set_self (List.getElem?_eq_some_iff.1 hr).1]

theorem effect_shape {cfg : Config} {s s' : State} {o : Origin} {c : Call} (he : effect cfg s o c = some s') : Shape s s' ∧
    ∀ i, c = .emergencyCancel i → ∃ r : Referendum, s.referenda[i]? = some r ∧ r.status = .ongoing ∧
      ∃ r' : Referendum, s'.referenda[i]? = some r' ∧ r'.status = .cancelled := by
  have none_ : ∀ x ∈ s.agenda, x ∈ s.agenda ∨ x.name = none := fun _ h => .inl h
  cases c with
  | propose c =>
    simp only [effect] at he
    cases o with
    | signed w =>
      simp only [Option.ite_none_right_eq_some, Option.some.injEq] at he; rw [← he.2]
      exact ⟨.of_eq rfl rfl none_, fun _ h => by cases h⟩
    | _ => cases he
  | externalPropose c =>
    simp only [effect, Option.ite_none_right_eq_some, Option.some.injEq] at he; rw [← he.2]
    exact ⟨.of_eq rfl rfl none_, fun _ h => by cases h⟩
  | externalProposeMajority c =>
    simp only [effect, Option.ite_none_right_eq_some, Option.some.injEq] at he; rw [← he.2]
    exact ⟨.of_eq rfl rfl none_, fun _ h => by cases h⟩
  | externalProposeDefault c =>
    simp only [effect, Option.ite_none_right_eq_some, Option.some.injEq] at he; rw [← he.2]
    exact ⟨.of_eq rfl rfl none_, fun _ h => by cases h⟩
  | fastTrack c v d =>
    simp only [effect] at he
    split_ifs at he
    split at he
    · cases he
    · split_ifs at he
      rw [← Option.some.inj he]
      exact ⟨(Shape.of_eq (s := s) (s' := { s with next := none }) rfl rfl none_).trans (inject_shape _ _ _ _ _),
        fun _ h => by cases h⟩
  | vetoExternal c =>
    simp only [effect] at he
    cases o with
    | technicalMember w =>
      simp only at he
      split at he
      · cases he
      · split_ifs at he
        rw [← Option.some.inj he]
        exact ⟨.of_eq rfl rfl none_, fun _ h => by cases h⟩
    | _ => cases he
  | emergencyCancel i =>
    simp only [effect] at he
    split_ifs at he
    split at he
    · cases he
    next r hr =>
      split_ifs at he
      next hs =>
        rw [← Option.some.inj he]
        refine ⟨(Shape.of_eq (s := s) (s' := { s with cancelled := r.proposal :: s.cancelled }) rfl rfl none_).trans
          (cancel_shape _ _), fun j h => ?_⟩
        cases h
        exact ⟨r, hr, by tauto, _, cancel_at { s with cancelled := r.proposal :: s.cancelled } i r hr, rfl⟩
  | cancelReferendum i =>
    simp only [effect, Option.ite_none_right_eq_some, Option.some.injEq] at he; rw [← he.2]
    exact ⟨cancel_shape s i, fun _ h => by cases h⟩
  | cancelProposal i =>
    simp only [effect, Option.ite_none_right_eq_some, Option.some.injEq] at he; rw [← he.2]
    exact ⟨.of_eq rfl rfl none_, fun _ h => by cases h⟩
  | blacklist c i =>
    simp only [effect] at he
    by_cases ho : o = .root
    · rw [if_pos ho] at he
      cases i with
      | none => rw [← Option.some.inj he]; exact ⟨.of_eq rfl rfl none_, fun _ h => by cases h⟩
      | some i =>
        simp only at he
        split at he
        · split at he
          · rw [← Option.some.inj he]
            refine ⟨Shape.trans ?_ (cancel_shape _ _), fun _ h => by cases h⟩
            exact .of_eq rfl rfl none_
          · rw [← Option.some.inj he]; exact ⟨.of_eq rfl rfl none_, fun _ h => by cases h⟩
        · rw [← Option.some.inj he]; exact ⟨.of_eq rfl rfl none_, fun _ h => by cases h⟩
    · rw [if_neg ho] at he; cases he
  | clearPublicProposals =>
    simp only [effect, Option.ite_none_right_eq_some, Option.some.injEq] at he; rw [← he.2]
    exact ⟨.of_eq rfl rfl none_, fun _ h => by cases h⟩
  | schedule b c =>
    simp only [effect, Option.ite_none_right_eq_some, Option.some.injEq] at he; rw [← he.2]
    refine ⟨.of_eq rfl rfl (fun x hx => ?_), fun _ h => by cases h⟩
    rcases List.mem_append.1 hx with hx | hx
    · exact .inl hx
    · rw [List.mem_singleton] at hx; subst hx; exact .inr rfl
  | cancelNamed i =>
    simp only [effect] at he
    split_ifs at he
    rw [← Option.some.inj he]
    exact ⟨.of_eq rfl rfl (fun x hx => .inl (List.mem_of_mem_filter hx)), fun _ h => by cases h⟩
  | other n =>
    simp only [effect, Option.some.injEq] at he
    rw [← he]; exact ⟨.of_eq rfl rfl none_, fun _ h => by cases h⟩

/-- Without a call of the council to cancel. -/
theorem Stopped.shape {s s' : State} (h : Stopped s) (hs : Shape s s') : Stopped s' := by
  refine ⟨fun t i e hx => ?_, fun t o i hx => ?_, fun x hx i hn => ?_⟩
  · rcases hs.log _ _ hx with hx | ⟨_, hx⟩
    · obtain ⟨⟨r, a1, a2⟩, a3⟩ := h.passed t i e hx
      obtain ⟨r', b1, b2, _⟩ := hs.refs i r a1
      refine ⟨⟨r', b1, b2 a2⟩, fun t' o ht => ?_⟩
      rcases hs.log _ _ ht with ht | ⟨_, ht⟩
      · exact a3 t' o ht
      · cases ht
    · cases hx
  · rcases hs.log _ _ hx with hx | ⟨_, hx⟩
    · obtain ⟨r, a1, a2⟩ := h.stopped t o i hx
      obtain ⟨r', b1, _, b3⟩ := hs.refs i r a1
      exact ⟨r', b1, b3 a2⟩
    · cases hx
  · rcases hs.tasks x hx with hx | hx
    · obtain ⟨t, e, ht⟩ := h.tasks x hx i hn
      exact ⟨t, e, hs.kept _ ht⟩
    · rw [hx] at hn; cases hn

theorem stopped_closed (cfg : Config) : Closed cfg Stopped where
  call := by
    intro s s' o c h hd
    unfold dispatch at hd
    rw [Option.map_eq_some_iff] at hd
    obtain ⟨s1, he, rfl⟩ := hd
    obtain ⟨hs, hc⟩ := effect_shape he
    have h1 := h.shape hs
    refine ⟨fun t i e hx => ?_, fun t o' i hx => ?_, fun x hx i hn => ?_⟩
    · rcases List.mem_append.1 hx with hx | hx
      · obtain ⟨a1, a2⟩ := h1.passed t i e hx
        refine ⟨a1, fun t' o' ht => ?_⟩
        rcases List.mem_append.1 ht with ht | ht
        · exact a2 t' o' ht
        · rw [List.mem_singleton] at ht
          simp only [Prod.mk.injEq, Event.done.injEq] at ht
          obtain ⟨r, b1, b2, _⟩ := hc i ht.2.2.symm
          rcases hs.log _ _ hx with hx | ⟨_, hx⟩
          · obtain ⟨⟨r', c1, c2⟩, _⟩ := h.passed t i e hx
            obtain rfl := Option.some.inj (b1.symm.trans c1)
            exact c2 b2
          · cases hx
      · rw [List.mem_singleton] at hx; cases hx
    · rcases List.mem_append.1 hx with hx | hx
      · exact h1.stopped t o' i hx
      · rw [List.mem_singleton] at hx
        simp only [Prod.mk.injEq, Event.done.injEq] at hx
        obtain ⟨r, _, _, b⟩ := hc i hx.2.2.symm
        exact b
    · obtain ⟨t, e, ht⟩ := h1.tasks x hx i hn
      exact ⟨t, e, List.mem_append_left _ ht⟩
  external := by
    intro s s' h hs
    unfold launchExternal at hs
    split at hs
    · cases hs
    · obtain rfl := Option.some.inj hs
      exact h.shape ((Shape.of_eq (s := s) (s' := { s with next := none, lastExternal := true }) rfl rfl (fun _ h => .inl h)).trans
        (inject_shape _ _ _ _ _))
  queued := by
    intro s s' h hs
    unfold launchPublic at hs
    split at hs
    · cases hs
    next p rest _ =>
      obtain rfl := Option.some.inj hs
      exact h.shape ((Shape.of_eq (s := s) (s' := { s with queue := rest, lastExternal := false }) rfl rfl (fun _ h => .inl h)).trans
        (inject_shape _ _ _ _ _))
  bake := by
    intro s e i h
    unfold Governance.bake
    split
    · exact h
    next r hr =>
      split
      next hg =>
        simp only
        have hi := (List.getElem?_eq_some_iff.1 hr).1
        have h1 : ∀ b, Stopped { s with referenda := s.referenda.set i { r with status := .finished b } } := fun b =>
          h.shape ⟨fun _ _ h => .inl h, fun _ h => h,
            set_status (q := { r with status := .finished b }) hr (fun _ => by simp) (fun h => by rw [hg.1] at h; cases h),
            fun _ h => .inl h⟩
        split
        next hk =>
          rw [hk]
          have h2 := h1 true
          refine ⟨fun t j e' hx => ?_, fun t o j hx => ?_, fun x hx j hn => ?_⟩
          · rcases List.mem_append.1 hx with hx | hx
            · obtain ⟨a1, a2⟩ := h2.passed t j e' hx
              refine ⟨a1, fun t' o ht => ?_⟩
              rcases List.mem_append.1 ht with ht | ht
              · exact a2 t' o ht
              · rw [List.mem_singleton] at ht; cases ht
            · rw [List.mem_singleton] at hx
              cases hx
              refine ⟨⟨_, List.getElem?_set_self hi, by simp⟩, fun t' o ht => ?_⟩
              rcases List.mem_append.1 ht with ht | ht
              · obtain ⟨r', b1, b2⟩ := h.stopped t' o i ht
                obtain rfl := Option.some.inj (hr.symm.trans b1)
                rw [hg.1] at b2; cases b2
              · rw [List.mem_singleton] at ht; cases ht
          · rcases List.mem_append.1 hx with hx | hx
            · exact h2.stopped t o j hx
            · rw [List.mem_singleton] at hx; cases hx
          · rcases List.mem_append.1 hx with hx | hx
            · obtain ⟨t, e', ht⟩ := h2.tasks x hx j hn
              exact ⟨t, e', List.mem_append_left _ ht⟩
            · rw [List.mem_singleton] at hx
              subst hx
              cases hn
              exact ⟨s.now, e, by simp⟩
        · exact h1 _
      · exact h
  drop := fun f h => h.shape (.of_eq rfl rfl (fun _ hx => .inl (List.mem_of_mem_filter hx)))
  tick := fun h => h.shape (.of_eq rfl rfl (fun _ hx => .inl hx))
  votes := fun i r y h hr _ => h.shape ⟨fun _ _ h => .inl h, fun _ h => h, set_status hr id id, fun _ h => .inl h⟩
  reorder := fun q h _ => h.shape (.of_eq rfl rfl (fun _ hx => .inl hx))

theorem stopped_init : Stopped .init :=
  ⟨fun _ _ _ h => by simp [State.init] at h, fun _ _ _ h => by simp [State.init] at h, fun _ h => by simp [State.init] at h⟩

/-! ## Whether the council asked again -/

/-- Since the first `l` entries of the record, the council asked for a referendum on this proposal: more than half of it,
or all of it. -/
def Again (log : List (BlockNumber × Event)) (l : Nat) (c : Call) : Prop :=
  ∃ t o, ((t, .done o (.externalProposeMajority c)) ∈ log.drop l ∧ CouncilMajority o) ∨
    ((t, .done o (.externalProposeDefault c)) ∈ log.drop l ∧ WholeCouncil o)

/-- The proposal comes by the threshold for what anyone may propose, or the council asked again. -/
structure Fresh (c : Call) (n l : Nat) (s : State) : Prop where
  len : l ≤ s.log.length
  next : ∀ t, s.next = some (c, t) → t = .superMajorityApprove ∨ Again s.log l c
  refs : ∀ (i : Nat) (r : Referendum), n ≤ i → s.referenda[i]? = some r → r.proposal = c →
    r.threshold = .superMajorityApprove ∨ Again s.log l c

theorem Again.mono {log more : List (BlockNumber × Event)} {l : Nat} {c : Call} (hl : l ≤ log.length) (h : Again log l c) :
    Again (log ++ more) l c := by
  obtain ⟨t, o, h⟩ := h
  refine ⟨t, o, ?_⟩
  rw [List.drop_append_of_le_length hl]
  rcases h with ⟨a, b⟩ | ⟨a, b⟩
  · exact .inl ⟨List.mem_append_left _ a, b⟩
  · exact .inr ⟨List.mem_append_left _ a, b⟩

theorem Fresh.step {c : Call} {n l : Nat} {s s' : State} (h : Fresh c n l s) (hl : ∃ more, s'.log = s.log ++ more)
    (hn : ∀ t, s'.next = some (c, t) → s.next = some (c, t) ∨ t = .superMajorityApprove ∨ Again s'.log l c)
    (hr : ∀ (i : Nat) (r' : Referendum), s'.referenda[i]? = some r' → (∃ r, s.referenda[i]? = some r ∧
      r.proposal = r'.proposal ∧ r.threshold = r'.threshold) ∨ s.next = some (r'.proposal, r'.threshold) ∨
      r'.threshold = .superMajorityApprove) : Fresh c n l s' := by
  obtain ⟨more, hm⟩ := hl
  have up : ∀ t : Threshold, (t = .superMajorityApprove ∨ Again s.log l c) → t = .superMajorityApprove ∨ Again s'.log l c := by
    rintro t (h1 | h1)
    · exact .inl h1
    · right; rw [hm]; exact h1.mono h.len
  refine ⟨by rw [hm, List.length_append]; exact Nat.le_add_right_of_le h.len, fun t ht => ?_, fun i r' hi h' hp => ?_⟩
  · rcases hn t ht with h1 | h1
    · exact up t (h.next t h1)
    · exact h1
  · rcases hr i r' h' with ⟨r, a1, a2, a3⟩ | a | a
    · rw [← a3]; exact up _ (h.refs i r hi a1 (a2.trans hp))
    · rw [hp] at a; exact up _ (h.next _ a)
    · exact .inl a

theorem inject_back (s : State) (e : BlockNumber) (p : Call) (t : Threshold) (d : Nat) (i : Nat) (r' : Referendum)
    (h : (inject s e p t d).referenda[i]? = some r') : s.referenda[i]? = some r' ∨ (r'.proposal = p ∧ r'.threshold = t) := by
  have hr' : (s.referenda ++ [⟨p, t, d, e, ⟨0, 0, 0⟩, .ongoing⟩])[i]? = some r' := h
  rw [List.getElem?_append] at hr'
  split at hr'
  · exact .inl hr'
  · rw [List.getElem?_singleton] at hr'
    split at hr'
    · obtain rfl := Option.some.inj hr'; exact .inr ⟨rfl, rfl⟩
    · cases hr'

theorem Again.now {log : List (BlockNumber × Event)} {l : Nat} (hl : l ≤ log.length) {c : Call} {t : BlockNumber} {o : Origin}
    (h : externalMajorityOrigin o = true) : Again (log ++ [(t, .done o (.externalProposeMajority c))]) l c :=
  ⟨t, o, .inl ⟨by rw [List.drop_append_of_le_length hl]; simp, councilMoreThan_majority h⟩⟩

theorem Again.now' {log : List (BlockNumber × Event)} {l : Nat} (hl : l ≤ log.length) {c : Call} {t : BlockNumber} {o : Origin}
    (h : externalDefaultOrigin o = true) : Again (log ++ [(t, .done o (.externalProposeDefault c))]) l c :=
  ⟨t, o, .inr ⟨by rw [List.drop_append_of_le_length hl]; simp, councilAtLeast_whole h⟩⟩

theorem dispatch_fresh {cfg : Config} {s s' : State} {o : Origin} {x c : Call} {n l : Nat} (h : Fresh c n l s)
    (hd : dispatch cfg s o x = some s') : Fresh c n l s' := by
  unfold dispatch at hd
  rw [Option.map_eq_some_iff] at hd
  obtain ⟨s1, he, rfl⟩ := hd
  have one : ∀ (y : BlockNumber × Event), ∃ more, s.log ++ [y] = s.log ++ more := fun y => ⟨_, rfl⟩
  have old : ∀ (i : Nat) (r' : Referendum), s.referenda[i]? = some r' → (∃ r, s.referenda[i]? = some r ∧
      r.proposal = r'.proposal ∧ r.threshold = r'.threshold) ∨ s.next = some (r'.proposal, r'.threshold) ∨
      r'.threshold = .superMajorityApprove := fun _ r' h => .inl ⟨r', h, rfl, rfl⟩
  have gone : ∀ (s0 : State) (i : Nat), s0.log = s.log → s0.referenda = s.referenda → (s0.next = s.next ∨ s0.next = none) →
      ∀ y, Fresh c n l { cancel s0 i with log := (cancel s0 i).log ++ [y] } := by
    intro s0 i h1 h2 h3 y
    refine h.step ?_ (fun t ht => .inl ?_) (fun j r' hr' => .inl ?_)
    · exact ⟨[y], by show (cancel s0 i).log ++ _ = _; rw [(cancel_rest s0 i).2.2.2.1, h1]⟩
    · have ht : (cancel s0 i).next = some (c, t) := ht
      rw [(cancel_rest s0 i).2.1] at ht
      rcases h3 with h3 | h3
      · rw [← h3]; exact ht
      · rw [h3] at ht; cases ht
    · rw [← h2]; exact cancel_back s0 i j r' hr'
  cases x with
  | propose c =>
    simp only [effect] at he
    cases o with
    | signed w =>
      simp only [Option.ite_none_right_eq_some, Option.some.injEq] at he; rw [← he.2]
      exact h.step (one _) (fun t ht => .inl ht) old
    | _ => cases he
  | externalPropose p =>
    simp only [effect, Option.ite_none_right_eq_some, Option.some.injEq] at he; rw [← he.2]
    refine h.step (one _) (fun t ht => .inr (.inl ?_)) old
    simp only [Option.some.injEq, Prod.mk.injEq] at ht
    exact ht.2.symm
  | externalProposeMajority p =>
    simp only [effect, Option.ite_none_right_eq_some, Option.some.injEq] at he; rw [← he.2]
    refine h.step (one _) (fun t ht => .inr (.inr ?_)) old
    simp only [Option.some.injEq, Prod.mk.injEq] at ht
    obtain ⟨rfl, _⟩ := ht
    exact Again.now h.len he.1
  | externalProposeDefault p =>
    simp only [effect, Option.ite_none_right_eq_some, Option.some.injEq] at he; rw [← he.2]
    refine h.step (one _) (fun t ht => .inr (.inr ?_)) old
    simp only [Option.some.injEq, Prod.mk.injEq] at ht
    obtain ⟨rfl, _⟩ := ht
    exact Again.now' h.len he.1
  | fastTrack p v d =>
    simp only [effect] at he
    split_ifs at he
    split at he
    · cases he
    next q t hn =>
      split_ifs at he
      rw [← Option.some.inj he]
      refine h.step ⟨_, List.append_assoc _ _ _⟩ (fun t ht => by cases ht) (fun i r' hr' => ?_)
      rcases inject_back _ _ _ _ _ i r' hr' with a | ⟨a1, a2⟩
      · exact .inl ⟨r', a, rfl, rfl⟩
      · right; left; rw [hn, a1, a2]
  | vetoExternal p =>
    simp only [effect] at he
    cases o with
    | technicalMember w =>
      simp only at he
      split at he
      · cases he
      · split_ifs at he
        rw [← Option.some.inj he]
        exact h.step (one _) (fun t ht => by cases ht) old
    | _ => cases he
  | emergencyCancel i =>
    simp only [effect] at he
    split_ifs at he
    split at he
    · cases he
    · split_ifs at he
      rw [← Option.some.inj he]
      refine gone _ i ?_ ?_ ?_ _ <;> first | rfl | exact .inl rfl
  | cancelReferendum i =>
    simp only [effect, Option.ite_none_right_eq_some, Option.some.injEq] at he; rw [← he.2]
    exact gone s i rfl rfl (.inl rfl) _
  | cancelProposal i =>
    simp only [effect, Option.ite_none_right_eq_some, Option.some.injEq] at he; rw [← he.2]
    exact h.step (one _) (fun t ht => .inl ht) old
  | blacklist p i =>
    simp only [effect] at he
    by_cases ho : o = .root
    swap
    · rw [if_neg ho] at he; cases he
    rw [if_pos ho] at he
    have hnx : (if s.next.map Prod.fst = some p then none else s.next) = s.next ∨
        (if s.next.map Prod.fst = some p then none else s.next) = none := by
      by_cases e : s.next.map Prod.fst = some p
      · rw [if_pos e]; exact .inr rfl
      · rw [if_neg e]; exact .inl rfl
    have hkeep : ∀ t, (if s.next.map Prod.fst = some p then none else s.next) = some (c, t) → s.next = some (c, t) := by
      intro t ht
      rcases hnx with h1 | h1
      · rw [← h1]; exact ht
      · rw [h1] at ht; cases ht
    cases i with
    | none => rw [← Option.some.inj he]; exact h.step (one _) (fun t ht => .inl (hkeep t ht)) old
    | some i =>
      simp only at he
      split at he
      · split at he
        · rw [← Option.some.inj he]
          refine gone _ i ?_ ?_ ?_ _ <;> first | rfl | exact hnx
        · rw [← Option.some.inj he]; exact h.step (one _) (fun t ht => .inl (hkeep t ht)) old
      · rw [← Option.some.inj he]; exact h.step (one _) (fun t ht => .inl (hkeep t ht)) old
  | clearPublicProposals =>
    simp only [effect, Option.ite_none_right_eq_some, Option.some.injEq] at he; rw [← he.2]
    exact h.step (one _) (fun t ht => .inl ht) old
  | schedule b p =>
    simp only [effect, Option.ite_none_right_eq_some, Option.some.injEq] at he; rw [← he.2]
    exact h.step (one _) (fun t ht => .inl ht) old
  | cancelNamed i =>
    simp only [effect] at he
    split_ifs at he
    rw [← Option.some.inj he]
    exact h.step (one _) (fun t ht => .inl ht) old
  | other k =>
    simp only [effect, Option.some.injEq] at he
    rw [← he]; exact h.step (one _) (fun t ht => .inl ht) old

theorem fresh_closed (cfg : Config) (c : Call) (n l : Nat) : Closed cfg (Fresh c n l) where
  call := fun _ _ h hd => dispatch_fresh h hd
  external := by
    intro s s' h hs
    unfold launchExternal at hs
    split at hs
    · cases hs
    next p t hn =>
      obtain rfl := Option.some.inj hs
      refine h.step ⟨_, rfl⟩ (fun t ht => by cases ht) (fun i r' hr' => ?_)
      rcases inject_back _ _ _ _ _ i r' hr' with a | ⟨a1, a2⟩
      · exact .inl ⟨r', a, rfl, rfl⟩
      · right; left; rw [hn, a1, a2]
  queued := by
    intro s s' h hs
    unfold launchPublic at hs
    split at hs
    · cases hs
    next p rest hn =>
      obtain rfl := Option.some.inj hs
      refine h.step ⟨_, rfl⟩ (fun t ht => .inl ht) (fun i r' hr' => ?_)
      rcases inject_back _ _ _ _ _ i r' hr' with a | ⟨a1, a2⟩
      · exact .inl ⟨r', a, rfl, rfl⟩
      · right; right; exact a2
  bake := by
    intro s e i h
    unfold Governance.bake
    split
    · exact h
    next r hr =>
      split
      · simp only
        split
        · exact h.step ⟨_, rfl⟩ (fun t ht => .inl ht) (fun j r' hr' => .inl (set_back hr (by rfl) (by rfl) j r' hr'))
        · exact h.step ⟨[], (List.append_nil _).symm⟩ (fun t ht => .inl ht) (fun j r' hr' => .inl (set_back hr (by rfl) (by rfl) j r' hr'))
      · exact h
  drop := fun f h => h.step ⟨[], (List.append_nil _).symm⟩ (fun t ht => .inl ht) (fun _ r' h => .inl ⟨r', h, rfl, rfl⟩)
  tick := fun h => h.step ⟨[], (List.append_nil _).symm⟩ (fun t ht => .inl ht) (fun _ r' h => .inl ⟨r', h, rfl, rfl⟩)
  votes := fun i r y h hr _ => h.step ⟨[], (List.append_nil _).symm⟩ (fun t ht => .inl ht)
    (fun j r' hr' => .inl (set_back hr (by rfl) (by rfl) j r' hr'))
  reorder := fun q h _ => h.step ⟨[], (List.append_nil _).symm⟩ (fun t ht => .inl ht) (fun _ r' h => .inl ⟨r', h, rfl, rfl⟩)

/-! ## The theorems -/

/-- `C155_veto_partial` for any period. -/
theorem veto_bars (cfg : Config) (s s' : State) (who : AccountId) (c : Call)
    (hv : dispatch cfg s (.technicalMember who) (.vetoExternal c) = some s') (hq : c ∉ s.queue) (h : List Step)
    (hu : (run cfg s' h).now < s.now + cfg.cooloff) (hm : (run cfg s' h).now < 2 ^ 32 - 1) :
    (∀ o, dispatch cfg (run cfg s' h) o (.externalPropose c) = none ∧ dispatch cfg (run cfg s' h) o (.propose c) = none) ∧
    (((run cfg s' h).next.map Prod.fst = some c ∨ ∃ (i : Nat) (r : Referendum), s.referenda.length ≤ i ∧
        (run cfg s' h).referenda[i]? = some r ∧ r.proposal = c) →
      Again (run cfg s' h).log s'.log.length c) := by
  have hd := hv
  unfold dispatch at hv
  rw [Option.map_eq_some_iff] at hv
  obtain ⟨s1, he, rfl⟩ := hv
  have hnow := effect_now he
  simp only [effect] at he
  split at he
  · cases he
  next p t hn =>
    split_ifs at he with e1 e2
    have he := Option.some.inj he
    set s2 : State := { s1 with log := s1.log ++ [(s1.now, .done (.technicalMember who) (.vetoExternal c))] } with hs2
    have hb : Barred c (s.now + cfg.cooloff) s.referenda.length s2 := by
      have hvt : veto? s1 c = some (s.now + cfg.cooloff, who :: ((veto? s c).map Prod.snd).getD []) := by
        rw [← he]
        have := veto_cons s c c (s.now + cfg.cooloff, who :: ((veto? s c).map Prod.snd).getD [])
        rw [if_pos rfl] at this
        exact this
      refine ⟨⟨_, hvt, .inl (Nat.le_refl _)⟩, ?_, ?_, ?_⟩
      · show s1.next ≠ _
        rw [← he]; simp
      · show c ∉ s1.queue
        rw [← he]; exact hq
      · intro i r hi hr
        have hr : s1.referenda[i]? = some r := hr
        rw [← he] at hr
        have : i < s.referenda.length := (List.getElem?_eq_some_iff.1 hr).1
        omega
    have hf : Fresh c s.referenda.length s2.log.length s2 := by
      refine ⟨Nat.le_refl _, fun t ht => ?_, fun i r hi hr => ?_⟩
      · have ht : s1.next = _ := ht
        rw [← he] at ht; cases ht
      · have hr : s1.referenda[i]? = some r := hr
        rw [← he] at hr
        have : i < s.referenda.length := (List.getElem?_eq_some_iff.1 hr).1
        omega
    have hb2 := ((barred_closed cfg c (s.now + cfg.cooloff) s.referenda.length).run h (s := s2)
      ⟨by show _ ≤ s1.now + _; rw [hnow], fun _ _ => hb⟩).2 hu hm
    have hf2 := (fresh_closed cfg c s.referenda.length s2.log.length).run h hf
    have hfree := hb2.notFree hu hm
    refine ⟨fun o => ⟨?_, ?_⟩, ?_⟩
    · simp only [dispatch, effect, hfree]; simp
    · unfold dispatch effect
      cases o <;> simp [hfree]
    · rintro (hx | ⟨i, r, hi, hr, hp⟩)
      · rw [Option.map_eq_some_iff] at hx
        obtain ⟨⟨a, b⟩, h1, rfl⟩ := hx
        rcases hf2.next b h1 with rfl | h2
        · exact absurd h1 hb2.next
        · exact h2
      · rcases hf2.refs i r hi hr hp with h2 | h2
        · exact absurd h2 (hb2.refs i r hi hr hp)
        · exact h2

/-- C155, partial, vetoes: for the cool-off period after a veto nobody can propose the call, neither half of the council
nor anyone in public; and a referendum on it is opened only if more than half of the council, or root, asked for it again,
after the veto. Missing: a veto does not bind these; and what is already among the public proposals stays there. -/
theorem C155_veto_partial (s s' : State) (who : AccountId) (c : Call)
    (hv : dispatch mainnet s (.technicalMember who) (.vetoExternal c) = some s') (hq : c ∉ s.queue) (h : List Step)
    (hu : (run mainnet s' h).now < s.now + 50400) (hm : (run mainnet s' h).now < 2 ^ 32 - 1) :
    (∀ o, dispatch mainnet (run mainnet s' h) o (.externalPropose c) = none ∧
      dispatch mainnet (run mainnet s' h) o (.propose c) = none) ∧
    (((run mainnet s' h).next.map Prod.fst = some c ∨ ∃ (i : Nat) (r : Referendum), s.referenda.length ≤ i ∧
        (run mainnet s' h).referenda[i]? = some r ∧ r.proposal = c) →
      Again (run mainnet s' h).log s'.log.length c) :=
  veto_bars mainnet s s' who c hv hq h hu hm

/-- C155: a veto strikes the proposal it names, which was about to come to a referendum, and no other. -/
theorem C155_veto_named (cfg : Config) (s s' : State) (o : Origin) (c : Call)
    (hv : dispatch cfg s o (.vetoExternal c) = some s') :
    (∃ who, o = .technicalMember who) ∧ s.next.map Prod.fst = some c ∧ s'.next = none ∧ s'.queue = s.queue ∧
    s'.referenda = s.referenda ∧ ∀ c', c' ≠ c → free s' c' = free s c' := by
  unfold dispatch at hv
  rw [Option.map_eq_some_iff] at hv
  obtain ⟨s1, he, rfl⟩ := hv
  simp only [effect] at he
  split at he
  · rename_i who
    split at he
    · cases he
    next p t hn =>
      split_ifs at he with e1 e2
      have he := Option.some.inj he
      subst he
      refine ⟨⟨who, rfl⟩, ?_, rfl, rfl, rfl, fun c' hc' => ?_⟩
      · rw [hn]; simpa using e1
      · have := veto_cons s c' c (s.now + cfg.cooloff, who :: ((veto? s c).map Prod.snd).getD [])
        rw [if_neg (Ne.symm hc')] at this
        simp only [free]
        simp only [veto?] at this ⊢
        rw [this]
  · cases he

/-- C155, partial, cancellations: a referendum that the council cancelled never passes, before or after, and no task
carries it out. Missing: it can be cancelled until it passed, not until it takes effect, and once. -/
theorem C155_cancelled_partial (cfg : Config) (h : List Step) (t : BlockNumber) (o : Origin) (i : Nat)
    (hc : (t, .done o (.emergencyCancel i)) ∈ (run cfg .init h).log) :
    (∀ T e, (T, .passed i e) ∉ (run cfg .init h).log) ∧ (∀ x ∈ (run cfg .init h).agenda, x.name ≠ some i) ∧
    ∃ r : Referendum, (run cfg .init h).referenda[i]? = some r ∧ r.status = .cancelled := by
  have hs := (stopped_closed cfg).run h stopped_init
  refine ⟨fun T e hp => (hs.passed T i e hp).2 t o hc, fun x hx hn => ?_, hs.stopped t o i hc⟩
  obtain ⟨T, e, hp⟩ := hs.tasks x hx i hn
  exact (hs.passed T i e hp).2 t o hc

/-- C155: two thirds of the council can cancel a referendum while votes are open, unless one on the same proposal was
cancelled before. -/
theorem C155_can (cfg : Config) (s : State) (i : Nat) (r : Referendum) (hr : s.referenda[i]? = some r)
    (hs : r.status = .ongoing) (hc : r.proposal ∉ s.cancelled) (o : Origin) (ho : CouncilTwoThirds o) :
    ∃ s', dispatch cfg s o (.emergencyCancel i) = some s' ∧ s'.referenda[i]? = some { r with status := .cancelled } := by
  obtain ⟨yes, seats, rfl, hy⟩ := ho
  have ho : cancellationOrigin (.council yes seats) = true := by
    simp only [cancellationOrigin, councilAtLeast, decide_eq_true_eq]; omega
  have he : effect cfg s (.council yes seats) (.emergencyCancel i) =
      some (cancel { s with cancelled := r.proposal :: s.cancelled } i) := by
    simp only [effect, if_pos ho, hr]
    rw [if_neg (by simp [hs, hc])]
  refine ⟨_, by unfold dispatch; rw [he]; rfl, ?_⟩
  exact cancel_at { s with cancelled := r.proposal :: s.cancelled } i r hr

theorem bake_cancelled (e i : Nat) (s : State) : (bake e s i).cancelled = s.cancelled := by
  unfold bake
  split
  · rfl
  · split
    · simp only
      split <;> rfl
    · rfl

theorem effect_cancelled {cfg : Config} {s s' : State} {o : Origin} {c : Call} (he : effect cfg s o c = some s') :
    (∃ l, s'.cancelled = l ++ s.cancelled) ∧
    ∀ i, c = .emergencyCancel i → ∃ r : Referendum, s.referenda[i]? = some r ∧ r.proposal ∉ s.cancelled ∧
      r.proposal ∈ s'.cancelled := by
  have same : ∀ {s' : State}, s'.cancelled = s.cancelled → ∃ l, s'.cancelled = l ++ s.cancelled := fun h => ⟨[], h⟩
  cases c with
  | propose c =>
    simp only [effect] at he
    cases o with
    | signed w =>
      simp only [Option.ite_none_right_eq_some, Option.some.injEq] at he; rw [← he.2]
      exact ⟨same rfl, fun _ h => by cases h⟩
    | _ => cases he
  | externalPropose c =>
    simp only [effect, Option.ite_none_right_eq_some, Option.some.injEq] at he; rw [← he.2]
    exact ⟨same rfl, fun _ h => by cases h⟩
  | externalProposeMajority c =>
    simp only [effect, Option.ite_none_right_eq_some, Option.some.injEq] at he; rw [← he.2]
    exact ⟨same rfl, fun _ h => by cases h⟩
  | externalProposeDefault c =>
    simp only [effect, Option.ite_none_right_eq_some, Option.some.injEq] at he; rw [← he.2]
    exact ⟨same rfl, fun _ h => by cases h⟩
  | fastTrack c v d =>
    simp only [effect] at he
    split_ifs at he
    split at he
    · cases he
    · split_ifs at he
      rw [← Option.some.inj he]
      exact ⟨same rfl, fun _ h => by cases h⟩
  | vetoExternal c =>
    simp only [effect] at he
    cases o with
    | technicalMember w =>
      simp only at he
      split at he
      · cases he
      · split_ifs at he
        rw [← Option.some.inj he]
        exact ⟨same rfl, fun _ h => by cases h⟩
    | _ => cases he
  | emergencyCancel i =>
    simp only [effect] at he
    split_ifs at he
    split at he
    · cases he
    next r hr =>
      split_ifs at he
      next hs =>
        rw [← Option.some.inj he]
        have h1 := (cancel_rest { s with cancelled := r.proposal :: s.cancelled } i).2.2.2.2.2.1
        refine ⟨⟨[r.proposal], h1⟩, fun j h => ?_⟩
        cases h
        exact ⟨r, hr, by tauto, by rw [h1]; exact List.mem_cons_self⟩
  | cancelReferendum i =>
    simp only [effect, Option.ite_none_right_eq_some, Option.some.injEq] at he; rw [← he.2]
    exact ⟨same (cancel_rest s i).2.2.2.2.2.1, fun _ h => by cases h⟩
  | cancelProposal i =>
    simp only [effect, Option.ite_none_right_eq_some, Option.some.injEq] at he; rw [← he.2]
    exact ⟨same rfl, fun _ h => by cases h⟩
  | blacklist c i =>
    simp only [effect] at he
    by_cases ho : o = .root
    · rw [if_pos ho] at he
      cases i with
      | none => rw [← Option.some.inj he]; exact ⟨same rfl, fun _ h => by cases h⟩
      | some i =>
        simp only at he
        split at he
        · split at he
          · rw [← Option.some.inj he]
            exact ⟨same ((cancel_rest _ _).2.2.2.2.2.1), fun _ h => by cases h⟩
          · rw [← Option.some.inj he]; exact ⟨same rfl, fun _ h => by cases h⟩
        · rw [← Option.some.inj he]; exact ⟨same rfl, fun _ h => by cases h⟩
    · rw [if_neg ho] at he; cases he
  | clearPublicProposals =>
    simp only [effect, Option.ite_none_right_eq_some, Option.some.injEq] at he; rw [← he.2]
    exact ⟨same rfl, fun _ h => by cases h⟩
  | schedule b c =>
    simp only [effect, Option.ite_none_right_eq_some, Option.some.injEq] at he; rw [← he.2]
    exact ⟨same rfl, fun _ h => by cases h⟩
  | cancelNamed i =>
    simp only [effect] at he
    split_ifs at he
    rw [← Option.some.inj he]
    exact ⟨same rfl, fun _ h => by cases h⟩
  | other n =>
    simp only [effect, Option.some.injEq] at he
    rw [← he]; exact ⟨same rfl, fun _ h => by cases h⟩

theorem cancelled_closed (cfg : Config) (c : Call) : Closed cfg (fun s => c ∈ s.cancelled) where
  call := by
    intro s s' o x h hd
    unfold dispatch at hd
    rw [Option.map_eq_some_iff] at hd
    obtain ⟨s1, he, rfl⟩ := hd
    obtain ⟨l, hl⟩ := (effect_cancelled he).1
    show c ∈ s1.cancelled
    rw [hl]; exact List.mem_append_right _ h
  external := by
    intro s s' h hs
    unfold launchExternal at hs
    split at hs
    · cases hs
    · obtain rfl := Option.some.inj hs; exact h
  queued := by
    intro s s' h hs
    unfold launchPublic at hs
    split at hs
    · cases hs
    · obtain rfl := Option.some.inj hs; exact h
  bake := by intro s e i h; rw [bake_cancelled]; exact h
  drop := fun _ h => h
  tick := fun h => h
  votes := fun _ _ _ h _ _ => h
  reorder := fun _ h _ => h

/-- C155: the council cancels a proposal once; if a referendum on it comes again, nobody can cancel that one, except root. -/
theorem C155_once (cfg : Config) (s s' : State) (o : Origin) (i : Nat) (r : Referendum)
    (hd : dispatch cfg s o (.emergencyCancel i) = some s') (hr : s.referenda[i]? = some r) (h : List Step) (j : Nat)
    (q : Referendum) (hq : (run cfg s' h).referenda[j]? = some q) (hp : q.proposal = r.proposal) (o' : Origin) :
    dispatch cfg (run cfg s' h) o' (.emergencyCancel j) = none := by
  unfold dispatch at hd
  rw [Option.map_eq_some_iff] at hd
  obtain ⟨s1, he, rfl⟩ := hd
  obtain ⟨r', a1, _, a3⟩ := (effect_cancelled he).2 i rfl
  obtain rfl := Option.some.inj (hr.symm.trans a1)
  have hc := (cancelled_closed cfg r.proposal).run h (s := { s1 with log := s1.log ++ [(s1.now, .done o (.emergencyCancel i))] }) a3
  cases he2 : dispatch cfg _ o' (.emergencyCancel j) with
  | none => rfl
  | some s2 =>
    unfold dispatch at he2
    rw [Option.map_eq_some_iff] at he2
    obtain ⟨s3, he3, _⟩ := he2
    obtain ⟨q', b1, b2, _⟩ := (effect_cancelled he3).2 j rfl
    obtain rfl := Option.some.inj (hq.symm.trans b1)
    rw [hp] at b2
    exact absurd hc b2

/-! ## After a referendum passed -/

theorem effect_agenda {cfg : Config} {s s' : State} {o : Origin} {c : Call} (he : effect cfg s o c = some s') :
    (s'.agenda = s.agenda) ∨ (∃ b x, s'.agenda = s.agenda ++ [⟨b, o, x, none⟩]) ∨
    (∃ i, c = .cancelNamed i ∧ (∃ t ∈ s.agenda, t.name = some i ∧ t.origin = o) ∧
      s'.agenda = s.agenda.filter (fun t => ¬ (t.name = some i))) := by
  cases c with
  | propose c =>
    simp only [effect] at he
    cases o with
    | signed w => simp only [Option.ite_none_right_eq_some, Option.some.injEq] at he; rw [← he.2]; exact .inl rfl
    | _ => cases he
  | externalPropose c => simp only [effect, Option.ite_none_right_eq_some, Option.some.injEq] at he; rw [← he.2]; exact .inl rfl
  | externalProposeMajority c =>
    simp only [effect, Option.ite_none_right_eq_some, Option.some.injEq] at he; rw [← he.2]; exact .inl rfl
  | externalProposeDefault c =>
    simp only [effect, Option.ite_none_right_eq_some, Option.some.injEq] at he; rw [← he.2]; exact .inl rfl
  | fastTrack c v d =>
    simp only [effect] at he
    split_ifs at he
    split at he
    · cases he
    · split_ifs at he
      rw [← Option.some.inj he]; exact .inl rfl
  | vetoExternal c =>
    simp only [effect] at he
    cases o with
    | technicalMember w =>
      simp only at he
      split at he
      · cases he
      · split_ifs at he
        rw [← Option.some.inj he]; exact .inl rfl
    | _ => cases he
  | emergencyCancel i =>
    simp only [effect] at he
    split_ifs at he
    split at he
    · cases he
    · split_ifs at he
      rw [← Option.some.inj he]; exact .inl (cancel_rest _ _).2.2.1
  | cancelReferendum i =>
    simp only [effect, Option.ite_none_right_eq_some, Option.some.injEq] at he; rw [← he.2]; exact .inl (cancel_rest _ _).2.2.1
  | cancelProposal i => simp only [effect, Option.ite_none_right_eq_some, Option.some.injEq] at he; rw [← he.2]; exact .inl rfl
  | blacklist c i =>
    simp only [effect] at he
    by_cases ho : o = .root
    · rw [if_pos ho] at he
      cases i with
      | none => rw [← Option.some.inj he]; exact .inl rfl
      | some i =>
        simp only at he
        split at he
        · split at he
          · rw [← Option.some.inj he]; exact .inl (cancel_rest _ _).2.2.1
          · rw [← Option.some.inj he]; exact .inl rfl
        · rw [← Option.some.inj he]; exact .inl rfl
    · rw [if_neg ho] at he; cases he
  | clearPublicProposals => simp only [effect, Option.ite_none_right_eq_some, Option.some.injEq] at he; rw [← he.2]; exact .inl rfl
  | schedule b c =>
    simp only [effect, Option.ite_none_right_eq_some, Option.some.injEq] at he; rw [← he.2]; exact .inr (.inl ⟨b, c, rfl⟩)
  | cancelNamed i =>
    simp only [effect] at he
    split_ifs at he with h1 h2
    rw [← Option.some.inj he]
    refine .inr (.inr ⟨i, rfl, ?_, rfl⟩)
    obtain ⟨t, a, b⟩ := List.any_eq_true.1 h2
    exact ⟨t, a, by simpa using b⟩
  | other n => simp only [effect, Option.some.injEq] at he; rw [← he]; exact .inl rfl

/-- Tasks with a name are those of root. -/
theorem named_closed (cfg : Config) : Closed cfg (fun s => ∀ t ∈ s.agenda, ∀ i, t.name = some i → t.origin = .root) where
  call := by
    intro s s' o c h hd
    unfold dispatch at hd
    rw [Option.map_eq_some_iff] at hd
    obtain ⟨s1, he, rfl⟩ := hd
    intro t ht i hi
    have ht : t ∈ s1.agenda := ht
    rcases effect_agenda he with e | ⟨b, x, e⟩ | ⟨j, _, _, e⟩
    · rw [e] at ht; exact h t ht i hi
    · rw [e] at ht
      rcases List.mem_append.1 ht with ht | ht
      · exact h t ht i hi
      · rw [List.mem_singleton] at ht; subst ht; cases hi
    · rw [e] at ht; exact h t (List.mem_of_mem_filter ht) i hi
  external := by
    intro s s' h hs
    unfold launchExternal at hs
    split at hs
    · cases hs
    · obtain rfl := Option.some.inj hs; exact h
  queued := by
    intro s s' h hs
    unfold launchPublic at hs
    split at hs
    · cases hs
    · obtain rfl := Option.some.inj hs; exact h
  bake := by
    intro s e i h
    unfold Governance.bake
    split
    · exact h
    · split
      · simp only
        split
        · intro t ht j hj
          rcases List.mem_append.1 ht with ht | ht
          · exact h t ht j hj
          · rw [List.mem_singleton] at ht; subst ht; rfl
        · exact h
      · exact h
  drop := fun _ h t ht => h t (List.mem_of_mem_filter ht)
  tick := fun h => h
  votes := fun _ _ _ h _ _ => h
  reorder := fun _ h _ => h

/-- C155: what is to be executed as root stays so whatever anyone but root calls, were it the whole council or the whole
technical committee. -/
theorem C155_unstoppable (cfg : Config) (h : List Step) (x : Task) (hx : x ∈ (run cfg .init h).agenda) (hr : x.origin = .root)
    (o : Origin) (ho : o ≠ .root) (c : Call) (s' : State) (hd : dispatch cfg (run cfg .init h) o c = some s') :
    x ∈ s'.agenda := by
  have hn := (named_closed cfg).run h (s := .init) (fun t ht => by simp [State.init] at ht)
  unfold dispatch at hd
  rw [Option.map_eq_some_iff] at hd
  obtain ⟨s1, he, rfl⟩ := hd
  show x ∈ s1.agenda
  rcases effect_agenda he with e | ⟨b, y, e⟩ | ⟨i, _, ⟨t, t1, t2, t3⟩, e⟩
  · rw [e]; exact hx
  · rw [e]; exact List.mem_append_left _ hx
  · exact absurd (t3 ▸ hn t t1 i t2) ho

/-- The council proposes, the committee shortens, the referendum passes and waits. -/
def exInstant : List Step :=
  [.block 1000, .call (.council 4 7) (.externalProposeMajority (.other 5)),
    .call (.technical 6 6) (.fastTrack (.other 5) 2 100), .votes 0 ⟨30, 20, 50⟩, .block 1000, .block 1000]

/-- C155 is false of the code: after a referendum passed, the council cannot cancel it. -/
theorem C155_full_false : ¬ C155_full := by
  intro hf
  obtain ⟨_, _, h3⟩ := hf exInstant
  have hx : (⟨103, .root, .other 5, some 0⟩ : Task) ∈ (run mainnet .init exInstant).agenda := by decide +kernel
  obtain ⟨c, s', hd, hn⟩ := h3 _ hx rfl (.council 7 7) ⟨7, 7, rfl, by decide⟩
  exact hn (C155_unstoppable mainnet exInstant _ hx rfl _ (by simp) c s' hd)

/-- Nor does a veto hold: more than half of the council asks again in the same block, and the referendum is opened. -/
def exOverruled : List Step :=
  [.block 1000, .call (.council 4 7) (.externalProposeMajority (.other 5)), .call (.technicalMember 8) (.vetoExternal (.other 5)),
    .call (.council 4 7) (.externalProposeMajority (.other 5)), .call (.technical 4 6) (.fastTrack (.other 5) 900 100)]

/-- C155 is false of the code in another way: a vetoed proposal comes to a referendum in the block of the veto. The member
who vetoed it cannot veto it again. -/
theorem C155_veto_overruled :
    let s := run mainnet .init exOverruled
    (1, .done (.technicalMember 8) (.vetoExternal (.other 5))) ∈ s.log ∧ (1, .started 0) ∈ s.log ∧
    (s.referenda[0]?.map Referendum.proposal) = some (.other 5) ∧
    (dispatch mainnet (run mainnet .init (exOverruled.take 4)) (.technicalMember 8) (.vetoExternal (.other 5))).isSome = false ∧
    (dispatch mainnet (run mainnet .init (exOverruled.take 4)) (.technicalMember 9) (.vetoExternal (.other 5))).isSome = true := by
  decide +kernel

/-- Hypotheses met: a proposal of half of the council, vetoed; it may come again when the cool-off period is over. -/
example :
    let s := run exShort .init [.block 100, .call (.council 3 6) (.externalPropose (.other 5)),
      .call (.technicalMember 8) (.vetoExternal (.other 5))]
    let later := run exShort s (List.replicate 3 (.block 100))
    s.next = none ∧ later.now = 4 ∧ (dispatch exShort later (.council 6 6) (.externalPropose (.other 5))).isSome = false ∧
    (dispatch exShort (run exShort later [.block 100]) (.council 6 6) (.externalPropose (.other 5))).isSome = true := by
  decide +kernel

/-- Two thirds of the council cancel a referendum with votes for it; a second one on the same call passes. -/
example :
    let s := run mainnet .init ((exInstant.take 4) ++ [.call (.council 2 3) (.emergencyCancel 0), .block 1000, .block 1000])
    let t := run mainnet s ((exInstant.drop 1).take 2 ++ [.votes 1 ⟨30, 20, 50⟩, .call (.council 3 3) (.emergencyCancel 1), .block 1000,
      .block 1000])
    s.agenda = [] ∧ (s.referenda[0]?.map Referendum.status) = some .cancelled ∧
    (t.referenda[1]?.map Referendum.status) = some (.finished true) ∧ t.agenda.length = 1 := by decide +kernel

end Verif.Governance
