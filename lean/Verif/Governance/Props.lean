import Verif.Governance.Model
import Mathlib.Tactic.Ring
import Mathlib.Tactic.SplitIfs
/-!
# Who acts as root, and who can stop it

C154: nothing is done as root without a referendum; how much notice there is and who must agree.
C155: what vetoes and cancellations are good for.
-/

namespace Verif.Governance

/-! ## Specification -/

/-- A call and the calls that it schedules. -/
def parts : Call → List Call
  | .schedule b c => .schedule b c :: parts c
  | c => [c]

/-- More than half of the council, or root. -/
def CouncilMajority (o : Origin) : Prop := o = .root ∨ ∃ yes seats, o = .council yes seats ∧ seats < 2 * yes

/-- The whole council, or root. -/
def WholeCouncil (o : Origin) : Prop := o = .root ∨ ∃ yes seats, o = .council yes seats ∧ seats ≤ yes

/-- At least two thirds of the technical committee, or root. -/
def TwoThirds (o : Origin) : Prop := o = .root ∨ ∃ yes seats, o = .technical yes seats ∧ 2 * seats ≤ 3 * yes

/-- The whole technical committee, or root. -/
def WholeCommittee (o : Origin) : Prop := o = .root ∨ ∃ yes seats, o = .technical yes seats ∧ seats ≤ yes

/-- Who asked for the referendum: more than half of the council for a simple majority, the whole council for one that
needs a majority against it to fail. -/
def Asked (log : List (BlockNumber × Event)) (t0 : BlockNumber) (p : Call) : Threshold → Prop
  | .superMajorityApprove => True
  | .simpleMajority => ∃ t o, t ≤ t0 ∧ (t, .done o (.externalProposeMajority p)) ∈ log ∧ CouncilMajority o
  | .superMajorityAgainst => ∃ t o, t ≤ t0 ∧ (t, .done o (.externalProposeDefault p)) ∈ log ∧ WholeCouncil o

/-- The referendum was open for the usual time and has the usual delay. -/
def Usual (cfg : Config) (t0 : BlockNumber) (r : Referendum) : Prop :=
  r.ends = t0 + cfg.voting ∧ r.delay = cfg.enactment

/-- Or the technical committee shortened it: two thirds, or all of it if votes are open for less than the least time. -/
def Shortened (cfg : Config) (log : List (BlockNumber × Event)) (t0 : BlockNumber) (r : Referendum) : Prop :=
  ∃ o, (t0, .done o (.fastTrack r.proposal (r.ends - t0) r.delay)) ∈ log ∧ t0 < r.ends ∧ TwoThirds o ∧
    (r.ends < t0 + cfg.fastTrackVoting → WholeCommittee o) ∧ r.threshold ≠ .superMajorityApprove

/-- A referendum and how it came about. -/
structure Held (cfg : Config) (log : List (BlockNumber × Event)) (i : Nat) (r : Referendum) (t0 : BlockNumber) : Prop where
  started : (t0, .started i) ∈ log
  asked : Asked log t0 r.proposal r.threshold
  notice : Usual cfg t0 r ∨ Shortened cfg log t0 r

/-- A call as root at block `T` goes back to a referendum on it, or on a call that scheduled it, that passed: with these
votes, among tokens worth `e`. -/
def Grounded (cfg : Config) (s : State) (T : BlockNumber) (c : Call) : Prop :=
  ∃ i r t0 e, s.referenda[i]? = some r ∧ c ∈ parts r.proposal ∧ Held cfg s.log i r t0 ∧
    (r.ends, .passed i e) ∈ s.log ∧ r.ends + max r.delay 1 ≤ T ∧ r.status ≠ .ongoing ∧
    approved r.threshold r.tally e = true

/-! ## The comparison of votes -/

theorem compare_iff (n1 d1 n2 d2 : Nat) (h1 : 0 < d1) (h2 : 0 < d2) :
    compareRationals n1 d1 n2 d2 = true ↔ n1 * d2 < n2 * d1 := by
  induction n1, d1, n2, d2 using compareRationals.induct with
  | case1 n1 d1 n2 d2 h =>
    rw [compareRationals, if_pos h]
    simp only [true_iff]
    have e1 := Nat.div_add_mod n1 d1
    have e2 := Nat.div_add_mod n2 d2
    have l1 := Nat.mod_lt n1 h1
    have a1 : n1 < d1 * (n1 / d1 + 1) := by rw [Nat.mul_add, Nat.mul_one]; omega
    have a2 : d2 * (n2 / d2) ≤ n2 := by omega
    calc n1 * d2 < d1 * (n1 / d1 + 1) * d2 := Nat.mul_lt_mul_of_pos_right a1 h2
      _ ≤ d1 * (n2 / d2) * d2 := Nat.mul_le_mul_right _ (Nat.mul_le_mul_left _ h)
      _ = d1 * (d2 * (n2 / d2)) := by ring
      _ ≤ d1 * n2 := Nat.mul_le_mul_left _ a2
      _ = n2 * d1 := Nat.mul_comm ..
  | case2 n1 d1 n2 d2 hn h =>
    rw [compareRationals, if_neg hn, if_pos h]
    simp only [Bool.false_eq_true, false_iff, Nat.not_lt]
    have e1 := Nat.div_add_mod n1 d1
    have e2 := Nat.div_add_mod n2 d2
    have l2 := Nat.mod_lt n2 h2
    have a1 : d1 * (n1 / d1) ≤ n1 := by omega
    have a2 : n2 ≤ d2 * (n2 / d2 + 1) := by rw [Nat.mul_add, Nat.mul_one]; omega
    calc n2 * d1 ≤ d2 * (n2 / d2 + 1) * d1 := Nat.mul_le_mul_right _ a2
      _ ≤ d2 * (n1 / d1) * d1 := Nat.mul_le_mul_right _ (Nat.mul_le_mul_left _ h)
      _ = d2 * (d1 * (n1 / d1)) := by ring
      _ ≤ d2 * n1 := Nat.mul_le_mul_left _ a1
      _ = n1 * d2 := Nat.mul_comm ..
  | case3 n1 d1 n2 d2 hn hm h =>
    rw [compareRationals, if_neg hn, if_neg hm, if_pos h]
    simp only [Bool.false_eq_true, false_iff, Nat.not_lt]
    have e1 := Nat.div_add_mod n1 d1
    have e2 := Nat.div_add_mod n2 d2
    have hq : n1 / d1 = n2 / d2 := by omega
    have a1 : d1 * (n2 / d2) ≤ n1 := by rw [← hq]; omega
    have a2 : n2 = d2 * (n2 / d2) := by omega
    calc n2 * d1 = d2 * (n2 / d2) * d1 := by rw [← a2]
      _ = d2 * (d1 * (n2 / d2)) := by ring
      _ ≤ d2 * n1 := Nat.mul_le_mul_left _ a1
      _ = n1 * d2 := Nat.mul_comm ..
  | case4 n1 d1 n2 d2 hn hm h2' h =>
    rw [compareRationals, if_neg hn, if_neg hm, if_neg h2', if_pos h]
    simp only [true_iff]
    have e1 := Nat.div_add_mod n1 d1
    have e2 := Nat.div_add_mod n2 d2
    have hq : n1 / d1 = n2 / d2 := by omega
    have a1 : n1 = d1 * (n2 / d2) := by rw [← hq]; omega
    have a2 : d2 * (n2 / d2) < n2 := by omega
    calc n1 * d2 = d1 * (n2 / d2) * d2 := by rw [← a1]
      _ = d1 * (d2 * (n2 / d2)) := by ring
      _ < d1 * n2 := Nat.mul_lt_mul_of_pos_left a2 h1
      _ = n2 * d1 := Nat.mul_comm ..
  | case5 n1 n2 d2 => omega
  | case6 n1 d1 n2 => omega
  | case7 n1 d1 n2 d2 hn hm hb ha hd1 hd2 ih =>
    rw [compareRationals, if_neg hn, if_neg hm, if_neg hb, if_neg ha, if_neg hd1, if_neg hd2]
    rw [ih (Nat.pos_of_ne_zero hb) (Nat.pos_of_ne_zero ha)]
    have e1 := Nat.div_add_mod n1 d1
    have e2 := Nat.div_add_mod n2 d2
    have hq : n1 / d1 = n2 / d2 := by omega
    rw [hq] at e1
    have k1 : n1 * d2 = d1 * (n2 / d2) * d2 + n1 % d1 * d2 := by rw [← Nat.add_mul, e1]
    have k2 : n2 * d1 = d1 * (n2 / d2) * d2 + n2 % d2 * d1 := by
      calc n2 * d1 = (d2 * (n2 / d2) + n2 % d2) * d1 := by rw [e2]
        _ = _ := by ring
    rw [k1, k2, Nat.mul_comm d2, Nat.mul_comm d1 (n2 % d2)]
    omega

/-- What it takes for a referendum to pass, if no more tokens voted than there are. -/
theorem approved_iff (t : Threshold) (y : Tally) (e : Nat) (h : y.turnout ≤ e) :
    approved t y e = true ↔ 0 < y.turnout ∧
      match t with
      | .superMajorityApprove => y.nays * Nat.sqrt e < y.ayes * Nat.sqrt y.turnout
      | .superMajorityAgainst => y.nays * Nat.sqrt y.turnout < y.ayes * Nat.sqrt e
      | .simpleMajority => y.nays < y.ayes := by
  by_cases h0 : y.turnout = 0
  · simp [approved, isqrt, h0]
  · have hs : 0 < Nat.sqrt y.turnout := Nat.sqrt_pos.2 (Nat.pos_of_ne_zero h0)
    have he : 0 < Nat.sqrt e := Nat.lt_of_lt_of_le hs (Nat.sqrt_le_sqrt h)
    have hne : isqrt y.turnout ≠ 0 := Nat.pos_iff_ne_zero.1 hs
    cases t with
    | superMajorityApprove =>
      simp only [approved, if_neg hne]
      rw [compare_iff y.nays (isqrt y.turnout) y.ayes (isqrt e) hs he]
      exact ⟨fun h => ⟨Nat.pos_of_ne_zero h0, h⟩, fun h => h.2⟩
    | superMajorityAgainst =>
      simp only [approved, if_neg hne]
      rw [compare_iff y.nays (isqrt e) y.ayes (isqrt y.turnout) he hs]
      exact ⟨fun h => ⟨Nat.pos_of_ne_zero h0, h⟩, fun h => h.2⟩
    | simpleMajority =>
      simp only [approved, if_neg hne, decide_eq_true_eq]
      exact ⟨fun h => ⟨Nat.pos_of_ne_zero h0, h⟩, fun h => h.2⟩

/-! ## The invariant -/

/-- What later states keep. -/
structure Later (s s' : State) : Prop where
  now : s.now ≤ s'.now
  log : ∀ x ∈ s.log, x ∈ s'.log
  refs : ∀ (i : Nat) (r : Referendum), s.referenda[i]? = some r → ∃ r', s'.referenda[i]? = some r' ∧
    r'.proposal = r.proposal ∧ r'.threshold = r.threshold ∧ r'.delay = r.delay ∧ r'.ends = r.ends ∧
    (r.status ≠ .ongoing → r'.tally = r.tally ∧ r'.status ≠ .ongoing)

theorem Later.refl (s : State) : Later s s := ⟨Nat.le_refl _, fun _ h => h, fun _ r h => ⟨r, h, rfl, rfl, rfl, rfl, fun h => ⟨rfl, h⟩⟩⟩

theorem Later.trans {a b c : State} (h : Later a b) (h' : Later b c) : Later a c := by
  refine ⟨Nat.le_trans h.now h'.now, fun x hx => h'.log x (h.log x hx), fun i r hr => ?_⟩
  obtain ⟨r1, a1, a2, a3, a4, a5, a6⟩ := h.refs i r hr
  obtain ⟨r2, b1, b2, b3, b4, b5, b6⟩ := h'.refs i r1 a1
  refine ⟨r2, b1, b2.trans a2, b3.trans a3, b4.trans a4, b5.trans a5, fun hs => ?_⟩
  obtain ⟨c1, c2⟩ := a6 hs
  obtain ⟨d1, d2⟩ := b6 c2
  exact ⟨d1.trans c1, d2⟩

theorem Asked.mono {log log' : List (BlockNumber × Event)} (hl : ∀ x ∈ log, x ∈ log') {t0 t0' : BlockNumber} (ht : t0 ≤ t0')
    {p : Call} {t : Threshold} (h : Asked log t0 p t) : Asked log' t0' p t := by
  cases t with
  | superMajorityApprove => trivial
  | simpleMajority => obtain ⟨t, o, h1, h2, h3⟩ := h; exact ⟨t, o, Nat.le_trans h1 ht, hl _ h2, h3⟩
  | superMajorityAgainst => obtain ⟨t, o, h1, h2, h3⟩ := h; exact ⟨t, o, Nat.le_trans h1 ht, hl _ h2, h3⟩

theorem Held.mono {cfg : Config} {log log' : List (BlockNumber × Event)} (hl : ∀ x ∈ log, x ∈ log') {i : Nat}
    {r r' : Referendum} {t0 : BlockNumber} (h : Held cfg log i r t0) (h1 : r'.proposal = r.proposal)
    (h2 : r'.threshold = r.threshold) (h3 : r'.delay = r.delay) (h4 : r'.ends = r.ends) : Held cfg log' i r' t0 := by
  refine ⟨hl _ h.started, ?_, ?_⟩
  · rw [h1, h2]; exact h.asked.mono hl (Nat.le_refl _)
  · rcases h.notice with hu | ⟨o, a, b, c, d, e⟩
    · left; unfold Usual; rw [h3, h4]; exact hu
    · right
      refine ⟨o, ?_, ?_, c, ?_, ?_⟩
      · rw [h1, h3, h4]; exact hl _ a
      · rw [h4]; exact b
      · rw [h4]; exact d
      · rw [h2]; exact e

theorem Grounded.mono {cfg : Config} {s s' : State} (h : Later s s') {T T' : BlockNumber} (hT : T ≤ T') {c : Call}
    (hg : Grounded cfg s T c) : Grounded cfg s' T' c := by
  obtain ⟨i, r, t0, e, h1, h2, h3, h4, h5, h6, h7⟩ := hg
  obtain ⟨r', a1, a2, a3, a4, a5, a6⟩ := h.refs i r h1
  obtain ⟨b1, b2⟩ := a6 h6
  refine ⟨i, r', t0, e, a1, a2 ▸ h2, h3.mono h.log a2 a3 a4 a5, ?_, ?_, b2, ?_⟩
  · rw [a5]; exact h.log _ h4
  · rw [a5, a4]; exact Nat.le_trans h5 hT
  · rw [a3, b1]; exact h7

/-- The invariant. -/
structure Inv (cfg : Config) (s : State) : Prop where
  next : ∀ p t, s.next = some (p, t) → Asked s.log s.now p t
  held : ∀ (i : Nat) (r : Referendum), s.referenda[i]? = some r → ∃ t0, Held cfg s.log i r t0
  tasks : ∀ t ∈ s.agenda, t.origin = .root → Grounded cfg s t.at_ t.call
  done : ∀ T c, (T, .done .root c) ∈ s.log → Grounded cfg s T c

theorem inv_init (cfg : Config) : Inv cfg .init :=
  ⟨fun _ _ h => by simp [State.init] at h, fun _ _ h => by simp [State.init] at h, fun _ h => by simp [State.init] at h,
    fun _ _ h => by simp [State.init] at h⟩

/-- A step that opens no referendum, adds no task of root and does nothing as root. -/
theorem Inv.quiet {cfg : Config} {s s' : State} (h : Inv cfg s) (hl : Later s s')
    (hn : ∀ p t, s'.next = some (p, t) → Asked s'.log s'.now p t)
    (hr : ∀ (i : Nat) (r : Referendum), s'.referenda[i]? = some r → ∃ r0, s.referenda[i]? = some r0)
    (ha : ∀ t ∈ s'.agenda, t ∈ s.agenda ∨ t.origin ≠ .root)
    (hd : ∀ T c, (T, .done .root c) ∈ s'.log → (T, .done .root c) ∈ s.log) : Inv cfg s' := by
  refine ⟨hn, fun i r h' => ?_, fun t ht ho => ?_, fun T c hc => ?_⟩
  · obtain ⟨r0, h0⟩ := hr i r h'
    obtain ⟨t0, hh⟩ := h.held i r0 h0
    obtain ⟨r1, a1, a2, a3, a4, a5, _⟩ := hl.refs i r0 h0
    obtain rfl : r = r1 := Option.some.inj (h'.symm.trans a1)
    exact ⟨t0, hh.mono hl.log a2 a3 a4 a5⟩
  · rcases ha t ht with h' | h'
    · exact (h.tasks t h' ho).mono hl (Nat.le_refl _)
    · exact absurd ho h'
  · exact (h.done T c (hd T c hc)).mono hl (Nat.le_refl _)

/-! ## Origins -/

theorem councilMoreThan_majority {o : Origin} (h : externalMajorityOrigin o = true) : CouncilMajority o := by
  cases o with
  | root => exact .inl rfl
  | council y n =>
    simp only [externalMajorityOrigin, councilMoreThan, decide_eq_true_eq] at h
    exact .inr ⟨y, n, rfl, by omega⟩
  | _ => simp [externalMajorityOrigin, councilMoreThan] at h

theorem councilAtLeast_whole {o : Origin} (h : externalDefaultOrigin o = true) : WholeCouncil o := by
  cases o with
  | root => exact .inl rfl
  | council y n =>
    simp only [externalDefaultOrigin, councilAtLeast, decide_eq_true_eq] at h
    exact .inr ⟨y, n, rfl, by omega⟩
  | _ => simp [externalDefaultOrigin, councilAtLeast] at h

theorem technicalAtLeast_whole {o : Origin} (h : instantOrigin o = true) : WholeCommittee o := by
  cases o with
  | root => exact .inl rfl
  | technical y n =>
    simp only [instantOrigin, technicalAtLeast, decide_eq_true_eq] at h
    exact .inr ⟨y, n, rfl, by omega⟩
  | _ => simp [instantOrigin, technicalAtLeast] at h

theorem technicalAtLeast_twoThirds {o : Origin} (h : fastTrackOrigin o = true) : TwoThirds o := by
  cases o with
  | root => exact .inl rfl
  | technical y n =>
    simp only [fastTrackOrigin, technicalAtLeast, decide_eq_true_eq] at h
    exact .inr ⟨y, n, rfl, by omega⟩
  | _ => simp [fastTrackOrigin, technicalAtLeast] at h

theorem WholeCommittee.twoThirds {o : Origin} (h : WholeCommittee o) : TwoThirds o := by
  rcases h with h | ⟨y, n, h, h'⟩
  · exact .inl h
  · exact .inr ⟨y, n, h, by omega⟩

/-! ## Calls -/

theorem self_parts (c : Call) : c ∈ parts c := by cases c <;> simp [parts]

theorem parts_trans {b : BlockNumber} {c : Call} : ∀ {p : Call}, .schedule b c ∈ parts p → c ∈ parts p
  | .schedule b' p, h => by
    simp only [parts, List.mem_cons, Call.schedule.injEq] at h ⊢
    rcases h with ⟨_, rfl⟩ | h
    · exact .inr (self_parts _)
    · exact .inr (parts_trans h)
  | .propose _, h | .externalPropose _, h | .externalProposeMajority _, h | .externalProposeDefault _, h
  | .fastTrack .., h | .vetoExternal _, h | .emergencyCancel _, h | .cancelReferendum _, h | .cancelProposal _, h
  | .blacklist .., h | .clearPublicProposals, h | .cancelNamed _, h | .other _, h => by simp [parts] at h

theorem inject_later (s : State) (e : BlockNumber) (p : Call) (t : Threshold) (d : Nat) : Later s (inject s e p t d) := by
  refine ⟨Nat.le_refl _, fun x hx => List.mem_append_left _ hx, fun i r hr => ⟨r, ?_, rfl, rfl, rfl, rfl, fun h => ⟨rfl, h⟩⟩⟩
  show (s.referenda ++ _)[i]? = some r
  rw [List.getElem?_append_left (List.getElem?_eq_some_iff.1 hr).1]
  exact hr

theorem cancel_later (s : State) (i : Nat) : Later s (cancel s i) := by
  unfold cancel
  cases hr : s.referenda[i]? with
  | none => exact .refl s
  | some r =>
    refine ⟨Nat.le_refl _, fun _ h => h, fun j q hq => ?_⟩
    by_cases e : i = j
    · subst e
      obtain rfl : r = q := Option.some.inj (hr.symm.trans hq)
      refine ⟨{ r with status := .cancelled }, ?_, rfl, rfl, rfl, rfl, fun _ => ⟨rfl, by simp⟩⟩
      show (s.referenda.set i _)[i]? = _
      rw [List.getElem?_set_self (List.getElem?_eq_some_iff.1 hr).1]
    · refine ⟨q, ?_, rfl, rfl, rfl, rfl, fun h => ⟨rfl, h⟩⟩
      show (s.referenda.set i _)[j]? = _
      rw [List.getElem?_set_ne e]
      exact hq

theorem cancel_rest (s : State) (i : Nat) : (cancel s i).now = s.now ∧ (cancel s i).next = s.next ∧
    (cancel s i).agenda = s.agenda ∧ (cancel s i).log = s.log ∧ (cancel s i).referenda.length = s.referenda.length ∧
    (cancel s i).cancelled = s.cancelled ∧ (cancel s i).vetoed = s.vetoed := by
  unfold cancel
  cases s.referenda[i]? <;> simp

/-- Everything but `next`, the lists of the queues and of vetoes. -/
theorem later_of_eq {s s' : State} (h1 : s'.now = s.now) (h2 : s'.log = s.log) (h3 : s'.referenda = s.referenda) :
    Later s s' :=
  ⟨h1 ▸ Nat.le_refl _, fun _ h => h2 ▸ h, fun _ r h => ⟨r, h3 ▸ h, rfl, rfl, rfl, rfl, fun h => ⟨rfl, h⟩⟩⟩

/-- How a call, with its record, changes the state: it keeps what later states keep, and the invariant. -/
theorem dispatch_inv {cfg : Config} {s s' : State} {o : Origin} {c : Call} (h : Inv cfg s)
    (hg : o = .root → Grounded cfg s s.now c) (hd : dispatch cfg s o c = some s') :
    Inv cfg s' ∧ Later s s' ∧ s'.now = s.now := by
  -- the effect first
  unfold dispatch at hd
  rw [Option.map_eq_some_iff] at hd
  obtain ⟨s1, he, rfl⟩ := hd
  -- the record adds what is grounded
  have finish : Later s s1 → s1.now = s.now →
      (∀ p t, s1.next = some (p, t) → Asked (s1.log ++ [(s1.now, .done o c)]) s1.now p t) →
      (∀ (i : Nat) (r : Referendum), s1.referenda[i]? = some r → (∃ r0, s.referenda[i]? = some r0) ∨
        ∃ t0, Held cfg (s1.log ++ [(s1.now, .done o c)]) i r t0) →
      (∀ t ∈ s1.agenda, t ∈ s.agenda ∨ (t.origin = .root → Grounded cfg s t.at_ t.call)) →
      (∀ T x, (T, .done .root x) ∈ s1.log → (T, .done .root x) ∈ s.log) →
      Inv cfg { s1 with log := s1.log ++ [(s1.now, .done o c)] } ∧
        Later s { s1 with log := s1.log ++ [(s1.now, .done o c)] } ∧ s1.now = s.now := by
    intro hl hnow hn hr ha hdone
    have hl' : Later s { s1 with log := s1.log ++ [(s1.now, .done o c)] } :=
      hl.trans ⟨Nat.le_refl _, fun x hx => List.mem_append_left _ hx, fun _ r h => ⟨r, h, rfl, rfl, rfl, rfl, fun h => ⟨rfl, h⟩⟩⟩
    refine ⟨⟨hn, fun i r h' => ?_, fun t ht ho => ?_, fun T x hx => ?_⟩, hl', hnow⟩
    · rcases hr i r h' with ⟨r0, h0⟩ | h0
      · obtain ⟨t0, hh⟩ := h.held i r0 h0
        obtain ⟨r1, a1, a2, a3, a4, a5, _⟩ := hl'.refs i r0 h0
        obtain rfl : r = r1 := Option.some.inj (h'.symm.trans a1)
        exact ⟨t0, hh.mono hl'.log a2 a3 a4 a5⟩
      · exact h0
    · rcases ha t ht with h' | h'
      · exact (h.tasks t h' ho).mono hl' (Nat.le_refl _)
      · exact (h' ho).mono hl' (Nat.le_refl _)
    · have hx' : (T, Event.done .root x) ∈ s1.log ++ [(s1.now, .done o c)] := hx
      rcases List.mem_append.1 hx' with hx | hx
      · exact (h.done T x (hdone T x hx)).mono hl' (Nat.le_refl _)
      · simp only [List.mem_singleton, Prod.mk.injEq, Event.done.injEq] at hx
        obtain ⟨rfl, rfl, rfl⟩ := hx
        exact (hg rfl).mono hl' (hnow ▸ Nat.le_refl _)
  -- most calls change neither `next` nor referenda nor the agenda
  have asked : ∀ p t, s.next = some (p, t) → ∀ l, Asked (s.log ++ l) s.now p t := fun p t hp l =>
    (h.next p t hp).mono (fun x hx => List.mem_append_left _ hx) (Nat.le_refl _)
  have same : s1.now = s.now → s1.log = s.log → s1.referenda = s.referenda → s1.agenda = s.agenda →
      (s1.next = s.next ∨ s1.next = none) →
      Inv cfg { s1 with log := s1.log ++ [(s1.now, .done o c)] } ∧
        Later s { s1 with log := s1.log ++ [(s1.now, .done o c)] } ∧ s1.now = s.now := by
    intro e1 e2 e3 e4 e5
    refine finish (later_of_eq e1 e2 e3) e1 ?_ ?_ ?_ ?_
    · intro p t hp
      rcases e5 with e5 | e5
      · rw [e5] at hp; rw [e1, e2]; exact asked p t hp _
      · rw [e5] at hp; cases hp
    · intro i r hr; exact .inl ⟨r, e3 ▸ hr⟩
    · intro t ht; exact .inl (e4 ▸ ht)
    · intro T x hx; exact e2 ▸ hx
  have cancelled : ∀ s0 : State, ∀ i, s0.now = s.now → s0.log = s.log → s0.referenda = s.referenda →
      s0.agenda = s.agenda → (s0.next = s.next ∨ s0.next = none) → s1 = cancel s0 i →
      Inv cfg { s1 with log := s1.log ++ [(s1.now, .done o c)] } ∧
        Later s { s1 with log := s1.log ++ [(s1.now, .done o c)] } ∧ s1.now = s.now := by
    intro s0 i e1 e2 e3 e4 e5 e6
    obtain ⟨c1, c2, c3, c4, c5, _⟩ := cancel_rest s0 i
    rw [← e6] at c1 c2 c3 c4 c5
    refine finish ((later_of_eq e1 e2 e3).trans (e6 ▸ cancel_later s0 i)) (c1.trans e1) ?_ ?_ ?_ ?_
    · intro p t hp
      rw [c2] at hp
      rcases e5 with e5 | e5
      · rw [e5] at hp; rw [c1, c4, e1, e2]; exact asked p t hp _
      · rw [e5] at hp; cases hp
    · intro j r hr
      have hj := (List.getElem?_eq_some_iff.1 hr).1
      rw [c5, e3] at hj
      exact .inl ⟨_, List.getElem?_eq_getElem hj⟩
    · intro t ht; rw [c3, e4] at ht; exact .inl ht
    · intro T x hx; rw [c4, e2] at hx; exact hx
  cases c with
  | propose c =>
    simp only [effect] at he
    cases o with
    | signed w =>
      simp only [Option.ite_none_right_eq_some, Option.some.injEq] at he
      obtain ⟨_, rfl⟩ := he
      exact same rfl rfl rfl rfl (.inl rfl)
    | _ => cases he
  | externalPropose c =>
    simp only [effect, Option.ite_none_right_eq_some, Option.some.injEq] at he
    obtain ⟨_, rfl⟩ := he
    refine finish (later_of_eq rfl rfl rfl) rfl ?_ (fun i r hr => .inl ⟨r, hr⟩) (fun t ht => .inl ht) (fun _ _ hx => hx)
    rintro p t hp
    simp only [Option.some.injEq, Prod.mk.injEq] at hp
    obtain ⟨rfl, rfl⟩ := hp
    trivial
  | externalProposeMajority c =>
    simp only [effect, Option.ite_none_right_eq_some, Option.some.injEq] at he
    obtain ⟨ho, rfl⟩ := he
    refine finish (later_of_eq rfl rfl rfl) rfl ?_ (fun i r hr => .inl ⟨r, hr⟩) (fun t ht => .inl ht) (fun _ _ hx => hx)
    rintro p t hp
    simp only [Option.some.injEq, Prod.mk.injEq] at hp
    obtain ⟨rfl, rfl⟩ := hp
    exact ⟨s.now, o, Nat.le_refl _, by simp, councilMoreThan_majority ho⟩
  | externalProposeDefault c =>
    simp only [effect, Option.ite_none_right_eq_some, Option.some.injEq] at he
    obtain ⟨ho, rfl⟩ := he
    refine finish (later_of_eq rfl rfl rfl) rfl ?_ (fun i r hr => .inl ⟨r, hr⟩) (fun t ht => .inl ht) (fun _ _ hx => hx)
    rintro p t hp
    simp only [Option.some.injEq, Prod.mk.injEq] at hp
    obtain ⟨rfl, rfl⟩ := hp
    exact ⟨s.now, o, Nat.le_refl _, by simp, councilAtLeast_whole ho⟩
  | fastTrack c v d =>
    simp only [effect] at he
    split at he
    next ho =>
      split at he
      · cases he
      next hv =>
        split at he
        · cases he
        next p t hn =>
          split at he
          · cases he
          next hpt =>
            obtain ⟨ht, hp⟩ := not_or.1 hpt
            obtain rfl : p = c := by simpa using hp
            obtain rfl := Option.some.inj he
            refine finish ((later_of_eq (s := s) (s' := { s with next := none }) rfl rfl rfl).trans (inject_later _ _ _ _ _)) rfl ?_ ?_ (fun t ht => .inl ht) ?_
            · intro p' t' hp'; cases hp'
            · intro i r hr
              have hr' : (s.referenda ++ [⟨p, t, d, s.now + v, ⟨0, 0, 0⟩, .ongoing⟩])[i]? = some r := hr
              rw [List.getElem?_append] at hr'
              split at hr'
              · exact .inl ⟨r, hr'⟩
              next hi =>
                rw [List.getElem?_singleton] at hr'
                split at hr'
                next hi' =>
                  have hi'' : i = s.referenda.length := by omega
                  subst hi''
                  obtain rfl := Option.some.inj hr'
                  refine .inr ⟨s.now, ?_, ?_, .inr ⟨o, ?_, ?_, ?_, ?_, ht⟩⟩
                  · simp [inject]
                  · exact (h.next p t hn).mono (fun x hx => by simp [inject, hx]) (Nat.le_refl _)
                  · show _ ∈ s.log ++ _ ++ [(s.now, _)]
                    simp only [Nat.add_sub_cancel_left]
                    simp
                  · show s.now < s.now + v; omega
                  · rcases ho with ho | ho
                    · exact technicalAtLeast_twoThirds ho.2
                    · exact (technicalAtLeast_whole ho).twoThirds
                  · intro hlt
                    have hlt : s.now + v < s.now + cfg.fastTrackVoting := hlt
                    rcases ho with ho | ho
                    · omega
                    · exact technicalAtLeast_whole ho
                next => cases hr'
            · intro T x hx
              simpa [inject] using hx
    next => cases he
  | vetoExternal c =>
    simp only [effect] at he
    cases o with
    | technicalMember w =>
      simp only at he
      split at he
      · cases he
      · split at he
        · cases he
        · split at he
          · cases he
          · obtain rfl := Option.some.inj he
            exact same rfl rfl rfl rfl (.inr rfl)
    | _ => cases he
  | emergencyCancel i =>
    simp only [effect] at he
    split at he
    · split at he
      · cases he
      · split at he
        · cases he
        · refine cancelled _ i ?_ ?_ ?_ ?_ ?_ (Option.some.inj he).symm <;> first | rfl | exact .inl rfl
    · cases he
  | cancelReferendum i =>
    simp only [effect, Option.ite_none_right_eq_some, Option.some.injEq] at he
    exact cancelled s i rfl rfl rfl rfl (.inl rfl) he.2.symm
  | cancelProposal i =>
    simp only [effect, Option.ite_none_right_eq_some, Option.some.injEq] at he
    obtain ⟨_, rfl⟩ := he
    exact same rfl rfl rfl rfl (.inl rfl)
  | blacklist c i =>
    simp only [effect] at he
    split at he
    · have hnx : (if s.next.map Prod.fst = some c then none else s.next) = s.next ∨
          (if s.next.map Prod.fst = some c then none else s.next) = none := by
        split
        · exact .inr rfl
        · exact .inl rfl
      split at he
      · obtain rfl := Option.some.inj he
        exact same rfl rfl rfl rfl hnx
      · split at he
        · split at he
          · refine cancelled _ _ ?_ ?_ ?_ ?_ ?_ (Option.some.inj he).symm <;> first | rfl | exact hnx
          · obtain rfl := Option.some.inj he
            exact same rfl rfl rfl rfl hnx
        · obtain rfl := Option.some.inj he
          exact same rfl rfl rfl rfl hnx
    · cases he
  | clearPublicProposals =>
    simp only [effect, Option.ite_none_right_eq_some, Option.some.injEq] at he
    obtain ⟨_, rfl⟩ := he
    exact same rfl rfl rfl rfl (.inl rfl)
  | schedule b c =>
    simp only [effect, Option.ite_none_right_eq_some, Option.some.injEq] at he
    obtain ⟨⟨_, hb⟩, rfl⟩ := he
    refine finish (later_of_eq rfl rfl rfl) rfl (fun p t hp => asked p t hp _) (fun i r hr => .inl ⟨r, hr⟩) ?_
      (fun _ _ hx => hx)
    intro t ht
    rcases List.mem_append.1 ht with ht | ht
    · exact .inl ht
    · obtain rfl := List.mem_singleton.1 ht
      refine .inr (fun ho => ?_)
      obtain ⟨i, r, t0, e, h1, h2, h3, h4, h5, h6, h7⟩ := hg ho
      exact ⟨i, r, t0, e, h1, parts_trans h2, h3, h4, Nat.le_trans h5 (Nat.le_of_lt hb), h6, h7⟩
  | cancelNamed i =>
    simp only [effect] at he
    split at he
    · split at he
      · obtain rfl := Option.some.inj he
        exact finish (later_of_eq rfl rfl rfl) rfl (fun p t hp => asked p t hp _) (fun i r hr => .inl ⟨r, hr⟩)
          (fun t ht => .inl (List.mem_of_mem_filter ht)) (fun _ _ hx => hx)
      · cases he
    · cases he
  | other n =>
    simp only [effect, Option.some.injEq] at he
    subst he
    exact same rfl rfl rfl rfl (.inl rfl)

/-! ## Blocks -/

theorem bake_inv {cfg : Config} {s : State} (e i : Nat) (h : Inv cfg s) :
    Inv cfg (bake e s i) ∧ Later s (bake e s i) ∧ (bake e s i).now = s.now := by
  unfold bake
  cases hr : s.referenda[i]? with
  | none => exact ⟨h, .refl s, rfl⟩
  | some r =>
    simp only
    by_cases hc : r.status = .ongoing ∧ r.ends = s.now
    · rw [if_pos hc]
      have hi := (List.getElem?_eq_some_iff.1 hr).1
      have hset : ∀ (q : Referendum) (j : Nat), (s.referenda.set i q)[j]? = if i = j then some q else s.referenda[j]? := by
        intro q j
        by_cases e : i = j
        · subst e; rw [List.getElem?_set_self hi, if_pos rfl]
        · rw [List.getElem?_set_ne e, if_neg e]
      set ok := approved r.threshold r.tally e with hok
      have hl : Later s { s with referenda := s.referenda.set i { r with status := .finished ok } } := by
        refine ⟨Nat.le_refl _, fun _ h => h, fun j q hq => ?_⟩
        by_cases e : i = j
        · subst e
          obtain rfl : r = q := Option.some.inj (hr.symm.trans hq)
          exact ⟨{ r with status := .finished ok }, by rw [hset, if_pos rfl], rfl, rfl, rfl, rfl, fun _ => ⟨rfl, by simp⟩⟩
        · exact ⟨q, by rw [hset, if_neg e]; exact hq, rfl, rfl, rfl, rfl, fun h => ⟨rfl, h⟩⟩
      have hin : ∀ (j : Nat) (q : Referendum), (s.referenda.set i { r with status := .finished ok })[j]? = some q →
          ∃ q0, s.referenda[j]? = some q0 := by
        intro j q hq
        rw [hset] at hq
        split at hq
        next e => subst e; exact ⟨r, hr⟩
        next => exact ⟨q, hq⟩
      have h1 : Inv cfg { s with referenda := s.referenda.set i { r with status := .finished ok } } :=
        h.quiet hl (fun p t hp => h.next p t hp) hin (fun t ht => .inl ht) (fun _ _ hx => hx)
      by_cases hk : ok = true
      · rw [if_pos hk]
        have hl2 : Later s { s with
            referenda := s.referenda.set i { r with status := .finished ok }
            agenda := s.agenda ++ [⟨s.now + max r.delay 1, .root, r.proposal, some i⟩]
            log := s.log ++ [(s.now, .passed i e)] } :=
          hl.trans ⟨Nat.le_refl _, fun x hx => List.mem_append_left _ hx,
            fun _ r h => ⟨r, h, rfl, rfl, rfl, rfl, fun h => ⟨rfl, h⟩⟩⟩
        refine ⟨⟨?_, ?_, ?_, ?_⟩, hl2, rfl⟩
        · intro p t hp
          exact (h.next p t hp).mono (fun x hx => List.mem_append_left _ hx) (Nat.le_refl _)
        · intro j q hq
          obtain ⟨t0, hh⟩ := h1.held j q hq
          exact ⟨t0, hh.mono (fun x hx => List.mem_append_left _ hx) rfl rfl rfl rfl⟩
        · intro t ht ho
          rcases List.mem_append.1 ht with ht | ht
          · exact (h.tasks t ht ho).mono hl2 (Nat.le_refl _)
          · obtain rfl := List.mem_singleton.1 ht
            obtain ⟨t0, hh⟩ := h.held i r hr
            refine ⟨i, { r with status := .finished ok }, t0, e, ?_, self_parts _,
              hh.mono (fun x hx => List.mem_append_left _ hx) rfl rfl rfl rfl, ?_, ?_, by simp, hok ▸ hk⟩
            · show (s.referenda.set i _)[i]? = _
              rw [hset, if_pos rfl]
            · show (r.ends, _) ∈ s.log ++ _
              rw [hc.2]; simp
            · show r.ends + max r.delay 1 ≤ s.now + max r.delay 1
              rw [hc.2]
        · intro T c hx
          rcases List.mem_append.1 hx with hx | hx
          · exact (h.done T c hx).mono hl2 (Nat.le_refl _)
          · simp at hx
      · rw [if_neg hk]
        exact ⟨h1, hl, rfl⟩
    · rw [if_neg hc]
      exact ⟨h, .refl s, rfl⟩

theorem bakes_inv {cfg : Config} (e : Nat) (l : List Nat) : ∀ {s : State}, Inv cfg s →
    Inv cfg (l.foldl (bake e) s) ∧ Later s (l.foldl (bake e) s) ∧ (l.foldl (bake e) s).now = s.now := by
  induction l with
  | nil => intro s h; exact ⟨h, .refl s, rfl⟩
  | cons i l ih =>
    intro s h
    obtain ⟨a1, a2, a3⟩ := bake_inv e i h
    obtain ⟨b1, b2, b3⟩ := ih a1
    exact ⟨b1, a2.trans b2, b3.trans a3⟩

/-- A referendum with the usual periods. -/
theorem inject_inv {cfg : Config} {s : State} (h : Inv cfg s) (p : Call) (t : Threshold) (ha : Asked s.log s.now p t) :
    Inv cfg (inject s (s.now + cfg.voting) p t cfg.enactment) := by
  have hl := inject_later s (s.now + cfg.voting) p t cfg.enactment
  refine ⟨?_, ?_, ?_, ?_⟩
  · intro p' t' hp
    exact (h.next p' t' hp).mono hl.log (Nat.le_refl _)
  · intro i r hr
    have hr' : (s.referenda ++ [⟨p, t, cfg.enactment, s.now + cfg.voting, ⟨0, 0, 0⟩, .ongoing⟩])[i]? = some r := hr
    rw [List.getElem?_append] at hr'
    split at hr'
    · obtain ⟨t0, hh⟩ := h.held i r hr'
      exact ⟨t0, hh.mono hl.log rfl rfl rfl rfl⟩
    · rw [List.getElem?_singleton] at hr'
      split at hr'
      next hi hi' =>
        have hi'' : i = s.referenda.length := by omega
        subst hi''
        obtain rfl := Option.some.inj hr'
        exact ⟨s.now, by simp [inject], ha.mono hl.log (Nat.le_refl _), .inl ⟨rfl, rfl⟩⟩
      next => cases hr'
  · intro x hx ho
    exact (h.tasks x hx ho).mono hl (Nat.le_refl _)
  · intro T c hx
    have : (T, Event.done .root c) ∈ s.log := by simpa [inject] using hx
    exact (h.done T c this).mono hl (Nat.le_refl _)

/-- Without the proposal that is tabled. -/
theorem Inv.forget {cfg : Config} {s s' : State} (h : Inv cfg s) (h1 : s'.now = s.now) (h2 : s'.log = s.log)
    (h3 : s'.referenda = s.referenda) (h4 : s'.agenda = s.agenda) (h5 : s'.next = s.next ∨ s'.next = none) : Inv cfg s' := by
  refine h.quiet (later_of_eq h1 h2 h3) ?_ (fun i r hr => ⟨r, h3 ▸ hr⟩) (fun t ht => .inl (h4 ▸ ht)) (fun _ _ hx => h2 ▸ hx)
  intro p t hp
  rcases h5 with h5 | h5
  · rw [h1, h2]; exact h.next p t (h5 ▸ hp)
  · rw [h5] at hp; cases hp

theorem launchExternal_inv {cfg : Config} {s s' : State} (h : Inv cfg s) (hs : launchExternal cfg s = some s') :
    Inv cfg s' ∧ Later s s' ∧ s'.now = s.now := by
  unfold launchExternal at hs
  split at hs
  · cases hs
  next p t hn =>
    obtain rfl := Option.some.inj hs
    have h1 : Inv cfg { s with next := none, lastExternal := true } := h.forget rfl rfl rfl rfl (.inr rfl)
    exact ⟨inject_inv h1 p t (h.next p t hn),
      (later_of_eq (s := s) (s' := { s with next := none, lastExternal := true }) rfl rfl rfl).trans (inject_later _ _ _ _ _), rfl⟩

theorem launchPublic_inv {cfg : Config} {s s' : State} (h : Inv cfg s) (hs : launchPublic cfg s = some s') :
    Inv cfg s' ∧ Later s s' ∧ s'.now = s.now := by
  unfold launchPublic at hs
  split at hs
  · cases hs
  next p rest hn =>
    obtain rfl := Option.some.inj hs
    have h1 : Inv cfg { s with queue := rest, lastExternal := false } := h.forget rfl rfl rfl rfl (.inl rfl)
    exact ⟨inject_inv h1 p .superMajorityApprove trivial,
      (later_of_eq (s := s) (s' := { s with queue := rest, lastExternal := false }) rfl rfl rfl).trans (inject_later _ _ _ _ _), rfl⟩

theorem launchNext_inv {cfg : Config} {s : State} (h : Inv cfg s) :
    Inv cfg (launchNext cfg s) ∧ Later s (launchNext cfg s) ∧ (launchNext cfg s).now = s.now := by
  unfold launchNext
  cases he : launchExternal cfg s with
  | none =>
    cases hp : launchPublic cfg s with
    | none => simp only [Option.getD_none]; split <;> exact ⟨h, .refl s, rfl⟩
    | some s' => simp only [Option.getD_none, Option.getD_some]; split <;> exact launchPublic_inv h hp
  | some s'' =>
    cases hp : launchPublic cfg s with
    | none => simp only [Option.getD_none, Option.getD_some]; split <;> exact launchExternal_inv h he
    | some s' =>
      simp only [Option.getD_some]
      split
      · exact launchPublic_inv h hp
      · exact launchExternal_inv h he

theorem beginBlock_inv {cfg : Config} {s : State} (e : Nat) (h : Inv cfg s) :
    Inv cfg (beginBlock cfg e s) ∧ Later s (beginBlock cfg e s) ∧ (beginBlock cfg e s).now = s.now := by
  unfold beginBlock
  simp only
  split
  · obtain ⟨a1, a2, a3⟩ := launchNext_inv (cfg := cfg) h
    obtain ⟨b1, b2, b3⟩ := bakes_inv e (List.range (launchNext cfg s).referenda.length) a1
    exact ⟨b1, a2.trans b2, b3.trans a3⟩
  · exact bakes_inv e _ h

theorem performs_inv {cfg : Config} (l : List Task) : ∀ {s : State}, Inv cfg s →
    (∀ t ∈ l, t.origin = .root → Grounded cfg s s.now t.call) →
    Inv cfg (l.foldl (perform cfg) s) ∧ Later s (l.foldl (perform cfg) s) ∧ (l.foldl (perform cfg) s).now = s.now := by
  induction l with
  | nil => intro s h _; exact ⟨h, .refl s, rfl⟩
  | cons t l ih =>
    intro s h hg
    have hp : Inv cfg (perform cfg s t) ∧ Later s (perform cfg s t) ∧ (perform cfg s t).now = s.now := by
      unfold perform
      cases hd : dispatch cfg s t.origin t.call with
      | none => exact ⟨h, .refl s, rfl⟩
      | some s' => exact dispatch_inv h (hg t (by simp)) hd
    obtain ⟨a1, a2, a3⟩ := hp
    obtain ⟨b1, b2, b3⟩ := ih a1 (fun x hx ho => (hg x (by simp [hx]) ho).mono a2 (a3 ▸ Nat.le_refl _))
    exact ⟨b1, a2.trans b2, b3.trans a3⟩

theorem service_inv {cfg : Config} {s : State} (h : Inv cfg s) :
    Inv cfg (service cfg s) ∧ Later s (service cfg s) ∧ (service cfg s).now = s.now := by
  have h1 : Inv cfg { s with agenda := s.agenda.filter (fun t => t.at_ ≠ s.now) } :=
    h.quiet (later_of_eq rfl rfl rfl) (fun p t hp => h.next p t hp) (fun i r hr => ⟨r, hr⟩)
      (fun t ht => .inl (List.mem_of_mem_filter ht)) (fun _ _ hx => hx)
  obtain ⟨b1, b2, b3⟩ := performs_inv (s.agenda.filter (fun t => t.at_ = s.now)) h1 (by
    intro t ht ho
    obtain ⟨h2, h3⟩ := List.mem_filter.1 ht
    have h3 : t.at_ = s.now := by simpa using h3
    exact (h.tasks t h2 ho).mono (later_of_eq rfl rfl rfl) (h3 ▸ Nat.le_refl _))
  exact ⟨b1, (later_of_eq (s := s) (s' := { s with agenda := s.agenda.filter (fun t => t.at_ ≠ s.now) }) rfl rfl rfl).trans b2, b3⟩

theorem apply_inv {cfg : Config} {s : State} (h : Inv cfg s) (x : Step) : Inv cfg (apply cfg s x) ∧ Later s (apply cfg s x) := by
  cases x with
  | call o c =>
    simp only [apply]
    split
    · exact ⟨h, .refl s⟩
    next ho =>
      cases hd : dispatch cfg s o c with
      | none => exact ⟨h, .refl s⟩
      | some s' =>
        obtain ⟨a1, a2, _⟩ := dispatch_inv h (fun e => absurd e ho) hd
        exact ⟨a1, a2⟩
  | votes i y =>
    simp only [apply]
    cases hr : s.referenda[i]? with
    | none => exact ⟨h, .refl s⟩
    | some r =>
      simp only
      split
      next hs =>
        have hi := (List.getElem?_eq_some_iff.1 hr).1
        have hl : Later s { s with referenda := s.referenda.set i { r with tally := y } } := by
          refine ⟨Nat.le_refl _, fun _ h => h, fun j q hq => ?_⟩
          by_cases e : i = j
          · subst e
            obtain rfl : r = q := Option.some.inj (hr.symm.trans hq)
            refine ⟨{ r with tally := y }, ?_, rfl, rfl, rfl, rfl, fun h => absurd hs h⟩
            show (s.referenda.set i _)[i]? = _
            rw [List.getElem?_set_self hi]
          · refine ⟨q, ?_, rfl, rfl, rfl, rfl, fun h => ⟨rfl, h⟩⟩
            show (s.referenda.set i _)[j]? = _
            rw [List.getElem?_set_ne e]; exact hq
        refine ⟨h.quiet hl (fun p t hp => h.next p t hp) ?_ (fun t ht => .inl ht) (fun _ _ hx => hx), hl⟩
        intro j q hq
        have hj : j < (s.referenda.set i { r with tally := y }).length := (List.getElem?_eq_some_iff.1 hq).1
        rw [List.length_set] at hj
        exact ⟨_, List.getElem?_eq_getElem hj⟩
      next => exact ⟨h, .refl s⟩
  | reorder q =>
    simp only [apply]
    split
    · exact ⟨h.forget rfl rfl rfl rfl (.inl rfl), later_of_eq rfl rfl rfl⟩
    · exact ⟨h, .refl s⟩
  | block e =>
    have hl : Later s { s with now := s.now + 1 } :=
      ⟨Nat.le_succ _, fun _ h => h, fun _ r h => ⟨r, h, rfl, rfl, rfl, rfl, fun h => ⟨rfl, h⟩⟩⟩
    have h1 : Inv cfg { s with now := s.now + 1 } :=
      h.quiet hl (fun p t hp => (h.next p t hp).mono (fun _ h => h) (Nat.le_succ _)) (fun i r hr => ⟨r, hr⟩)
        (fun t ht => .inl ht) (fun _ _ hx => hx)
    obtain ⟨a1, a2, _⟩ := beginBlock_inv e h1
    obtain ⟨b1, b2, _⟩ := service_inv a1
    exact ⟨b1, hl.trans (a2.trans b2)⟩

theorem run_inv {cfg : Config} (h : List Step) : ∀ {s : State}, Inv cfg s → Inv cfg (run cfg s h) ∧ Later s (run cfg s h) := by
  induction h with
  | nil => intro s hs; exact ⟨hs, .refl s⟩
  | cons x h ih =>
    intro s hs
    obtain ⟨a1, a2⟩ := apply_inv hs x
    obtain ⟨b1, b2⟩ := ih a1
    exact ⟨b1, a2.trans b2⟩

end Verif.Governance
