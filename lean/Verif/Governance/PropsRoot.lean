import Verif.Governance.Props
/-!
# C154: root needs a referendum
-/

namespace Verif.Governance

/-- What is known about a call that was executed as root at block `T`: the referendum, who asked for it, how long it was
open and how long the call waited then; votes are compared if no more tokens voted than there are. -/
structure Legitimate (cfg : Config) (s : State) (T : BlockNumber) (c : Call) (i : Nat) (r : Referendum) (t0 : BlockNumber)
    (e : Nat) : Prop where
  /-- referendum `i` was on this call, or on one that scheduled it -/
  about : s.referenda[i]? = some r ∧ c ∈ parts r.proposal
  /-- it was opened, and it passed when votes ended, before the call -/
  order : (t0, .started i) ∈ s.log ∧ (r.ends, .passed i e) ∈ s.log ∧ t0 < r.ends ∧ r.ends < T
  /-- the usual periods, or shorter ones that the technical committee set, for what the council proposed -/
  notice : (r.ends = t0 + cfg.voting ∧ r.ends + cfg.enactment ≤ T) ∨
    ((∃ o, (t0, .done o (.fastTrack r.proposal (r.ends - t0) r.delay)) ∈ s.log ∧ TwoThirds o ∧
      (r.ends < t0 + cfg.fastTrackVoting → WholeCommittee o)) ∧
    ∃ t o, t ≤ t0 ∧ (((t, .done o (.externalProposeMajority r.proposal)) ∈ s.log ∧ CouncilMajority o) ∨
      ((t, .done o (.externalProposeDefault r.proposal)) ∈ s.log ∧ WholeCouncil o)))

/-- C154 in full for one call: a referendum with notice, and more votes for it than against it. -/
def C154_full : Prop :=
  ∀ (h : List Step) (T : BlockNumber) (c : Call), (T, .done .root c) ∈ (run mainnet .init h).log →
    ∃ i r t0 e, Legitimate mainnet (run mainnet .init h) T c i r t0 e ∧
      (r.tally.turnout ≤ e → r.tally.nays < r.tally.ayes)

/-- C154, partial, for any periods (votes are open for some time): nothing is executed as root without a referendum, with
notice as configured; votes were cast for it, and more for it than against it unless the whole council had asked for a
referendum that only fails by a majority against it. Missing: more votes for it than against it in that case. -/
theorem C154_referendum_partial (cfg : Config) (hv : 0 < cfg.voting) (h : List Step) (T : BlockNumber) (c : Call)
    (hd : (T, .done .root c) ∈ (run cfg .init h).log) :
    ∃ i r t0 e, Legitimate cfg (run cfg .init h) T c i r t0 e ∧
      (r.tally.turnout ≤ e → 0 < r.tally.ayes ∧ 0 < r.tally.turnout ∧
        (r.tally.nays < r.tally.ayes ∨ ∃ t o, t ≤ t0 ∧
          (t, .done o (.externalProposeDefault r.proposal)) ∈ (run cfg .init h).log ∧ WholeCouncil o)) := by
  obtain ⟨i, r, t0, e, h1, h2, h3, h4, h5, h6, h7⟩ := (run_inv h (inv_init cfg)).1.done T c hd
  have hlt : t0 < r.ends := by
    rcases h3.notice with ⟨hu, _⟩ | ⟨o, _, hs, _⟩
    · omega
    · exact hs
  refine ⟨i, r, t0, e, ⟨⟨h1, h2⟩, ⟨h3.started, h4, hlt, by omega⟩, ?_⟩, ?_⟩
  · rcases h3.notice with ⟨hu, hdel⟩ | ⟨o, a1, a2, a3, a4, a5⟩
    · left; rw [hdel] at h5; exact ⟨hu, by omega⟩
    · right
      refine ⟨⟨o, a1, a3, a4⟩, ?_⟩
      have ha := h3.asked
      cases ht : r.threshold with
      | superMajorityApprove => exact absurd ht a5
      | simpleMajority =>
        rw [ht] at ha; obtain ⟨t, o', b1, b2, b3⟩ := ha; exact ⟨t, o', b1, .inl ⟨b2, b3⟩⟩
      | superMajorityAgainst =>
        rw [ht] at ha; obtain ⟨t, o', b1, b2, b3⟩ := ha; exact ⟨t, o', b1, .inr ⟨b2, b3⟩⟩
  · intro hle
    obtain ⟨hpos, hcmp⟩ := (approved_iff _ _ _ hle).1 h7
    have ha := h3.asked
    cases ht : r.threshold with
    | superMajorityApprove =>
      simp only [ht] at hcmp
      have h8 : r.tally.ayes * Nat.sqrt r.tally.turnout ≤ r.tally.ayes * Nat.sqrt e :=
        Nat.mul_le_mul_left _ (Nat.sqrt_le_sqrt hle)
      have h9 : r.tally.nays < r.tally.ayes := Nat.lt_of_mul_lt_mul_right (Nat.lt_of_lt_of_le hcmp h8)
      exact ⟨by omega, hpos, .inl h9⟩
    | simpleMajority =>
      simp only [ht] at hcmp
      exact ⟨by omega, hpos, .inl hcmp⟩
    | superMajorityAgainst =>
      simp only [ht] at hcmp
      rw [ht] at ha
      obtain ⟨t, o', b1, b2, b3⟩ := ha
      refine ⟨Nat.pos_of_ne_zero (fun e0 => ?_), hpos, .inr ⟨t, o', b1, b2, b3⟩⟩
      rw [e0, Nat.zero_mul] at hcmp
      exact Nat.not_lt_zero _ hcmp

/-- C154 in numbers, for mainnet: fifteen days (108,000 blocks) from the start of a referendum to its execution, unless
two thirds of the technical committee agreed to less; three hours (900 blocks) to vote, unless all of it agreed to less;
and two blocks at the least. -/
theorem C154_notice (h : List Step) (T : BlockNumber) (c : Call)
    (hd : (T, .done .root c) ∈ (run mainnet .init h).log) :
    ∃ i r t0, (run mainnet .init h).referenda[i]? = some r ∧ c ∈ parts r.proposal ∧
      (t0, .started i) ∈ (run mainnet .init h).log ∧ t0 + 2 ≤ T ∧
      (T < t0 + 108000 → ∃ o v d, (t0, .done o (.fastTrack r.proposal v d)) ∈ (run mainnet .init h).log ∧ TwoThirds o ∧
        r.ends = t0 + v ∧ (v < 900 → WholeCommittee o)) := by
  obtain ⟨i, r, t0, e, hl, _⟩ := C154_referendum_partial mainnet (by decide) h T c hd
  obtain ⟨o1, o2, o3, o4⟩ := hl.order
  refine ⟨i, r, t0, hl.about.1, hl.about.2, o1, by omega, fun hT => ?_⟩
  rcases hl.notice with ⟨a, b⟩ | ⟨⟨o, a1, a2, a3⟩, _⟩
  · simp only [mainnet] at a b; omega
  · refine ⟨o, r.ends - t0, r.delay, a1, a2, by omega, fun hv => a3 ?_⟩
    simp only [mainnet]; omega

/-- The council proposes, the committee shortens, few vote, most of them against it. -/
def exAgainst : List Step :=
  [.block 1000000, .call (.council 7 7) (.externalProposeDefault (.other 5)),
    .call (.technical 5 5) (.fastTrack (.other 5) 1 0), .votes 0 ⟨10, 50, 60⟩, .block 1000000, .block 1000000]

/-- C154 is false of the code: ten votes for it and fifty against it, and the call is executed as root, two blocks after
it was proposed. -/
theorem C154_full_false : ¬ C154_full := by
  intro hf
  obtain ⟨i, r, t0, e, hl, hc⟩ := hf exAgainst 3 (.other 5) (by decide +kernel)
  have hr := hl.about.1
  have hi : i = 0 := by
    have hlen : (run mainnet .init exAgainst).referenda.length = 1 := by decide +kernel
    have := (List.getElem?_eq_some_iff.1 hr).1
    omega
  subst hi
  have h0 : (run mainnet .init exAgainst).referenda[0]? =
      some ⟨.other 5, .superMajorityAgainst, 0, 2, ⟨10, 50, 60⟩, .finished true⟩ := by decide +kernel
  obtain rfl := Option.some.inj (hr.symm.trans h0)
  have hp := hl.order.2.1
  have hall : ∀ x ∈ (run mainnet .init exAgainst).log, ∀ j e', x.2 = .passed j e' → e' = 1000000 := by
    have hlog : (run mainnet .init exAgainst).log =
        [(1, .done (.council 7 7) (.externalProposeDefault (.other 5))), (1, .started 0),
          (1, .done (.technical 5 5) (.fastTrack (.other 5) 1 0)), (2, .passed 0 1000000),
          (3, .done .root (.other 5))] := by decide +kernel
    rw [hlog]
    intro x hx j e' he
    simp only [List.mem_cons, List.not_mem_nil, or_false] at hx
    rcases hx with rfl | rfl | rfl | rfl | rfl <;> simp_all
  have he := hall _ hp 0 e rfl
  subst he
  have := hc (by decide)
  exact absurd this (by decide)

/-- Hypotheses met: a public proposal that the voters accept, with short periods; it schedules another call. -/
def exShort : Config := ⟨2, 3, 1, 2, 4⟩

example :
    let c := Call.schedule 9 (.other 1)
    let s := run exShort .init ([.call (.signed 3) (.propose c), .block 100, .block 100, .votes 0 ⟨40, 3, 43⟩] ++
      List.replicate 7 (.block 100))
    s.log = [(0, .done (.signed 3) (.propose c)), (2, .started 0), (5, .passed 0 100), (7, .done .root c),
      (9, .done .root (.other 1))] := by decide +kernel

/-- Two thirds of the committee are not enough for less than three hours; half of the council is not enough for what is to
be shortened. -/
example :
    let s := run mainnet .init [.block 9, .call (.council 3 5) (.externalProposeMajority (.other 5))]
    let t := run mainnet .init [.block 9, .call (.council 3 6) (.externalProposeMajority (.other 5))]
    (dispatch mainnet s (.technical 4 6) (.fastTrack (.other 5) 899 0)).isSome = false ∧
    (dispatch mainnet s (.technical 4 6) (.fastTrack (.other 5) 900 0)).isSome = true ∧
    (dispatch mainnet s (.technical 6 6) (.fastTrack (.other 5) 1 0)).isSome = true ∧
    (dispatch mainnet t (.technical 6 6) (.fastTrack (.other 5) 900 0)).isSome = false := by decide

end Verif.Governance
