import Verif.Collators.Step
/-!
# C165: bonds of candidates come back

The specification speaks of the list of candidates and of free and reserved tokens.
-/

namespace Verif.Collators
open Verif.Wrapped (put)
open Verif.Deposits (Purse existential)

/-- What an account has put up: the amount beside its name in the list of candidates, nothing if it is not there. -/
def PutUp (s : State) (a : AccountId) (v : Balance) : Prop :=
  (∃ c ∈ s.cands, c.who = a ∧ c.deposit = v) ∨ (a ∉ s.cands.map Cand.who ∧ v = 0)

/-- The tokens of the account allow to put up this much more: what stays free covers freezes and keeps the account alive. -/
def Affords (s : State) (a : AccountId) (v : Balance) : Prop :=
  v = 0 ∨ (v ≤ (s.purse a).free ∧ (s.purse a).frozen ≤ (s.purse a).free - v ∧ existential ≤ (s.purse a).free - v)

theorem putUp_owed {s : State} (i : Inv s) {a : AccountId} {v : Balance} (h : PutUp s a v) : owed s.cands a = v := by
  rcases h with ⟨c, hc, rfl, rfl⟩ | ⟨h1, rfl⟩
  · exact owed_mem i.nodup hc
  · exact owed_zero h1

theorem putUp_total (s : State) (a : AccountId) : ∃ v, PutUp s a v := by
  by_cases h : a ∈ s.cands.map Cand.who
  · obtain ⟨c, hc, rfl⟩ := List.mem_map.1 h
    exact ⟨_, .inl ⟨c, hc, rfl, rfl⟩⟩
  · exact ⟨0, .inr ⟨h, rfl⟩⟩

section
variable (cfg : Config) (l : List (AccountId × Nat)) (b : Balance) (d : Nat) (p : AccountId → Balance) (h : List Event)

/-- C165: every account is a candidate at most once, has then put up at least the bond, and exactly what it has put up is
reserved of its tokens, beyond what other pallets have reserved. -/
theorem C165_reserved :
    let s := run cfg (genesis l b d p) h
    (s.cands.map Cand.who).Nodup ∧ (∀ c ∈ s.cands, s.bond ≤ c.deposit) ∧
    ∀ a v, PutUp s a v → (s.purse a).reserved = s.elsewhere a + v := by
  intro s
  have i : Inv s := run_inv cfg h (genesis_inv l b d p)
  exact ⟨i.nodup, i.above, fun a v hv => by rw [i.held, putUp_owed i hv]⟩

/-- C165: whatever happens, tokens only go from the free tokens of an account into its bond and back: what it has put up
less is free again, at once and in full. -/
theorem C165_back (e : Event) (he : ∀ a p v, e ≠ .other a p v) (a : AccountId) (v w : Balance) :
    let s := run cfg (genesis l b d p) h
    let s' := apply cfg s e
    PutUp s a v → PutUp s' a w →
    (s'.purse a).free + w = (s.purse a).free + v ∧ (s'.purse a).frozen = (s.purse a).frozen ∧
    (s'.purse a).reserved = s.elsewhere a + w := by
  intro s s' hv hw
  have i : Inv s := run_inv cfg h (genesis_inv l b d p)
  obtain ⟨i', k⟩ := apply_inv cfg i e
  have k := k he
  have h1 := putUp_owed i hv
  have h2 := putUp_owed i' hw
  refine ⟨?_, k.frozen a, ?_⟩
  · have := k.free a; rw [h1, h2] at this; exact this
  · rw [i'.held, h2, k.elsewhere]

/-- C165: exactly when an account becomes a candidate. -/
theorem C165_register (who : AccountId) :
    let s := run cfg (genesis l b d p) h
    (∃ s', dispatch cfg s (.signed who) .register = .ok s') ↔
      s.cands.length < 50 ∧ who ∉ s.invulnerables ∧ s.keys who ≠ none ∧ who ∉ s.cands.map Cand.who ∧ Affords s who s.bond := by
  intro s
  constructor
  · rintro ⟨s', hs⟩
    obtain ⟨h1, h2, h3, h4, s1, h5, -⟩ := register_eq hs
    exact ⟨h1, h2, Option.isSome_iff_ne_none.1 h3, h4, reserve_ok_iff.1 ⟨s1, h5⟩⟩
  · rintro ⟨h1, h2, h3, h4, h5⟩
    obtain ⟨s1, h6⟩ := reserve_ok_iff.2 h5
    show ∃ s', register s who = .ok s'
    unfold register
    simp only [bind_eq_ok_iff, ensure_eq_ok_iff, pure_eq_ok_iff]
    exact ⟨_, (), h1, (), h2, (), Option.isSome_iff_ne_none.2 h3, (), h4, s1, h6, rfl⟩

/-- C165: exactly when a candidate may leave: more than the smallest number of makers are eligible, which is one on the main
network and none elsewhere. -/
theorem C165_leave (who : AccountId) :
    let s := run cfg (genesis l b d p) h
    (∃ s', dispatch cfg s (.signed who) .leave = .ok s') ↔
      cfg.minEligible < s.cands.length + s.invulnerables.length ∧ who ∈ s.cands.map Cand.who := by
  intro s
  constructor
  · rintro ⟨s', hs⟩
    obtain ⟨h1, h2, -⟩ := leave_eq.1 hs
    exact ⟨h1, h2⟩
  · rintro ⟨h1, h2⟩
    exact ⟨_, leave_eq.2 ⟨h1, h2, rfl⟩⟩

/-- C165: exactly when a candidate may change its bond: to any higher one that it affords, and to a lower one, not below the
bond asked for, if at least as many candidates as are desired are above it. -/
theorem C165_update (who : AccountId) (new : Balance) :
    let s := run cfg (genesis l b d p) h
    (∃ s', dispatch cfg s (.signed who) (.updateBond new) = .ok s') ↔
      s.bond ≤ new ∧ ∃ A c B, s.cands = A ++ c :: B ∧ c.who = who ∧
        ((c.deposit < new ∧ Affords s who (new - c.deposit)) ∨ (new < c.deposit ∧ s.desired ≤ B.length)) := by
  intro s
  constructor
  · rintro ⟨s', hs⟩
    obtain ⟨h1, A, c, B, s1, hl, h2, h3, -⟩ := updateBond_eq hs
    refine ⟨h1, A, c, B, hl, h2, ?_⟩
    rcases h3 with ⟨h4, h5⟩ | ⟨h4, h5, -⟩
    · exact .inl ⟨h4, reserve_ok_iff.1 ⟨s1, h5⟩⟩
    · rw [hl, List.length_append, List.length_cons] at h5
      exact .inr ⟨h4, by omega⟩
  · rintro ⟨h1, A, c, B, hl, rfl, h3⟩
    have i : Inv s := run_inv cfg h (genesis_inv l b d p)
    have hn := i.nodup
    rw [hl] at hn
    obtain ⟨c', hf⟩ := find_some (l := s.cands) (a := c.who) (by rw [hl]; simp)
    obtain ⟨A', B', hl', hA', hc', -, hi, -⟩ := split_find hf
    have hc' := of_decide_eq_true hc'
    have hin : c' ∈ s.cands := by rw [hl']; simp
    have hcin : c ∈ s.cands := by rw [hl]; simp
    obtain rfl : c' = c := List.inj_on_of_nodup_map i.nodup hin hcin hc'
    have hAA : A' = A := by
      have e := hl'.symm.trans hl
      have hA : ∀ x ∈ A, x.who ≠ c'.who := fun x hx ex =>
        (mid_nodup hn).1 (List.mem_map.2 ⟨x, List.mem_append_left _ hx, ex⟩)
      have f1 := List.findIdx_append (p := fun c : Cand => decide (c.who = c'.who)) (l₁ := A) (l₂ := c' :: B)
      rw [← hl, hi, if_neg] at f1
      · simp only [List.findIdx_cons, decide_true, cond_true, Nat.zero_add] at f1
        exact (List.append_inj e f1).1
      · rw [List.findIdx_lt_length]
        rintro ⟨x, hx, hpx⟩
        exact hA x hx (of_decide_eq_true hpx)
    subst hAA
    show ∃ s', updateBond s c'.who new = .ok s'
    unfold updateBond
    simp only [bind_eq_ok_iff, ensure_eq_ok_iff, okOr_eq_ok_iff]
    rcases h3 with ⟨h4, h5⟩ | ⟨h4, h5⟩
    · obtain ⟨s1, h6⟩ := reserve_ok_iff.2 h5
      refine ⟨{ s1 with cands := place (s.cands.eraseIdx (s.cands.findIdx (fun c => decide (c.who = c'.who)))) ⟨c'.who, new⟩ },
        (), h1, c', hf, ?_⟩
      rw [if_pos h4]
      exact bind_eq_ok_iff.2 ⟨s1, h6, rfl⟩
    · refine ⟨{ unreserve s c'.who (c'.deposit - new) with
          cands := place (s.cands.eraseIdx (s.cands.findIdx (fun c => decide (c.who = c'.who)))) ⟨c'.who, new⟩ },
        (), h1, c', hf, ?_⟩
      rw [if_neg (by omega), if_pos h4]
      simp only [bind_eq_ok_iff, ensure_eq_ok_iff, pure_eq_ok_iff]
      refine ⟨(), ?_, _, rfl, rfl⟩
      rw [hi, hl, List.length_append, List.length_cons]
      omega

/-- C165: exactly when an account takes the place of a candidate: it puts up more than that candidate, and no less than the
bond asked for. -/
theorem C165_take (who target : AccountId) (v : Balance) :
    let s := run cfg (genesis l b d p) h
    (∃ s', dispatch cfg s (.signed who) (.takeSlot v target) = .ok s') ↔
      who ∉ s.invulnerables ∧ s.bond ≤ v ∧ s.keys who ≠ none ∧ who ∉ s.cands.map Cand.who ∧
      (∃ c ∈ s.cands, c.who = target ∧ c.deposit < v) ∧ Affords s who v := by
  intro s
  have i : Inv s := run_inv cfg h (genesis_inv l b d p)
  constructor
  · rintro ⟨s', hs⟩
    obtain ⟨h1, h2, h3, h4, A, t, B, s1, hl, h5, h6, h7, -⟩ := takeSlot_eq i.sorted hs
    exact ⟨h1, h2, Option.isSome_iff_ne_none.1 h3, h4, ⟨t, by rw [hl]; simp, h5, h6⟩, reserve_ok_iff.1 ⟨s1, h7⟩⟩
  · rintro ⟨h1, h2, h3, h4, ⟨c, hc, rfl, h6⟩, h7⟩
    obtain ⟨s1, h8⟩ := reserve_ok_iff.2 h7
    obtain ⟨c', hf⟩ := find_some (l := s.cands) (a := c.who) (List.mem_map.2 ⟨c, hc, rfl⟩)
    have hin : c' ∈ s.cands := List.mem_of_find?_eq_some hf
    have hw : c'.who = c.who := of_decide_eq_true (List.find?_some (p := fun x : Cand => decide (x.who = c.who)) hf)
    obtain rfl : c' = c := List.inj_on_of_nodup_map i.nodup hin hc hw
    show ∃ s', takeSlot s who v c'.who = .ok s'
    unfold takeSlot
    simp only [bind_eq_ok_iff, ensure_eq_ok_iff, okOr_eq_ok_iff, pure_eq_ok_iff]
    exact ⟨_, (), h1, (), h2, (), Option.isSome_iff_ne_none.2 h3, (), h4, c', hf, (), h6, s1, h8, rfl⟩
end

/-- Two accounts become candidates, the second takes the place of the first with a higher bond, and the first has its tokens
back. -/
example :
    let s0 := genesis [(1, 10)] 100 1 (fun _ => 5 * 10 ^ 6)
    let s1 := run mainnet s0 [.call (.signed 2) (.setKeys 20), .call (.signed 2) .register, .call (.signed 3) (.setKeys 30)]
    let s2 := run mainnet s1 [.call (.signed 3) (.takeSlot 150 2)]
    s1.cands = [⟨2, 100⟩] ∧ s1.purse 2 = ⟨4999900, 100, 0⟩ ∧
    s2.cands = [⟨3, 150⟩] ∧ s2.purse 2 = ⟨5000000, 0, 0⟩ ∧ s2.purse 3 = ⟨4999850, 150, 0⟩ := by decide +kernel

end Verif.Collators
