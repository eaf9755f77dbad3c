import Verif.Treasury.Model
import Mathlib.Data.List.Induction
import Mathlib.Tactic.NormNum
/-!
# C159: what the treasury pays, and the bonds of proposals
-/

namespace Verif.Treasury

open Verif.Governance (Origin)

/-! ## Specification -/

/-- Root, or at least three fifths of the council. -/
def ThreeFifths (o : Origin) : Prop := o = .root ∨ ∃ yes seats, o = .council yes seats ∧ 3 * seats ≤ 5 * yes

/-- Root, or more than half of the council. -/
def Majority (o : Origin) : Prop := o = .root ∨ ∃ yes seats, o = .council yes seats ∧ seats < 2 * yes

/-- The proposal was made, with this number, by an account that had the bond: five percent of the value, rounded, but at least
100 and at most 1,000 tokens. -/
def Made (cfg : Config) (g : State) (hist : List Op) (i : Nat) (p : Proposal) : Prop :=
  (∃ h1 h2, hist = h1 ++ .propose p.proposer p.value p.beneficiary true :: h2 ∧ (run cfg g h1).count = i ∧
    p.bond ≤ freeOf (run cfg g h1) p.proposer) ∧
  p.bond = min (1000 * 10 ^ 8) (max (100 * 10 ^ 8) ((5 * p.value + 49) / 100))

/-- Three fifths of the council approved it while it was open. -/
def Approved (cfg : Config) (g : State) (hist : List Op) (i : Nat) : Prop :=
  ∃ h1 o h2, hist = h1 ++ .approve o i :: h2 ∧ ThreeFifths o ∧ ∃ p, (run cfg g h1).proposals.get i = some p

/-- Sum of the awards to an account that were announced. -/
def paidTo (l : List Event) (x : AccountId) : Nat :=
  (l.map fun e => match e with
    | .awarded _ v a => if a = x then v else 0
    | _ => 0).sum

/-- Sum of all awards that were announced. -/
def paidAll (l : List Event) : Nat :=
  (l.map fun e => match e with
    | .awarded _ v _ => v
    | _ => 0).sum

/-- Numbers of the proposals that were paid. -/
def paidNumbers (l : List Event) : List Nat :=
  l.filterMap fun e => match e with
    | .awarded i _ _ => some i
    | _ => none

/-- Numbers of the proposals that were rejected. -/
def rejectedNumbers (l : List Event) : List Nat :=
  l.filterMap fun e => match e with
    | .rejected i _ => some i
    | _ => none

/-- What an account has, with its bonds. -/
def wealth (s : State) (x : AccountId) : Balance := freeOf s x + bondedOf s x

/-- What all accounts have. -/
def total (s : State) : Balance := s.free.sumV (fun _ v => v) + s.bonded.sumV (fun _ v => v)

/-- The bonds of the open proposals of an account. -/
def bondsOf (s : State) (x : AccountId) : Balance := s.proposals.sumV (fun _ p => if p.proposer = x then p.bond else 0)

/-! ## Origins -/

theorem approve_iff (o : Origin) : approveOrigin o = true ↔ ThreeFifths o := by
  unfold approveOrigin Governance.councilAtLeast ThreeFifths
  cases o <;> simp
  omega

theorem reject_iff (o : Origin) : rejectOrigin o = true ↔ Majority o := by
  unfold rejectOrigin Governance.councilMoreThan Majority
  cases o <;> simp
  omega

/-! ## The award of a proposal -/

/-- Effect of the award of a proposal, without the payment of the treasury. -/
structure Award (s s' : State) (i : Nat) (p : Proposal) (amount : Balance) : Prop where
  count : s'.count = s.count
  approvals : s'.approvals = s.approvals
  proposals : s'.proposals = s.proposals.erase i
  log : s'.log = s.log ++ [.awarded i p.value p.beneficiary]
  free : ∀ x, freeOf s' x = freeOf s x + (if p.proposer = x then min (bondedOf s x) p.bond else 0) +
    (if p.beneficiary = x then amount else 0)
  bonded : ∀ x, bondedOf s' x = bondedOf s x - (if p.proposer = x then min (bondedOf s x) p.bond else 0)
  le : amount ≤ p.value
  all : amount = p.value ∨ s.free.contains p.beneficiary = false ∧ p.value < deposit
  total : total s' = total s + amount
  alive : ∀ x, s.free.contains x = true → s'.free.contains x = true

theorem contains_insert {V : Type} (m : SMap AccountId V) (k x : AccountId) (v : V) (h : m.contains x = true) :
    (m.insert k v).contains x = true := by
  obtain ⟨w, hw⟩ := (SMap.contains_iff m x).1 h
  refine (SMap.contains_iff _ x).2 ?_
  rw [SMap.get_insert]
  split
  · exact ⟨_, rfl⟩
  · exact ⟨w, hw⟩

theorem getD_insert (m : SMap AccountId Balance) (k x : AccountId) (v : Balance) :
    ((m.insert k v).get x).getD 0 = if k = x then v else (m.get x).getD 0 := by
  rw [SMap.get_insert]
  split <;> rfl

theorem sum_insert (m : SMap AccountId Balance) (k : AccountId) (v : Balance) :
    (m.insert k v).sumV (fun _ v => v) + (m.get k).getD 0 = m.sumV (fun _ v => v) + v := by
  have := SMap.sumV_insert m k v (fun _ v => v)
  unfold SMap.contrib at this
  cases h : m.get k with
  | none => rw [h] at this; exact this
  | some w => rw [h] at this; exact this

theorem get_le_sum (m : SMap AccountId Balance) (k : AccountId) : (m.get k).getD 0 ≤ m.sumV (fun _ v => v) := by
  have := SMap.contrib_le_sumV m k (fun _ v => v)
  unfold SMap.contrib at this
  cases h : m.get k with
  | none => exact Nat.zero_le _
  | some w => rw [h] at this; exact this

theorem total_unreserve (s : State) (who : AccountId) (b : Balance) : total (unreserve s who b) = total s := by
  unfold total unreserve
  dsimp only
  have h1 := sum_insert s.free who (freeOf s who + min (bondedOf s who) b)
  have h2 := sum_insert s.bonded who (bondedOf s who - min (bondedOf s who) b)
  unfold freeOf bondedOf at *
  omega

theorem spendOne_cases (a : Spending) (i : Nat) :
    (a.state.proposals.get i = none ∧ spendOne a i = a) ∨
    (∃ p, a.state.proposals.get i = some p ∧ a.budget < p.value ∧ spendOne a i = { a with kept := a.kept ++ [i] }) ∨
    (∃ p s' amount, a.state.proposals.get i = some p ∧ p.value ≤ a.budget ∧ Award a.state s' i p amount ∧
      spendOne a i = ⟨s', a.budget - p.value, a.issued + amount, a.kept⟩) := by
  unfold spendOne
  cases hp : a.state.proposals.get i with
  | none => exact Or.inl ⟨rfl, rfl⟩
  | some p =>
    dsimp only
    by_cases hv : p.value ≤ a.budget
    · rw [if_pos hv]
      refine Or.inr (Or.inr ⟨p, _, _, rfl, hv, ?_, rfl⟩)
      have hu : ∀ s : State, ∀ x, freeOf (unreserve s p.proposer p.bond) x =
          freeOf s x + (if p.proposer = x then min (bondedOf s x) p.bond else 0) := by
        intro s x
        unfold unreserve freeOf
        dsimp only
        rw [getD_insert]
        split
        · rename_i e; subst e; rfl
        · rfl
      have hub : ∀ s : State, ∀ x, bondedOf (unreserve s p.proposer p.bond) x =
          bondedOf s x - (if p.proposer = x then min (bondedOf s x) p.bond else 0) := by
        intro s x
        unfold unreserve bondedOf
        dsimp only
        rw [getD_insert]
        split
        · rename_i e; subst e; rfl
        · rfl
      have hua : ∀ s : State, ∀ x, s.free.contains x = true → (unreserve s p.proposer p.bond).free.contains x = true :=
        fun s x h => contains_insert _ _ _ _ h
      generalize hs1 : ({ a.state with proposals := a.state.proposals.erase i } : State) = s1
      have e1 : ∀ x, freeOf s1 x = freeOf a.state x := by intro x; subst hs1; rfl
      have e2 : ∀ x, bondedOf s1 x = bondedOf a.state x := by intro x; subst hs1; rfl
      have e3 : s1.free = a.state.free := by subst hs1; rfl
      have hc : (unreserve s1 p.proposer p.bond).count = a.state.count := by subst hs1; rfl
      have ha : (unreserve s1 p.proposer p.bond).approvals = a.state.approvals := by subst hs1; rfl
      have hpr : (unreserve s1 p.proposer p.bond).proposals = a.state.proposals.erase i := by subst hs1; rfl
      have hlg : (unreserve s1 p.proposer p.bond).log = a.state.log := by subst hs1; rfl
      have hf : ∀ x, freeOf (unreserve s1 p.proposer p.bond) x =
          freeOf a.state x + (if p.proposer = x then min (bondedOf a.state x) p.bond else 0) := by
        intro x; rw [hu, e1, e2]
      have hb : ∀ x, bondedOf (unreserve s1 p.proposer p.bond) x =
          bondedOf a.state x - (if p.proposer = x then min (bondedOf a.state x) p.bond else 0) := by
        intro x; rw [hub, e2]
      have hal : ∀ x, a.state.free.contains x = true → (unreserve s1 p.proposer p.bond).free.contains x = true := by
        intro x hx; exact hua s1 x (by rw [e3]; exact hx)
      have htt : total (unreserve s1 p.proposer p.bond) = total a.state := by
        rw [total_unreserve]; subst hs1; rfl
      generalize unreserve s1 p.proposer p.bond = s2 at *
      unfold depositCreating
      by_cases hz : p.value = 0
      · rw [if_pos hz]
        exact ⟨hc, ha, hpr, by rw [← hlg], fun x => by
            rw [ite_self, Nat.add_zero]; exact hf x, hb, Nat.zero_le _, Or.inl hz.symm, htt, hal⟩
      · rw [if_neg hz]
        by_cases hn : s2.free.contains p.beneficiary = false ∧ bondedOf s2 p.beneficiary = 0 ∧ p.value < deposit
        · rw [if_pos hn]
          refine ⟨hc, ha, hpr, by rw [← hlg], fun x => by
            rw [ite_self, Nat.add_zero]; exact hf x, hb, Nat.zero_le _, Or.inr ⟨?_, hn.2.2⟩, htt, hal⟩
          cases hcc : a.state.free.contains p.beneficiary with
          | false => rfl
          | true => rw [hal _ hcc] at hn; exact absurd hn.1 (by decide)
        · rw [if_neg hn]
          refine ⟨hc, ha, hpr, by rw [← hlg], ?_, hb, Nat.le_refl _, Or.inl rfl, ?_, ?_⟩
          · intro x
            have := hf x
            show ((s2.free.insert p.beneficiary (freeOf s2 p.beneficiary + p.value)).get x).getD 0 = _
            rw [getD_insert]
            by_cases hx : p.beneficiary = x
            · subst hx
              rw [if_pos rfl, if_pos rfl, this]
            · rw [if_neg hx, if_neg hx, Nat.add_zero]
              exact this
          · rw [← htt]
            unfold total
            dsimp only
            have h1 := sum_insert s2.free p.beneficiary (freeOf s2 p.beneficiary + p.value)
            unfold freeOf at *
            omega
          · intro x hx
            exact contains_insert _ _ _ _ (hal x hx)
    · rw [if_neg hv]
      exact Or.inr (Or.inl ⟨p, rfl, by omega, rfl⟩)

theorem foldl_inv {α β : Type} (P : β → Prop) (f : β → α → β) (l : List α) (b : β) (h0 : P b)
    (hs : ∀ b i, i ∈ l → P b → P (f b i)) : P (l.foldl f b) := by
  induction l generalizing b with
  | nil => exact h0
  | cons i l ih =>
    exact ih (f b i) (hs b i (List.mem_cons_self ..) h0) (fun b j hj => hs b j (List.mem_cons_of_mem _ hj))

/-! ## What holds after every history -/

/-- What holds after a history. -/
structure Sound (cfg : Config) (g : State) (hist : List Op) (s : State) : Prop where
  made : ∀ i p, s.proposals.get i = some p → i < s.count ∧ Made cfg g hist i p
  approved : ∀ i ∈ s.approvals, Approved cfg g hist i
  awarded : ∀ i v a, Event.awarded i v a ∈ s.log → i < s.count ∧ s.proposals.get i = none ∧ Approved cfg g hist i ∧
    ∃ p, Made cfg g hist i p ∧ p.value = v ∧ p.beneficiary = a
  once : (paidNumbers s.log).Nodup
  rejected : ∀ i b, Event.rejected i b ∈ s.log → i < s.count ∧ s.proposals.get i = none ∧ i ∉ paidNumbers s.log ∧
    ∃ h1 o h2, hist = h1 ++ .reject o i :: h2 ∧ Majority o
  bonds : ∀ x, bondedOf s x = bondsOf s x

theorem made_more {cfg : Config} {g : State} {hist : List Op} {i : Nat} {p : Proposal} (op : Op)
    (h : Made cfg g hist i p) : Made cfg g (hist ++ [op]) i p := by
  obtain ⟨⟨h1, h2, e, r⟩, hb⟩ := h
  exact ⟨⟨h1, h2 ++ [op], by rw [e]; simp, r⟩, hb⟩

theorem approved_more {cfg : Config} {g : State} {hist : List Op} {i : Nat} (op : Op)
    (h : Approved cfg g hist i) : Approved cfg g (hist ++ [op]) i := by
  obtain ⟨h1, o, h2, e, r⟩ := h
  exact ⟨h1, o, h2 ++ [op], by rw [e]; simp, r⟩

theorem Sound.more {cfg : Config} {g : State} {hist : List Op} {s : State} (op : Op) (h : Sound cfg g hist s) :
    Sound cfg g (hist ++ [op]) s :=
  ⟨fun i p hp => ⟨(h.made i p hp).1, made_more op (h.made i p hp).2⟩,
   fun i hi => approved_more op (h.approved i hi),
   fun i v a ha => by
    obtain ⟨h1, h2, h3, p, h4, h5⟩ := h.awarded i v a ha
    exact ⟨h1, h2, approved_more op h3, p, made_more op h4, h5⟩,
   h.once,
   fun i b hb => by
    obtain ⟨h1, h2, h3, k1, o, k2, e, r⟩ := h.rejected i b hb
    exact ⟨h1, h2, h3, k1, o, k2 ++ [op], by rw [e]; simp, r⟩,
   h.bonds⟩

theorem mem_paid {l : List Event} {i : Nat} : i ∈ paidNumbers l ↔ ∃ v a, Event.awarded i v a ∈ l := by
  unfold paidNumbers
  rw [List.mem_filterMap]
  constructor
  · rintro ⟨e, he, hi⟩
    cases e with
    | awarded j v a =>
      simp only [Option.some.injEq] at hi
      subst hi
      exact ⟨v, a, he⟩
    | proposed j => simp at hi
    | rejected j b => simp at hi
  · rintro ⟨v, a, h⟩
    exact ⟨_, h, rfl⟩

theorem paid_append (l k : List Event) : paidNumbers (l ++ k) = paidNumbers l ++ paidNumbers k := by
  unfold paidNumbers
  rw [List.filterMap_append]

theorem bonds_erase (m : SMap Nat Proposal) (i : Nat) (p : Proposal) (h : m.get i = some p) (x : AccountId) :
    (m.erase i).sumV (fun _ p => if p.proposer = x then p.bond else 0) + (if p.proposer = x then p.bond else 0) =
    m.sumV (fun _ p => if p.proposer = x then p.bond else 0) := by
  have := SMap.sumV_erase m i (fun _ p => if p.proposer = x then p.bond else 0)
  rw [h] at this
  exact this

theorem Sound.award {cfg : Config} {g : State} {hist : List Op} {s s' : State} {i : Nat} {p : Proposal} {amount : Balance}
    (h : Sound cfg g hist s) (hp : s.proposals.get i = some p) (ha : Approved cfg g hist i) (w : Award s s' i p amount) :
    Sound cfg g hist s' where
  made := by
    intro j q hq
    rw [w.proposals, SMap.get_erase] at hq
    split at hq
    · cases hq
    · rw [w.count]; exact h.made j q hq
  approved := by rw [w.approvals]; exact h.approved
  awarded := by
    intro j v a hj
    rw [w.log, List.mem_append, List.mem_singleton] at hj
    rw [w.count, w.proposals, SMap.get_erase]
    rcases hj with hj | hj
    · obtain ⟨h1, h2, h3⟩ := h.awarded j v a hj
      exact ⟨h1, by rw [h2]; exact ite_self _, h3⟩
    · cases hj
      exact ⟨(h.made _ p hp).1, if_pos rfl, ha, p, (h.made _ p hp).2, rfl, rfl⟩
  once := by
    rw [w.log, paid_append]
    refine List.nodup_append.2 ⟨h.once, by simp [paidNumbers], ?_⟩
    intro j hj k hk e
    subst e
    simp only [paidNumbers, List.filterMap_cons, List.filterMap_nil, List.mem_singleton] at hk
    subst hk
    obtain ⟨v, a, hv⟩ := mem_paid.1 hj
    have := (h.awarded _ v a hv).2.1
    rw [hp] at this
    cases this
  rejected := by
    intro j b hj
    rw [w.log, List.mem_append, List.mem_singleton] at hj
    rcases hj with hj | hj
    · obtain ⟨h1, h2, h3, h4⟩ := h.rejected j b hj
      rw [w.count, w.proposals, SMap.get_erase, w.log, paid_append]
      refine ⟨h1, by rw [h2]; exact ite_self _, ?_, h4⟩
      intro hm
      rcases List.mem_append.1 hm with hm | hm
      · exact h3 hm
      · simp only [paidNumbers, List.filterMap_cons, List.filterMap_nil, List.mem_singleton] at hm
        subst hm
        rw [hp] at h2
        cases h2
    · cases hj
  bonds := by
    intro x
    have h1 := w.bonded x
    have h2 := bonds_erase s.proposals i p hp x
    have h3 := h.bonds x
    unfold bondsOf at *
    rw [w.proposals]
    split at h1 <;> split at h2 <;> first | omega | contradiction

/-! ## The loop -/

theorem paidTo_append (l k : List Event) (x : AccountId) : paidTo (l ++ k) x = paidTo l x + paidTo k x := by
  unfold paidTo
  rw [List.map_append, List.sum_append]

theorem paidAll_append (l k : List Event) : paidAll (l ++ k) = paidAll l + paidAll k := by
  unfold paidAll
  rw [List.map_append, List.sum_append]

/-- What holds in the loop of `spend_funds` that began with `s`. -/
structure Looping (cfg : Config) (g : State) (hist : List Op) (s : State) (a : Spending) : Prop where
  sound : Sound cfg g hist a.state
  approvals : a.state.approvals = s.approvals
  kept : ∀ i ∈ a.kept, i ∈ s.approvals
  budget : paidAll a.state.log + a.budget = paidAll s.log + pot cfg s
  issued : a.issued + paidAll s.log ≤ paidAll a.state.log
  grows : ∀ x, freeOf s x ≤ freeOf a.state x
  alive : ∀ x, s.free.contains x = true → a.state.free.contains x = true
  fewer : ∀ i p, a.state.proposals.get i = some p → s.proposals.get i = some p
  total : total a.state = total s + a.issued
  log : ∃ k, a.state.log = s.log ++ k

theorem Looping.one {cfg : Config} {g : State} {hist : List Op} {s : State} {a : Spending} {i : Nat}
    (h : Looping cfg g hist s a) (hi : i ∈ s.approvals) : Looping cfg g hist s (spendOne a i) := by
  rcases spendOne_cases a i with ⟨_, e⟩ | ⟨p, hp, hv, e⟩ | ⟨p, s', amount, hp, hv, w, e⟩
  · rw [e]; exact h
  · rw [e]
    refine { h with kept := ?_ }
    intro j hj
    rcases List.mem_append.1 hj with hj | hj
    · exact h.kept j hj
    · rw [List.mem_singleton] at hj; subst hj; exact hi
  · rw [e]
    have hl : paidAll s'.log = paidAll a.state.log + p.value := by
      rw [w.log, paidAll_append]; simp [paidAll]
    refine ⟨h.sound.award hp (h.sound.approved i (by rw [h.approvals]; exact hi)) w, by rw [← h.approvals]; exact w.approvals,
      h.kept, ?_, ?_, ?_, fun x hx => w.alive x (h.alive x hx), ?_, ?_, ?_⟩
    · have := h.budget
      dsimp only
      omega
    · have := h.issued
      have := w.le
      dsimp only
      omega
    · intro x
      have := w.free x
      have := h.grows x
      dsimp only
      omega
    · intro j q hq
      dsimp only at hq
      rw [w.proposals, SMap.get_erase] at hq
      split at hq
      · cases hq
      · exact h.fewer j q hq
    · have := w.total
      have := h.total
      dsimp only
      omega
    · obtain ⟨k, hk⟩ := h.log
      exact ⟨k ++ [.awarded i p.value p.beneficiary], by
        dsimp only
        rw [w.log, hk, List.append_assoc]⟩

theorem looping {cfg : Config} {g : State} {hist : List Op} {s : State} (h : Sound cfg g hist s) :
    Looping cfg g hist s (s.approvals.foldl spendOne ⟨s, pot cfg s, 0, []⟩) := by
  refine foldl_inv (Looping cfg g hist s) spendOne s.approvals _ ?_ (fun a i hi ha => ha.one hi)
  exact ⟨h, rfl, fun _ hj => (List.not_mem_nil hj).elim, rfl, Nat.le_of_eq (Nat.zero_add _), fun _ => Nat.le_refl _, fun _ hx => hx,
    fun _ _ hp => hp, rfl, [], (List.append_nil _).symm⟩

theorem Sound.spend {cfg : Config} {g : State} {hist : List Op} {s : State} (h : Sound cfg g hist s) :
    Sound cfg g hist (spendFunds cfg s) := by
  have hl := looping h
  unfold spendFunds
  generalize s.approvals.foldl spendOne ⟨s, pot cfg s, 0, []⟩ = a at *
  exact ⟨hl.sound.made, fun i hi => h.approved i (hl.kept i hi), hl.sound.awarded, hl.sound.once, hl.sound.rejected,
    hl.sound.bonds⟩

theorem run_snoc (cfg : Config) (g : State) (hist : List Op) (op : Op) :
    run cfg g (hist ++ [op]) = step cfg (run cfg g hist) op := by
  unfold run
  rw [List.foldl_append]
  rfl

theorem bondFor_eq (v : Balance) : bondFor v = min (1000 * 10 ^ 8) (max (100 * 10 ^ 8) ((5 * v + 49) / 100)) := by
  unfold bondFor
  have : (v * 50000 + 499999) / 1000000 = (5 * v + 49) / 100 := by omega
  rw [this]
  norm_num

theorem sound_step {cfg : Config} {g : State} {hist : List Op} (op : Op)
    (h : Sound cfg g hist (run cfg g hist)) : Sound cfg g (hist ++ [op]) (run cfg g (hist ++ [op])) := by
  rw [run_snoc]
  have hm := h.more op
  generalize hs : run cfg g hist = s at h hm ⊢
  cases op with
  | propose who v b spare =>
    unfold step propose
    dsimp only
    by_cases hc : spare = true ∧ bondFor v ≤ freeOf s who
    · rw [if_pos hc]
      obtain ⟨rfl, hb⟩ := hc
      refine ⟨?_, hm.approved, ?_, ?_, ?_, ?_⟩
      · intro i p hp
        dsimp only [Option.getD_some] at hp ⊢
        rw [SMap.get_insert] at hp
        split at hp
        · rename_i e
          cases hp
          refine ⟨by omega, ⟨hist, [], by simp, by rw [hs]; exact e, by rw [hs]; exact hb⟩, bondFor_eq v⟩
        · have := hm.made i p hp
          exact ⟨by omega, this.2⟩
      · intro i w a ha
        dsimp only [Option.getD_some] at ha ⊢
        rw [List.mem_append, List.mem_singleton] at ha
        rcases ha with ha | ha
        · obtain ⟨h1, h2, h3⟩ := hm.awarded i w a ha
          refine ⟨by omega, ?_, h3⟩
          rw [SMap.get_insert, if_neg (by omega)]
          exact h2
        · cases ha
      · dsimp only [Option.getD_some]
        rw [paid_append]
        simpa [paidNumbers] using hm.once
      · intro i w ha
        dsimp only [Option.getD_some] at ha ⊢
        rw [List.mem_append, List.mem_singleton] at ha
        rcases ha with ha | ha
        · obtain ⟨h1, h2, h3, h4⟩ := hm.rejected i w ha
          refine ⟨by omega, ?_, ?_, h4⟩
          · rw [SMap.get_insert, if_neg (by omega)]
            exact h2
          · rw [paid_append]
            simpa [paidNumbers] using h3
        · cases ha
      · intro x
        have h1 := hm.bonds x
        have hn : s.proposals.get s.count = none := by
          cases hg : s.proposals.get s.count with
          | none => rfl
          | some q => have := (hm.made _ q hg).1; omega
        have h2 := SMap.sumV_insert s.proposals s.count ⟨who, v, b, bondFor v⟩
          (fun _ p => if p.proposer = x then p.bond else 0)
        rw [hn] at h2
        unfold bondsOf bondedOf at *
        dsimp only [Option.getD_some] at *
        simp only [SMap.contrib] at h2
        rw [getD_insert]
        split
        · rename_i e
          subst e
          rw [if_pos rfl] at h2
          omega
        · rename_i e
          rw [if_neg e] at h2
          omega
    · rw [if_neg hc]
      exact hm
  | reject o i =>
    unfold step reject
    dsimp only
    by_cases ho : rejectOrigin o = true
    · rw [if_pos ho]
      cases hp : s.proposals.get i with
      | none => exact hm
      | some p =>
        refine ⟨?_, hm.approved, ?_, ?_, ?_, ?_⟩
        · intro j q hq
          dsimp only [Option.getD_some] at hq ⊢
          rw [SMap.get_erase] at hq
          split at hq
          · cases hq
          · exact hm.made j q hq
        · intro j w a ha
          dsimp only [Option.getD_some] at ha ⊢
          rw [List.mem_append, List.mem_singleton] at ha
          rcases ha with ha | ha
          · obtain ⟨h1, h2, h3⟩ := hm.awarded j w a ha
            refine ⟨h1, ?_, h3⟩
            rw [SMap.get_erase, h2]
            exact ite_self _
          · cases ha
        · dsimp only [Option.getD_some]
          rw [paid_append]
          simpa [paidNumbers] using hm.once
        · intro j w ha
          dsimp only [Option.getD_some] at ha ⊢
          rw [List.mem_append, List.mem_singleton] at ha
          rw [paid_append, SMap.get_erase]
          have hnil : paidNumbers [Event.rejected i p.bond] = [] := rfl
          rw [hnil, List.append_nil]
          rcases ha with ha | ha
          · obtain ⟨h1, h2, h3, h4⟩ := hm.rejected j w ha
            exact ⟨h1, by rw [h2]; exact ite_self _, h3, h4⟩
          · cases ha
            refine ⟨(hm.made _ p hp).1, if_pos rfl, ?_, hist, o, [], rfl, (reject_iff o).1 ho⟩
            intro hj
            obtain ⟨v, a, hv⟩ := mem_paid.1 hj
            have := (hm.awarded _ v a hv).2.1
            rw [hp] at this
            cases this
        · intro x
          have h1 := hm.bonds x
          have h2 := bonds_erase s.proposals i p hp x
          unfold bondsOf bondedOf at *
          dsimp only [Option.getD_some]
          rw [getD_insert]
          split
          · rename_i e
            subst e
            rw [if_pos rfl] at h2
            omega
          · rename_i e
            rw [if_neg e] at h2
            omega
    · rw [if_neg ho]
      exact hm
  | approve o i =>
    unfold step approve
    dsimp only
    split
    · rename_i hc
      refine { hm with approved := ?_ }
      intro j hj
      dsimp only [Option.getD_some] at hj
      rw [List.mem_append, List.mem_singleton] at hj
      rcases hj with hj | hj
      · exact hm.approved j hj
      · subst hj
        exact ⟨hist, o, [], rfl, (approve_iff o).1 hc.1, by rw [hs]; exact (SMap.contains_iff _ _).1 hc.2.1⟩
    · exact hm
  | removeApproval o i =>
    unfold step removeApproval
    dsimp only
    split
    · exact { hm with approved := fun j hj => hm.approved j (List.mem_of_mem_erase hj) }
    · exact hm
  | block n =>
    unfold step
    dsimp only
    split
    · exact hm.spend
    · exact hm
  | other free =>
    unfold step
    dsimp only
    split
    · exact { hm with }
    · exact hm

theorem sound_run (cfg : Config) (free : SMap AccountId Balance) (hist : List Op) :
    Sound cfg (genesis free) hist (run cfg (genesis free) hist) := by
  induction hist using List.reverseRecOn with
  | nil =>
    exact ⟨fun i p hp => (Option.some_ne_none _ hp.symm).elim, fun i hi => (List.not_mem_nil hi).elim,
      fun i v a h => (List.not_mem_nil h).elim, List.nodup_nil, fun i b h => (List.not_mem_nil h).elim, fun x => rfl⟩
  | append_singleton l op ih => exact sound_step op ih

/-! ## Awards -/

/-- **C159.** Whatever happens, every award is that of a proposal which was made with this value and beneficiary, and which
root or three fifths of the council approved while it was open; no proposal is paid twice. -/
theorem C159_approved (cfg : Config) (free : SMap AccountId Balance) (hist : List Op) :
    (∀ i v a, Event.awarded i v a ∈ (run cfg (genesis free) hist).log →
      Approved cfg (genesis free) hist i ∧ ∃ p, Made cfg (genesis free) hist i p ∧ p.value = v ∧ p.beneficiary = a) ∧
    (paidNumbers (run cfg (genesis free) hist).log).Nodup := by
  have h := sound_run cfg free hist
  exact ⟨fun i v a ha => (h.awarded i v a ha).2.2, h.once⟩

theorem log_step (cfg : Config) (s : State) (op : Op) : ∃ k, (step cfg s op).log = s.log ++ k := by
  cases op with
  | propose who v b spare =>
    unfold step propose
    dsimp only
    split
    · exact ⟨_, rfl⟩
    · exact ⟨[], (List.append_nil _).symm⟩
  | reject o i =>
    unfold step reject
    dsimp only
    split
    · split
      · exact ⟨_, rfl⟩
      · exact ⟨[], (List.append_nil _).symm⟩
    · exact ⟨[], (List.append_nil _).symm⟩
  | approve o i =>
    unfold step approve
    dsimp only
    split <;> exact ⟨[], (List.append_nil _).symm⟩
  | removeApproval o i =>
    unfold step removeApproval
    dsimp only
    split <;> exact ⟨[], (List.append_nil _).symm⟩
  | block n =>
    unfold step
    dsimp only
    split
    · unfold spendFunds
      dsimp only
      refine foldl_inv (fun a => ∃ k, a.state.log = s.log ++ k) spendOne s.approvals ⟨s, pot cfg s, 0, []⟩
        ⟨[], (List.append_nil _).symm⟩ ?_
      rintro a i _ ⟨k, hk⟩
      rcases spendOne_cases a i with ⟨_, e⟩ | ⟨p, hp, hv, e⟩ | ⟨p, s', amount, hp, hv, w, e⟩
      · rw [e]; exact ⟨k, hk⟩
      · rw [e]; exact ⟨k, hk⟩
      · rw [e]
        exact ⟨k ++ [.awarded i p.value p.beneficiary], by dsimp only; rw [w.log, hk, List.append_assoc]⟩
    · exact ⟨[], (List.append_nil _).symm⟩
  | other free =>
    unfold step
    dsimp only
    split <;> exact ⟨[], (List.append_nil _).symm⟩

theorem log_run (cfg : Config) (s : State) (hist : List Op) : ∃ k, (run cfg s hist).log = s.log ++ k := by
  induction hist using List.reverseRecOn with
  | nil => exact ⟨[], (List.append_nil _).symm⟩
  | append_singleton l op ih =>
    obtain ⟨k, hk⟩ := ih
    obtain ⟨k', hk'⟩ := log_step cfg (run cfg s l) op
    exact ⟨k ++ k', by rw [run_snoc, hk', hk, List.append_assoc]⟩

theorem run_append (cfg : Config) (s : State) (h k : List Op) : run cfg s (h ++ k) = run cfg (run cfg s h) k :=
  List.foldl_append ..

/-- **C159.** A proposal that was rejected was rejected by root or by more than half of the council, had not been paid, and is
never paid, whether it was approved or not and whoever approves it later. -/
theorem C159_rejected (cfg : Config) (free : SMap AccountId Balance) (hist later : List Op) (i : Nat) (b : Balance)
    (h : Event.rejected i b ∈ (run cfg (genesis free) hist).log) :
    (∃ h1 o h2, hist = h1 ++ .reject o i :: h2 ∧ Majority o) ∧
    i ∉ paidNumbers (run cfg (genesis free) (hist ++ later)).log := by
  refine ⟨((sound_run cfg free hist).rejected i b h).2.2.2, ?_⟩
  obtain ⟨k, hk⟩ := log_run cfg (run cfg (genesis free) hist) later
  refine ((sound_run cfg free (hist ++ later)).rejected i b ?_).2.2.1
  rw [run_append, hk]
  exact List.mem_append_left _ h

/-! ## What the treasury pays -/

/-- **C159.** The treasury is touched only in the first block of a period. There it pays at most what is awarded in this block, the
awards are at most what it has but for the existential deposit, and it keeps the deposit if it had it. -/
theorem C159_leaves (cfg : Config) (free : SMap AccountId Balance) (hist : List Op) (op : Op)
    (hop : ∀ v b spare, op ≠ .propose cfg.treasury v b spare) :
    let s := run cfg (genesis free) hist
    let s' := run cfg (genesis free) (hist ++ [op])
    freeOf s cfg.treasury + paidAll s.log ≤ freeOf s' cfg.treasury + paidAll s'.log ∧
    paidAll s'.log ≤ paidAll s.log + (freeOf s cfg.treasury - deposit) ∧
    (deposit ≤ freeOf s cfg.treasury → deposit ≤ freeOf s' cfg.treasury) ∧
    ((¬ ∃ n, op = .block n ∧ n % cfg.period = 0) →
      freeOf s cfg.treasury ≤ freeOf s' cfg.treasury ∧ paidAll s'.log = paidAll s.log) := by
  intro s s'
  have hs : s' = step cfg s op := run_snoc cfg _ hist op
  have hsound : Sound cfg (genesis free) hist s := sound_run cfg free hist
  clear_value s s'
  subst hs
  have same : freeOf s cfg.treasury ≤ freeOf (step cfg s op) cfg.treasury → paidAll (step cfg s op).log = paidAll s.log →
      freeOf s cfg.treasury + paidAll s.log ≤ freeOf (step cfg s op) cfg.treasury + paidAll (step cfg s op).log ∧
      paidAll (step cfg s op).log ≤ paidAll s.log + (freeOf s cfg.treasury - deposit) ∧
      (deposit ≤ freeOf s cfg.treasury → deposit ≤ freeOf (step cfg s op) cfg.treasury) ∧
      ((¬ ∃ n, op = .block n ∧ n % cfg.period = 0) →
        freeOf s cfg.treasury ≤ freeOf (step cfg s op) cfg.treasury ∧ paidAll (step cfg s op).log = paidAll s.log) := by
    intro h1 h2
    exact ⟨by omega, by omega, by omega, fun _ => ⟨h1, h2⟩⟩
  cases op with
  | propose who v b spare =>
    have hw : who ≠ cfg.treasury := fun e => hop v b spare (by rw [e])
    apply same
    · unfold step propose
      dsimp only
      split
      · unfold freeOf
        dsimp only [Option.getD_some]
        rw [getD_insert, if_neg hw]
      · exact Nat.le_refl _
    · unfold step propose
      dsimp only
      split
      · dsimp only [Option.getD_some]
        rw [paidAll_append]
        rfl
      · rfl
  | reject o i =>
    apply same
    · unfold step reject
      dsimp only
      split
      · split <;> exact Nat.le_refl _
      · exact Nat.le_refl _
    · unfold step reject
      dsimp only
      split
      · split
        · dsimp only [Option.getD_some]
          rw [paidAll_append]
          rfl
        · rfl
      · rfl
  | approve o i =>
    apply same
    · unfold step approve
      dsimp only
      split <;> exact Nat.le_refl _
    · unfold step approve
      dsimp only
      split <;> rfl
  | removeApproval o i =>
    apply same
    · unfold step removeApproval
      dsimp only
      split <;> exact Nat.le_refl _
    · unfold step removeApproval
      dsimp only
      split <;> rfl
  | block n =>
    by_cases hn : n % cfg.period = 0
    · have hl := looping hsound
      have e : step cfg s (.block n) = spendFunds cfg s := if_pos hn
      rw [e]
      unfold spendFunds
      dsimp only
      generalize s.approvals.foldl spendOne ⟨s, pot cfg s, 0, []⟩ = a at hl
      have h1 := hl.budget
      have h2 := hl.issued
      have h3 := hl.grows cfg.treasury
      have h4 : freeOf { a.state with approvals := a.kept, free := a.state.free.insert cfg.treasury (freeOf a.state cfg.treasury - a.issued) } cfg.treasury
          = freeOf a.state cfg.treasury - a.issued := by
        unfold freeOf
        dsimp only
        rw [getD_insert, if_pos rfl]
      rw [h4]
      unfold pot at h1
      exact ⟨by omega, by omega, by omega, fun hx => absurd ⟨n, rfl, hn⟩ hx⟩
    · have e : step cfg s (.block n) = s := if_neg hn
      apply same
      · rw [e]
      · rw [e]
  | other free' =>
    apply same
    · unfold step
      dsimp only
      split
      · rename_i ha
        unfold allowed at ha
        rw [decide_eq_true_eq] at ha
        exact ha
      · exact Nat.le_refl _
    · unfold step
      dsimp only
      split <;> rfl

/-- **C159.** Spending neither makes nor burns a token. -/
theorem C159_total (cfg : Config) (free : SMap AccountId Balance) (hist : List Op) (n : Nat) :
    total (run cfg (genesis free) (hist ++ [.block n])) = total (run cfg (genesis free) hist) := by
  rw [run_snoc]
  have hsound := sound_run cfg free hist
  generalize run cfg (genesis free) hist = s at *
  unfold step
  dsimp only
  split
  · have hl := looping hsound
    unfold spendFunds
    dsimp only
    generalize s.approvals.foldl spendOne ⟨s, pot cfg s, 0, []⟩ = a at hl
    have h1 := hl.budget
    have h2 := hl.issued
    have h3 := hl.grows cfg.treasury
    have h4 := hl.total
    have h5 := sum_insert a.state.free cfg.treasury (freeOf a.state cfg.treasury - a.issued)
    unfold pot at h1
    unfold total at *
    dsimp only
    unfold freeOf at *
    omega
  · rfl

/-! ## What the beneficiaries get -/

/-- **C159**, in full: in every block, every account but the treasury gets just what is awarded to it; its bonds come free
besides. -/
def C159_full : Prop :=
  ∀ (cfg : Config) (free : SMap AccountId Balance) (hist : List Op) (n : Nat) (x : AccountId), x ≠ cfg.treasury →
    wealth (run cfg (genesis free) (hist ++ [.block n])) x + paidTo (run cfg (genesis free) hist).log x =
    wealth (run cfg (genesis free) hist) x + paidTo (run cfg (genesis free) (hist ++ [.block n])).log x

/-- **C159.** So it is for every account that exists, and for one that does not if each award to it is at least the existential
deposit. What is missing: a smaller award to an account that does not exist, see `C159_full_false`. -/
theorem C159_gets_partial (cfg : Config) (free : SMap AccountId Balance) (hist : List Op) (n : Nat) (x : AccountId)
    (hx : x ≠ cfg.treasury)
    (hg : (run cfg (genesis free) hist).free.contains x = true ∨
      ∀ i ∈ (run cfg (genesis free) hist).approvals, ∀ p, (run cfg (genesis free) hist).proposals.get i = some p →
        p.beneficiary = x → deposit ≤ p.value) :
    wealth (run cfg (genesis free) (hist ++ [.block n])) x + paidTo (run cfg (genesis free) hist).log x =
    wealth (run cfg (genesis free) hist) x + paidTo (run cfg (genesis free) (hist ++ [.block n])).log x := by
  rw [run_snoc]
  have hsound := sound_run cfg free hist
  generalize run cfg (genesis free) hist = s at *
  unfold step
  dsimp only
  split
  · have hl : Looping cfg (genesis free) hist s (s.approvals.foldl spendOne ⟨s, pot cfg s, 0, []⟩) ∧
        wealth (s.approvals.foldl spendOne ⟨s, pot cfg s, 0, []⟩).state x + paidTo s.log x =
          wealth s x + paidTo (s.approvals.foldl spendOne ⟨s, pot cfg s, 0, []⟩).state.log x := by
      refine foldl_inv (fun a => Looping cfg (genesis free) hist s a ∧
        wealth a.state x + paidTo s.log x = wealth s x + paidTo a.state.log x) spendOne s.approvals ⟨s, pot cfg s, 0, []⟩
        ⟨⟨hsound, rfl, fun _ hj => (List.not_mem_nil hj).elim, rfl, Nat.le_of_eq (Nat.zero_add _), fun _ => Nat.le_refl _,
          fun _ hx => hx, fun _ _ hp => hp, rfl, [], (List.append_nil _).symm⟩, rfl⟩ ?_
      rintro a i hi ⟨hL, hW⟩
      refine ⟨hL.one hi, ?_⟩
      rcases spendOne_cases a i with ⟨_, e⟩ | ⟨p, hp, hv, e⟩ | ⟨p, s', amount, hp, hv, w, e⟩
      · rw [e]; exact hW
      · rw [e]; exact hW
      · rw [e]
        dsimp only
        have h1 := w.free x
        have h2 := w.bonded x
        rw [w.log, paidTo_append]
        have h3 : paidTo [Event.awarded i p.value p.beneficiary] x = if p.beneficiary = x then p.value else 0 := by
          simp [paidTo]
        rw [h3]
        have h4 : p.beneficiary = x → amount = p.value := by
          intro hb
          rcases w.all with h | ⟨h, h'⟩
          · exact h
          · rcases hg with hg | hg
            · have := hL.alive x hg
              rw [hb, this] at h
              cases h
            · have := hg i hi p (hL.fewer i p hp) hb
              omega
        unfold wealth at *
        by_cases hb : p.beneficiary = x
        · rw [if_pos hb] at h1 ⊢
          rw [h4 hb] at h1
          split at h1
          · rename_i e1; rw [if_pos e1] at h2; omega
          · rename_i e1; rw [if_neg e1] at h2; omega
        · rw [if_neg hb] at h1 ⊢
          split at h1
          · rename_i e1; rw [if_pos e1] at h2; omega
          · rename_i e1; rw [if_neg e1] at h2; omega
    unfold spendFunds
    dsimp only
    generalize s.approvals.foldl spendOne ⟨s, pot cfg s, 0, []⟩ = a at hl
    have hf : freeOf { a.state with approvals := a.kept, free := a.state.free.insert cfg.treasury (freeOf a.state cfg.treasury - a.issued) } x
        = freeOf a.state x := by
      unfold freeOf
      dsimp only
      rw [getD_insert, if_neg (Ne.symm hx)]
    have := hl.2
    unfold wealth at *
    rw [hf]
    exact this
  · rfl

/-- The treasury of the examples and the main network's period. -/
def exCfg : Config := ⟨0, mainPeriod⟩

/-- Account 1 proposes `v` units for account 9, three of five council members approve, and a period begins. -/
def exHist (v : Balance) : List Op := [.propose 1 v 9 true, .approve (.council 3 5) 0]

/-- The treasury and account 1 have a million tokens each. -/
def exFree : SMap AccountId Balance :=
  (SMap.insert (∅ : SMap AccountId Balance) 0 (10 ^ 14)).insert 1 (10 ^ 14)

/-- **C159** fails in full: half a cent that the council awards to a new account is announced, and the proposal is closed, but
nobody gets it. -/
theorem C159_full_false : ¬ C159_full := by
  intro h
  have := h exCfg exFree (exHist 500000) mainPeriod 9 (by decide)
  revert this
  decide +kernel

/-- A thousand tokens for a new account arrive, and the proposer has the bond back. -/
example : freeOf (run exCfg (genesis exFree) (exHist (10 ^ 11) ++ [.block mainPeriod])) 9 = 10 ^ 11 ∧
    freeOf (run exCfg (genesis exFree) (exHist (10 ^ 11) ++ [.block mainPeriod])) 0 = 10 ^ 14 - 10 ^ 11 ∧
    bondedOf (run exCfg (genesis exFree) (exHist (10 ^ 11))) 1 = 100 * 10 ^ 8 ∧
    freeOf (run exCfg (genesis exFree) (exHist (10 ^ 11) ++ [.block mainPeriod])) 1 = 10 ^ 14 := by decide +kernel

/-- Two of five do not suffice. -/
example : (run exCfg (genesis exFree) [.propose 1 (10 ^ 11) 9 true, .approve (.council 2 5) 0]).approvals = [] := by
  decide +kernel

/-- Rejected after the approval: not paid, and the bond is lost. -/
example : freeOf (run exCfg (genesis exFree) (exHist (10 ^ 11) ++ [.reject (.council 3 5) 0, .block mainPeriod])) 9 = 0 ∧
    wealth (run exCfg (genesis exFree) (exHist (10 ^ 11) ++ [.reject (.council 3 5) 0, .block mainPeriod])) 1 =
      10 ^ 14 - 100 * 10 ^ 8 := by decide +kernel

/-- The hypothesis of `C159_gets_partial` is met. -/
example : ∀ i ∈ (run exCfg (genesis exFree) (exHist (10 ^ 11))).approvals, ∀ p,
    (run exCfg (genesis exFree) (exHist (10 ^ 11))).proposals.get i = some p → p.beneficiary = 9 → deposit ≤ p.value := by
  decide +kernel

/-! ## When they get it -/

/-- The value of a proposal, nothing if it is not open. -/
def valueOf (s : State) (i : Nat) : Balance :=
  match s.proposals.get i with
  | some p => p.value
  | none => 0

theorem due_before (s : State) (i : Nat) (p : Proposal) (l : List Nat) (a : Spending)
    (hsub : ∀ j q, a.state.proposals.get j = some q → s.proposals.get j = some q)
    (hi : a.state.proposals.get i = some p) (hn : i ∉ l) (hb : (l.map (valueOf s)).sum + p.value ≤ a.budget) :
    (l.foldl spendOne a).state.proposals.get i = some p ∧ p.value ≤ (l.foldl spendOne a).budget := by
  induction l generalizing a with
  | nil =>
    refine ⟨hi, ?_⟩
    simp only [List.map_nil, List.sum_nil, Nat.zero_add] at hb
    exact hb
  | cons j l ih =>
    rw [List.foldl_cons]
    rw [List.map_cons, List.sum_cons] at hb
    have hij : i ≠ j := fun e => hn (e ▸ List.mem_cons_self ..)
    have hnl : i ∉ l := fun e => hn (List.mem_cons_of_mem _ e)
    rcases spendOne_cases a j with ⟨_, e⟩ | ⟨q, hq, hv, e⟩ | ⟨q, s', amount, hq, hv, w, e⟩
    · rw [e]; exact ih a hsub hi hnl (by omega)
    · rw [e]; exact ih _ hsub hi hnl (by dsimp only; omega)
    · rw [e]
      have hval : valueOf s j = q.value := by
        unfold valueOf
        rw [hsub j q hq]
      refine ih _ ?_ ?_ hnl ?_
      · intro k r hr
        dsimp only at hr
        rw [w.proposals, SMap.get_erase] at hr
        split at hr
        · cases hr
        · exact hsub k r hr
      · dsimp only
        rw [w.proposals, SMap.get_erase, if_neg (Ne.symm hij)]
        exact hi
      · dsimp only
        omega

theorem loop_log (l : List Nat) (a : Spending) (e : Event) (h : e ∈ a.state.log) : e ∈ (l.foldl spendOne a).state.log := by
  refine foldl_inv (fun a => e ∈ a.state.log) spendOne l a h ?_
  intro b i _ hb
  rcases spendOne_cases b i with ⟨_, h'⟩ | ⟨q, hq, hv, h'⟩ | ⟨q, s', amount, hq, hv, w, h'⟩
  · rw [h']; exact hb
  · rw [h']; exact hb
  · rw [h']
    show e ∈ s'.log
    rw [w.log]
    exact List.mem_append_left _ hb

theorem pay_now (a : Spending) (i : Nat) (p : Proposal) (hp : a.state.proposals.get i = some p) (hv : p.value ≤ a.budget) :
    Event.awarded i p.value p.beneficiary ∈ (spendOne a i).state.log := by
  rcases spendOne_cases a i with ⟨hq, _⟩ | ⟨q, hq, hv', _⟩ | ⟨q, s', amount, hq, _, w, e⟩
  · rw [hp] at hq; cases hq
  · rw [hp] at hq
    cases hq
    omega
  · rw [hp] at hq
    cases hq
    rw [e]
    show _ ∈ s'.log
    rw [w.log]
    exact List.mem_append_right _ (List.mem_singleton_self _)

/-- **C159.** An approved proposal is paid in the first block of the next period if the treasury has, besides the existential
deposit, its value and those of the approved proposals before it. -/
theorem C159_due (cfg : Config) (s : State) (l1 l2 : List Nat) (i : Nat) (p : Proposal) (n : Nat) (hn : n % cfg.period = 0)
    (hl : s.approvals = l1 ++ i :: l2) (hi : i ∉ l1) (hp : s.proposals.get i = some p)
    (hb : (l1.map (valueOf s)).sum + p.value + deposit ≤ freeOf s cfg.treasury) :
    Event.awarded i p.value p.beneficiary ∈ (step cfg s (.block n)).log := by
  have e : step cfg s (.block n) = spendFunds cfg s := if_pos hn
  rw [e]
  unfold spendFunds
  dsimp only
  rw [hl, List.foldl_append, List.foldl_cons]
  obtain ⟨h1, h2⟩ := due_before s i p l1 ⟨s, pot cfg s, 0, []⟩ (fun _ _ h => h) hp hi (by unfold pot; dsimp only; omega)
  exact loop_log l2 _ _ (pay_now _ i p h1 h2)

theorem waits_loop (i : Nat) (p : Proposal) (l : List Nat) (a : Spending) (hp : a.state.proposals.get i = some p) :
    Event.awarded i p.value p.beneficiary ∈ (l.foldl spendOne a).state.log ∨
    (l.foldl spendOne a).state.proposals.get i = some p ∧ (i ∈ l ∨ i ∈ a.kept → i ∈ (l.foldl spendOne a).kept) := by
  induction l generalizing a with
  | nil =>
    refine Or.inr ⟨hp, ?_⟩
    rintro (h | h)
    · exact (List.not_mem_nil h).elim
    · exact h
  | cons j l ih =>
    rw [List.foldl_cons]
    rcases spendOne_cases a j with ⟨hq, e⟩ | ⟨q, hq, hv, e⟩ | ⟨q, s', amount, hq, hv, w, e⟩
    · rw [e]
      have hij : i ≠ j := by rintro rfl; rw [hp] at hq; cases hq
      rcases ih a hp with h | ⟨h1, h2⟩
      · exact Or.inl h
      · refine Or.inr ⟨h1, ?_⟩
        rintro (h | h)
        · rcases List.mem_cons.1 h with h | h
          · exact absurd h hij
          · exact h2 (Or.inl h)
        · exact h2 (Or.inr h)
    · rw [e]
      rcases ih { a with kept := a.kept ++ [j] } hp with h | ⟨h1, h2⟩
      · exact Or.inl h
      · refine Or.inr ⟨h1, ?_⟩
        rintro (h | h)
        · rcases List.mem_cons.1 h with h | h
          · exact h2 (Or.inr (by rw [h]; exact List.mem_append_right _ (List.mem_singleton_self _)))
          · exact h2 (Or.inl h)
        · exact h2 (Or.inr (List.mem_append_left _ h))
    · by_cases hij : i = j
      · subst hij
        rw [hp] at hq
        cases hq
        exact Or.inl (loop_log l _ _ (pay_now a i p hp hv))
      · rw [e]
        have hp' : s'.proposals.get i = some p := by
          rw [w.proposals, SMap.get_erase, if_neg (Ne.symm hij)]; exact hp
        rcases ih ⟨s', a.budget - q.value, a.issued + amount, a.kept⟩ hp' with h | ⟨h1, h2⟩
        · exact Or.inl h
        · refine Or.inr ⟨h1, ?_⟩
          rintro (h | h)
          · rcases List.mem_cons.1 h with h | h
            · exact absurd h hij
            · exact h2 (Or.inl h)
          · exact h2 (Or.inr h)

/-- **C159.** An approved proposal that is not paid stays open and approved. -/
theorem C159_waits (cfg : Config) (s : State) (i : Nat) (p : Proposal) (n : Nat) (hi : i ∈ s.approvals)
    (hp : s.proposals.get i = some p) :
    Event.awarded i p.value p.beneficiary ∈ (step cfg s (.block n)).log ∨
    i ∈ (step cfg s (.block n)).approvals ∧ (step cfg s (.block n)).proposals.get i = some p := by
  unfold step
  dsimp only
  split
  · unfold spendFunds
    dsimp only
    rcases waits_loop i p s.approvals ⟨s, pot cfg s, 0, []⟩ hp with h | ⟨h1, h2⟩
    · exact Or.inl h
    · exact Or.inr ⟨h2 (Or.inl hi), h1⟩
  · exact Or.inr ⟨hi, hp⟩

/-- The first proposal does not fit, the second does: the second is paid, the first waits. -/
example :
    let s := run exCfg (genesis exFree) [.propose 1 (10 ^ 15) 9 true, .propose 1 (10 ^ 11) 9 true,
      .approve (.council 3 5) 0, .approve .root 1, .block mainPeriod]
    s.approvals = [0] ∧ freeOf s 9 = 10 ^ 11 ∧ (s.proposals.get 0).isSome = true := by decide +kernel

/-- The hypotheses of `C159_due` are met. -/
example :
    let s := run exCfg (genesis exFree) (exHist (10 ^ 11))
    s.approvals = [] ++ 0 :: [] ∧ s.proposals.get 0 = some ⟨1, 10 ^ 11, 9, 100 * 10 ^ 8⟩ ∧
      10 ^ 11 + deposit ≤ freeOf s exCfg.treasury ∧ mainPeriod % exCfg.period = 0 := by decide +kernel

/-! ## Bonds -/

/-- **C159.** What is reserved from an account is the bonds of its open proposals. A rejection by root or more than half of the
council takes the bond from the proposer and nothing from anybody else; other rejections, and the other calls, take nothing. -/
theorem C159_bonds (cfg : Config) (free : SMap AccountId Balance) (hist : List Op) :
    let s := run cfg (genesis free) hist
    (∀ x, bondedOf s x = bondsOf s x) ∧
    (∀ o i p x, Majority o → s.proposals.get i = some p →
      wealth (step cfg s (.reject o i)) x + (if p.proposer = x then p.bond else 0) = wealth s x ∧
      (step cfg s (.reject o i)).log = s.log ++ [.rejected i p.bond]) ∧
    (∀ o i, ¬ Majority o ∨ s.proposals.get i = none → step cfg s (.reject o i) = s) ∧
    (∀ who v b spare x, wealth (step cfg s (.propose who v b spare)) x = wealth s x) ∧
    (∀ o i x, wealth (step cfg s (.approve o i)) x = wealth s x) ∧
    (∀ o i x, wealth (step cfg s (.removeApproval o i)) x = wealth s x) := by
  intro s
  have hs : Sound cfg (genesis free) hist s := sound_run cfg free hist
  clear_value s
  refine ⟨hs.bonds, ?_, ?_, ?_, ?_, ?_⟩
  · intro o i p x ho hp
    have e : step cfg s (.reject o i) = { s with
        proposals := s.proposals.erase i
        bonded := s.bonded.insert p.proposer (bondedOf s p.proposer - p.bond)
        log := s.log ++ [.rejected i p.bond] } := by
      unfold step reject
      dsimp only
      rw [if_pos ((reject_iff o).2 ho), hp]
      rfl
    rw [e]
    refine ⟨?_, rfl⟩
    have h1 := hs.bonds p.proposer
    have h2 := bonds_erase s.proposals i p hp p.proposer
    rw [if_pos rfl] at h2
    unfold wealth freeOf bondsOf bondedOf at *
    dsimp only
    rw [getD_insert]
    split
    · rename_i e1
      subst e1
      omega
    · omega
  · intro o i h
    unfold step reject
    dsimp only
    rcases h with h | h
    · rw [if_neg (fun hr => h ((reject_iff o).1 hr))]
      rfl
    · rw [h]
      split <;> rfl
  · intro who v b spare x
    unfold step propose
    dsimp only
    split
    · rename_i hc
      have := hc.2
      unfold wealth freeOf bondedOf at *
      dsimp only [Option.getD_some]
      rw [getD_insert, getD_insert]
      split
      · rename_i e1; subst e1; omega
      · rfl
    · rfl
  · intro o i x
    unfold step approve
    dsimp only
    split <;> rfl
  · intro o i x
    unfold step removeApproval
    dsimp only
    split <;> rfl

/-- **C159.** An approved proposal stays open and approved until it is paid, or root or more than half of the council reject it
or take the approval back. -/
theorem C159_lasts (cfg : Config) (free : SMap AccountId Balance) (hist : List Op) (op : Op) (i : Nat) (p : Proposal)
    (hi : i ∈ (run cfg (genesis free) hist).approvals) (hp : (run cfg (genesis free) hist).proposals.get i = some p) :
    let s' := run cfg (genesis free) (hist ++ [op])
    (i ∈ s'.approvals ∧ s'.proposals.get i = some p) ∨ Event.awarded i p.value p.beneficiary ∈ s'.log ∨
    ∃ o, Majority o ∧ (op = .reject o i ∨ op = .removeApproval o i) := by
  have hc := ((sound_run cfg free hist).made i p hp).1
  dsimp only
  rw [run_snoc]
  generalize run cfg (genesis free) hist = s at hi hp hc
  cases op with
  | propose who v b spare =>
    refine .inl ?_
    unfold step propose
    dsimp only
    split
    · exact ⟨hi, by simpa [SMap.get_insert_ne, Nat.ne_of_gt hc] using hp⟩
    · exact ⟨hi, hp⟩
  | reject o j =>
    unfold step reject
    dsimp only
    split
    · rename_i ho
      by_cases hj : j = i
      · subst hj
        exact .inr (.inr ⟨o, (reject_iff o).1 ho, .inl rfl⟩)
      · refine .inl ?_
        split
        · exact ⟨hi, by simpa [SMap.get_erase_ne, hj] using hp⟩
        · exact ⟨hi, hp⟩
    · exact .inl ⟨hi, hp⟩
  | approve o j =>
    refine .inl ?_
    unfold step approve
    dsimp only
    split
    · exact ⟨List.mem_append_left _ hi, hp⟩
    · exact ⟨hi, hp⟩
  | removeApproval o j =>
    unfold step removeApproval
    dsimp only
    split
    · rename_i ho
      by_cases hj : j = i
      · subst hj
        exact .inr (.inr ⟨o, (reject_iff o).1 ho.1, .inr rfl⟩)
      · exact .inl ⟨(List.mem_erase_of_ne (Ne.symm hj)).2 hi, hp⟩
    · exact .inl ⟨hi, hp⟩
  | block n =>
    rcases C159_waits cfg s i p n hi hp with h | h
    · exact .inr (.inl h)
    · exact .inl h
  | other f =>
    refine .inl ?_
    unfold step
    dsimp only
    split <;> exact ⟨hi, hp⟩

/-- **C159.** Root or three fifths of the council approve an open proposal as long as fewer than 64 approved ones wait; it then waits
behind these. With 64 waiting nothing is approved. -/
theorem C159_room (cfg : Config) (s : State) (o : Origin) (i : Nat) (p : Proposal) (hp : s.proposals.get i = some p)
    (ho : ThreeFifths o) :
    (step cfg s (.approve o i)).approvals = if s.approvals.length < 64 then s.approvals ++ [i] else s.approvals := by
  have hc : s.proposals.contains i = true := by simp [SMap.contains, hp]
  have h1 := (approve_iff o).2 ho
  unfold step approve
  dsimp only
  by_cases hl : s.approvals.length < 64
  · rw [if_pos ⟨h1, hc, hl⟩, if_pos hl]; rfl
  · rw [if_neg (fun h => hl h.2.2), if_neg hl]; rfl

/-- Half of the council cannot take an approval back, three of five members can. -/
example :
    let s := run exCfg (genesis exFree) (exHist (10 ^ 11))
    s.approvals = [0] ∧ (step exCfg s (.removeApproval (.council 1 2) 0)).approvals = [0] ∧
    (step exCfg s (.removeApproval (.council 3 5) 0)).approvals = [] := by decide +kernel

end Verif.Treasury
