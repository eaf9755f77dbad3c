import Verif.Collators.Lemmas
/-! # What every event does -/

namespace Verif.Collators
open Verif.Wrapped (put)
open Verif.Deposits (Purse existential)

theorem Kept.of_perm {s s' t : State} (h : Kept s s') (hp : t.purse = s'.purse) (he : t.elsewhere = s'.elsewhere)
    (hc : t.cands.Perm s'.cands) : Kept s t :=
  ⟨he.trans h.1, by rw [hp]; exact h.2, fun a => by rw [hp, owed_perm hc]; exact h.3 a,
    fun a => by rw [hp, owed_perm hc]; exact h.4 a⟩

/-! ## Shape of the results -/

theorem register_eq {s s' : State} {who : AccountId} (h : register s who = .ok s') :
    s.cands.length < maxCandidates ∧ who ∉ s.invulnerables ∧ registered s who ∧ who ∉ s.cands.map Cand.who ∧
    ∃ s1, reserve s who s.bond = .ok s1 ∧ s' = { s1 with
      authored := put s.authored who (s.now + kick), joined := put s.joined who s.now, cands := ⟨who, s.bond⟩ :: s.cands } := by
  unfold register at h
  simp only [bind_eq_ok_iff, ensure_eq_ok_iff, pure_eq_ok_iff] at h
  obtain ⟨-, h1, -, h2, -, h3, -, h4, s1, h5, rfl⟩ := h
  refine ⟨h1, h2, h3, h4, s1, h5, ?_⟩
  obtain ⟨p, rfl, -⟩ := reserve_eq h5
  rfl

theorem leave_eq {cfg : Config} {s s' : State} {who : AccountId} :
    leave cfg s who = .ok s' ↔ cfg.minEligible < eligible s ∧ who ∈ s.cands.map Cand.who ∧ removeCand s who true = s' := by
  unfold leave
  simp only [bind_eq_ok_iff, ensure_eq_ok_iff, pure_eq_ok_iff]
  exact ⟨fun ⟨_, h1, _, h2, h3⟩ => ⟨h1, h2, h3⟩, fun ⟨h1, h2, h3⟩ => ⟨(), h1, (), h2, h3⟩⟩

theorem updateBond_eq {s s' : State} {who : AccountId} {new : Balance} (h : updateBond s who new = .ok s') :
    s.bond ≤ new ∧ ∃ A c B s1, s.cands = A ++ c :: B ∧ c.who = who ∧
      ((c.deposit < new ∧ reserve s who (new - c.deposit) = .ok s1) ∨
       (new < c.deposit ∧ A.length + s.desired < s.cands.length ∧ s1 = unreserve s who (c.deposit - new))) ∧
      s' = { s1 with cands := place (A ++ B) ⟨who, new⟩ } := by
  unfold updateBond at h
  simp only [bind_eq_ok_iff, ensure_eq_ok_iff, okOr_eq_ok_iff, pure_eq_ok_iff] at h
  obtain ⟨-, h1, c, h2, h3⟩ := h
  obtain ⟨A, B, hl, -, hc, -, hi, he⟩ := split_find h2
  rw [he, hi] at h3
  refine ⟨h1, A, c, B, ?_⟩
  split_ifs at h3 with h4 h5
  · simp only [bind_eq_ok_iff, pure_eq_ok_iff] at h3
    obtain ⟨s1, h6, rfl⟩ := h3
    exact ⟨s1, hl, of_decide_eq_true hc, .inl ⟨h4, h6⟩, rfl⟩
  · simp only [bind_eq_ok_iff, ensure_eq_ok_iff, pure_eq_ok_iff] at h3
    obtain ⟨-, h6, s1, rfl, rfl⟩ := h3
    exact ⟨_, hl, of_decide_eq_true hc, .inr ⟨h5, h6, rfl⟩, rfl⟩
  · simp only [bind_eq_ok_iff, throw_eq_ok_iff, false_and, exists_false] at h3

theorem takeSlot_eq {s s' : State} {who target : AccountId} {deposit : Balance} (hs : Sorted s.cands)
    (h : takeSlot s who deposit target = .ok s') :
    who ∉ s.invulnerables ∧ s.bond ≤ deposit ∧ registered s who ∧ who ∉ s.cands.map Cand.who ∧
    ∃ A t B s1, s.cands = A ++ t :: B ∧ t.who = target ∧ t.deposit < deposit ∧ reserve s who deposit = .ok s1 ∧
      s' = { unreserve s1 target t.deposit with
        cands := A ++ place B ⟨who, deposit⟩
        authored := put (put s.authored target 0) who (s.now + kick)
        joined := put s.joined who s.now } := by
  unfold takeSlot at h
  simp only [bind_eq_ok_iff, ensure_eq_ok_iff, okOr_eq_ok_iff, pure_eq_ok_iff] at h
  obtain ⟨-, h1, -, h2, -, h3, -, h4, t, h5, -, h6, s1, h7, rfl⟩ := h
  obtain ⟨A, B, hl, -, hc, -, -, he⟩ := split_find h5
  refine ⟨h1, h2, h3, h4, A, t, B, s1, hl, of_decide_eq_true hc, h6, h7, ?_⟩
  have hp := slot_place (A := A) (B := B) (t := t) (x := ⟨who, deposit⟩) (by rw [← hl]; exact hs) h6
  rw [he]
  simp only [hl] at hp ⊢
  rw [hp]
  obtain ⟨p, rfl, -⟩ := reserve_eq h7
  rfl

theorem setInvulnerables_eq {cfg : Config} {s s' : State} {new : List AccountId} (h : setInvulnerables cfg s new = .ok s') :
    (new = [] → cfg.minEligible ≤ s.cands.length) ∧ new.length ≤ cfg.maxInvulnerables ∧
    s' = { s with invulnerables := (new.filter (fun a => decide (registered s a))).insertionSort (· ≤ ·) } := by
  unfold setInvulnerables at h
  simp only [bind_eq_ok_iff, ensure_eq_ok_iff, pure_eq_ok_iff] at h
  obtain ⟨-, h1, -, h2, rfl⟩ := h
  exact ⟨h1, h2, rfl⟩

theorem addInvulnerable_eq {cfg : Config} {s s' : State} {a : AccountId} (h : addInvulnerable cfg s a = .ok s') :
    registered s a ∧ a ∉ s.invulnerables ∧ s.invulnerables.length < cfg.maxInvulnerables ∧
    s' = removeCand { s with invulnerables := s.invulnerables.orderedInsert (· ≤ ·) a } a false := by
  unfold addInvulnerable at h
  simp only [bind_eq_ok_iff, ensure_eq_ok_iff, pure_eq_ok_iff] at h
  obtain ⟨-, h1, -, h2, -, h3, rfl⟩ := h
  exact ⟨h1, h2, h3, rfl⟩

theorem removeInvulnerable_eq {cfg : Config} {s s' : State} {a : AccountId} (h : removeInvulnerable cfg s a = .ok s') :
    cfg.minEligible < eligible s ∧ a ∈ s.invulnerables ∧ s' = { s with invulnerables := s.invulnerables.erase a } := by
  unfold removeInvulnerable at h
  simp only [bind_eq_ok_iff, ensure_eq_ok_iff, pure_eq_ok_iff] at h
  obtain ⟨-, h1, -, h2, rfl⟩ := h
  exact ⟨h1, h2, rfl⟩

theorem setKeys_eq {s s' : State} {who : AccountId} {k : Nat} (h : setKeys s who k = .ok s') :
    (s.owner k = none ∨ s.owner k = some who) ∧
    s' = { s with
      owner := put (match s.keys who with
        | some old => if old = k then s.owner else put s.owner old none
        | none => s.owner) k (some who)
      keys := put s.keys who (some k) } := by
  unfold setKeys at h
  simp only [bind_eq_ok_iff, ensure_eq_ok_iff, pure_eq_ok_iff] at h
  obtain ⟨-, h1, rfl⟩ := h
  exact ⟨h1, rfl⟩

theorem purgeKeys_eq {s s' : State} {who : AccountId} (h : purgeKeys s who = .ok s') :
    ∃ k, s.keys who = some k ∧ s' = { s with owner := put s.owner k none, keys := put s.keys who none } := by
  unfold purgeKeys at h
  simp only [bind_eq_ok_iff, okOr_eq_ok_iff, pure_eq_ok_iff] at h
  obtain ⟨k, h1, rfl⟩ := h
  exact ⟨k, h1, rfl⟩

/-! ## The bond -/

/-- What `set_candidacy_bond` does with each candidate it removes. -/
def dropOne (s : State) (c : Cand) : State :=
  let s := unreserve s c.who c.deposit
  { s with authored := put s.authored c.who 0 }

theorem dropOne_cands (K : List Cand) : ∀ (s : State) (L : List Cand),
    K.foldl dropOne { s with cands := L } = { K.foldl dropOne s with cands := L } := by
  induction K with
  | nil => intro s L; rfl
  | cons c K ih => intro s L; exact ih (dropOne s c) L

theorem dropAll_rest (K : List Cand) : ∀ (s : State), SameRest s (K.foldl dropOne s) := by
  induction K with
  | nil => intro s; exact .refl s
  | cons c K ih => intro s; exact SameRest.trans (s' := dropOne s c) ⟨rfl, rfl, rfl, rfl, rfl, rfl, rfl, rfl, rfl, rfl, rfl⟩ (ih (dropOne s c))

theorem dropAll_kept (K R : List Cand) : ∀ (s : State), (∀ a, (s.purse a).reserved = s.elsewhere a + owed s.cands a) →
    s.cands = K ++ R → Kept s { K.foldl dropOne s with cands := R } := by
  induction K with
  | nil => intro s _ hc; exact (Kept.refl s).of_eq rfl rfl hc.symm
  | cons c K ih =>
    intro s h hc
    have k1 : Kept s { dropOne s c with cands := K ++ R } :=
      (drop_kept h (A := []) (B := K ++ R) (c := c) hc).of_eq rfl rfl rfl
    have k2 := ih { dropOne s c with cands := K ++ R } (k1.held h) rfl
    rw [dropOne_cands] at k2
    exact k1.trans k2

theorem dropAll_authored (K : List Cand) : ∀ (s : State) (a : AccountId), a ∉ K.map Cand.who →
    (K.foldl dropOne s).authored a = s.authored a := by
  induction K with
  | nil => intro s a _; rfl
  | cons c K ih =>
    intro s a ha
    rw [List.map_cons, List.mem_cons, not_or] at ha
    rw [List.foldl_cons, ih _ a ha.2]
    show put s.authored c.who 0 a = _
    unfold put; rw [if_neg ha.1]

theorem setBond_eq (s : State) (b : Balance) :
    (b ≤ s.bond ∧ setBond s b = { s with bond := b }) ∨
    (s.bond < b ∧ ∃ K R, s.cands = K ++ R ∧ (∀ c ∈ K, c.deposit < b) ∧ (∀ c R', R = c :: R' → b ≤ c.deposit) ∧
      setBond s b = { K.foldl dropOne { s with bond := b } with cands := R }) := by
  unfold setBond
  by_cases h : s.bond < b
  · refine .inr ⟨h, s.cands.take (s.cands.findIdx (fun c => decide (b ≤ c.deposit))),
      s.cands.drop (s.cands.findIdx (fun c => decide (b ≤ c.deposit))), (List.take_append_drop _ _).symm, ?_, ?_, ?_⟩
    · intro c hc
      obtain ⟨i, hi, rfl⟩ := List.mem_iff_getElem.1 hc
      rw [List.length_take] at hi
      rw [List.getElem_take]
      have := List.not_of_lt_findIdx (p := fun c : Cand => decide (b ≤ c.deposit)) (xs := s.cands) (i := i) (by omega)
      have := of_decide_eq_false this
      omega
    · intro c R' hR
      have hlt : s.cands.findIdx (fun c => decide (b ≤ c.deposit)) < s.cands.length := by
        by_contra hge
        rw [List.drop_eq_nil_of_le (by omega)] at hR
        cases hR
      rw [List.drop_eq_getElem_cons hlt] at hR
      have hg := List.findIdx_getElem (p := fun c : Cand => decide (b ≤ c.deposit)) (xs := s.cands) (w := hlt)
      rw [(List.cons.inj hR).1] at hg
      exact of_decide_eq_true hg
    · simp only [h, decide_true, if_true]
      rfl
  · refine .inl ⟨by omega, ?_⟩
    simp only [h, decide_false]
    rfl

/-- With candidates in order, exactly those with enough stay. -/
theorem setBond_split {s : State} (hs : Sorted s.cands) (b : Balance) :
    (b ≤ s.bond ∧ setBond s b = { s with bond := b }) ∨
    (s.bond < b ∧ ∃ K R, s.cands = K ++ R ∧ (∀ c ∈ K, c.deposit < b) ∧ (∀ c ∈ R, b ≤ c.deposit) ∧
      setBond s b = { K.foldl dropOne { s with bond := b } with cands := R }) := by
  rcases setBond_eq s b with h | ⟨h, K, R, hl, hK, hR, he⟩
  · exact .inl h
  · refine .inr ⟨h, K, R, hl, hK, ?_, he⟩
    intro c hc
    cases R with
    | nil => cases hc
    | cons r R' =>
      have h1 := hR r R' rfl
      rcases List.mem_cons.1 hc with rfl | hc
      · exact h1
      · rw [hl] at hs
        have := (List.pairwise_cons.1 (List.pairwise_append.1 hs).2.1).1 c hc
        omega

/-! ## Calls keep the order and move tokens only into and out of bonds -/

theorem join_kept {s s1 : State} {who : AccountId} {d : Balance} {L : List Cand} (h : reserve s who d = .ok s1)
    (hL : L.Perm (⟨who, d⟩ :: s.cands)) : Kept s { s1 with cands := L } := by
  obtain ⟨p, rfl, h1, h2, h3⟩ := reserve_eq h
  refine ⟨rfl, fun a => ?_, fun a => ?_, fun a => ?_⟩
  · simp only [put]; split_ifs with ha
    · rw [h3, ha]
    · rfl
  · show (put s.purse who p a).free + owed L a = _
    rw [owed_perm hL, owed_cons]
    simp only [put]
    by_cases ha : a = who
    · subst ha; simp only [if_true]; omega
    · simp only [if_neg ha, if_neg (fun e => ha (Eq.symm e) : ¬ who = a)]; omega
  · show (put s.purse who p a).reserved + _ = _ + owed L a
    rw [owed_perm hL, owed_cons]
    simp only [put]
    by_cases ha : a = who
    · subst ha; simp only [if_true]; omega
    · simp only [if_neg ha, if_neg (fun e => ha (Eq.symm e) : ¬ who = a)]; omega

theorem Kept.rest {s s' t : State} (h : Kept s s') (hp : t.purse = s'.purse) (he : t.elsewhere = s'.elsewhere)
    (hc : t.cands = s'.cands) : Kept s t := h.of_eq hp he hc

/-- The invariant depends on candidates, bond and tokens only. -/
theorem Inv.same {s t : State} (i : Inv s) (hp : t.purse = s.purse) (he : t.elsewhere = s.elsewhere)
    (hc : t.cands = s.cands) (hb : t.bond = s.bond) : Inv t :=
  ⟨by rw [hc]; exact i.1, by rw [hc, hb]; exact i.2, by rw [hc]; exact i.3, by rw [hc]; exact i.4,
    by rw [hp, he, hc]; exact i.5⟩

theorem register_inv {s s' : State} {who : AccountId} (i : Inv s) (h : register s who = .ok s') : Inv s' ∧ Kept s s' := by
  obtain ⟨h1, -, -, h4, s1, h5, rfl⟩ := register_eq h
  have hk : Kept s { s1 with cands := ⟨who, s.bond⟩ :: s.cands } := join_kept h5 (.refl _)
  obtain ⟨p, rfl, -⟩ := reserve_eq h5
  refine ⟨⟨?_, ?_, ?_, ?_, hk.held i.held⟩, hk.of_eq rfl rfl rfl⟩
  · exact List.pairwise_cons.2 ⟨fun c hc => i.above c hc, i.sorted⟩
  · intro c hc
    rcases List.mem_cons.1 hc with rfl | hc
    · exact Nat.le_refl _
    · exact i.above c hc
  · exact List.nodup_cons.2 ⟨h4, i.nodup⟩
  · show s.cands.length + 1 ≤ maxCandidates
    omega

theorem updateBond_inv {s s' : State} {who : AccountId} {new : Balance} (i : Inv s) (h : updateBond s who new = .ok s') :
    Inv s' ∧ Kept s s' := by
  obtain ⟨h1, A, c, B, s1, hl, rfl, h2, rfl⟩ := updateBond_eq h
  have hn := i.nodup
  rw [hl] at hn
  have hnd := mid_nodup hn
  have hso := i.sorted
  rw [hl] at hso
  have hperm := place_perm (A ++ B) ⟨c.who, new⟩
  have hk : Kept s { s1 with cands := place (A ++ B) ⟨c.who, new⟩ } := by
    have ho : ∀ a, owed (place (A ++ B) ⟨c.who, new⟩) a = (if c.who = a then new else 0) + owed (A ++ B) a := fun a => by
      rw [owed_perm hperm, owed_cons]
    rcases h2 with ⟨h3, h4⟩ | ⟨h3, -, rfl⟩
    · obtain ⟨p, rfl, e1, e2, e3⟩ := reserve_eq h4
      refine ⟨rfl, fun a => ?_, fun a => ?_, fun a => ?_⟩
      · simp only [put]; split_ifs with ha
        · rw [e3, ha]
        · rfl
      · rw [hl, owed_mid]
        show (put s.purse c.who p a).free + owed (place (A ++ B) ⟨c.who, new⟩) a = _
        rw [ho]
        simp only [put]
        by_cases ha : a = c.who
        · subst ha; simp only [if_true]; omega
        · simp only [if_neg ha, if_neg (fun e => ha (Eq.symm e) : ¬ c.who = a)]
      · rw [hl, owed_mid]
        show (put s.purse c.who p a).reserved + _ = _ + owed (place (A ++ B) ⟨c.who, new⟩) a
        rw [ho]
        simp only [put]
        by_cases ha : a = c.who
        · subst ha; simp only [if_true]; omega
        · simp only [if_neg ha, if_neg (fun e => ha (Eq.symm e) : ¬ c.who = a)]
    · have hr : c.deposit ≤ (s.purse c.who).reserved := by
        rw [i.held, hl, owed_mid, if_pos rfl]; omega
      have hmin : min (c.deposit - new) (s.purse c.who).reserved = c.deposit - new := by omega
      refine ⟨rfl, fun a => ?_, fun a => ?_, fun a => ?_⟩
      · simp only [unreserve, put]; split_ifs with ha
        · rw [ha]
        · rfl
      · rw [hl, owed_mid]
        show ((unreserve s c.who (c.deposit - new)).purse a).free + owed (place (A ++ B) ⟨c.who, new⟩) a = _
        rw [ho]
        simp only [unreserve, put, hmin]
        by_cases ha : a = c.who
        · subst ha; simp only [if_true]; omega
        · simp only [if_neg ha, if_neg (fun e => ha (Eq.symm e) : ¬ c.who = a)]
      · rw [hl, owed_mid]
        show ((unreserve s c.who (c.deposit - new)).purse a).reserved + _ = _ + owed (place (A ++ B) ⟨c.who, new⟩) a
        rw [ho]
        simp only [unreserve, put, hmin]
        by_cases ha : a = c.who
        · subst ha; simp only [if_true]; omega
        · simp only [if_neg ha, if_neg (fun e => ha (Eq.symm e) : ¬ c.who = a)]
  have hb1 : s1.bond = s.bond := by
    rcases h2 with ⟨-, h4⟩ | ⟨-, -, rfl⟩
    · obtain ⟨p, rfl, -⟩ := reserve_eq h4; rfl
    · rfl
  refine ⟨⟨place_sorted _ (sorted_drop_mid hso), ?_, ?_, ?_, hk.held i.held⟩, hk⟩
  · intro x hx
    show s1.bond ≤ _
    rw [hb1]
    rcases List.mem_cons.1 (hperm.mem_iff.1 hx) with rfl | hx
    · exact h1
    · refine i.above x ?_
      rw [hl]
      exact List.perm_middle.mem_iff.2 (List.mem_cons_of_mem _ hx)
  · exact (hperm.map Cand.who).nodup_iff.2 (List.nodup_cons.2 hnd)
  · show (place (A ++ B) ⟨c.who, new⟩).length ≤ _
    have := i.short
    rw [hl] at this
    rw [hperm.length_eq]
    simpa [Nat.add_assoc] using this

theorem takeSlot_inv {s s' : State} {who target : AccountId} {d : Balance} (i : Inv s)
    (h : takeSlot s who d target = .ok s') : Inv s' ∧ Kept s s' := by
  obtain ⟨-, h2, -, h4, A, t, B, s1, hl, rfl, h5, h6, rfl⟩ := takeSlot_eq i.sorted h
  have hn := i.nodup
  rw [hl] at hn
  have hnd := mid_nodup hn
  have hso := i.sorted
  rw [hl] at hso
  have hperm : (A ++ place B ⟨who, d⟩).Perm (⟨who, d⟩ :: (A ++ B)) :=
    ((place_perm B ⟨who, d⟩).append_left A).trans List.perm_middle
  have k1 : Kept s { s1 with cands := (⟨who, d⟩ :: A) ++ t :: B } := join_kept h6 (by rw [hl]; exact .refl _)
  have k2 := k1.trans (drop_kept (k1.held i.held) (A := ⟨who, d⟩ :: A) (B := B) (c := t) rfl)
  have hk : Kept s { unreserve s1 t.who t.deposit with
        cands := A ++ place B ⟨who, d⟩
        authored := put (put s.authored t.who 0) who (s.now + kick)
        joined := put s.joined who s.now } := k2.of_perm rfl rfl hperm
  obtain ⟨p, rfl, -⟩ := reserve_eq h6
  refine ⟨⟨?_, ?_, ?_, ?_, hk.held i.held⟩, hk⟩
  · have hpw := List.pairwise_append.1 hso
    refine List.pairwise_append.2 ⟨hpw.1, place_sorted _ (List.pairwise_cons.1 hpw.2.1).2, fun x hx y hy => ?_⟩
    rcases List.mem_cons.1 ((place_perm B ⟨who, d⟩).mem_iff.1 hy) with rfl | hy
    · exact Nat.le_trans (hpw.2.2 x hx t List.mem_cons_self) (Nat.le_of_lt h5)
    · exact hpw.2.2 x hx y (List.mem_cons_of_mem _ hy)
  · intro x hx
    rcases List.mem_cons.1 (hperm.mem_iff.1 hx) with rfl | hx
    · exact h2
    · refine i.above x ?_
      rw [hl]
      exact List.perm_middle.mem_iff.2 (List.mem_cons_of_mem _ hx)
  · refine (hperm.map Cand.who).nodup_iff.2 (List.nodup_cons.2 ⟨fun hx => h4 ?_, hnd.2⟩)
    rw [hl]
    exact (List.perm_middle.map Cand.who).mem_iff.2 (List.mem_cons_of_mem _ hx)
  · show (A ++ place B ⟨who, d⟩).length ≤ _
    have := i.short
    rw [hl] at this
    rw [hperm.length_eq]
    simpa [Nat.add_assoc] using this

theorem setBond_inv {s : State} (i : Inv s) (b : Balance) : Inv (setBond s b) ∧ Kept s (setBond s b) := by
  rcases setBond_split i.sorted b with ⟨h, he⟩ | ⟨h, K, R, hl, hK, hR, he⟩
  · rw [he]
    exact ⟨⟨i.1, fun c hc => Nat.le_trans h (i.2 c hc), i.3, i.4, i.5⟩, ⟨rfl, fun _ => rfl, fun _ => rfl, fun _ => rfl⟩⟩
  · have hk : Kept s (setBond s b) := by
      rw [he]
      have k1 : Kept s { s with bond := b } := ⟨rfl, fun _ => rfl, fun _ => rfl, fun _ => rfl⟩
      exact k1.trans (dropAll_kept K R { s with bond := b } i.held hl)
    refine ⟨i.sub ?_ ?_ hk, hk⟩
    · rw [he, hl]; exact List.sublist_append_right K R
    · have hb : (setBond s b).bond = b := by rw [he]; exact (dropAll_rest K { s with bond := b }).bond
      rw [hb, he]
      exact hR

theorem rotate_inv {s : State} (cfg : Config) (i : Inv s) : Inv (rotate cfg s) ∧ Kept s (rotate cfg s) := by
  obtain ⟨i1, k1, -, -⟩ := kickAll_inv cfg (s.cands.map Cand.who) i
  exact ⟨i1.same rfl rfl rfl rfl, k1.of_eq rfl rfl rfl⟩

theorem noteAuthor_fields (s : State) (slot : Nat) :
    (noteAuthor s slot).purse = s.purse ∧ (noteAuthor s slot).elsewhere = s.elsewhere ∧
    (noteAuthor s slot).cands = s.cands ∧ SameRest { s with made := (noteAuthor s slot).made } (noteAuthor s slot) := by
  unfold noteAuthor
  split <;> exact ⟨rfl, rfl, rfl, ⟨rfl, rfl, rfl, rfl, rfl, rfl, rfl, rfl, rfl, rfl, rfl⟩⟩

theorem block_inv {s : State} (cfg : Config) (i : Inv s) (slot : Nat) : Inv (block cfg s slot) ∧ Kept s (block cfg s slot) := by
  obtain ⟨h1, h2, h3, h4⟩ := noteAuthor_fields { s with now := s.now + 1 } slot
  have i1 : Inv (noteAuthor { s with now := s.now + 1 } slot) := i.same h1 h2 h3 h4.bond
  have k1 : Kept s (noteAuthor { s with now := s.now + 1 } slot) := (Kept.refl s).of_eq h1 h2 h3
  unfold block
  simp only
  split_ifs
  · exact ⟨(rotate_inv cfg i1).1, k1.trans (rotate_inv cfg i1).2⟩
  · exact ⟨i1, k1⟩

theorem dispatch_inv {cfg : Config} {s s' : State} {o : Origin} {c : Call} (i : Inv s) (h : dispatch cfg s o c = .ok s') :
    Inv s' ∧ Kept s s' := by
  have triv : ∀ t : State, t.purse = s.purse → t.elsewhere = s.elsewhere → t.cands = s.cands → t.bond = s.bond →
      Inv t ∧ Kept s t := fun t h1 h2 h3 h4 => ⟨i.same h1 h2 h3 h4, (Kept.refl s).of_eq h1 h2 h3⟩
  unfold dispatch at h
  split at h
  · obtain ⟨-, -, rfl⟩ := setInvulnerables_eq h; exact triv _ rfl rfl rfl rfl
  · cases h; exact triv _ rfl rfl rfl rfl
  · cases h; exact setBond_inv i _
  · obtain ⟨-, -, -, rfl⟩ := addInvulnerable_eq h
    rename_i a
    have i1 : Inv { s with invulnerables := s.invulnerables.orderedInsert (· ≤ ·) a } :=
      (triv { s with invulnerables := s.invulnerables.orderedInsert (· ≤ ·) a } rfl rfl rfl rfl).1
    have k1 : Kept s { s with invulnerables := s.invulnerables.orderedInsert (· ≤ ·) a } :=
      (triv { s with invulnerables := s.invulnerables.orderedInsert (· ≤ ·) a } rfl rfl rfl rfl).2
    obtain ⟨i2, k2, -⟩ := removeCand_inv i1 a false
    exact ⟨i2, k1.trans k2⟩
  · obtain ⟨-, -, rfl⟩ := removeInvulnerable_eq h; exact triv _ rfl rfl rfl rfl
  · exact register_inv i h
  · obtain ⟨-, -, rfl⟩ := leave_eq.1 h
    rename_i who
    obtain ⟨i2, k2, -⟩ := removeCand_inv i who true
    exact ⟨i2, k2⟩
  · exact updateBond_inv i h
  · exact takeSlot_inv i h
  · obtain ⟨-, rfl⟩ := setKeys_eq h; exact triv _ rfl rfl rfl rfl
  · obtain ⟨k, -, rfl⟩ := purgeKeys_eq h; exact triv _ rfl rfl rfl rfl
  · cases h

theorem apply_inv {s : State} (cfg : Config) (i : Inv s) (e : Event) :
    Inv (apply cfg s e) ∧ ((∀ a p v, e ≠ .other a p v) → Kept s (apply cfg s e)) := by
  cases e with
  | block slot => exact ⟨(block_inv cfg i slot).1, fun _ => (block_inv cfg i slot).2⟩
  | call o c =>
    unfold apply
    simp only
    cases h : dispatch cfg s o c with
    | ok s' => exact ⟨(dispatch_inv i h).1, fun _ => (dispatch_inv i h).2⟩
    | error e => exact ⟨i, fun _ => .refl s⟩
  | other a p v =>
    refine ⟨?_, fun h => absurd rfl (h a p v)⟩
    unfold apply
    simp only
    split_ifs with h
    · refine ⟨i.1, i.2, i.3, i.4, fun b => ?_⟩
      show (put s.purse a p b).reserved = put s.elsewhere a v b + owed s.cands b
      have := i.held b
      unfold put
      split_ifs with hb
      · subst hb; omega
      · exact this
    · exact i

theorem run_inv (cfg : Config) (h : List Event) : ∀ {s : State}, Inv s → Inv (run cfg s h) := by
  induction h with
  | nil => intro s i; exact i
  | cons e h ih => intro s i; exact ih (apply_inv cfg i e).1

theorem genesis_inv (l : List (AccountId × Nat)) (b : Balance) (d : Nat) (p : AccountId → Balance) : Inv (genesis l b d p) :=
  ⟨List.Pairwise.nil, fun _ h => (by cases h), List.nodup_nil, Nat.zero_le _, fun _ => rfl⟩

end Verif.Collators
