import Verif.Collators.Model
import Mathlib.Tactic.SplitIfs
/-! # Lists of candidates: splitting, placing, and what each function does to them -/

namespace Verif.Collators
open Verif.Wrapped (put)
open Verif.Deposits (Purse existential)

/-! ## Lists -/

theorem split_find {l : List Cand} {p : Cand → Bool} {c : Cand} (h : l.find? p = some c) :
    ∃ A B, l = A ++ c :: B ∧ (∀ x ∈ A, p x = false) ∧ p c = true ∧ l.eraseP p = A ++ B ∧ l.findIdx p = A.length ∧
      l.eraseIdx (l.findIdx p) = A ++ B := by
  obtain ⟨hc, A, B, rfl, hA⟩ := List.find?_eq_some_iff_append.1 h
  have hA' : ∀ x ∈ A, p x = false := fun x hx => by simpa using hA x hx
  have hi : (A ++ c :: B).findIdx p = A.length := by
    rw [List.findIdx_append, if_neg]
    · simp [List.findIdx_cons, hc]
    · rw [List.findIdx_lt_length]; rintro ⟨x, hx, hpx⟩; simp [hA' x hx] at hpx
  refine ⟨A, B, rfl, hA', hc, ?_, hi, ?_⟩
  · rw [List.eraseP_append_right _ (fun x hx => by simp [hA' x hx]), List.eraseP_cons_of_pos hc]
  · rw [hi, List.eraseIdx_append_of_length_le (Nat.le_refl _)]; simp

theorem place_cons (b : Cand) (B : List Cand) (x : Cand) :
    place (b :: B) x = if x.deposit ≤ b.deposit then x :: b :: B else b :: place B x := by
  unfold place
  by_cases h : x.deposit ≤ b.deposit
  · simp [List.findIdx_cons, h]
  · simp [List.findIdx_cons, h]

theorem place_perm (l : List Cand) (x : Cand) : (place l x).Perm (x :: l) :=
  List.perm_insertIdx _ _ (List.findIdx_le_length)

theorem insertIdx_behind (A B : List Cand) (n : Nat) (x : Cand) :
    (A ++ B).insertIdx (A.length + n) x = A ++ B.insertIdx n x := by
  induction A with
  | nil => simp
  | cons a A ih => rw [List.cons_append, List.length_cons, show A.length + 1 + n = A.length + n + 1 by omega,
      List.insertIdx_succ_cons, ih]; rfl

abbrev Sorted (l : List Cand) : Prop := l.Pairwise (fun a b => a.deposit ≤ b.deposit)

theorem place_sorted {l : List Cand} (x : Cand) (h : Sorted l) : Sorted (place l x) := by
  induction l with
  | nil => simp [place, Sorted]
  | cons b B ih =>
    rw [place_cons]
    have hb := List.pairwise_cons.1 h
    split_ifs with hx
    · refine List.pairwise_cons.2 ⟨fun y hy => ?_, h⟩
      rcases List.mem_cons.1 hy with rfl | hy
      · exact hx
      · exact Nat.le_trans hx (hb.1 y hy)
    · refine List.pairwise_cons.2 ⟨fun y hy => ?_, ih hb.2⟩
      rcases List.mem_cons.1 ((place_perm B x).mem_iff.1 hy) with rfl | hy
      · omega
      · exact hb.1 y hy

theorem sorted_drop_mid {A B : List Cand} {c : Cand} (h : Sorted (A ++ c :: B)) : Sorted (A ++ B) :=
  h.sublist (List.Sublist.append_left (List.sublist_cons_self c B) A)

/-- In a sorted list the position that `take_candidate_slot` computes is behind the candidate that is removed. -/
theorem slot_place {A B : List Cand} {t x : Cand} (h : Sorted (A ++ t :: B)) (ht : t.deposit < x.deposit) :
    (A ++ B).insertIdx ((A ++ t :: B).findIdx (fun c => decide (x.deposit ≤ c.deposit)) - 1) x = A ++ place B x := by
  have hA : ∀ y ∈ A, y.deposit ≤ t.deposit := fun y hy =>
    (List.pairwise_append.1 h).2.2 y hy t List.mem_cons_self
  have hi : (A ++ t :: B).findIdx (fun c => decide (x.deposit ≤ c.deposit)) =
      A.length + 1 + B.findIdx (fun c => decide (x.deposit ≤ c.deposit)) := by
    rw [List.findIdx_append, if_neg]
    · rw [List.findIdx_cons]
      simp only [show decide (x.deposit ≤ t.deposit) = false from decide_eq_false (by omega), cond_false]
      omega
    · rw [List.findIdx_lt_length]
      rintro ⟨y, hy, hpy⟩
      have := hA y hy
      have := of_decide_eq_true hpy
      omega
  rw [hi, show A.length + 1 + B.findIdx (fun c => decide (x.deposit ≤ c.deposit)) - 1 =
    A.length + B.findIdx (fun c => decide (x.deposit ≤ c.deposit)) by omega,
    insertIdx_behind]
  rfl

theorem find_none {l : List Cand} {a : AccountId} :
    l.find? (fun c => decide (c.who = a)) = none ↔ a ∉ l.map Cand.who := by
  rw [List.find?_eq_none]
  simp only [decide_eq_true_eq, List.mem_map, not_exists, not_and]

theorem find_some {l : List Cand} {a : AccountId} (h : a ∈ l.map Cand.who) :
    ∃ c, l.find? (fun c => decide (c.who = a)) = some c := by
  cases hf : l.find? (fun c => decide (c.who = a)) with
  | some c => exact ⟨c, rfl⟩
  | none => exact absurd h (find_none.1 hf)

/-- What an account has put up. -/
def owed (l : List Cand) (a : AccountId) : Balance := ((l.filter (fun c => decide (c.who = a))).map Cand.deposit).sum

theorem owed_perm {l m : List Cand} (h : l.Perm m) (a : AccountId) : owed l a = owed m a :=
  ((h.filter _).map _).sum_nat

theorem owed_cons (c : Cand) (l : List Cand) (a : AccountId) :
    owed (c :: l) a = (if c.who = a then c.deposit else 0) + owed l a := by
  unfold owed
  by_cases h : c.who = a <;> simp [h]

theorem owed_mid (A B : List Cand) (c : Cand) (a : AccountId) :
    owed (A ++ c :: B) a = (if c.who = a then c.deposit else 0) + owed (A ++ B) a := by
  rw [owed_perm List.perm_middle, owed_cons]

theorem owed_zero {l : List Cand} {a : AccountId} (h : a ∉ l.map Cand.who) : owed l a = 0 := by
  have : l.filter (fun c => decide (c.who = a)) = [] := by
    rw [List.filter_eq_nil_iff]
    intro c hc
    simp only [decide_eq_true_eq]
    exact fun e => h (List.mem_map.2 ⟨c, hc, e⟩)
  simp [owed, this]

theorem owed_mem {l : List Cand} {c : Cand} (hn : (l.map Cand.who).Nodup) (h : c ∈ l) : owed l c.who = c.deposit := by
  obtain ⟨A, B, rfl⟩ := List.append_of_mem h
  rw [owed_mid, if_pos rfl, owed_zero]
  · rfl
  · have := (List.perm_middle.map Cand.who).nodup_iff.1 hn
    exact (List.nodup_cons.1 this).1

/-! ## Tokens -/

theorem reserve_eq {s s' : State} {a : AccountId} {v : Balance} (h : reserve s a v = .ok s') :
    ∃ p, s' = { s with purse := put s.purse a p } ∧ p.free + v = (s.purse a).free ∧ p.reserved = (s.purse a).reserved + v ∧
      p.frozen = (s.purse a).frozen := by
  simp only [reserve] at h
  split_ifs at h with h1 h2
  · cases h
    refine ⟨s.purse a, ?_, by omega, by omega, rfl⟩
    have : put s.purse a (s.purse a) = s.purse := by funext x; unfold put; split_ifs with hx; rw [hx]; rfl
    rw [this]
  · cases h
    refine ⟨_, rfl, ?_, rfl, rfl⟩
    show (s.purse a).free - v + v = _
    omega

theorem reserve_ok_iff {s : State} {a : AccountId} {v : Balance} :
    (∃ s', reserve s a v = .ok s') ↔ v = 0 ∨ (v ≤ (s.purse a).free ∧ (s.purse a).frozen ≤ (s.purse a).free - v ∧
      existential ≤ (s.purse a).free - v) := by
  simp only [reserve]
  split_ifs with h1 h2
  · exact ⟨fun _ => .inl h1, fun _ => ⟨_, rfl⟩⟩
  · exact ⟨fun _ => .inr h2, fun _ => ⟨_, rfl⟩⟩
  · exact ⟨fun ⟨_, h⟩ => (by cases h), fun h => absurd (h.resolve_left h1) h2⟩

/-- What an event does to the tokens and bonds: what an account has put up more is no longer free. -/
structure Kept (s s' : State) : Prop where
  elsewhere : s'.elsewhere = s.elsewhere
  frozen : ∀ a, (s'.purse a).frozen = (s.purse a).frozen
  free : ∀ a, (s'.purse a).free + owed s'.cands a = (s.purse a).free + owed s.cands a
  reserved : ∀ a, (s'.purse a).reserved + owed s.cands a = (s.purse a).reserved + owed s'.cands a

theorem Kept.refl (s : State) : Kept s s := ⟨rfl, fun _ => rfl, fun _ => rfl, fun _ => rfl⟩

theorem Kept.trans {s s' s'' : State} (h : Kept s s') (h' : Kept s' s'') : Kept s s'' :=
  ⟨h'.1.trans h.1, fun a => (h'.2 a).trans (h.2 a), fun a => (h'.3 a).trans (h.3 a), fun a => by
    have := h.4 a; have := h'.4 a; omega⟩

/-- What holds of the list of candidates and the tokens at all times. -/
structure Inv (s : State) : Prop where
  sorted : Sorted s.cands
  above : ∀ c ∈ s.cands, s.bond ≤ c.deposit
  nodup : (s.cands.map Cand.who).Nodup
  short : s.cands.length ≤ maxCandidates
  held : ∀ a, (s.purse a).reserved = s.elsewhere a + owed s.cands a

/-- Only the tokens and the list of candidates matter. -/
theorem Kept.of_eq {s s' t : State} (h : Kept s s') (hp : t.purse = s'.purse) (he : t.elsewhere = s'.elsewhere)
    (hc : t.cands = s'.cands) : Kept s t :=
  ⟨he.trans h.1, by rw [hp]; exact h.2, by rw [hp, hc]; exact h.3, by rw [hp, hc]; exact h.4⟩

theorem Kept.held {s s' : State} (k : Kept s s') (h : ∀ a, (s.purse a).reserved = s.elsewhere a + owed s.cands a) :
    ∀ a, (s'.purse a).reserved = s'.elsewhere a + owed s'.cands a := fun a => by
  have h1 := k.reserved a
  have h2 := h a
  rw [k.elsewhere]
  omega

/-- Removing a candidate. -/
theorem drop_kept {s : State} (h : ∀ a, (s.purse a).reserved = s.elsewhere a + owed s.cands a) {A B : List Cand} {c : Cand}
    (hc : s.cands = A ++ c :: B) :
    Kept s { unreserve s c.who c.deposit with cands := A ++ B } := by
  have hle : c.deposit ≤ (s.purse c.who).reserved := by
    rw [h, hc, owed_mid, if_pos rfl]; omega
  have hmin : min c.deposit (s.purse c.who).reserved = c.deposit := by omega
  refine ⟨rfl, fun a => ?_, fun a => ?_, fun a => ?_⟩
  · simp only [unreserve, put]
    split_ifs with ha
    · rw [ha]
    · rfl
  · rw [hc, owed_mid]
    simp only [unreserve, put, hmin]
    by_cases ha : a = c.who
    · subst ha; simp only [if_true]; omega
    · simp only [if_neg ha, if_neg (fun e => ha (Eq.symm e) : ¬ c.who = a)]; omega
  · rw [hc, owed_mid]
    simp only [unreserve, put, hmin]
    by_cases ha : a = c.who
    · subst ha; simp only [if_true]; omega
    · simp only [if_neg ha, if_neg (fun e => ha (Eq.symm e) : ¬ c.who = a)]; omega

theorem removeCand_eq (s : State) (a : AccountId) (f : Bool) :
    (a ∉ s.cands.map Cand.who ∧ removeCand s a f = s) ∨
    ∃ A c B, s.cands = A ++ c :: B ∧ c.who = a ∧ (∀ x ∈ A, x.who ≠ a) ∧ removeCand s a f =
      { unreserve s a c.deposit with
        cands := A ++ B, authored := if f then put s.authored a 0 else s.authored } := by
  unfold removeCand
  cases hf : s.cands.find? (fun c => decide (c.who = a)) with
  | none => exact .inl ⟨find_none.1 hf, rfl⟩
  | some c =>
    obtain ⟨A, B, hl, hA, hc, he, -, -⟩ := split_find hf
    refine .inr ⟨A, c, B, hl, of_decide_eq_true hc, fun x hx => of_decide_eq_false (hA x hx), ?_⟩
    simp only [unreserve]
    rw [he]

theorem mid_nodup {A B : List Cand} {c : Cand} (h : ((A ++ c :: B).map Cand.who).Nodup) :
    c.who ∉ (A ++ B).map Cand.who ∧ ((A ++ B).map Cand.who).Nodup :=
  List.nodup_cons.1 ((List.perm_middle.map Cand.who).nodup_iff.1 h)

/-- Fields that removing a candidate leaves alone. -/
structure SameRest (s s' : State) : Prop where
  now : s'.now = s.now
  keys : s'.keys = s.keys
  owner : s'.owner = s.owner
  bond : s'.bond = s.bond
  desired : s'.desired = s.desired
  queued : s'.queued = s.queued
  validators : s'.validators = s.validators
  authorities : s'.authorities = s.authorities
  made : s'.made = s.made
  joined : s'.joined = s.joined
  invulnerables : s'.invulnerables = s.invulnerables

theorem SameRest.refl (s : State) : SameRest s s := ⟨rfl, rfl, rfl, rfl, rfl, rfl, rfl, rfl, rfl, rfl, rfl⟩

theorem SameRest.trans {s s' s'' : State} (h : SameRest s s') (h' : SameRest s' s'') : SameRest s s'' :=
  ⟨h'.1.trans h.1, h'.2.trans h.2, h'.3.trans h.3, h'.4.trans h.4, h'.5.trans h.5, h'.6.trans h.6, h'.7.trans h.7,
    h'.8.trans h.8, h'.9.trans h.9, h'.10.trans h.10, h'.11.trans h.11⟩

theorem removeCand_rest (s : State) (a : AccountId) (f : Bool) : SameRest s (removeCand s a f) := by
  rcases removeCand_eq s a f with ⟨-, h⟩ | ⟨A, c, B, -, -, -, h⟩ <;> rw [h] <;>
    exact ⟨rfl, rfl, rfl, rfl, rfl, rfl, rfl, rfl, rfl, rfl, rfl⟩

theorem Inv.sub {s s' : State} (i : Inv s) (hs : s'.cands.Sublist s.cands) (hb : ∀ c ∈ s'.cands, s'.bond ≤ c.deposit)
    (k : Kept s s') : Inv s' :=
  ⟨i.sorted.sublist hs, hb, i.nodup.sublist (hs.map _), Nat.le_trans hs.length_le i.short, k.held i.held⟩

theorem removeCand_inv {s : State} (i : Inv s) (a : AccountId) (f : Bool) :
    Inv (removeCand s a f) ∧ Kept s (removeCand s a f) ∧ (removeCand s a f).cands.Sublist s.cands ∧
      a ∉ (removeCand s a f).cands.map Cand.who ∧
      (∀ c ∈ s.cands, c.who ≠ a → c ∈ (removeCand s a f).cands ∧ (removeCand s a f).authored c.who = s.authored c.who) := by
  have hr := removeCand_rest s a f
  rcases removeCand_eq s a f with ⟨h1, h⟩ | ⟨A, c, B, hc, rfl, hA, h⟩
  · rw [h]; exact ⟨i, .refl s, .refl _, h1, fun c hc _ => ⟨hc, rfl⟩⟩
  · have hcands : (removeCand s c.who f).cands = A ++ B := by rw [h]
    have hs : (removeCand s c.who f).cands.Sublist s.cands := by
      rw [hcands, hc]; exact List.Sublist.append_left (List.sublist_cons_self c B) A
    have hk : Kept s (removeCand s c.who f) := (drop_kept i.held hc).of_eq (by rw [h]) (by rw [h]) (by rw [h])
    refine ⟨i.sub hs (fun x hx => ?_) hk, hk, hs, ?_, fun x hx hxa => ⟨?_, ?_⟩⟩
    · rw [hr.bond]; exact i.above x (hs.subset hx)
    · rw [hcands]
      have := i.nodup
      rw [hc] at this
      exact (mid_nodup this).1
    · rw [hc] at hx
      rw [hcands]
      rcases List.mem_cons.1 (List.perm_middle.mem_iff.1 hx) with rfl | hx
      · exact absurd rfl hxa
      · exact hx
    · rw [h]
      show (if f then put s.authored c.who 0 else s.authored) x.who = _
      cases f
      · rfl
      · show put s.authored c.who 0 x.who = _
        unfold put; rw [if_neg hxa]

/-! ## Kicking -/

theorem kickOne_inv {s : State} (cfg : Config) (i : Inv s) (a : AccountId) :
    Inv (kickOne cfg s a) ∧ Kept s (kickOne cfg s a) ∧ (kickOne cfg s a).cands.Sublist s.cands ∧
      SameRest s (kickOne cfg s a) := by
  unfold kickOne
  split_ifs with h1 h2
  · obtain ⟨h, k, l, -⟩ := removeCand_inv i a false; exact ⟨h, k, l, removeCand_rest _ _ _⟩
  · exact ⟨i, .refl s, .refl _, .refl s⟩
  · obtain ⟨h, k, l, -⟩ := removeCand_inv i a true; exact ⟨h, k, l, removeCand_rest _ _ _⟩

theorem kickAll_inv (cfg : Config) (l : List AccountId) : ∀ {s : State}, Inv s →
    Inv (l.foldl (kickOne cfg) s) ∧ Kept s (l.foldl (kickOne cfg) s) ∧ (l.foldl (kickOne cfg) s).cands.Sublist s.cands ∧
      SameRest s (l.foldl (kickOne cfg) s) := by
  induction l with
  | nil => intro s i; exact ⟨i, .refl s, .refl _, .refl s⟩
  | cons a l ih =>
    intro s i
    obtain ⟨i1, k1, l1, r1⟩ := kickOne_inv cfg i a
    obtain ⟨i2, k2, l2, r2⟩ := ih i1
    exact ⟨i2, k1.trans k2, l2.trans l1, r1.trans r2⟩

/-- Who is removed at a turn has been named by the council or has not made a block for long. -/
theorem kickAll_gone (cfg : Config) (l : List AccountId) : ∀ {s : State}, Inv s → ∀ c ∈ s.cands,
    c ∉ (l.foldl (kickOne cfg) s).cands → c.who ∈ s.invulnerables ∨ kick ≤ s.now - s.authored c.who := by
  induction l with
  | nil => intro s _ c hc h; exact absurd hc h
  | cons a l ih =>
    intro s i c hc h
    obtain ⟨i1, -, -, r1⟩ := kickOne_inv cfg i a
    by_cases ha : c.who = a
    · subst ha
      by_cases h1 : c.who ∈ s.invulnerables
      · exact .inl h1
      by_cases h2 : eligible s ≤ cfg.minEligible ∨ s.now - s.authored c.who < kick
      · have he : kickOne cfg s c.who = s := by unfold kickOne; rw [if_neg h1, if_pos h2]
        rw [List.foldl_cons, he] at h
        exact ih i c hc h
      · right; omega
    · have hst : c ∈ (kickOne cfg s a).cands ∧ (kickOne cfg s a).authored c.who = s.authored c.who := by
        unfold kickOne
        split_ifs
        · exact (removeCand_inv i a false).2.2.2.2 c hc ha
        · exact ⟨hc, rfl⟩
        · exact (removeCand_inv i a true).2.2.2.2 c hc ha
      have := ih i1 c hst.1 h
      rwa [r1.invulnerables, r1.now, hst.2] at this

/-- Nobody named by the council stays a candidate at a turn. -/
theorem kickAll_named (cfg : Config) (l : List AccountId) : ∀ {s : State}, Inv s → ∀ a ∈ l, a ∈ s.invulnerables →
    a ∉ (l.foldl (kickOne cfg) s).cands.map Cand.who := by
  induction l with
  | nil => intro s _ a ha; cases ha
  | cons b l ih =>
    intro s i a ha hi
    obtain ⟨i1, -, -, r1⟩ := kickOne_inv cfg i b
    by_cases hb : a ∈ l
    · exact ih i1 a hb (by rw [r1.invulnerables]; exact hi)
    · obtain rfl : a = b := by
        rcases List.mem_cons.1 ha with h | h
        · exact h
        · exact absurd h hb
      obtain ⟨-, -, l2, -⟩ := kickAll_inv cfg l i1
      intro h
      have h2 := (l2.map Cand.who).subset h
      unfold kickOne at h2
      rw [if_pos hi] at h2
      exact (removeCand_inv i a false).2.2.2.1 h2

/-- What is remembered about a candidate that stays is not changed. -/
theorem kickAll_authored (cfg : Config) (l : List AccountId) : ∀ {s : State}, Inv s →
    ∀ c ∈ (l.foldl (kickOne cfg) s).cands, (l.foldl (kickOne cfg) s).authored c.who = s.authored c.who := by
  induction l with
  | nil => intro s _ c _; rfl
  | cons a l ih =>
    intro s i c hc
    obtain ⟨i1, -, l1, -⟩ := kickOne_inv cfg i a
    have h1 := ih i1 c hc
    obtain ⟨-, -, l2, -⟩ := kickAll_inv cfg l i1
    have hc1 : c ∈ (kickOne cfg s a).cands := l2.subset hc
    rw [List.foldl_cons, h1]
    have hcs := l1.subset hc1
    unfold kickOne at hc1 ⊢
    split_ifs at hc1 ⊢ with h3 h4
    · have hne : c.who ≠ a := fun e => (removeCand_inv i a false).2.2.2.1 (List.mem_map.2 ⟨c, hc1, e⟩)
      exact ((removeCand_inv i a false).2.2.2.2 c hcs hne).2
    · rfl
    · have hne : c.who ≠ a := fun e => (removeCand_inv i a true).2.2.2.1 (List.mem_map.2 ⟨c, hc1, e⟩)
      exact ((removeCand_inv i a true).2.2.2.2 c hcs hne).2

theorem removeCand_length {s : State} (a : AccountId) (f : Bool) :
    s.cands.length ≤ (removeCand s a f).cands.length + 1 := by
  rcases removeCand_eq s a f with ⟨-, h⟩ | ⟨A, c, B, hc, -, -, h⟩ <;> rw [h]
  · omega
  · rw [hc]; simp; omega

/-- Somebody eligible stays eligible at a turn of the main network. -/
theorem kickAll_eligible (l : List AccountId) : ∀ {s : State}, Inv s → 0 < eligible s →
    0 < eligible (l.foldl (kickOne mainnet) s) := by
  induction l with
  | nil => intro s _ h; exact h
  | cons a l ih =>
    intro s i h
    obtain ⟨i1, -, -, -⟩ := kickOne_inv mainnet i a
    refine ih i1 ?_
    unfold kickOne
    split_ifs with h1 h2
    · have := (removeCand_rest s a false).invulnerables
      unfold eligible
      rw [this]
      have := List.length_pos_of_mem h1
      omega
    · exact h
    · have h3 := removeCand_length (s := s) a true
      have h4 := (removeCand_rest s a true).invulnerables
      unfold eligible at h2 ⊢
      rw [h4]
      simp only [mainnet] at h2
      omega

end Verif.Collators
