import Verif.Collators.PropsBonds
import Mathlib.Data.List.Induction
/-!
# C164: blocks are made by those who were chosen

The specification speaks of the lists, the record of blocks made and the calls.
-/

namespace Verif.Collators
open Verif.Wrapped (put)
open Verif.Deposits (Purse existential)

/-! ## Lemmas: what is remembered about candidates -/

/-- A candidate was there before and nothing that is remembered of it has changed, or it has just joined. -/
def Stay (s s' : State) : Prop := ∀ a ∈ s'.cands.map Cand.who,
  (a ∈ s.cands.map Cand.who ∧ s'.authored a = s.authored a ∧ s'.joined a = s.joined a) ∨
  (s'.authored a = s.now + kick ∧ s'.joined a = s.now)

theorem stay_remove {s : State} (i : Inv s) (a : AccountId) (f : Bool) : Stay s (removeCand s a f) := by
  intro x hx
  obtain ⟨-, -, h3, h4, h5⟩ := removeCand_inv i a f
  obtain ⟨c, hc, rfl⟩ := List.mem_map.1 hx
  have hne : c.who ≠ a := fun e => h4 (e ▸ hx)
  have hs := h3.subset hc
  exact .inl ⟨List.mem_map.2 ⟨c, hs, rfl⟩, (h5 c hs hne).2, by rw [(removeCand_rest s a f).joined]⟩

theorem dispatch_stay {cfg : Config} {s s' : State} {o : Origin} {c : Call} (i : Inv s) (h : dispatch cfg s o c = .ok s') :
    Stay s s' ∧ s'.made = s.made ∧ s'.now = s.now := by
  have triv : ∀ t : State, t.cands = s.cands → t.authored = s.authored → t.joined = s.joined → Stay s t :=
    fun t h1 h2 h3 a ha => .inl ⟨by rwa [h1] at ha, by rw [h2], by rw [h3]⟩
  unfold dispatch at h
  split at h
  · obtain ⟨-, -, rfl⟩ := setInvulnerables_eq h; exact ⟨triv _ rfl rfl rfl, rfl, rfl⟩
  · cases h; exact ⟨triv _ rfl rfl rfl, rfl, rfl⟩
  · cases h
    rename_i b
    rcases setBond_split i.sorted b with ⟨-, he⟩ | ⟨-, K, R, hl, -, -, he⟩
    · rw [he]; exact ⟨triv _ rfl rfl rfl, rfl, rfl⟩
    · have hr := dropAll_rest K { s with bond := b }
      rw [he]
      refine ⟨fun a ha => .inl ⟨?_, ?_, ?_⟩, hr.made, hr.now⟩
      · rw [hl, List.map_append]; exact List.mem_append_right _ ha
      · have hn := i.nodup
        rw [hl, List.map_append] at hn
        exact dropAll_authored K _ a (fun hk => (List.nodup_append.1 hn).2.2 _ hk _ ha rfl)
      · show (K.foldl dropOne { s with bond := b }).joined a = _
        rw [hr.joined]
  · obtain ⟨-, -, -, rfl⟩ := addInvulnerable_eq h
    rename_i a
    have i1 : Inv { s with invulnerables := s.invulnerables.orderedInsert (· ≤ ·) a } := i.same rfl rfl rfl rfl
    have hr := removeCand_rest { s with invulnerables := s.invulnerables.orderedInsert (· ≤ ·) a } a false
    exact ⟨stay_remove i1 a false, hr.made, hr.now⟩
  · obtain ⟨-, -, rfl⟩ := removeInvulnerable_eq h; exact ⟨triv _ rfl rfl rfl, rfl, rfl⟩
  · obtain ⟨-, -, -, -, s1, h5, rfl⟩ := register_eq h
    obtain ⟨p, rfl, -⟩ := reserve_eq h5
    rename_i who
    refine ⟨fun a ha => ?_, rfl, rfl⟩
    by_cases hw : a = who
    · subst hw; right; simp [put]
    · left
      rcases List.mem_cons.1 ha with h | h
      · exact absurd h hw
      · exact ⟨h, by simp [put, hw], by simp [put, hw]⟩
  · obtain ⟨-, -, rfl⟩ := leave_eq.1 h
    rename_i who
    have hr := removeCand_rest s who true
    exact ⟨stay_remove i who true, hr.made, hr.now⟩
  · obtain ⟨-, A, c, B, s1, hl, rfl, h2, rfl⟩ := updateBond_eq h
    rename_i new
    have hm : ∀ a ∈ (place (A ++ B) ⟨c.who, new⟩).map Cand.who, a ∈ s.cands.map Cand.who := fun a ha => by
      have := ((place_perm (A ++ B) ⟨c.who, new⟩).map Cand.who).mem_iff.1 ha
      rw [hl]
      exact (List.perm_middle.map Cand.who).mem_iff.2 this
    rcases h2 with ⟨-, h4⟩ | ⟨-, -, rfl⟩
    · obtain ⟨p, rfl, -⟩ := reserve_eq h4
      exact ⟨fun a ha => .inl ⟨hm a ha, rfl, rfl⟩, rfl, rfl⟩
    · exact ⟨fun a ha => .inl ⟨hm a ha, rfl, rfl⟩, rfl, rfl⟩
  · obtain ⟨-, -, -, h4, A, t, B, s1, hl, rfl, -, h6, rfl⟩ := takeSlot_eq i.sorted h
    obtain ⟨p, rfl, -⟩ := reserve_eq h6
    rename_i who deposit
    refine ⟨fun a ha => ?_, rfl, rfl⟩
    by_cases hw : a = who
    · subst hw; right; simp [put, unreserve]
    · left
      have hperm : (A ++ place B ⟨who, deposit⟩).Perm (⟨who, deposit⟩ :: (A ++ B)) :=
        ((place_perm B ⟨who, deposit⟩).append_left A).trans List.perm_middle
      have hab : a ∈ (A ++ B).map Cand.who := by
        rcases List.mem_cons.1 ((hperm.map Cand.who).mem_iff.1 ha) with h | h
        · exact absurd h hw
        · exact h
      have hn := i.nodup
      rw [hl] at hn
      have hne : a ≠ t.who := fun e => (mid_nodup hn).1 (e ▸ hab)
      refine ⟨?_, by simp [put, hw, hne], by simp [put, hw, unreserve]⟩
      rw [hl]
      exact (List.perm_middle.map Cand.who).mem_iff.2 (List.mem_cons_of_mem _ hab)
  · obtain ⟨-, rfl⟩ := setKeys_eq h; exact ⟨triv _ rfl rfl rfl, rfl, rfl⟩
  · obtain ⟨k, -, rfl⟩ := purgeKeys_eq h; exact ⟨triv _ rfl rfl rfl, rfl, rfl⟩
  · cases h

/-- What is remembered of blocks made agrees with the blocks made. -/
structure Mem (s : State) : Prop where
  past : ∀ n a, (n, a) ∈ s.made → n ≤ s.now
  last : ∀ n a, (n, a) ∈ s.made → a ∈ s.cands.map Cand.who → n ≤ s.authored a
  from' : ∀ a ∈ s.cands.map Cand.who, s.authored a = s.joined a + kick ∨ (s.joined a ≤ s.authored a ∧ (s.authored a, a) ∈ s.made)
  joined : ∀ a ∈ s.cands.map Cand.who, s.joined a ≤ s.now

theorem Mem.stay {s s' : State} (m : Mem s) (h : Stay s s') (h1 : s'.made = s.made) (h2 : s'.now = s.now) : Mem s' := by
  refine ⟨?_, ?_, ?_, ?_⟩
  · rw [h1, h2]; exact m.past
  · intro n a hn ha
    rw [h1] at hn
    rcases h a ha with ⟨h3, h4, -⟩ | ⟨h3, -⟩
    · rw [h4]; exact m.last n a hn h3
    · have := m.past n a hn; omega
  · intro a ha
    rcases h a ha with ⟨h3, h4, h5⟩ | ⟨h3, h4⟩
    · rw [h4, h5, h1]; exact m.from' a h3
    · left; omega
  · intro a ha
    rcases h a ha with ⟨h3, -, h5⟩ | ⟨-, h4⟩
    · rw [h5, h2]; exact m.joined a h3
    · omega

theorem note_mem {s : State} (m : Mem s) (slot : Nat) : Mem (noteAuthor { s with now := s.now + 1 } slot) := by
  unfold noteAuthor
  split
  · refine ⟨fun n a h => ?_, m.last, m.from', fun a h => ?_⟩
    · have := m.past n a h; show n ≤ s.now + 1; omega
    · have := m.joined a h; show s.joined a ≤ s.now + 1; omega
  · rename_i b _
    refine ⟨fun n a h => ?_, fun n a h ha => ?_, fun a ha => ?_, fun a h => ?_⟩
    · rcases List.mem_cons.1 h with h | h
      · cases h; exact Nat.le_refl _
      · have := m.past n a h; show n ≤ s.now + 1; omega
    · show n ≤ put s.authored b (s.now + 1) a
      unfold put
      split_ifs with hab
      · rcases List.mem_cons.1 h with h | h
        · cases h; exact Nat.le_refl _
        · have := m.past n a h; omega
      · rcases List.mem_cons.1 h with h | h
        · exact absurd (Prod.mk.inj h).2 hab
        · exact m.last n a h ha
    · show put s.authored b (s.now + 1) a = s.joined a + kick ∨
        (s.joined a ≤ put s.authored b (s.now + 1) a ∧ (put s.authored b (s.now + 1) a, a) ∈ (s.now + 1, b) :: s.made)
      unfold put
      split_ifs with hab
      · right
        have := m.joined a ha
        exact ⟨by omega, by rw [hab]; exact List.mem_cons_self⟩
      · rcases m.from' a ha with h | ⟨h1, h2⟩
        · exact .inl h
        · exact .inr ⟨h1, List.mem_cons_of_mem _ h2⟩
    · have := m.joined a h; show s.joined a ≤ s.now + 1; omega

theorem rotate_stay {s : State} (cfg : Config) (i : Inv s) : Stay s (rotate cfg s) := by
  intro a ha
  obtain ⟨-, -, h3, h4⟩ := kickAll_inv cfg (s.cands.map Cand.who) i
  obtain ⟨c, hc, rfl⟩ := List.mem_map.1 ha
  exact .inl ⟨List.mem_map.2 ⟨c, h3.subset hc, rfl⟩, kickAll_authored cfg _ i c hc, by
    show ((s.cands.map Cand.who).foldl (kickOne cfg) s).joined c.who = _
    rw [h4.joined]⟩

theorem rotate_rest {s : State} (cfg : Config) (i : Inv s) :
    (rotate cfg s).made = s.made ∧ (rotate cfg s).now = s.now ∧ (rotate cfg s).invulnerables = s.invulnerables ∧
    (rotate cfg s).desired = s.desired ∧ (rotate cfg s).keys = s.keys := by
  obtain ⟨-, -, -, h4⟩ := kickAll_inv cfg (s.cands.map Cand.who) i
  exact ⟨h4.made, h4.now, h4.invulnerables, h4.desired, h4.keys⟩

theorem apply_mem {s : State} (cfg : Config) (i : Inv s) (m : Mem s) (e : Event) : Mem (apply cfg s e) := by
  cases e with
  | block slot =>
    obtain ⟨h1, h2, h3, h4⟩ := noteAuthor_fields { s with now := s.now + 1 } slot
    have i1 : Inv (noteAuthor { s with now := s.now + 1 } slot) := i.same h1 h2 h3 h4.bond
    have m1 := note_mem m slot
    show Mem (block cfg s slot)
    unfold block
    simp only
    split_ifs
    · obtain ⟨r1, r2, -⟩ := rotate_rest cfg i1
      exact m1.stay (rotate_stay cfg i1) r1 r2
    · exact m1
  | call o c =>
    unfold apply
    simp only
    cases h : dispatch cfg s o c with
    | ok s' =>
      obtain ⟨h1, h2, h3⟩ := dispatch_stay i h
      exact m.stay h1 h2 h3
    | error e => exact m
  | other a p v =>
    unfold apply
    simp only
    split_ifs
    · exact ⟨m.past, m.last, m.from', m.joined⟩
    · exact m

theorem run_mem (cfg : Config) (h : List Event) : ∀ {s : State}, Inv s → Mem s → Mem (run cfg s h) := by
  induction h with
  | nil => intro s _ m; exact m
  | cons e h ih => intro s i m; exact ih (apply_inv cfg i e).1 (apply_mem cfg i m e)

theorem genesis_mem (l : List (AccountId × Nat)) (b : Balance) (d : Nat) (p : AccountId → Balance) : Mem (genesis l b d p) :=
  ⟨fun _ _ h => (by cases h), fun _ _ h => (by cases h), fun _ h => (by cases h), fun _ h => (by cases h)⟩

theorem run_append (cfg : Config) (s : State) (h : List Event) (e : Event) :
    run cfg s (h ++ [e]) = apply cfg (run cfg s h) e := by
  unfold run; rw [List.foldl_append]; rfl

/-- The state in a block before the turn of the session. -/
abbrev noted (s : State) (slot : Nat) : State := noteAuthor { s with now := s.now + 1 } slot

theorem noted_inv {s : State} (i : Inv s) (slot : Nat) : Inv (noted s slot) := by
  obtain ⟨h1, h2, h3, h4⟩ := noteAuthor_fields { s with now := s.now + 1 } slot
  exact i.same h1 h2 h3 h4.bond

theorem noted_now (s : State) (slot : Nat) : (noted s slot).now = s.now + 1 :=
  (noteAuthor_fields { s with now := s.now + 1 } slot).2.2.2.now

theorem block_turn (cfg : Config) (s : State) (slot : Nat) (h : (s.now + 1) % period = 0) :
    block cfg s slot = rotate cfg (noted s slot) := by
  unfold block
  simp only
  rw [if_pos]
  show (noted s slot).now % period = 0
  rw [noted_now]; exact h

theorem block_plain (cfg : Config) (s : State) (slot : Nat) (h : (s.now + 1) % period ≠ 0) :
    block cfg s slot = noted s slot := by
  unfold block
  simp only
  rw [if_neg]
  show ¬ (noted s slot).now % period = 0
  rw [noted_now]; exact h

/-! ## Theorems -/

section
variable (cfg : Config) (l : List (AccountId × Nat)) (b : Balance) (d : Nat) (p : AccountId → Balance) (h : List Event)

/-- C164: at a turn, every six hours, the makers of the session after next are the accounts named by council or root and, of
the candidates, the desired number with the highest bonds, as far as they have keys; nobody is among them as candidate who
is named or twice. -/
theorem C164_chosen (slot : Nat) :
    let s := run cfg (genesis l b d p) h
    let s' := apply cfg s (.block slot)
    (s.now + 1) % 1800 = 0 →
    ∃ top rest, s'.cands.Perm (top ++ rest) ∧ top.length = min s'.desired s'.cands.length ∧
      (∀ x ∈ top, ∀ y ∈ rest, y.deposit ≤ x.deposit) ∧ (top.map Cand.who).Nodup ∧
      (∀ x ∈ top, x.who ∉ s'.invulnerables) ∧
      s'.queued = (s'.invulnerables ++ top.map Cand.who).filterMap (fun a => (s'.keys a).map (fun k => (a, k))) := by
  intro s s' hturn
  have i : Inv s := run_inv cfg h (genesis_inv l b d p)
  have i1 := noted_inv i slot
  have hs' : s' = rotate cfg (noted s slot) := block_turn cfg s slot hturn
  obtain ⟨i2, -⟩ := rotate_inv cfg i1
  obtain ⟨-, -, r3, r4, r5⟩ := rotate_rest cfg i1
  refine ⟨s'.cands.reverse.take s'.desired, s'.cands.reverse.drop s'.desired, ?_, ?_, ?_, ?_, ?_, ?_⟩
  · rw [List.take_append_drop]; exact (List.reverse_perm _).symm
  · rw [List.length_take, List.length_reverse]
  · intro x hx y hy
    have hp : s'.cands.reverse.Pairwise (fun a b => b.deposit ≤ a.deposit) := by
      rw [List.pairwise_reverse, hs']; exact i2.sorted
    rw [← List.take_append_drop s'.desired s'.cands.reverse] at hp
    exact (List.pairwise_append.1 hp).2.2 x hx y hy
  · have : (s'.cands.reverse.map Cand.who).Nodup := by
      rw [List.map_reverse, List.nodup_reverse, hs']; exact i2.nodup
    exact this.sublist ((List.take_sublist _ _).map _)
  · intro x hx hin
    have hx' : x ∈ s'.cands := List.mem_reverse.1 ((List.take_sublist _ _).subset hx)
    rw [hs'] at hx' hin
    rw [r3] at hin
    obtain ⟨-, -, h3, -⟩ := kickAll_inv cfg ((noted s slot).cands.map Cand.who) i1
    exact kickAll_named cfg _ i1 x.who (List.mem_map.2 ⟨x, h3.subset hx', rfl⟩) hin (List.mem_map.2 ⟨x, hx', rfl⟩)
  · rw [hs']
    show (assemble (kickStale cfg (noted s slot))).filterMap _ = _
    unfold assemble
    rw [r5]
    rfl

/-- C164: an account becomes a candidate only by its own call, with keys, with at least the bond asked for put up, and if it
is not named. -/
theorem C164_own (e : Event) (a : AccountId) :
    let s := run cfg (genesis l b d p) h
    let s' := apply cfg s e
    a ∈ s'.cands.map Cand.who → a ∉ s.cands.map Cand.who →
    (e = .call (.signed a) .register ∨ ∃ v t, e = .call (.signed a) (.takeSlot v t)) ∧
    s.keys a ≠ none ∧ a ∉ s.invulnerables ∧ ∃ v, s.bond ≤ v ∧ PutUp s' a v := by
  intro s s' ha hn
  have i : Inv s := run_inv cfg h (genesis_inv l b d p)
  obtain ⟨c, hc, rfl⟩ := List.mem_map.1 ha
  have i' : Inv s' := (apply_inv cfg i e).1
  cases e with
  | block slot =>
    exfalso
    have i1 := noted_inv i slot
    have h3 := (noteAuthor_fields { s with now := s.now + 1 } slot).2.2.1
    by_cases ht : (s.now + 1) % period = 0
    · have hs' : s' = rotate cfg (noted s slot) := block_turn cfg s slot ht
      rw [hs'] at hc
      obtain ⟨-, -, h4, -⟩ := kickAll_inv cfg ((noted s slot).cands.map Cand.who) i1
      have := h4.subset hc
      rw [show (noted s slot).cands = s.cands from h3] at this
      exact hn (List.mem_map.2 ⟨c, this, rfl⟩)
    · have hs' : s' = noted s slot := block_plain cfg s slot ht
      rw [hs', h3] at hc
      exact hn (List.mem_map.2 ⟨c, hc, rfl⟩)
  | other a q v =>
    exfalso
    refine hn (List.mem_map.2 ⟨c, ?_, rfl⟩)
    have : s'.cands = s.cands := by show (apply cfg s (.other a q v)).cands = _; unfold apply; simp only; split_ifs <;> rfl
    rwa [this] at hc
  | call o k =>
    cases hd : dispatch cfg s o k with
    | error e =>
      exfalso
      have : s' = s := by show apply cfg s (.call o k) = s; simp only [apply, hd]
      rw [this] at ha; exact hn ha
    | ok t =>
      have hst : s' = t := by show apply cfg s (.call o k) = t; simp only [apply, hd]
      have hsub : ∀ L : List Cand, t.cands = L → (∀ x ∈ L.map Cand.who, x ∈ s.cands.map Cand.who) → False := fun L hL hx =>
        hn (hx _ (List.mem_map.2 ⟨c, by rw [← hL, ← hst]; exact hc, rfl⟩))
      have hd' := hd
      unfold dispatch at hd
      split at hd
      · obtain ⟨-, -, rfl⟩ := setInvulnerables_eq hd; exact (hsub _ rfl fun x hx => hx).elim
      · cases hd; exact (hsub _ rfl fun x hx => hx).elim
      · cases hd
        rename_i bb
        refine (hsub _ rfl fun x hx => ?_).elim
        rcases setBond_eq s bb with ⟨-, he⟩ | ⟨-, K, R, hl, -, -, he⟩
        · rw [he] at hx; exact hx
        · rw [he] at hx; rw [hl, List.map_append]; exact List.mem_append_right _ hx
      · obtain ⟨-, -, -, rfl⟩ := addInvulnerable_eq hd
        rename_i x
        have i1 : Inv { s with invulnerables := s.invulnerables.orderedInsert (· ≤ ·) x } := i.same rfl rfl rfl rfl
        exact (hsub _ rfl fun y hy => ((removeCand_inv i1 x false).2.2.1.map Cand.who).subset hy).elim
      · obtain ⟨-, -, rfl⟩ := removeInvulnerable_eq hd; exact (hsub _ rfl fun x hx => hx).elim
      · obtain ⟨-, h2, h3, -, s1, h5, rfl⟩ := register_eq hd
        rename_i who
        have hm : c ∈ (⟨who, s.bond⟩ : Cand) :: s.cands := by rw [hst] at hc; exact hc
        rcases List.mem_cons.1 hm with rfl | hm
        · exact ⟨.inl rfl, Option.isSome_iff_ne_none.1 h3, h2, s.bond, Nat.le_refl _, .inl ⟨_, hc, rfl, rfl⟩⟩
        · exact absurd (List.mem_map.2 ⟨c, hm, rfl⟩) hn
      · obtain ⟨-, -, rfl⟩ := leave_eq.1 hd
        exact (hsub _ rfl fun y hy => ((removeCand_inv i _ true).2.2.1.map Cand.who).subset hy).elim
      · obtain ⟨-, A, c', B, s1, hl, rfl, -, rfl⟩ := updateBond_eq hd
        rename_i new
        refine (hsub _ rfl fun y hy => ?_).elim
        rw [hl]
        exact (List.perm_middle.map Cand.who).mem_iff.2 (((place_perm (A ++ B) ⟨c'.who, new⟩).map Cand.who).mem_iff.1 hy)
      · obtain ⟨h1, h2, h3, -, A, t', B, s1, hl, rfl, -, -, rfl⟩ := takeSlot_eq i.sorted hd
        rename_i who v
        have hm : c ∈ A ++ place B ⟨who, v⟩ := by rw [hst] at hc; exact hc
        have hm := (((place_perm B ⟨who, v⟩).append_left A).trans List.perm_middle).mem_iff.1 hm
        rcases List.mem_cons.1 hm with rfl | hm
        · exact ⟨.inr ⟨v, _, rfl⟩, Option.isSome_iff_ne_none.1 h3, h1, v, h2, .inl ⟨_, hc, rfl, rfl⟩⟩
        · refine absurd (List.mem_map.2 ⟨c, ?_, rfl⟩) hn
          rw [hl]; exact List.perm_middle.mem_iff.2 (List.mem_cons_of_mem _ hm)
      · obtain ⟨-, rfl⟩ := setKeys_eq hd; exact (hsub _ rfl fun x hx => hx).elim
      · obtain ⟨k, -, rfl⟩ := purgeKeys_eq hd; exact (hsub _ rfl fun x hx => hx).elim
      · cases hd

/-- C164: the list of named accounts changes only by a call of root or council, and nobody is named without keys. -/
theorem C164_named (e : Event) :
    let s := run cfg (genesis l b d p) h
    let s' := apply cfg s e
    s'.invulnerables ≠ s.invulnerables →
    (∃ c, e = .call .update c) ∧ ∀ a ∈ s'.invulnerables, a ∉ s.invulnerables →
      s.keys a ≠ none ∧ (e = .call .update (.addInvulnerable a) ∨ ∃ new, e = .call .update (.setInvulnerables new) ∧ a ∈ new) := by
  intro s s' hne
  have i : Inv s := run_inv cfg h (genesis_inv l b d p)
  cases e with
  | block slot =>
    exfalso
    apply hne
    have h3 := (noteAuthor_fields { s with now := s.now + 1 } slot).2.2.2.invulnerables
    by_cases ht : (s.now + 1) % period = 0
    · have hs' : s' = rotate cfg (noted s slot) := block_turn cfg s slot ht
      rw [hs', (rotate_rest cfg (noted_inv i slot)).2.2.1]; exact h3
    · have hs' : s' = noted s slot := block_plain cfg s slot ht
      rw [hs']; exact h3
  | other a q v =>
    exfalso
    apply hne
    show (apply cfg s (.other a q v)).invulnerables = _; unfold apply; simp only; split_ifs <;> rfl
  | call o k =>
    cases hd : dispatch cfg s o k with
    | error e =>
      have : s' = s := by show apply cfg s (.call o k) = s; simp only [apply, hd]
      rw [this] at hne; exact absurd rfl hne
    | ok t =>
      obtain rfl : s' = t := by show apply cfg s (.call o k) = t; simp only [apply, hd]
      unfold dispatch at hd
      split at hd
      · obtain ⟨-, -, he⟩ := setInvulnerables_eq hd
        rename_i new
        refine ⟨⟨_, rfl⟩, fun a ha _ => ?_⟩
        rw [he] at ha
        have ha := (List.perm_insertionSort _ _).mem_iff.1 ha
        obtain ⟨ha1, ha2⟩ := List.mem_filter.1 ha
        exact ⟨Option.isSome_iff_ne_none.1 (of_decide_eq_true ha2), .inr ⟨new, rfl, ha1⟩⟩
      · cases hd; exact absurd rfl hne
      · rename_i bb
        have hs : s' = setBond s bb := (Except.ok.inj hd).symm
        exfalso; apply hne
        rw [hs]
        rcases setBond_eq s bb with ⟨-, he⟩ | ⟨-, K, R, hl, -, -, he⟩
        · rw [he]
        · rw [he]; exact (dropAll_rest K { s with bond := bb }).invulnerables
      · obtain ⟨h1, -, -, he⟩ := addInvulnerable_eq hd
        rename_i x
        refine ⟨⟨_, rfl⟩, fun a ha hna => ?_⟩
        rw [he, (removeCand_rest _ x false).invulnerables] at ha
        rcases List.mem_cons.1 ((List.perm_orderedInsert _ x s.invulnerables).mem_iff.1 ha) with rfl | ha
        · exact ⟨Option.isSome_iff_ne_none.1 h1, .inl rfl⟩
        · exact absurd ha hna
      · obtain ⟨-, -, he⟩ := removeInvulnerable_eq hd
        refine ⟨⟨_, rfl⟩, fun a ha hna => ?_⟩
        rw [he] at ha
        exact absurd (List.mem_of_mem_erase ha) hna
      · obtain ⟨-, -, -, -, s1, h5, he⟩ := register_eq hd
        obtain ⟨q, rfl, -⟩ := reserve_eq h5
        rw [he] at hne; exact absurd rfl hne
      · obtain ⟨-, -, he⟩ := leave_eq.1 hd
        rw [← he, (removeCand_rest _ _ true).invulnerables] at hne; exact absurd rfl hne
      · obtain ⟨-, A, c', B, s1, hl, rfl, h2, he⟩ := updateBond_eq hd
        rcases h2 with ⟨-, h4⟩ | ⟨-, -, rfl⟩
        · obtain ⟨q, rfl, -⟩ := reserve_eq h4; rw [he] at hne; exact absurd rfl hne
        · rw [he] at hne; exact absurd rfl hne
      · obtain ⟨-, -, -, -, A, t', B, s1, hl, rfl, -, h6, he⟩ := takeSlot_eq i.sorted hd
        obtain ⟨q, rfl, -⟩ := reserve_eq h6
        rw [he] at hne; exact absurd rfl hne
      · obtain ⟨-, he⟩ := setKeys_eq hd; rw [he] at hne; exact absurd rfl hne
      · obtain ⟨k, -, he⟩ := purgeKeys_eq hd; rw [he] at hne; exact absurd rfl hne
      · cases hd

/-- C164: how a candidate loses its place: by its own call, to somebody who puts up more, when the bond asked for rises above
its own, when it is named, or at a turn, if it has made no block in the six hours before and joined twelve hours before or
has made a block since. Missing: that it was among the makers in these six hours (`C164_chance_false`). -/
theorem C164_place_partial (e : Event) (c : Cand) :
    let s := run cfg (genesis l b d p) h
    let s' := apply cfg s e
    c ∈ s.cands → c.who ∉ s'.cands.map Cand.who →
    e = .call (.signed c.who) .leave ∨
    (∃ w v, e = .call (.signed w) (.takeSlot v c.who) ∧ c.deposit < v) ∨
    (∃ v, e = .call .update (.setBond v) ∧ c.deposit < v) ∨
    e = .call .update (.addInvulnerable c.who) ∨
    ∃ slot, e = .block slot ∧ (s.now + 1) % 1800 = 0 ∧ (c.who ∈ s.invulnerables ∨
      ((∀ n, (n, c.who) ∈ s'.made → n + 1800 ≤ s'.now) ∧
       (s.joined c.who + 3600 ≤ s'.now ∨ ∃ n, (n, c.who) ∈ s'.made ∧ s.joined c.who ≤ n))) := by
  intro s s' hc hg
  have i : Inv s := run_inv cfg h (genesis_inv l b d p)
  have m : Mem s := run_mem cfg h (genesis_inv l b d p) (genesis_mem l b d p)
  have hcw : c.who ∈ s.cands.map Cand.who := List.mem_map.2 ⟨c, hc, rfl⟩
  have stays : ∀ {P : Prop}, s'.cands = s.cands → P := fun h => absurd hcw (by rw [← h]; exact hg)
  cases e with
  | block slot =>
    right; right; right; right
    have i1 := noted_inv i slot
    obtain ⟨-, -, h3, h4⟩ := noteAuthor_fields { s with now := s.now + 1 } slot
    by_cases ht : (s.now + 1) % period = 0
    · refine ⟨slot, rfl, ht, ?_⟩
      have hs' : s' = rotate cfg (noted s slot) := block_turn cfg s slot ht
      have hc1 : c ∈ (noted s slot).cands := by rw [show (noted s slot).cands = s.cands from h3]; exact hc
      have hg1 : c ∉ (kickStale cfg (noted s slot)).cands := fun hx => hg (by
        rw [hs']; exact List.mem_map.2 ⟨c, hx, rfl⟩)
      have m1 : Mem (noted s slot) := note_mem m slot
      obtain ⟨r1, r2, -⟩ := rotate_rest cfg i1
      have hcw1 : c.who ∈ (noted s slot).cands.map Cand.who := List.mem_map.2 ⟨c, hc1, rfl⟩
      have hj : (noted s slot).joined = s.joined := h4.joined
      rw [hs', r1, r2]
      rcases kickAll_gone cfg _ i1 c hc1 hg1 with hin | hlazy
      · left
        rw [show (noted s slot).invulnerables = s.invulnerables from h4.invulnerables] at hin
        exact hin
      · right
        unfold kick at hlazy
        refine ⟨fun n hn => ?_, ?_⟩
        · have := m1.last n c.who hn hcw1
          omega
        · rcases m1.from' c.who hcw1 with hf | ⟨hf1, hf2⟩
          · left; rw [hj] at hf; unfold kick at hf; omega
          · right; rw [hj] at hf1; exact ⟨_, hf2, hf1⟩
    · have hs' : s' = noted s slot := block_plain cfg s slot ht
      exact stays (by rw [hs']; exact h3)
  | other a q v =>
    exact stays (by show (apply cfg s (.other a q v)).cands = _; unfold apply; simp only; split_ifs <;> rfl)
  | call o k =>
    cases hd : dispatch cfg s o k with
    | error e => exact stays (by show (apply cfg s (.call o k)).cands = _; simp only [apply, hd])
    | ok t =>
      obtain rfl : s' = t := by show apply cfg s (.call o k) = t; simp only [apply, hd]
      unfold dispatch at hd
      split at hd
      · obtain ⟨-, -, he⟩ := setInvulnerables_eq hd; exact stays (by rw [he])
      · cases hd; exact stays rfl
      · rename_i bb
        have hs : s' = setBond s bb := (Except.ok.inj hd).symm
        right; right; left
        refine ⟨bb, rfl, ?_⟩
        rcases setBond_split i.sorted bb with ⟨-, he⟩ | ⟨-, K, R, hl, hK, -, he⟩
        · exact stays (by rw [hs, he])
        · rw [hl] at hc
          rcases List.mem_append.1 hc with hk | hr
          · exact hK c hk
          · exact absurd (List.mem_map.2 ⟨c, hr, rfl⟩) (by rw [hs, he] at hg; exact hg)
      · obtain ⟨-, -, -, he⟩ := addInvulnerable_eq hd
        rename_i x
        have i1 : Inv { s with invulnerables := s.invulnerables.orderedInsert (· ≤ ·) x } := i.same rfl rfl rfl rfl
        by_cases hx : c.who = x
        · subst hx; exact .inr (.inr (.inr (.inl rfl)))
        · have := ((removeCand_inv i1 x false).2.2.2.2 c hc hx).1
          exact absurd (List.mem_map.2 ⟨c, this, rfl⟩) (by rw [he] at hg; exact hg)
      · obtain ⟨-, -, he⟩ := removeInvulnerable_eq hd; exact stays (by rw [he])
      · obtain ⟨-, -, -, -, s1, h5, he⟩ := register_eq hd
        exact absurd (List.mem_cons_of_mem _ hcw) (by rw [he] at hg; exact hg)
      · obtain ⟨-, -, he⟩ := leave_eq.1 hd
        rename_i who
        by_cases hx : c.who = who
        · subst hx; exact .inl rfl
        · have := ((removeCand_inv i who true).2.2.2.2 c hc hx).1
          exact absurd (List.mem_map.2 ⟨c, this, rfl⟩) (by rw [← he] at hg; exact hg)
      · obtain ⟨-, A, c', B, s1, hl, rfl, h2, he⟩ := updateBond_eq hd
        rw [he] at hg
        refine absurd ?_ hg
        rw [hl] at hcw
        have hcw := (List.perm_middle.map Cand.who).mem_iff.1 hcw
        exact ((place_perm (A ++ B) _).map Cand.who).mem_iff.2 hcw
      · obtain ⟨-, -, -, -, A, t', B, s1, hl, rfl, hlt, h6, he⟩ := takeSlot_eq i.sorted hd
        rename_i who v
        rw [he] at hg
        by_cases hx : c.who = t'.who
        · right; left
          obtain rfl : c = t' := List.inj_on_of_nodup_map i.nodup hc (by rw [hl]; simp) hx
          exact ⟨who, v, rfl, hlt⟩
        · refine absurd ?_ hg
          rw [hl] at hcw
          have := (List.perm_middle.map Cand.who).mem_iff.1 hcw
          rcases List.mem_cons.1 this with h | h
          · exact absurd h hx
          · exact ((((place_perm B ⟨who, v⟩).append_left A).trans List.perm_middle).map Cand.who).mem_iff.2
              (List.mem_cons_of_mem _ h)
      · obtain ⟨-, he⟩ := setKeys_eq hd; exact stays (by rw [he])
      · obtain ⟨k, -, he⟩ := purgeKeys_eq hd; exact stays (by rw [he])
      · cases hd

/-- C164: the keys that may make blocks are never none: there is always somebody who can make the next block. -/
theorem C164_always (hl : Start cfg l) : (run cfg (genesis l b d p) h).authorities ≠ [] := by
  have key : ∀ (h : List Event) {s : State}, Inv s → s.authorities ≠ [] → (run cfg s h).authorities ≠ [] := by
    intro h
    induction h with
    | nil => intro s _ hs; exact hs
    | cons e h ih =>
      intro s i hs
      refine ih (apply_inv cfg i e).1 ?_
      cases e with
      | block slot =>
        have h4 := (noteAuthor_fields { s with now := s.now + 1 } slot).2.2.2.authorities
        by_cases ht : (s.now + 1) % period = 0
        · show (block cfg s slot).authorities ≠ []
          rw [block_turn cfg s slot ht]
          show (if (noted s slot).queued = [] then (noted s slot).authorities else (noted s slot).queued.map Prod.snd) ≠ []
          split_ifs with hq
          · rw [show (noted s slot).authorities = s.authorities from h4]; exact hs
          · simpa using hq
        · show (block cfg s slot).authorities ≠ []
          rw [block_plain cfg s slot ht, show (noted s slot).authorities = s.authorities from h4]; exact hs
      | other a q v => unfold apply; simp only; split_ifs <;> exact hs
      | call o k =>
        unfold apply
        simp only
        cases hd : dispatch cfg s o k with
        | error e => exact hs
        | ok t =>
          have : t.authorities = s.authorities := by
            unfold dispatch at hd
            split at hd
            · obtain ⟨-, -, rfl⟩ := setInvulnerables_eq hd; rfl
            · cases hd; rfl
            · rename_i bb
              have hs : t = setBond s bb := (Except.ok.inj hd).symm
              rw [hs]
              rcases setBond_eq s bb with ⟨-, he⟩ | ⟨-, K, R, hl, -, -, he⟩
              · rw [he]
              · rw [he]; exact (dropAll_rest K { s with bond := bb }).authorities
            · obtain ⟨-, -, -, rfl⟩ := addInvulnerable_eq hd; rw [(removeCand_rest _ _ false).authorities]
            · obtain ⟨-, -, rfl⟩ := removeInvulnerable_eq hd; rfl
            · obtain ⟨-, -, -, -, s1, h5, rfl⟩ := register_eq hd
              obtain ⟨q, rfl, -⟩ := reserve_eq h5; rfl
            · obtain ⟨-, -, rfl⟩ := leave_eq.1 hd; rw [(removeCand_rest _ _ true).authorities]
            · obtain ⟨-, A, c', B, s1, hl, rfl, h2, rfl⟩ := updateBond_eq hd
              rcases h2 with ⟨-, h4⟩ | ⟨-, -, rfl⟩
              · obtain ⟨q, rfl, -⟩ := reserve_eq h4; rfl
              · rfl
            · obtain ⟨-, -, -, -, A, t', B, s1, hl, rfl, -, h6, rfl⟩ := takeSlot_eq i.sorted hd
              obtain ⟨q, rfl, -⟩ := reserve_eq h6; rfl
            · obtain ⟨-, rfl⟩ := setKeys_eq hd; rfl
            · obtain ⟨k, -, rfl⟩ := purgeKeys_eq hd; rfl
            · cases hd
          show t.authorities ≠ []
          rw [this]; exact hs
  refine key h (genesis_inv l b d p) ?_
  obtain ⟨h1, -⟩ := hl
  cases l with
  | nil => exact absurd rfl h1
  | cons x l =>
    intro hnil
    have hx : x.1 ∈ ((x :: l).map Prod.fst).insertionSort (· ≤ ·) :=
      (List.perm_insertionSort _ _).mem_iff.2 (by simp)
    have := List.filterMap_eq_nil_iff.1 hnil x.1 hx
    simp at this
end

end Verif.Collators
