import Verif.Collators.Props
/-! # C164: whose keys make the blocks, nobody twice, and at least somebody -/

namespace Verif.Collators
open Verif.Wrapped (put)
open Verif.Deposits (Purse existential)

/-- Calls leave the sessions alone. -/
theorem dispatch_session {cfg : Config} {s t : State} {o : Origin} {c : Call} (hd : dispatch cfg s o c = .ok t) (i : Inv s) :
    t.queued = s.queued ∧ t.validators = s.validators ∧ t.authorities = s.authorities := by
  unfold dispatch at hd
  split at hd
  · obtain ⟨-, -, rfl⟩ := setInvulnerables_eq hd; exact ⟨rfl, rfl, rfl⟩
  · cases hd; exact ⟨rfl, rfl, rfl⟩
  · rename_i bb
    obtain rfl : t = setBond s bb := (Except.ok.inj hd).symm
    rcases setBond_eq s bb with ⟨-, he⟩ | ⟨-, K, R, hl, -, -, he⟩
    · rw [he]; exact ⟨rfl, rfl, rfl⟩
    · have hr := dropAll_rest K { s with bond := bb }
      rw [he]; exact ⟨hr.queued, hr.validators, hr.authorities⟩
  · obtain ⟨-, -, -, rfl⟩ := addInvulnerable_eq hd
    rename_i x
    have hr := removeCand_rest { s with invulnerables := s.invulnerables.orderedInsert (· ≤ ·) x } x false
    exact ⟨hr.queued, hr.validators, hr.authorities⟩
  · obtain ⟨-, -, rfl⟩ := removeInvulnerable_eq hd; exact ⟨rfl, rfl, rfl⟩
  · obtain ⟨-, -, -, -, s1, h5, rfl⟩ := register_eq hd
    obtain ⟨q, rfl, -⟩ := reserve_eq h5; exact ⟨rfl, rfl, rfl⟩
  · obtain ⟨-, -, rfl⟩ := leave_eq.1 hd
    rename_i who
    have hr := removeCand_rest s who true
    exact ⟨hr.queued, hr.validators, hr.authorities⟩
  · obtain ⟨-, A, c', B, s1, hl, rfl, h2, rfl⟩ := updateBond_eq hd
    rcases h2 with ⟨-, h4⟩ | ⟨-, -, rfl⟩
    · obtain ⟨q, rfl, -⟩ := reserve_eq h4; exact ⟨rfl, rfl, rfl⟩
    · exact ⟨rfl, rfl, rfl⟩
  · obtain ⟨-, -, -, -, A, t', B, s1, hl, rfl, -, h6, rfl⟩ := takeSlot_eq i.sorted hd
    obtain ⟨q, rfl, -⟩ := reserve_eq h6; exact ⟨rfl, rfl, rfl⟩
  · obtain ⟨-, rfl⟩ := setKeys_eq hd; exact ⟨rfl, rfl, rfl⟩
  · obtain ⟨k, -, rfl⟩ := purgeKeys_eq hd; exact ⟨rfl, rfl, rfl⟩
  · cases hd

theorem find_key {l : List (AccountId × Nat)} {a : AccountId} (h : a ∈ l.map Prod.fst) :
    ∃ k, (l.find? (fun p => decide (p.1 = a))).map Prod.snd = some k := by
  obtain ⟨x, hx, rfl⟩ := List.mem_map.1 h
  cases hf : l.find? (fun p => decide (p.1 = x.1)) with
  | some y => exact ⟨y.2, rfl⟩
  | none => exact absurd (List.find?_eq_none.1 hf x hx) (by simp)

theorem filterMap_keys (f : AccountId → Option Nat) (m : List AccountId) (h : ∀ a ∈ m, ∃ k, f a = some k) :
    (m.filterMap (fun a => (f a).map (fun k => (a, k)))).map Prod.fst = m ∧
    (m.filterMap (fun a => (f a).map (fun k => (a, k)))).map Prod.snd = m.filterMap f := by
  induction m with
  | nil => exact ⟨rfl, rfl⟩
  | cons a m ih =>
    obtain ⟨k, hk⟩ := h a List.mem_cons_self
    obtain ⟨h1, h2⟩ := ih (fun b hb => h b (List.mem_cons_of_mem _ hb))
    simp [hk, h1, h2]

section
variable (cfg : Config) (l : List (AccountId × Nat)) (b : Balance) (d : Nat) (p : AccountId → Balance)

/-- At every time the makers are those planned at an earlier time, in the same order as their keys. -/
theorem session_of (h : List Event) :
    let s := run cfg (genesis l b d p) h
    ∃ h', h' <+: h ∧ s.validators = (run cfg (genesis l b d p) h').queued.map Prod.fst ∧
      ((run cfg (genesis l b d p) h').queued ≠ [] → s.authorities = (run cfg (genesis l b d p) h').queued.map Prod.snd) := by
  induction h using List.reverseRecOn with
  | nil =>
    have hm : ∀ a ∈ (l.map Prod.fst).insertionSort (· ≤ ·), ∃ k, (l.find? (fun p => decide (p.1 = a))).map Prod.snd = some k :=
      fun a ha => find_key ((List.perm_insertionSort _ _).mem_iff.1 ha)
    obtain ⟨h1, h2⟩ := filterMap_keys _ _ hm
    exact ⟨[], List.prefix_rfl, h1.symm, fun _ => h2.symm⟩
  | append_singleton h e ih =>
    obtain ⟨h', hp, h1, h2⟩ := ih
    have i : Inv (run cfg (genesis l b d p) h) := run_inv cfg h (genesis_inv l b d p)
    rw [run_append]
    generalize hs : run cfg (genesis l b d p) h = s at *
    have same : (apply cfg s e).validators = s.validators → (apply cfg s e).authorities = s.authorities →
        ∃ h', h' <+: h ++ [e] ∧ (apply cfg s e).validators = (run cfg (genesis l b d p) h').queued.map Prod.fst ∧
          ((run cfg (genesis l b d p) h').queued ≠ [] →
            (apply cfg s e).authorities = (run cfg (genesis l b d p) h').queued.map Prod.snd) := fun e1 e2 =>
      ⟨h', hp.trans (List.prefix_append _ _), by rw [e1]; exact h1, by rw [e2]; exact h2⟩
    cases e with
    | block slot =>
      have h4 := (noteAuthor_fields { s with now := s.now + 1 } slot).2.2.2
      by_cases ht : (s.now + 1) % period = 0
      · refine ⟨h, List.prefix_append _ _, ?_, fun hq => ?_⟩
        · show (block cfg s slot).validators = _
          rw [block_turn cfg s slot ht, hs]
          show (noted s slot).queued.map Prod.fst = _
          rw [show (noted s slot).queued = s.queued from h4.queued]
        · show (block cfg s slot).authorities = _
          rw [hs] at hq ⊢
          rw [block_turn cfg s slot ht]
          show (if (noted s slot).queued = [] then (noted s slot).authorities else (noted s slot).queued.map Prod.snd) = _
          rw [show (noted s slot).queued = s.queued from h4.queued, if_neg hq]
      · have he : apply cfg s (.block slot) = noted s slot := block_plain cfg s slot ht
        exact same (by rw [he]; exact h4.validators) (by rw [he]; exact h4.authorities)
    | other a q v =>
      have : (apply cfg s (.other a q v)).validators = s.validators ∧ (apply cfg s (.other a q v)).authorities = s.authorities := by
        unfold apply; simp only; split_ifs <;> exact ⟨rfl, rfl⟩
      exact same this.1 this.2
    | call o k =>
      cases hd : dispatch cfg s o k with
      | error e => exact same (by simp only [apply, hd]) (by simp only [apply, hd])
      | ok t =>
        obtain ⟨-, e1, e2⟩ := dispatch_session hd i
        exact same (by simp only [apply, hd]; exact e1) (by simp only [apply, hd]; exact e2)

/-- C164: whoever is recorded as maker of a block had been chosen at an earlier turn, with the key that the slot of the block
is for. -/
theorem C164_maker (h : List Event) (slot : Nat) :
    let s := run cfg (genesis l b d p) h
    let s' := apply cfg s (.block slot)
    s'.made ≠ s.made →
    ∃ h' a k, h' <+: h ∧ (a, k) ∈ (run cfg (genesis l b d p) h').queued ∧
      s.authorities[slot % s.authorities.length]? = some k ∧ s'.made = (s'.now, a) :: s.made := by
  intro s s' hne
  have i : Inv s := run_inv cfg h (genesis_inv l b d p)
  have hs' : s'.made = (noted s slot).made ∧ s'.now = s.now + 1 := by
    by_cases ht : (s.now + 1) % period = 0
    · have he : s' = rotate cfg (noted s slot) := block_turn cfg s slot ht
      obtain ⟨r1, r2, -⟩ := rotate_rest cfg (noted_inv i slot)
      rw [he]; exact ⟨r1, r2.trans (noted_now s slot)⟩
    · have he : s' = noted s slot := block_plain cfg s slot ht
      rw [he]; exact ⟨rfl, noted_now s slot⟩
  obtain ⟨h', hp, h1, h2⟩ := session_of cfg l b d p h
  have h1 : s.validators = _ := h1
  have h2 : _ → s.authorities = _ := h2
  rw [hs'.1] at hne ⊢
  rw [hs'.2]
  cases hv : s.validators[slot % s.authorities.length]? with
  | none => exact absurd (by unfold noted noteAuthor; rw [show ({ s with now := s.now + 1 } : State).validators[
      slot % ({ s with now := s.now + 1 } : State).authorities.length]? = none from hv]) hne
  | some a =>
    have hm : (noted s slot).made = (s.now + 1, a) :: s.made := by
      unfold noted noteAuthor; rw [show ({ s with now := s.now + 1 } : State).validators[
      slot % ({ s with now := s.now + 1 } : State).authorities.length]? = some a from hv]
    have hq : (run cfg (genesis l b d p) h').queued ≠ [] := by
      intro e; rw [h1, e] at hv; simp at hv
    have h2 := h2 hq
    rw [h1, List.getElem?_map] at hv
    cases hx : (run cfg (genesis l b d p) h').queued[slot % s.authorities.length]? with
    | none => rw [hx] at hv; cases hv
    | some x =>
      rw [hx] at hv
      obtain rfl : x.1 = a := Option.some.inj hv
      refine ⟨h', x.1, x.2, hp, List.mem_of_getElem? hx, ?_, hm⟩
      conv_lhs => rw [h2]
      rw [List.getElem?_map, show (List.map Prod.snd (run cfg (genesis l b d p) h').queued).length = s.authorities.length by rw [h2],
        hx]
      rfl

/-! ## Nobody twice -/

/-- No list of names given by root or council names an account twice. -/
def Distinct (h : List Event) : Prop := ∀ new, .call .update (.setInvulnerables new) ∈ h → new.Nodup

theorem once_of {s : State} (i : Inv s) {e : Event} (hn : s.invulnerables.Nodup)
    (he : ∀ new, e = .call .update (.setInvulnerables new) → new.Nodup) : (apply cfg s e).invulnerables.Nodup := by
  cases e with
  | block slot =>
    have h4 := (noteAuthor_fields { s with now := s.now + 1 } slot).2.2.2
    by_cases ht : (s.now + 1) % period = 0
    · show (block cfg s slot).invulnerables.Nodup
      rw [block_turn cfg s slot ht, (rotate_rest cfg (noted_inv i slot)).2.2.1,
        show (noted s slot).invulnerables = s.invulnerables from h4.invulnerables]; exact hn
    · show (block cfg s slot).invulnerables.Nodup
      rw [block_plain cfg s slot ht, show (noted s slot).invulnerables = s.invulnerables from h4.invulnerables]; exact hn
  | other a q v => unfold apply; simp only; split_ifs <;> exact hn
  | call o k =>
    unfold apply
    simp only
    cases hd : dispatch cfg s o k with
    | error e => exact hn
    | ok t =>
      show t.invulnerables.Nodup
      unfold dispatch at hd
      split at hd
      · obtain ⟨-, -, rfl⟩ := setInvulnerables_eq hd
        exact (List.perm_insertionSort _ _).nodup_iff.2 ((he _ rfl).filter _)
      · cases hd; exact hn
      · rename_i bb
        obtain rfl : t = setBond s bb := (Except.ok.inj hd).symm
        rcases setBond_eq s bb with ⟨-, he⟩ | ⟨-, K, R, hl, -, -, he⟩
        · rw [he]; exact hn
        · rw [he]
          show (K.foldl dropOne { s with bond := bb }).invulnerables.Nodup
          rw [(dropAll_rest K { s with bond := bb }).invulnerables]; exact hn
      · obtain ⟨-, h2, -, rfl⟩ := addInvulnerable_eq hd
        rw [(removeCand_rest _ _ false).invulnerables]
        exact (List.perm_orderedInsert _ _ _).nodup_iff.2 (List.nodup_cons.2 ⟨h2, hn⟩)
      · obtain ⟨-, -, rfl⟩ := removeInvulnerable_eq hd; exact hn.erase _
      · obtain ⟨-, -, -, -, s1, h5, rfl⟩ := register_eq hd
        obtain ⟨q, rfl, -⟩ := reserve_eq h5; exact hn
      · obtain ⟨-, -, rfl⟩ := leave_eq.1 hd
        rw [(removeCand_rest _ _ true).invulnerables]; exact hn
      · obtain ⟨-, A, c', B, s1, hl, rfl, h2, rfl⟩ := updateBond_eq hd
        rcases h2 with ⟨-, h4⟩ | ⟨-, -, rfl⟩
        · obtain ⟨q, rfl, -⟩ := reserve_eq h4; exact hn
        · exact hn
      · obtain ⟨-, -, -, -, A, t', B, s1, hl, rfl, -, h6, rfl⟩ := takeSlot_eq i.sorted hd
        obtain ⟨q, rfl, -⟩ := reserve_eq h6; exact hn
      · obtain ⟨-, rfl⟩ := setKeys_eq hd; exact hn
      · obtain ⟨k, -, rfl⟩ := purgeKeys_eq hd; exact hn
      · cases hd

theorem named_once (hl : Start cfg l) (h : List Event) (hd : Distinct h) :
    (run cfg (genesis l b d p) h).invulnerables.Nodup := by
  induction h using List.reverseRecOn with
  | nil => exact (List.perm_insertionSort _ _).nodup_iff.2 hl.2.1
  | append_singleton h e ih =>
    rw [run_append]
    refine once_of cfg (run_inv cfg h (genesis_inv l b d p)) (ih fun new hn => hd new (List.mem_append_left _ hn)) ?_
    rintro new rfl
    exact hd new (by simp)

/-- C164: nobody is chosen twice. Missing: root and council may name an account twice (`C164_once_false`). -/
theorem C164_once_partial (hl : Start cfg l) (h : List Event) (hd : Distinct h) (slot : Nat) :
    let s := run cfg (genesis l b d p) h
    (s.now + 1) % 1800 = 0 → ((apply cfg s (.block slot)).queued.map Prod.fst).Nodup := by
  intro s ht
  obtain ⟨top, rest, -, -, -, h4, h5, h6⟩ := C164_chosen cfg l b d p h slot ht
  have h6 : (apply cfg s (.block slot)).queued = _ := h6
  have hn : (apply cfg s (.block slot)).invulnerables.Nodup := by
    have := named_once cfg l b d p hl (h ++ [.block slot]) (fun new hn => hd new (by simpa using hn))
    rwa [run_append] at this
  rw [h6]
  have key : ∀ (f : AccountId → Option Nat) (m : List AccountId), m.Nodup →
      ((m.filterMap (fun a => (f a).map (fun k => (a, k)))).map Prod.fst).Nodup := by
    intro f m hm
    refine hm.sublist ?_
    clear hm
    induction m with
    | nil => exact .refl _
    | cons a m ih =>
      cases hf : f a with
      | none => simp only [List.filterMap_cons, hf, Option.map_none]; exact ih.cons _
      | some k => simp only [List.filterMap_cons, hf, Option.map_some, List.map_cons]; exact ih.cons_cons _
  refine key _ _ (List.nodup_append.2 ⟨hn, h4, ?_⟩)
  rintro a ha c hc rfl
  obtain ⟨x, hx, rfl⟩ := List.mem_map.1 hc
  exact h5 x hx ha
end

/-! ## At least somebody -/

/-- Root and council name, if anybody, somebody with keys, and do not ask for a bond that no candidate has put up when nobody
is named. -/
def Careful (cfg : Config) (s : State) : List Event → Prop
  | [] => True
  | e :: h => (∀ new, e = .call .update (.setInvulnerables new) → new = [] ∨ ∃ a ∈ new, s.keys a ≠ none) ∧
    (∀ v, e = .call .update (.setBond v) → s.invulnerables ≠ [] ∨ ∃ c ∈ s.cands, v ≤ c.deposit) ∧
    Careful cfg (apply cfg s e) h

theorem some_of {s : State} (i : Inv s) {e : Event} (hp : 0 < eligible s)
    (h1 : ∀ new, e = .call .update (.setInvulnerables new) → new = [] ∨ ∃ a ∈ new, s.keys a ≠ none)
    (h2 : ∀ v, e = .call .update (.setBond v) → s.invulnerables ≠ [] ∨ ∃ c ∈ s.cands, v ≤ c.deposit) :
    0 < eligible (apply mainnet s e) := by
  cases e with
  | block slot =>
    obtain ⟨-, -, h3, h4⟩ := noteAuthor_fields { s with now := s.now + 1 } slot
    have hp1 : 0 < eligible (noted s slot) := by
      unfold eligible
      rw [show (noted s slot).cands = s.cands from h3, show (noted s slot).invulnerables = s.invulnerables from h4.invulnerables]
      exact hp
    by_cases ht : (s.now + 1) % period = 0
    · show 0 < eligible (block mainnet s slot)
      rw [block_turn mainnet s slot ht]
      exact kickAll_eligible _ (noted_inv i slot) hp1
    · show 0 < eligible (block mainnet s slot)
      rw [block_plain mainnet s slot ht]; exact hp1
  | other a q v => unfold apply; simp only; split_ifs <;> exact hp
  | call o k =>
    unfold apply
    simp only
    cases hd : dispatch mainnet s o k with
    | error e => exact hp
    | ok t =>
      show 0 < eligible t
      unfold dispatch at hd
      split at hd
      · obtain ⟨h3, -, rfl⟩ := setInvulnerables_eq hd
        rename_i new
        unfold eligible
        rcases h1 new rfl with rfl | ⟨a, ha, hk⟩
        · have := h3 rfl
          simp only [mainnet] at this
          show 0 < s.cands.length + _
          omega
        · have : a ∈ (new.filter (fun a => decide (registered s a))).insertionSort (· ≤ ·) :=
            (List.perm_insertionSort _ _).mem_iff.2 (List.mem_filter.2 ⟨ha, decide_eq_true (Option.isSome_iff_ne_none.2 hk)⟩)
          have := List.length_pos_of_mem this
          show 0 < s.cands.length + ((new.filter (fun a => decide (registered s a))).insertionSort (· ≤ ·)).length
          omega
      · cases hd; exact hp
      · rename_i bb
        obtain rfl : t = setBond s bb := (Except.ok.inj hd).symm
        rcases setBond_split i.sorted bb with ⟨-, he⟩ | ⟨-, K, R, hl, hK, -, he⟩
        · rw [he]; exact hp
        · rw [he]
          unfold eligible
          show 0 < R.length + (K.foldl dropOne { s with bond := bb }).invulnerables.length
          rw [(dropAll_rest K { s with bond := bb }).invulnerables]
          rcases h2 bb rfl with h3 | ⟨c, hc, hv⟩
          · have := List.length_pos_iff.2 h3
            show 0 < R.length + s.invulnerables.length
            omega
          · rw [hl] at hc
            rcases List.mem_append.1 hc with hc | hc
            · have := hK c hc; omega
            · have := List.length_pos_of_mem hc; omega
      · obtain ⟨-, -, -, rfl⟩ := addInvulnerable_eq hd
        unfold eligible
        rw [(removeCand_rest _ _ false).invulnerables, (List.perm_orderedInsert _ _ _).length_eq]
        simp
      · obtain ⟨h3, h4, rfl⟩ := removeInvulnerable_eq hd
        unfold eligible at h3 ⊢
        simp only [mainnet] at h3
        show 0 < s.cands.length + (s.invulnerables.erase _).length
        rw [List.length_erase_of_mem h4]
        omega
      · obtain ⟨-, -, -, -, s1, h5, rfl⟩ := register_eq hd
        unfold eligible; simp
      · obtain ⟨h3, -, rfl⟩ := leave_eq.1 hd
        rename_i who
        have h5 := removeCand_length (s := s) who true
        unfold eligible at h3 ⊢
        rw [(removeCand_rest _ _ true).invulnerables]
        simp only [mainnet] at h3
        omega
      · obtain ⟨-, A, c', B, s1, hl, rfl, h3, rfl⟩ := updateBond_eq hd
        unfold eligible
        show 0 < (place (A ++ B) _).length + _
        rw [(place_perm _ _).length_eq]; simp
      · obtain ⟨-, -, -, -, A, t', B, s1, hl, rfl, -, h6, rfl⟩ := takeSlot_eq i.sorted hd
        unfold eligible
        show 0 < (A ++ place B _).length + _
        rw [List.length_append, (place_perm _ _).length_eq]; simp
      · obtain ⟨-, rfl⟩ := setKeys_eq hd; exact hp
      · obtain ⟨k, -, rfl⟩ := purgeKeys_eq hd; exact hp
      · cases hd

theorem careful_some (h : List Event) : ∀ {s : State}, Inv s → 0 < eligible s → Careful mainnet s h →
    0 < eligible (run mainnet s h) := by
  induction h with
  | nil => intro s _ hp _; exact hp
  | cons e h ih =>
    intro s i hp hc
    exact ih (apply_inv mainnet i e).1 (some_of i hp hc.1 hc.2.1) hc.2.2

/-- C164: on the main network somebody is chosen at every turn, if one of the named accounts or candidates with the
highest bonds has keys. Missing: root and council may name only accounts without keys, ask for a bond that nobody has put up,
or want no candidates when nobody is named, and makers may give up their keys (`C164_some_false`). -/
theorem C164_some_partial (l : List (AccountId × Nat)) (b : Balance) (d : Nat) (p : AccountId → Balance)
    (hl : Start mainnet l) (h : List Event) (hc : Careful mainnet (genesis l b d p) h) (slot : Nat) :
    let s := run mainnet (genesis l b d p) h
    let s' := apply mainnet s (.block slot)
    (0 < s'.cands.length + s'.invulnerables.length) ∧
    ((s.now + 1) % 1800 = 0 → 0 < s'.desired → (∀ a, a ∈ s'.invulnerables ∨ a ∈ s'.cands.map Cand.who → s'.keys a ≠ none) →
      s'.queued ≠ []) := by
  intro s s'
  have hi := genesis_inv l b d p
  have hg : 0 < eligible (genesis l b d p) := by
    unfold eligible
    show 0 < 0 + ((l.map Prod.fst).insertionSort (· ≤ ·)).length
    rw [(List.perm_insertionSort _ _).length_eq, List.length_map]
    have := List.length_pos_iff.2 hl.1
    omega
  have h1 : 0 < eligible s := careful_some h hi hg hc
  have h2 : 0 < eligible s' := some_of (run_inv mainnet h hi) h1 (fun _ h => (by cases h)) (fun _ h => (by cases h))
  refine ⟨h2, fun ht hdes hk => ?_⟩
  obtain ⟨top, rest, h3, h4, -, -, -, h7⟩ := C164_chosen mainnet l b d p h slot ht
  have h7 : s'.queued = _ := h7
  rw [h7]
  have hmem : ∃ a, a ∈ s'.invulnerables ++ top.map Cand.who := by
    cases hi : s'.invulnerables with
    | cons a _ => exact ⟨a, by simp⟩
    | nil =>
      have hlen : 0 < top.length := by
        have h4 : top.length = min s'.desired s'.cands.length := h4
        unfold eligible at h2
        rw [hi] at h2
        simp only [List.length_nil] at h2
        omega
      cases top with
      | nil => simp at hlen
      | cons x _ => exact ⟨x.who, by simp⟩
  obtain ⟨a, ha⟩ := hmem
  have hka : s'.keys a ≠ none := by
    refine hk a ?_
    rcases List.mem_append.1 ha with h | h
    · exact .inl h
    · right
      obtain ⟨x, hx, rfl⟩ := List.mem_map.1 h
      exact List.mem_map.2 ⟨x, h3.mem_iff.2 (List.mem_append_left _ hx), rfl⟩
  obtain ⟨k, hk⟩ := Option.ne_none_iff_exists'.1 hka
  refine List.ne_nil_of_mem (a := (a, k)) (List.mem_filterMap.2 ⟨a, ha, ?_⟩)
  have hk : (apply mainnet (run mainnet (genesis l b d p) h) (.block slot)).keys a = some k := hk
  rw [hk]; rfl

end Verif.Collators
