import Verif.Collators.Props
import Mathlib.Tactic.SplitIfs
/-!
# C164: whom root and council have named
-/

namespace Verif.Collators

open Verif.Wrapped (put)

section
variable (cfg : Config) (l : List (AccountId × Nat)) (b : Balance) (d : Nat) (p : AccountId → Balance) (h : List Event)

/-- C164: when root or council may name a whole list, add one account or take one off, and who is named afterwards. A list leaves
out accounts without keys. An account that is added is no longer a candidate; nothing else happens to the candidates. -/
theorem C164_naming (new : List AccountId) (a : AccountId) :
    let s := run cfg (genesis l b d p) h
    ((∃ s', dispatch cfg s .update (.setInvulnerables new) = .ok s') ↔
      (new = [] → cfg.minEligible ≤ s.cands.length) ∧ new.length ≤ cfg.maxInvulnerables) ∧
    (∀ s', dispatch cfg s .update (.setInvulnerables new) = .ok s' →
      (∀ x, x ∈ s'.invulnerables ↔ x ∈ new ∧ s.keys x ≠ none) ∧ s'.cands = s.cands) ∧
    ((∃ s', dispatch cfg s .update (.addInvulnerable a) = .ok s') ↔
      s.keys a ≠ none ∧ a ∉ s.invulnerables ∧ s.invulnerables.length < cfg.maxInvulnerables) ∧
    (∀ s', dispatch cfg s .update (.addInvulnerable a) = .ok s' →
      s'.invulnerables.Perm (a :: s.invulnerables) ∧ ∀ c, c ∈ s'.cands ↔ c ∈ s.cands ∧ c.who ≠ a) ∧
    ((∃ s', dispatch cfg s .update (.removeInvulnerable a) = .ok s') ↔
      cfg.minEligible < s.cands.length + s.invulnerables.length ∧ a ∈ s.invulnerables) ∧
    (∀ s', dispatch cfg s .update (.removeInvulnerable a) = .ok s' →
      s.invulnerables.Perm (a :: s'.invulnerables) ∧ s'.cands = s.cands) := by
  intro s
  have i : Inv s := run_inv cfg h (genesis_inv l b d p)
  refine ⟨⟨?_, ?_⟩, ?_, ⟨?_, ?_⟩, ?_, ⟨?_, ?_⟩, ?_⟩
  · rintro ⟨s', hd⟩
    obtain ⟨h1, h2, -⟩ := setInvulnerables_eq hd
    exact ⟨h1, h2⟩
  · rintro ⟨h1, h2⟩
    refine ⟨{ s with invulnerables := (new.filter (fun a => decide (registered s a))).insertionSort (· ≤ ·) }, ?_⟩
    show setInvulnerables cfg s new = _
    unfold setInvulnerables
    simp only [bind_eq_ok_iff, ensure_eq_ok_iff, pure_eq_ok_iff]
    exact ⟨(), h1, (), h2, trivial⟩
  · intro s' hd
    obtain ⟨-, -, he⟩ := setInvulnerables_eq hd
    rw [he]
    refine ⟨fun x => ?_, rfl⟩
    show x ∈ (new.filter (fun a => decide (registered s a))).insertionSort (· ≤ ·) ↔ _
    rw [(List.perm_insertionSort _ _).mem_iff, List.mem_filter, decide_eq_true_iff]
    exact and_congr_right' Option.isSome_iff_ne_none
  · rintro ⟨s', hd⟩
    obtain ⟨h1, h2, h3, -⟩ := addInvulnerable_eq hd
    exact ⟨Option.isSome_iff_ne_none.1 h1, h2, h3⟩
  · rintro ⟨h1, h2, h3⟩
    refine ⟨removeCand { s with invulnerables := s.invulnerables.orderedInsert (· ≤ ·) a } a false, ?_⟩
    show addInvulnerable cfg s a = _
    unfold addInvulnerable
    simp only [bind_eq_ok_iff, ensure_eq_ok_iff, pure_eq_ok_iff]
    exact ⟨(), Option.isSome_iff_ne_none.2 h1, (), h2, (), h3, trivial⟩
  · intro s' hd
    obtain ⟨-, -, -, he⟩ := addInvulnerable_eq hd
    have hi : Inv { s with invulnerables := s.invulnerables.orderedInsert (· ≤ ·) a } :=
      ⟨i.sorted, i.above, i.nodup, i.short, i.held⟩
    obtain ⟨-, -, h3, h4, h5⟩ := removeCand_inv hi a false
    rw [he]
    refine ⟨?_, fun c => ⟨fun hc => ⟨h3.subset hc, ?_⟩, fun hc => (h5 c hc.1 hc.2).1⟩⟩
    · rw [(removeCand_rest _ a false).invulnerables]
      exact List.perm_orderedInsert _ a s.invulnerables
    · rintro rfl
      exact h4 (List.mem_map.2 ⟨c, hc, rfl⟩)
  · rintro ⟨s', hd⟩
    obtain ⟨h1, h2, -⟩ := removeInvulnerable_eq hd
    exact ⟨h1, h2⟩
  · rintro ⟨h1, h2⟩
    refine ⟨{ s with invulnerables := s.invulnerables.erase a }, ?_⟩
    show removeInvulnerable cfg s a = _
    unfold removeInvulnerable
    simp only [bind_eq_ok_iff, ensure_eq_ok_iff, pure_eq_ok_iff]
    exact ⟨(), h1, (), h2, trivial⟩
  · intro s' hd
    obtain ⟨-, h2, he⟩ := removeInvulnerable_eq hd
    rw [he]
    exact ⟨List.perm_cons_erase h2, rfl⟩

/-- C164: an account ceases to be named only if root or council take it off, or name a list without it or while it has no keys. -/
theorem C164_unnamed (e : Event) (a : AccountId) :
    let s := run cfg (genesis l b d p) h
    let s' := apply cfg s e
    a ∈ s.invulnerables → a ∉ s'.invulnerables →
    e = .call .update (.removeInvulnerable a) ∨
    ∃ new, e = .call .update (.setInvulnerables new) ∧ (a ∉ new ∨ s.keys a = none) := by
  intro s s' ha hna
  have hne : s'.invulnerables ≠ s.invulnerables := fun he => hna (he ▸ ha)
  obtain ⟨⟨c, rfl⟩, -⟩ := C164_named cfg l b d p h e hne
  cases hd : dispatch cfg s .update c with
  | error e =>
    have : s' = s := by show apply cfg s (.call .update c) = s; simp only [apply, hd]
    rw [this] at hne; exact absurd rfl hne
  | ok t =>
    obtain rfl : s' = t := by show apply cfg s (.call .update c) = t; simp only [apply, hd]
    cases c with
    | setInvulnerables new =>
      have hm := ((C164_naming cfg l b d p h new a).2.1 s' hd).1 a
      refine .inr ⟨new, rfl, ?_⟩
      by_cases hk : s.keys a = none
      · exact .inr hk
      · exact .inl (fun hx => hna (hm.2 ⟨hx, hk⟩))
    | addInvulnerable x =>
      have hm := ((C164_naming cfg l b d p h [] x).2.2.2.1 s' hd).1
      exact absurd (hm.mem_iff.2 (List.mem_cons_of_mem _ ha)) hna
    | removeInvulnerable x =>
      have hm := ((C164_naming cfg l b d p h [] x).2.2.2.2.2 s' hd).1
      rcases List.mem_cons.1 (hm.mem_iff.1 ha) with rfl | hx
      · exact .inl rfl
      · exact absurd hx hna
    | setDesired n =>
      have : s' = { s with desired := n } := (Except.ok.inj hd).symm
      rw [this] at hne; exact absurd rfl hne
    | setBond v =>
      have hs : s' = setBond s v := (Except.ok.inj hd).symm
      exfalso; apply hne
      rw [hs]
      rcases setBond_eq s v with ⟨-, he⟩ | ⟨-, K, R, hl, -, -, he⟩
      · rw [he]
      · rw [he]; exact (dropAll_rest K { s with bond := v }).invulnerables
    | _ => cases hd

/-! ## Keys -/

/-- A key is recorded for an account just when the account is recorded for the key. -/
def KeyInv (s : State) : Prop := ∀ a k, s.keys a = some k ↔ s.owner k = some a

theorem keys_call {s s' : State} {o : Origin} {c : Call} (i : Inv s) (hd : dispatch cfg s o c = .ok s') :
    (s'.keys = s.keys ∧ s'.owner = s.owner) ∨ (∃ who k, o = .signed who ∧ c = .setKeys k ∧ setKeys s who k = .ok s') ∨
      ∃ who, o = .signed who ∧ c = .purgeKeys ∧ purgeKeys s who = .ok s' := by
  unfold dispatch at hd
  split at hd
  · obtain ⟨-, -, he⟩ := setInvulnerables_eq hd
    rw [he]; exact .inl ⟨rfl, rfl⟩
  · cases hd; exact .inl ⟨rfl, rfl⟩
  · rename_i bb
    have hs : s' = setBond s bb := (Except.ok.inj hd).symm
    rw [hs]
    rcases setBond_eq s bb with ⟨-, he⟩ | ⟨-, K, R, hl, -, -, he⟩
    · rw [he]; exact .inl ⟨rfl, rfl⟩
    · have := dropAll_rest K { s with bond := bb }
      rw [he]; exact .inl ⟨this.keys, this.owner⟩
  · obtain ⟨-, -, -, he⟩ := addInvulnerable_eq hd
    rename_i x
    have := removeCand_rest { s with invulnerables := s.invulnerables.orderedInsert (· ≤ ·) x } x false
    rw [he]; exact .inl ⟨this.keys, this.owner⟩
  · obtain ⟨-, -, he⟩ := removeInvulnerable_eq hd
    rw [he]; exact .inl ⟨rfl, rfl⟩
  · obtain ⟨-, -, -, -, s1, h5, he⟩ := register_eq hd
    obtain ⟨q, rfl, -⟩ := reserve_eq h5
    rw [he]; exact .inl ⟨rfl, rfl⟩
  · obtain ⟨-, -, he⟩ := leave_eq.1 hd
    rename_i who
    have := removeCand_rest s who true
    rw [← he]; exact .inl ⟨this.keys, this.owner⟩
  · obtain ⟨-, A, c', B, s1, hl, rfl, h2, he⟩ := updateBond_eq hd
    rcases h2 with ⟨-, h4⟩ | ⟨-, -, rfl⟩
    · obtain ⟨q, rfl, -⟩ := reserve_eq h4; rw [he]; exact .inl ⟨rfl, rfl⟩
    · rw [he]; exact .inl ⟨rfl, rfl⟩
  · obtain ⟨-, -, -, -, A, t', B, s1, hl, rfl, -, h6, he⟩ := takeSlot_eq i.sorted hd
    obtain ⟨q, rfl, -⟩ := reserve_eq h6
    rw [he]; exact .inl ⟨rfl, rfl⟩
  · exact .inr (.inl ⟨_, _, rfl, rfl, hd⟩)
  · exact .inr (.inr ⟨_, rfl, rfl, hd⟩)
  · cases hd

theorem keys_apply {s : State} (i : Inv s) (e : Event) :
    ((apply cfg s e).keys = s.keys ∧ (apply cfg s e).owner = s.owner) ∨
    (∃ who k, e = .call (.signed who) (.setKeys k) ∧ setKeys s who k = .ok (apply cfg s e)) ∨
      ∃ who, e = .call (.signed who) .purgeKeys ∧ purgeKeys s who = .ok (apply cfg s e) := by
  cases e with
  | block slot =>
    left
    have h3 := (noteAuthor_fields { s with now := s.now + 1 } slot).2.2.2
    by_cases ht : (s.now + 1) % period = 0
    · have hs' : apply cfg s (.block slot) = rotate cfg (noted s slot) := block_turn cfg s slot ht
      obtain ⟨-, -, -, h4⟩ := kickAll_inv cfg ((noted s slot).cands.map Cand.who) (noted_inv i slot)
      rw [hs']
      exact ⟨h4.keys.trans h3.keys, h4.owner.trans h3.owner⟩
    · have hs' : apply cfg s (.block slot) = noted s slot := block_plain cfg s slot ht
      rw [hs']; exact ⟨h3.keys, h3.owner⟩
  | other a q v =>
    left
    unfold apply; simp only; split_ifs <;> exact ⟨rfl, rfl⟩
  | call o k =>
    cases hd : dispatch cfg s o k with
    | error e =>
      have : apply cfg s (.call o k) = s := by simp only [apply, hd]
      rw [this]; exact .inl ⟨rfl, rfl⟩
    | ok t =>
      have : apply cfg s (.call o k) = t := by simp only [apply, hd]
      rw [this]
      rcases keys_call cfg i hd with h1 | ⟨who, k, rfl, rfl, h2⟩ | ⟨who, rfl, rfl, h2⟩
      · exact .inl h1
      · exact .inr (.inl ⟨_, _, rfl, h2⟩)
      · exact .inr (.inr ⟨_, rfl, h2⟩)

theorem keyInv_apply {s : State} (i : Inv s) (hk : KeyInv s) (e : Event) : KeyInv (apply cfg s e) := by
  rcases keys_apply cfg i e with ⟨h1, h2⟩ | ⟨who, k, -, h2⟩ | ⟨who, -, h2⟩
  · intro a k; rw [h1, h2]; exact hk a k
  · obtain ⟨h1, he⟩ := setKeys_eq h2
    rw [he]
    intro a k'
    have hw := hk who
    cases ho : s.keys who with
    | none =>
      simp only [put]
      have := hk a k'
      have h0 := hk a k
      grind
    | some old =>
      simp only [put]
      have := hk a k'
      have h0 := hk a k
      have h3 := hk a old
      have h4 := hw old
      have h5 := hw k'
      have h6 := hw k
      clear he h2 hk hw i
      by_cases e1 : old = k
      · subst e1
        simp only [if_true]
        by_cases e2 : a = who <;> by_cases e3 : k' = old <;> grind
      · rw [if_neg e1]
        simp only [put]
        by_cases e2 : a = who <;> by_cases e3 : k' = k <;> by_cases e4 : k' = old <;> grind
  · obtain ⟨k, h1, he⟩ := purgeKeys_eq h2
    rw [he]
    intro a k'
    have := hk a k'
    have h0 := hk who k
    have h3 := hk who k'
    simp only [put]
    grind

theorem find_iff {α β γ : Type} [DecidableEq β] (f : α → β) (g : α → γ) (l : List α) (hn : (l.map f).Nodup) (x : β) (y : γ) :
    (l.find? (fun p => decide (f p = x))).map g = some y ↔ ∃ p ∈ l, f p = x ∧ g p = y := by
  rw [Option.map_eq_some_iff]
  constructor
  · rintro ⟨p, h1, h2⟩
    exact ⟨p, List.mem_of_find?_eq_some h1, by simpa using List.find?_some h1, h2⟩
  · rintro ⟨p, h1, h2, h3⟩
    cases hf : l.find? (fun p => decide (f p = x)) with
    | none => exact absurd (List.find?_eq_none.1 hf p h1) (by simp [h2])
    | some q =>
      have hq := List.mem_of_find?_eq_some hf
      have hx : f q = x := by simpa using List.find?_some hf
      exact ⟨q, rfl, by rw [List.inj_on_of_nodup_map hn hq h1 (hx.trans h2.symm)]; exact h3⟩

/-- C164: no two accounts have the same key, and a key is recorded or removed only by the account itself. So at every turn, no
two accounts are chosen with the same key. -/
theorem C164_keys (h1 : (l.map Prod.fst).Nodup) (h2 : (l.map Prod.snd).Nodup) (e : Event) (slot : Nat) :
    let s := run cfg (genesis l b d p) h
    (∀ a a' k, s.keys a = some k → s.keys a' = some k → a = a') ∧
    (∀ a, (apply cfg s e).keys a ≠ s.keys a → ∃ c, e = .call (.signed a) c) ∧
    ((s.now + 1) % 1800 = 0 → ∀ a a' k, (a, k) ∈ (apply cfg s (.block slot)).queued →
      (a', k) ∈ (apply cfg s (.block slot)).queued → a = a') := by
  intro s
  have i : Inv s := run_inv cfg h (genesis_inv l b d p)
  have hk : KeyInv s := by
    show KeyInv (run cfg (genesis l b d p) h)
    clear i s
    induction h using List.reverseRecOn with
    | nil =>
      intro a k
      show (l.find? (fun p => decide (p.1 = a))).map Prod.snd = some k ↔ (l.find? (fun p => decide (p.2 = k))).map Prod.fst = some a
      rw [find_iff Prod.fst Prod.snd l h1, find_iff Prod.snd Prod.fst l h2]
      exact ⟨fun ⟨q, x, y, z⟩ => ⟨q, x, z, y⟩, fun ⟨q, x, y, z⟩ => ⟨q, x, z, y⟩⟩
    | append_singleton h e ih =>
      rw [run_append]
      exact keyInv_apply cfg (run_inv cfg h (genesis_inv l b d p)) ih e
  have inj : ∀ {t : State}, KeyInv t → ∀ a a' k, t.keys a = some k → t.keys a' = some k → a = a' := by
    intro t ht a a' k ha ha'
    have x := (ht a k).1 ha
    rw [(ht a' k).1 ha'] at x
    exact (Option.some.inj x).symm
  refine ⟨inj hk, fun a ha => ?_, fun ht a a' k ha ha' => ?_⟩
  · rcases keys_apply cfg i e with ⟨x, -⟩ | ⟨who, k, rfl, x⟩ | ⟨who, rfl, x⟩
    · rw [x] at ha; exact absurd rfl ha
    · obtain ⟨-, he⟩ := setKeys_eq x
      refine ⟨.setKeys k, ?_⟩
      by_cases hw : a = who
      · rw [hw]
      · rw [he] at ha; simp [put, hw] at ha
    · obtain ⟨k, -, he⟩ := purgeKeys_eq x
      refine ⟨.purgeKeys, ?_⟩
      by_cases hw : a = who
      · rw [hw]
      · rw [he] at ha; simp [put, hw] at ha
  · obtain ⟨top, rest, -, -, -, -, -, h6⟩ := C164_chosen cfg l b d p h slot ht
    have h6 : (apply cfg s (.block slot)).queued = _ := h6
    have hk' : KeyInv (apply cfg s (.block slot)) := keyInv_apply cfg i hk _
    have hm : ∀ x, (x, k) ∈ (apply cfg s (.block slot)).queued → (apply cfg s (.block slot)).keys x = some k := by
      intro x hx
      rw [h6, List.mem_filterMap] at hx
      obtain ⟨y, -, hy⟩ := hx
      obtain ⟨z, hz, he⟩ := Option.map_eq_some_iff.1 hy
      cases he
      exact hz
    exact inj hk' a a' k (hm a ha) (hm a' ha')

end

/-- On the main network with accounts 1 and 2 named: 1 may be taken off, then not 2. -/
example :
    let s := run mainnet (genesis [(1, 11), (2, 12)] 100 2 (fun _ => 1000)) []
    1 ∈ s.invulnerables ∧ 1 ∉ (apply mainnet s (.call .update (.removeInvulnerable 1))).invulnerables ∧
    (apply mainnet (apply mainnet s (.call .update (.removeInvulnerable 1))) (.call .update (.removeInvulnerable 2))).invulnerables = [2] := by
  decide +kernel

/-- Account 3 cannot take the key of account 1, but one of its own. -/
example :
    let s := run mainnet (genesis [(1, 11), (2, 12)] 100 2 (fun _ => 1000)) []
    (apply mainnet s (.call (.signed 3) (.setKeys 11))).keys 3 = none ∧
    (apply mainnet s (.call (.signed 3) (.setKeys 13))).keys 3 = some 13 := by
  decide +kernel

end Verif.Collators
