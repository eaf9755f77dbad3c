import Verif.SigRegistry.Spec
/-! # The registry refines the queue -/

namespace Verif.SigRegistry

open Spec (Queue)

/-- Forward links that a queue content should have in the storage list. -/
def linked : Queue → Signature → Option (BlockNumber × Signature)
  | [], _ => none
  | [_], _ => none
  | (s, e) :: (s', e') :: rest, k => if s = k then some (e, s') else linked ((s', e') :: rest) k

/-- The pointer storage item that a queue content should have. -/
def ptrOf (q : Queue) : Option Pointer :=
  match q.head?, q.getLast? with
  | some h, some l => some ⟨l.1, l.2, h.1, q.length⟩
  | _, _ => none

/-- The abstraction relation between storage and queue. -/
structure Rep (cap : Nat) (reg : Registry) (q : Queue) : Prop where
  nodup : (q.map Prod.fst).Nodup
  bounded : q.length ≤ cap
  links : ∀ k, reg.list.get k = linked q k
  ptr : reg.ptr = ptrOf q

theorem rep_init (cap : Nat) : Rep cap Registry.init [] :=
  ⟨by simp, by simp, fun _ => rfl, rfl⟩

theorem linked_none_of_notMem {q : Queue} {k : Signature} (h : k ∉ q.map Prod.fst) : linked q k = none := by
  induction q with
  | nil => rfl
  | cons a rest ih =>
    cases rest with
    | nil => rfl
    | cons b rest =>
      obtain ⟨s, e⟩ := a; obtain ⟨s', e'⟩ := b
      simp only [List.map_cons, List.mem_cons, not_or] at h
      simp only [linked]
      rw [if_neg (fun e => h.1 e.symm)]
      apply ih
      simp only [List.map_cons, List.mem_cons, not_or]
      exact h.2

/-- Signatures in the queue are linked, except the newest one. -/
theorem linked_isSome_iff {q : Queue} (hn : (q.map Prod.fst).Nodup) {a : Signature × BlockNumber} {k : Signature} :
    (linked (q ++ [a]) k).isSome ↔ k ∈ q.map Prod.fst := by
  induction q with
  | nil => simp [linked]
  | cons b rest ih =>
    obtain ⟨s, e⟩ := b
    simp only [List.map_cons, List.nodup_cons] at hn
    cases rest with
    | nil =>
      obtain ⟨s', e'⟩ := a
      simp only [List.cons_append, List.nil_append, linked, List.map_cons, List.map_nil,
        List.mem_cons, List.not_mem_nil, or_false]
      split
      · rename_i h; simp [h]
      · rename_i h; simp; exact fun e => h e.symm
    | cons c rest =>
      obtain ⟨s', e'⟩ := c
      simp only [List.cons_append, linked]
      have := ih hn.2
      simp only [List.cons_append] at this
      split
      · rename_i h; simp [h]
      · rename_i h
        rw [this]
        simp only [List.map_cons, List.mem_cons]
        constructor
        · intro h'; exact Or.inr h'
        · rintro (h' | h')
          · exact absurd h'.symm h
          · exact h'

/-- Appending an entry links the previously newest signature to it. -/
theorem linked_append {q : Queue} {s : Signature} {e : BlockNumber} {a : Signature × BlockNumber} {k : Signature}
    (hn : ((q ++ [(s, e)]).map Prod.fst).Nodup) :
    linked (q ++ [(s, e)] ++ [a]) k = if s = k then some (e, a.1) else linked (q ++ [(s, e)]) k := by
  induction q with
  | nil =>
    obtain ⟨s', e'⟩ := a
    simp [linked]
  | cons b rest ih =>
    obtain ⟨s0, e0⟩ := b
    simp only [List.cons_append, List.map_cons, List.nodup_cons] at hn
    have ih := ih hn.2
    have hne : s0 ≠ s := by
      intro h; subst h
      exact hn.1 (by simp)
    cases rest with
    | nil =>
      obtain ⟨s', e'⟩ := a
      simp only [List.nil_append, List.cons_append, linked] at ih ⊢
      by_cases h1 : s0 = k
      · subst h1; simp [hne.symm]
      · simp [h1]
    | cons c rest =>
      obtain ⟨s1, e1⟩ := c
      simp only [List.cons_append, linked] at ih ⊢
      by_cases h1 : s0 = k
      · subst h1; simp [hne.symm]
      · simp only [h1, ↓reduceIte, ih]

theorem linked_tail {s : Signature} {e : BlockNumber} {rest : Queue} {k : Signature}
    (hn : (((s, e) :: rest).map Prod.fst).Nodup) :
    linked rest k = if s = k then none else linked ((s, e) :: rest) k := by
  simp only [List.map_cons, List.nodup_cons] at hn
  split
  · rename_i h; subst h; exact linked_none_of_notMem hn.1
  · rename_i h
    cases rest with
    | nil => rfl
    | cons c rest =>
      obtain ⟨s1, e1⟩ := c
      simp [linked, h]

theorem eq_nil_or_append_last (q : Queue) : q = [] ∨ ∃ q' s e, q = q' ++ [(s, e)] := by
  rcases List.eq_nil_or_concat q with h | ⟨q', ⟨s, e⟩, h⟩
  · exact Or.inl h
  · exact Or.inr ⟨q', s, e, by simpa using h⟩

theorem ptrOf_append (q : Queue) (s : Signature) (e : BlockNumber) :
    ptrOf (q ++ [(s, e)]) = some ⟨s, e, ((q ++ [(s, e)]).head (by simp)).1, q.length + 1⟩ := by
  unfold ptrOf
  rw [List.head?_eq_some_head (by simp), List.getLast?_concat]
  simp

theorem ptr_append {q' : Queue} {s : Signature} {e : BlockNumber} {reg : Registry} {cap : Nat}
    (h : Rep cap reg (q' ++ [(s, e)])) :
    ∃ old, reg.ptr = some ⟨s, e, old, q'.length + 1⟩ ∧
      ((q' ++ [(s, e)]).head (by simp)).1 = old :=
  ⟨_, by rw [h.ptr, ptrOf_append], rfl⟩

/-- A registration on the storage representation does exactly what it does on the queue. -/
theorem register_refines {window cap : Nat} (hcap : 2 ≤ cap) {reg : Registry} {q : Queue}
    (hr : Rep cap reg q) (now : BlockNumber) (sig : Signature) (exp : BlockNumber) :
    match register window cap reg now sig exp with
    | .ok reg' => ∃ q', Spec.register window cap q now sig exp = .ok q' ∧ Rep cap reg' q'
    | .error e => Spec.register window cap q now sig exp = .error e := by
  unfold register Spec.register mortalityLimit
  by_cases h1 : exp < now + window
  swap
  · simp [ensure, h1, bind, Except.bind]
  by_cases h2 : now < exp
  swap
  · simp [ensure, h1, h2, bind, Except.bind]
  have hgt : now + window > exp := h1
  simp only [ensure, hgt, h2, ↓reduceIte, bind, Except.bind, not_true_eq_false]
  rcases eq_nil_or_append_last q with hq | ⟨q', s, e, hq⟩
  · -- empty registry
    subst hq
    have hp : reg.ptr = none := hr.ptr
    have hc : reg.list.contains sig = false := by
      simp [SMap.contains, hr.links, linked]
    have hcap' : (0 : Nat) ≠ cap := by omega
    simp only [hc, ↓reduceIte, List.map_nil, List.not_mem_nil, List.length_nil]
    have h0 : 0 < cap := by omega
    simp only [h0, ↓reduceIte, List.nil_append]
    simp [enqueue, hp, hcap', ensure, bind, Except.bind, pure, Except.pure]
    refine ⟨by simp, by simp; omega, ?_, by simp [ptrOf]⟩
    intro k; simp [hr.links, linked]
  · subst hq
    obtain ⟨old, hp, hold⟩ := ptr_append hr
    have hn := hr.nodup
    have hb := hr.bounded
    have hn' : (q'.map Prod.fst).Nodup := by
      rw [List.map_append] at hn; exact (List.nodup_append.1 hn).1
    have hsome := fun k => linked_isSome_iff (a := (s, e)) (k := k) hn'
    by_cases hm : sig ∈ (q' ++ [(s, e)]).map Prod.fst
    · -- already submitted
      rw [List.map_append, List.mem_append] at hm
      have hm2 : sig ∈ (q' ++ [(s, e)]).map Prod.fst := by
        rw [List.map_append, List.mem_append]; exact hm
      simp only [hm2, ↓reduceIte]
      by_cases hc : reg.list.contains sig = false
      · simp only [hc, ↓reduceIte]
        have hs : sig = s := by
          rcases hm with hm | hm
          · have := (hsome sig).2 hm
            rw [← hr.links] at this
            simp [SMap.contains] at hc
            simp [hc] at this
          · simpa using hm
        subst hs
        simp [enqueue, hp, ensure, bind, Except.bind]
      · simp [hc]
    · have hm' := hm
      rw [List.map_append, List.mem_append, not_or] at hm
      simp only [List.map_cons, List.map_nil, List.mem_singleton] at hm
      have hc : reg.list.contains sig = false := by
        simp only [SMap.contains, hr.links]
        cases hh : (linked (q' ++ [(s, e)]) sig).isSome
        · rfl
        · exact absurd ((hsome sig).1 hh) hm.1
      have hne : ¬ s = sig := fun h => hm.2 h.symm
      have hnod : ((q' ++ [(s, e)] ++ [(sig, exp)]).map Prod.fst).Nodup := by
        rw [List.map_append, List.nodup_append]
        refine ⟨hn, by simp, ?_⟩
        intro a ha b hb hab
        simp only [List.map_cons, List.map_nil, List.mem_singleton] at hb
        subst hb; subst hab; exact hm' ha
      simp only [hc, ↓reduceIte, hm']
      by_cases hfull : (q' ++ [(s, e)]).length < cap
      · -- room left
        have hcnt : ¬ (q'.length + 1 = cap) := by simp at hfull; omega
        simp only [hfull, ↓reduceIte]
        simp [enqueue, hp, hcnt, hne, ensure, bind, Except.bind, pure, Except.pure]
        have happ : q' ++ (s, e) :: [(sig, exp)] = q' ++ [(s, e)] ++ [(sig, exp)] := by simp
        rw [happ]
        refine ⟨hnod, ?_, ?_, ?_⟩
        · simp at hfull ⊢; omega
        · intro k
          rw [linked_append hn, SMap.get_insert, hr.links]
        · rw [ptrOf_append]
          simp only [List.length_append, List.length_cons, List.length_nil]
          rw [List.head_append_left (by simp), hold]
      · -- full
        have hlen : q'.length + 1 = cap := by simp at hfull hb; omega
        simp only [hfull, ↓reduceIte]
        cases q' with
        | nil => simp at hlen; omega
        | cons a rest =>
          obtain ⟨s0, e0⟩ := a
          simp only [List.cons_append, List.head_cons] at hold
          -- the oldest entry and its successor
          have hlk : ∃ nxt, reg.list.get s0 = some (e0, nxt) ∧
              nxt = ((rest ++ [(s, e)]).head (by simp)).1 := by
            rw [hr.links]
            cases rest with
            | nil => exact ⟨s, by simp [linked], rfl⟩
            | cons c rest => obtain ⟨s1, e1⟩ := c; exact ⟨s1, by simp [linked], rfl⟩
          obtain ⟨nxt, hlk, hnxt⟩ := hlk
          simp only [List.length_cons] at hlen
          simp only [List.cons_append]
          by_cases hexp : e0 < now
          · simp [enqueue, hp, hlen, hne, ← hold, hlk, hexp, okOr, ensure, bind, Except.bind, pure,
              Except.pure]
            have hne0 : ¬ cap = 0 := by omega
            simp only [hne0, ↓reduceIte]
            have happ : rest ++ (s, e) :: [(sig, exp)] = rest ++ [(s, e)] ++ [(sig, exp)] := by simp
            rw [happ]
            have hnt : ((rest ++ [(s, e)]).map Prod.fst).Nodup := by
              simp only [List.cons_append, List.map_cons, List.nodup_cons] at hn; exact hn.2
            refine ⟨?_, ?_, ?_, ?_⟩
            · simp only [List.cons_append, List.map_cons, List.nodup_cons] at hnod; exact hnod.2
            · simp; omega
            · intro k
              rw [linked_append hnt, SMap.get_insert, SMap.get_erase, hr.links]
              have := linked_tail (s := s0) (e := e0) (rest := rest ++ [(s, e)]) (k := k) hn
              rw [this]; rfl
            · rw [ptrOf_append, List.head_append_left (by simp), ← hnxt]
              simp; omega
          · simp [enqueue, hp, hlen, hne, ← hold, hlk, hexp, okOr, ensure, bind, Except.bind]

end Verif.SigRegistry
