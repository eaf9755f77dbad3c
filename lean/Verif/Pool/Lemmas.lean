import Verif.Pool.Model
/-!
# What the pool does to transactions
-/

namespace Verif.Pool

/-- All tags of a transaction are of its account. -/
def Own (t : Tx) : Prop := (∀ g ∈ t.requires, g.who = t.who) ∧ ∀ g ∈ t.provides, g.who = t.who

theorem clash_iff {t u : Tx} : clash t u = true ↔ ∃ g, g ∈ t.provides ∧ g ∈ u.provides := by
  unfold clash
  simp only [List.any_eq_true, List.contains_iff_mem]
  exact ⟨fun ⟨g, h1, h2⟩ => ⟨g, h2, h1⟩, fun ⟨g, h1, h2⟩ => ⟨g, h2, h1⟩⟩

theorem clash_own {t u : Tx} (ht : Own t) (hu : Own u) (h : clash t u = true) : u.who = t.who := by
  obtain ⟨g, h1, h2⟩ := clash_iff.1 h
  rw [← ht.2 g h1, hu.2 g h2]

theorem satisfied_iff {r : List Tx} {t : Tx} :
    satisfied r t = true ↔ ∀ g ∈ t.requires, ∃ u ∈ r, g ∈ u.provides := by
  unfold satisfied
  simp [List.all_eq_true, List.any_eq_true]

theorem satisfied_mono {r r' : List Tx} {t : Tx} (h : ∀ u ∈ r, u ∈ r') (hs : satisfied r t = true) :
    satisfied r' t = true := by
  rw [satisfied_iff] at *
  intro g hg
  obtain ⟨u, hu, hp⟩ := hs g hg
  exact ⟨u, h u hu, hp⟩

theorem satisfied_other {r r' : List Tx} {t : Tx} {w : AccountId} (ho : ∀ u ∈ r', Own u) (ht : Own t) (hw : t.who ≠ w)
    (h : ∀ u ∈ r', u.who ≠ w → u ∈ r) (hs : satisfied r' t = true) : satisfied r t = true := by
  rw [satisfied_iff] at *
  intro g hg
  obtain ⟨u, hu, hp⟩ := hs g hg
  refine ⟨u, h u hu ?_, hp⟩
  rw [← (ho u hu).2 g hp, ht.1 g hg]
  exact hw

theorem dropTree_sublist (keep : List Tag) : ∀ (n : Nat) (gone r : List Tx), (dropTree keep n gone r).Sublist r
  | 0, _, _ => List.Sublist.refl _
  | n + 1, _, _ => (dropTree_sublist keep n _ _).trans List.filter_sublist

theorem dropTree_keeps (keep : List Tag) {w : AccountId} {u : Tx} (hu : Own u) (hw : u.who ≠ w) :
    ∀ (n : Nat) (gone r : List Tx), (∀ g ∈ gone, Own g ∧ g.who = w) → (∀ v ∈ r, Own v) → u ∈ r →
      u ∈ dropTree keep n gone r
  | 0, _, _, _, _, h => h
  | n + 1, gone, r, hg, ho, h => by
    unfold dropTree
    have key : ∀ v ∈ r, (gone.any (fun g => g.provides.any (fun x => !keep.contains x) &&
        g.provides.any (fun x => v.requires.contains x))) = true → v.who = w := by
      intro v hv e
      rw [List.any_eq_true] at e
      obtain ⟨g, hgm, e⟩ := e
      rw [Bool.and_eq_true] at e
      obtain ⟨x, hx, e⟩ := List.any_eq_true.1 e.2
      rw [List.contains_iff_mem] at e
      rw [← (ho v hv).1 x e, (hg g hgm).1.2 x hx, (hg g hgm).2]
    refine dropTree_keeps keep hu hw n _ _ (fun v hv => ?_) (fun v hv => ho v (List.mem_filter.1 hv).1) ?_
    · rw [List.mem_filter] at hv
      exact ⟨ho v hv.1, key v hv.1 hv.2⟩
    · refine List.mem_filter.2 ⟨h, ?_⟩
      rw [Bool.not_eq_true', ← Bool.not_eq_true]
      intro e
      exact hw (key u h e)

theorem addReady_mem {r r' : List Tx} {t u : Tx} (h : addReady r t = some r') (hu : u ∈ r') : u ∈ r ∨ u = t := by
  unfold addReady at h
  dsimp only at h
  split at h
  · rw [← Option.some.inj h] at hu
    simpa using hu
  · split at h
    · rw [← Option.some.inj h] at hu
      rcases List.mem_append.1 hu with hu | hu
      · exact .inl (List.mem_filter.1 ((dropTree_sublist _ _ _ _).subset hu)).1
      · exact .inr (by simpa using hu)
    · cases h

theorem addReady_keeps {r r' : List Tx} {t u : Tx} (ho : ∀ v ∈ r, Own v) (ht : Own t) (h : addReady r t = some r')
    (hu : u ∈ r) (hw : u.who ≠ t.who) : u ∈ r' := by
  unfold addReady at h
  dsimp only at h
  split at h
  · rw [← Option.some.inj h]
    exact List.mem_append_left _ hu
  · split at h
    · rw [← Option.some.inj h]
      refine List.mem_append_left _ (dropTree_keeps _ (ho u hu) hw _ _ _ (fun v hv => ?_)
        (fun v hv => ho v (List.mem_filter.1 hv).1) (List.mem_filter.2 ⟨hu, ?_⟩))
      · rw [List.mem_filter] at hv
        exact ⟨ho v hv.1, clash_own ht (ho v hv.1) hv.2⟩
      · rw [Bool.not_eq_true', ← Bool.not_eq_true]
        intro e
        exact hw (clash_own ht (ho u hu) e)
    · cases h

/-- No two ready transactions provide the same tag. -/
def Apart (r : List Tx) : Prop := r.Pairwise (fun t u => clash t u = false)

theorem addReady_apart {r r' : List Tx} {t : Tx} (ha : Apart r) (h : addReady r t = some r') : Apart r' := by
  have sym : ∀ {t u : Tx}, clash t u = false → clash u t = false := by
    intro t u h
    rw [← Bool.not_eq_true, clash_iff] at *
    exact fun ⟨g, h1, h2⟩ => h ⟨g, h2, h1⟩
  unfold addReady at h
  dsimp only at h
  split at h
  · rename_i he
    rw [← Option.some.inj h]
    refine List.pairwise_append.2 ⟨ha, List.pairwise_singleton _ _, fun u hu v hv => ?_⟩
    rw [List.mem_singleton.1 hv]
    refine sym ?_
    rw [← Bool.not_eq_true]
    intro e
    have : u ∈ r.filter (clash t) := List.mem_filter.2 ⟨hu, e⟩
    rw [he] at this
    cases this
  · split at h
    · rw [← Option.some.inj h]
      have hs := dropTree_sublist t.provides r.length (r.filter (clash t)) (r.filter (fun u => !clash t u))
      refine List.pairwise_append.2 ⟨(ha.sublist (hs.trans List.filter_sublist)), List.pairwise_singleton _ _,
        fun u hu v hv => ?_⟩
      rw [List.mem_singleton.1 hv]
      have := (List.mem_filter.1 (hs.subset hu)).2
      exact sym (by simpa using this)
    · cases h

/-- No waiting transaction is due. -/
def Settled (p : Pool) : Prop := ∀ t ∈ p.future, satisfied p.ready t = false

theorem promote_settled : ∀ (n : Nat) (p : Pool), p.future.length ≤ n → Settled (promote n p)
  | 0, p, h => by
    intro t ht
    have : p.future = [] := List.length_eq_zero_iff.1 (Nat.le_zero.1 h)
    unfold promote at ht
    rw [this] at ht
    cases ht
  | n + 1, p, h => by
    unfold promote
    split
    · rename_i hn
      intro t ht
      have := List.find?_eq_none.1 hn t ht
      simpa using this
    · rename_i t ht
      have hm : t ∈ p.future := List.mem_of_find?_eq_some ht
      refine promote_settled n _ ?_
      show (p.future.erase t).length ≤ n
      rw [List.length_erase_of_mem hm]
      omega

theorem promote_apart : ∀ (n : Nat) (p : Pool), Apart p.ready → Apart (promote n p).ready
  | 0, _, h => h
  | n + 1, p, h => by
    unfold promote
    split
    · exact h
    · rename_i t _
      refine promote_apart n _ ?_
      dsimp only
      cases e : addReady p.ready t with
      | none => exact h
      | some r => exact addReady_apart h e

theorem promote_mem : ∀ (n : Nat) (p : Pool) (u : Tx),
    (u ∈ (promote n p).ready → u ∈ p.ready ∨ u ∈ p.future) ∧ (u ∈ (promote n p).future → u ∈ p.future)
  | 0, _, _ => ⟨.inl, id⟩
  | n + 1, p, u => by
    unfold promote
    split
    · exact ⟨.inl, id⟩
    · rename_i t ht
      have hm : t ∈ p.future := List.mem_of_find?_eq_some ht
      obtain ⟨h1, h2⟩ := promote_mem n ⟨(addReady p.ready t).getD p.ready, p.future.erase t⟩ u
      refine ⟨fun h => ?_, fun h => List.mem_of_mem_erase (h2 h)⟩
      rcases h1 h with h | h
      · dsimp only at h
        cases e : addReady p.ready t with
        | none =>
          rw [e] at h
          exact .inl h
        | some r =>
          rw [e] at h
          rcases addReady_mem e h with h | rfl
          · exact .inl h
          · exact .inr hm
      · exact .inr (List.mem_of_mem_erase h)

/-- All transactions of a pool have tags of their accounts only. -/
def AllOwn (p : Pool) : Prop := (∀ t ∈ p.ready, Own t) ∧ ∀ t ∈ p.future, Own t

/-- If only transactions of one account are due, promotion leaves all others as they are. -/
theorem promote_others {w : AccountId} : ∀ (n : Nat) (p : Pool), AllOwn p →
    (∀ f ∈ p.future, satisfied p.ready f = true → f.who = w) → ∀ u : Tx, u.who ≠ w →
    (u ∈ (promote n p).ready ↔ u ∈ p.ready) ∧ (u ∈ (promote n p).future ↔ u ∈ p.future)
  | 0, _, _, _, _, _ => ⟨Iff.rfl, Iff.rfl⟩
  | n + 1, p, ho, hd, u, hu => by
    unfold promote
    split
    · exact ⟨Iff.rfl, Iff.rfl⟩
    · rename_i t ht
      have hm : t ∈ p.future := List.mem_of_find?_eq_some ht
      have hs : satisfied p.ready t = true := List.find?_some ht
      have htw : t.who = w := hd t hm hs
      have hto := ho.2 t hm
      have hr : ∀ v : Tx, v.who ≠ w → (v ∈ (addReady p.ready t).getD p.ready ↔ v ∈ p.ready) := by
        intro v hv
        cases e : addReady p.ready t with
        | none => exact Iff.rfl
        | some r =>
          refine ⟨fun h => ?_, fun h => addReady_keeps ho.1 hto e h (by rw [htw]; exact hv)⟩
          rcases addReady_mem e h with h | rfl
          · exact h
          · exact absurd htw hv
      have ho' : AllOwn ⟨(addReady p.ready t).getD p.ready, p.future.erase t⟩ := by
        refine ⟨fun v hv => ?_, fun v hv => ho.2 v (List.mem_of_mem_erase hv)⟩
        dsimp only at hv
        cases e : addReady p.ready t with
        | none =>
          rw [e] at hv
          exact ho.1 v hv
        | some r =>
          rw [e] at hv
          rcases addReady_mem e hv with h | rfl
          · exact ho.1 v h
          · exact hto
      have := promote_others n ⟨(addReady p.ready t).getD p.ready, p.future.erase t⟩ ho' (fun f hf hfs => by
        by_contra hne
        exact hne (hd f (List.mem_of_mem_erase hf) (satisfied_other ho'.1 (ho.2 f (List.mem_of_mem_erase hf)) hne
          (fun v hv hvw => (hr v hvw).1 hv) hfs))) u hu
      refine ⟨this.1.trans (hr u hu), this.2.trans ?_⟩
      exact List.mem_erase_of_ne (by rintro rfl; exact hu htw)

/-- What holds of every pool. -/
structure Ok (p : Pool) : Prop where
  own : AllOwn p
  apart : Apart p.ready
  settled : Settled p

theorem empty_ok : Ok .empty :=
  ⟨⟨(fun _ h => by cases h), (fun _ h => by cases h)⟩, List.Pairwise.nil, (fun _ h => by cases h)⟩

theorem leave_ok {p : Pool} (h : Ok p) (stays : Tx → Bool) : Ok (p.leave stays) := by
  refine ⟨⟨fun t ht => h.own.1 t (List.mem_filter.1 ht).1, fun t ht => h.own.2 t (List.mem_filter.1 ht).1⟩,
    h.apart.sublist List.filter_sublist, fun t ht => ?_⟩
  rw [← Bool.not_eq_true]
  intro e
  have := satisfied_mono (r' := p.ready) (fun u hu => (List.mem_filter.1 hu).1) e
  rw [h.settled t (List.mem_filter.1 ht).1] at this
  cases this

theorem add_mem (p : Pool) (t u : Tx) : (u ∈ (p.add t).ready → u ∈ p.ready ∨ u ∈ p.future ∨ u = t) ∧
    (u ∈ (p.add t).future → u ∈ p.future ∨ u = t) := by
  unfold Pool.add
  split
  · exact ⟨.inl, .inl⟩
  split
  · split
    · exact ⟨.inl, .inl⟩
    · rename_i r hr
      obtain ⟨h1, h2⟩ := promote_mem p.future.length ⟨r, p.future⟩ u
      have h1' : u ∈ (promote p.future.length ⟨r, p.future⟩).ready → u ∈ p.ready ∨ u ∈ p.future ∨ u = t := by
        intro h
        rcases h1 h with h | h
        · rcases addReady_mem hr h with h | h
          · exact .inl h
          · exact .inr (.inr h)
        · exact .inr (.inl h)
      dsimp only
      split
      · exact ⟨h1', fun h => .inl (h2 h)⟩
      · exact ⟨fun h => h1' (List.mem_filter.1 ((dropTree_sublist _ _ _ _).subset h)).1, fun h => .inl (h2 h)⟩
  · refine ⟨.inl, fun h => ?_⟩
    rcases List.mem_cons.1 h with h | h
    · exact .inr h
    · exact .inl h

theorem add_ok {p : Pool} (h : Ok p) {t : Tx} (ht : Own t) : Ok (p.add t) := by
  refine ⟨⟨fun u hu => ?_, fun u hu => ?_⟩, ?_, ?_⟩
  · rcases (add_mem p t u).1 hu with e | e | rfl
    · exact h.own.1 u e
    · exact h.own.2 u e
    · exact ht
  · rcases (add_mem p t u).2 hu with e | rfl
    · exact h.own.2 u e
    · exact ht
  all_goals
    unfold Pool.add
    split
    · first | exact h.apart | exact h.settled
    split
    · split
      · first | exact h.apart | exact h.settled
      · rename_i r hr
        have ha := promote_apart p.future.length ⟨r, p.future⟩ (addReady_apart h.apart hr)
        have hs := promote_settled p.future.length ⟨r, p.future⟩ (Nat.le_refl _)
        dsimp only
        split
        · first | exact ha | exact hs
        · first
          | exact ha.sublist ((dropTree_sublist _ _ _ _).trans List.filter_sublist)
          | (intro u hu
             rw [← Bool.not_eq_true]
             intro e
             have := satisfied_mono (r' := (promote p.future.length ⟨r, p.future⟩).ready)
               (fun v hv => (List.mem_filter.1 ((dropTree_sublist _ _ _ _).subset hv)).1) e
             rw [hs u hu] at this
             cases this)
    · rename_i hn
      first
      | exact h.apart
      | (intro u hu
         rcases List.mem_cons.1 hu with rfl | hu
         · simpa using hn
         · exact h.settled u hu)

/-- A new transaction leaves those of other accounts as they are. -/
theorem add_others {p : Pool} (h : Ok p) {t : Tx} (ht : Own t) {u : Tx} (hu : u.who ≠ t.who) :
    (u ∈ (p.add t).ready ↔ u ∈ p.ready) ∧ (u ∈ (p.add t).future ↔ u ∈ p.future) := by
  have hne : u ≠ t := by rintro rfl; exact hu rfl
  unfold Pool.add
  split
  · exact ⟨Iff.rfl, Iff.rfl⟩
  split
  · split
    · exact ⟨Iff.rfl, Iff.rfl⟩
    · rename_i r hr
      have hmem : ∀ v : Tx, v.who ≠ t.who → (v ∈ r ↔ v ∈ p.ready) := by
        intro v hv
        refine ⟨fun e => ?_, fun e => addReady_keeps h.own.1 ht hr e hv⟩
        rcases addReady_mem hr e with e | rfl
        · exact e
        · exact absurd rfl hv
      have ho : AllOwn ⟨r, p.future⟩ := by
        refine ⟨fun v hv => ?_, h.own.2⟩
        rcases addReady_mem hr hv with e | rfl
        · exact h.own.1 v e
        · exact ht
      have hp := promote_others (w := t.who) p.future.length ⟨r, p.future⟩ ho (fun f hf hs => by
        by_contra hfw
        have := satisfied_other ho.1 (h.own.2 f hf) hfw (fun v hv hvw => (hmem v hvw).1 hv) hs
        rw [h.settled f hf] at this
        cases this)
      have hpu := hp u hu
      dsimp only
      split
      · exact ⟨hpu.1.trans (hmem u hu), hpu.2⟩
      · refine ⟨⟨fun e => ?_, fun e => ?_⟩, hpu.2⟩
        · exact ((hpu.1.trans (hmem u hu)).1 (List.mem_filter.1 ((dropTree_sublist _ _ _ _).subset e)).1)
        · have hall : ∀ v ∈ (promote p.future.length ⟨r, p.future⟩).ready, Own v := by
            intro v hv
            rcases (promote_mem p.future.length ⟨r, p.future⟩ v).1 hv with e | e
            · exact ho.1 v e
            · exact h.own.2 v e
          refine dropTree_keeps [] (h.own.1 u e) hu _ _ _ (fun v hv => ?_) (fun v hv => hall v (List.mem_filter.1 hv).1)
            (List.mem_filter.2 ⟨(hpu.1.trans (hmem u hu)).2 e, by simpa using e⟩)
          rw [List.mem_filter] at hv
          refine ⟨hall v hv.1, ?_⟩
          by_contra hvw
          have := ((hp v hvw).1.trans (hmem v hvw)).1 hv.1
          simp [this] at hv
  · refine ⟨Iff.rfl, ?_⟩
    show u ∈ t :: p.future ↔ _
    rw [List.mem_cons]
    exact ⟨fun e => e.resolve_left hne, .inr⟩

/-! ## Transactions that have no tags in common -/

theorem addReady_apart_some {r : List Tx} {t : Tx} (h : ∀ u ∈ r, clash t u = false) : addReady r t = some (r ++ [t]) := by
  unfold addReady
  rw [if_pos]
  rw [List.filter_eq_nil_iff]
  intro u hu
  rw [h u hu]
  simp

/-- Every ready transaction comes after what it requires. -/
def Supported (p : Pool) : Prop := ∀ l t r, p.ready = l ++ t :: r → satisfied l t = true

theorem Supported.has {p : Pool} (h : Supported p) : ∀ t ∈ p.ready, satisfied p.ready t = true := by
  intro t ht
  obtain ⟨l, r, e⟩ := List.append_of_mem ht
  exact satisfied_mono (fun u hu => by rw [e]; exact List.mem_append_left _ hu) (h l t r e)

theorem Supported.snoc {p : Pool} (h : Supported p) {t : Tx} (hs : satisfied p.ready t = true) (f : List Tx) :
    Supported ⟨p.ready ++ [t], f⟩ := by
  intro l u r e
  have e : p.ready ++ [t] = l ++ u :: r := e
  rcases List.eq_nil_or_concat r with rfl | ⟨r', x, rfl⟩
  · obtain ⟨e1, e2⟩ := List.append_inj' e rfl
    rw [← e1, ← (List.cons.inj e2).1]
    exact hs
  · have e' : p.ready ++ [t] = (l ++ u :: r') ++ [x] := by rw [e]; simp
    exact h l u r' (List.append_inj' e' rfl).1

theorem promote_apart_all {S : Tx → Prop} (hS : ∀ t u, S t → S u → t ≠ u → clash t u = false) : ∀ (n : Nat) (p : Pool),
    (∀ u, u ∈ p.ready ∨ u ∈ p.future → S u) → (p.ready ++ p.future).Nodup → Supported p →
    (∀ u, u ∈ (promote n p).ready ∨ u ∈ (promote n p).future ↔ u ∈ p.ready ∨ u ∈ p.future) ∧
    (∀ u ∈ p.ready, u ∈ (promote n p).ready) ∧ ((promote n p).ready ++ (promote n p).future).Nodup ∧
    Supported (promote n p)
  | 0, _, _, hn, hp => ⟨fun _ => Iff.rfl, fun _ h => h, hn, hp⟩
  | n + 1, p, hm, hn, hp => by
    unfold promote
    split
    · exact ⟨fun _ => Iff.rfl, fun _ h => h, hn, hp⟩
    · rename_i t ht
      have hf : t ∈ p.future := List.mem_of_find?_eq_some ht
      have hs : satisfied p.ready t = true := List.find?_some ht
      obtain ⟨n1, n2, n3⟩ := List.nodup_append.1 hn
      have hcl : ∀ u ∈ p.ready, clash t u = false := fun u hu =>
        hS t u (hm t (.inr hf)) (hm u (.inl hu)) (fun e => n3 u hu t hf e.symm)
      rw [addReady_apart_some hcl]
      have hmem : ∀ u, u ∈ p.ready ++ [t] ∨ u ∈ p.future.erase t ↔ u ∈ p.ready ∨ u ∈ p.future := by
        intro u
        rw [List.mem_append, List.mem_singleton]
        constructor
        · rintro ((h | rfl) | h)
          · exact .inl h
          · exact .inr hf
          · exact .inr (List.mem_of_mem_erase h)
        · rintro (h | h)
          · exact .inl (.inl h)
          · by_cases e : u = t
            · exact .inl (.inr e)
            · exact .inr ((List.mem_erase_of_ne e).2 h)
      obtain ⟨i1, i2, i3, i4⟩ := promote_apart_all hS n ⟨p.ready ++ [t], p.future.erase t⟩ (fun u hu => hm u ((hmem u).1 hu))
        (by
          refine List.nodup_append.2 ⟨List.nodup_append.2 ⟨n1, List.nodup_singleton _, fun a ha b hb => ?_⟩, n2.erase t,
            fun a ha b hb => ?_⟩
          · rw [List.mem_singleton.1 hb]
            exact n3 a ha t hf
          · rcases List.mem_append.1 ha with ha | ha
            · exact n3 a ha b (List.mem_of_mem_erase hb)
            · rw [List.mem_singleton.1 ha]
              rintro rfl
              exact absurd hb n2.not_mem_erase)
        (hp.snoc hs _)
      exact ⟨fun u => (i1 u).trans (hmem u), fun u hu => i2 u (List.mem_append_left _ hu), i3, i4⟩

/-- Nothing is lost if no two transactions have a tag in common. -/
theorem add_apart {S : Tx → Prop} (hS : ∀ t u, S t → S u → t ≠ u → clash t u = false) {p : Pool}
    (hm : ∀ u, u ∈ p.ready ∨ u ∈ p.future → S u) (hn : (p.ready ++ p.future).Nodup) (hp : Supported p) {t : Tx} (ht : S t) :
    (∀ u, u ∈ (p.add t).ready ∨ u ∈ (p.add t).future ↔ (u ∈ p.ready ∨ u ∈ p.future) ∨ u = t) ∧
    ((p.add t).ready ++ (p.add t).future).Nodup ∧ Supported (p.add t) := by
  unfold Pool.add
  split
  · rename_i h
    refine ⟨fun u => ⟨.inl, ?_⟩, hn, hp⟩
    rintro (h' | rfl)
    · exact h'
    · exact h
  rename_i hnew
  have hnr : t ∉ p.ready := fun h => hnew (.inl h)
  have hnf : t ∉ p.future := fun h => hnew (.inr h)
  obtain ⟨n1, n2, n3⟩ := List.nodup_append.1 hn
  split
  · rename_i hs
    have hcl : ∀ u ∈ p.ready, clash t u = false := fun u hu =>
      hS t u ht (hm u (.inl hu)) (by rintro rfl; exact hnr hu)
    rw [addReady_apart_some hcl]
    dsimp only
    obtain ⟨i1, i2, i3, i4⟩ := promote_apart_all hS p.future.length ⟨p.ready ++ [t], p.future⟩
      (fun u hu => by
        rcases hu with hu | hu
        · rcases List.mem_append.1 hu with hu | hu
          · exact hm u (.inl hu)
          · rw [List.mem_singleton.1 hu]
            exact ht
        · exact hm u (.inr hu))
      (by
        refine List.nodup_append.2 ⟨List.nodup_append.2 ⟨n1, List.nodup_singleton _, fun a ha b hb => ?_⟩, n2,
          fun a ha b hb => ?_⟩
        · rw [List.mem_singleton.1 hb]
          rintro rfl
          exact hnr ha
        · rcases List.mem_append.1 ha with ha | ha
          · exact n3 a ha b hb
          · rw [List.mem_singleton.1 ha]
            rintro rfl
            exact hnf hb)
      (hp.snoc hs _)
    rw [if_pos (i2 t (List.mem_append_right _ (List.mem_singleton.2 rfl)))]
    refine ⟨fun u => (i1 u).trans ?_, i3, i4⟩
    show u ∈ p.ready ++ [t] ∨ u ∈ p.future ↔ _
    rw [List.mem_append, List.mem_singleton]
    tauto
  · refine ⟨fun u => ?_, ?_, hp⟩
    · show u ∈ p.ready ∨ u ∈ t :: p.future ↔ _
      rw [List.mem_cons]
      tauto
    · refine List.nodup_append.2 ⟨n1, List.nodup_cons.2 ⟨hnf, n2⟩, fun a ha b hb => ?_⟩
      rcases List.mem_cons.1 hb with rfl | hb
      · rintro rfl
        exact hnr ha
      · exact n3 a ha b hb

end Verif.Pool
