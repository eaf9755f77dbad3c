import Verif.Stateful.Lemmas
/-!
# What holds of every reachable store
-/

namespace Verif.Stateful

/-- Assumptions on the configuration: hash functions as in `HashOk`, and limits for which lengths, item
numbers and page ids fit their types. The runtime has 10260, 1024 and 32. -/
structure CfgOk (cfg : Config) : Prop extends HashOk cfg where
  itemizedSmall : cfg.maxItemizedPage ≤ 131070
  paginatedSmall : cfg.maxPaginatedPage < 2 ^ 32
  pageIdSmall : cfg.maxPageId < 2 ^ 16

/-- The ids a call mentions are values of their types. -/
def StepOk (cfg : Config) (x : Step) : Prop :=
  ∀ owner, x.call.owner x.env = some owner → (x.call.update.loc owner x.call.schema).InRange cfg

/-- Stores that arise from the empty one. -/
def Reachable (cfg : Config) (st : Store) : Prop :=
  ∃ hist : List Step, (∀ x ∈ hist, StepOk cfg x) ∧ st = run cfg ∅ hist

/-- A page that may be stored at a location: within its limits; itemized pages are not empty and hold
items. -/
def PageOk (cfg : Config) (l : Loc) (p : Page) : Prop :=
  p.nonce < 65536 ∧ p.data.length ≤ l.maxSize cfg ∧
  match l with
  | .items _ _ => ∃ items, items ≠ [] ∧ Fit items ∧ p.data = encodeItems items
  | .page _ _ id => id ≤ cfg.maxPageId

/-- The invariant: every raw entry is an encoded page at a location. -/
def StoreOk (cfg : Config) (st : Store) : Prop :=
  ∀ k v, st.get k = some v → ∃ l p, Loc.InRange cfg l ∧ k = l.raw cfg ∧ v = p.encode ∧ PageOk cfg l p

theorem CfgOk.maxSize {cfg} (h : CfgOk cfg) (l : Loc) : l.maxSize cfg < 2 ^ 32 := by
  cases l with
  | items m s => have := h.itemizedSmall; simp only [Loc.maxSize]; omega
  | page m s p => exact h.paginatedSmall

theorem encodeItems_length (items : List Bytes) : 2 * items.length ≤ (encodeItems items).length := by
  induction items with
  | nil => simp [encodeItems]
  | cons d items ih => rw [encodeItems_cons]; simp only [List.length_append, length_encodeItem,
      List.length_cons]; omega

theorem encodeItems_eq_nil {items : List Bytes} : encodeItems items = [] ↔ items = [] := by
  constructor
  · intro h
    have := encodeItems_length items
    rw [h] at this
    cases items with
    | nil => rfl
    | cons => simp at this
  · rintro rfl; rfl

/-- The items a page of an itemized location holds. -/
theorem StoreOk.read {cfg st} (hc : CfgOk cfg) (h : StoreOk cfg st) {l : Loc} (hl : l.InRange cfg) :
    ∃ v, readAt cfg st l = .ok v ∧ ∀ p ∈ v, PageOk cfg l p := by
  rw [readAt_eq]
  cases hg : st.get (l.raw cfg) with
  | none => exact ⟨none, rfl, by simp⟩
  | some v =>
    obtain ⟨l', p, h1, h2, h3, h4⟩ := h _ _ hg
    have := raw_inj hc.toHashOk hl h1 h2
    subst this
    refine ⟨some p, ?_, by simpa using h4⟩
    subst h3
    simp only [decodePage_encode h4.1 h4.2.1 (hc.maxSize l)]

/-- What is in the page of an itemized location, absent or not. -/
theorem items_of_ok {cfg : Config} (hc : CfgOk cfg) {m s} {v : Option Page} (h : ∀ p ∈ v, PageOk cfg (.items m s) p) :
    ∃ items, Fit items ∧ items.length ≤ 65535 ∧ (v.getD .default).data = encodeItems items := by
  cases v with
  | none => exact ⟨[], by simp [Fit], by simp, rfl⟩
  | some p =>
    obtain ⟨_, h2, items, h3, h4, h5⟩ := h p rfl
    refine ⟨items, h4, ?_, h5⟩
    have := encodeItems_length items
    rw [← h5] at this
    have := hc.itemizedSmall
    simp only [Loc.maxSize] at h2
    omega

theorem fit_survivors {ds : List Nat} {n : Nat} {items : List Bytes} (h : Fit items) :
    Fit (survivors ds n items) := by
  induction items generalizing n with
  | nil => exact h
  | cons d items ih =>
    have hr : Fit items := fun x hx => h x (List.mem_cons_of_mem _ hx)
    simp only [survivors]
    split
    · exact ih hr
    · intro x hx
      rcases List.mem_cons.1 hx with rfl | hx
      · exact h _ (by simp)
      · exact ih hr x hx

theorem Change.pageOk {cfg : Config} (hc : CfgOk cfg) {m s} {u : Update} {old new}
    (hb : u.Bounded cfg) (ho : ∀ p ∈ old, PageOk cfg (u.loc m s) p) (h : Change cfg old u new) :
    ∀ p ∈ new, PageOk cfg (u.loc m s) p := by
  cases h with
  | @items th a p hh ha hne =>
    intro q hq
    simp only [Option.mem_def, Option.some.injEq] at hq
    subst hq
    obtain ⟨items, f1, f2, f3⟩ := items_of_ok hc ho
    have he : (old.getD Page.default) = ⟨(old.getD Page.default).nonce, encodeItems items⟩ := by
      rw [← f3]
    rw [he, C20_actions_exact _ _ _ f1 f2] at ha
    obtain ⟨_, _, a3, a4, _, a6⟩ := ha
    refine ⟨by show _ % 65536 < 65536; omega, by show p.data.length ≤ cfg.maxItemizedPage; rw [a6]; exact a4, _, ?_, ?_, a6⟩
    · intro hn; rw [hn] at a6; exact hne a6
    · intro x hx
      rcases List.mem_append.1 hx with hx | hx
      · exact fit_survivors f1 x hx
      · exact a3 x hx
  | cleared => simp
  | @upsert p th d hh =>
    intro q hq
    simp only [Option.mem_def, Option.some.injEq] at hq
    subst hq
    exact ⟨by show _ % 65536 < 65536; omega, hb.1, hb.2⟩
  | delete => simp
  | absent => simp

theorem storeOk_put {cfg st l v} (h : StoreOk cfg st) (hl : Loc.InRange cfg l)
    (hv : ∀ p ∈ v, PageOk cfg l p) : StoreOk cfg (put cfg st l v) := by
  intro k b hk
  rw [get_put] at hk
  split at hk
  · rename_i he
    cases v with
    | none => simp at hk
    | some p =>
      simp only [Option.map_some, Option.some.injEq] at hk
      exact ⟨l, p, hl, he.symm, hk.symm, hv p rfl⟩
  · exact h k b hk

/-- Everything a successful call does, on a store that satisfies the invariant. -/
theorem dispatch_effect {cfg env st who call st'} (hc : CfgOk cfg) (hs : StoreOk cfg st)
    (hx : StepOk cfg ⟨env, who, call⟩) (h : dispatch cfg env st who call = .ok st') :
    ∃ owner old new, Accepted cfg env st who call st' owner ∧
      (call.update.loc owner call.schema).InRange cfg ∧
      readAt cfg st (call.update.loc owner call.schema) = .ok old ∧
      (∀ p ∈ old, PageOk cfg (call.update.loc owner call.schema) p) ∧
      Change cfg old call.update new ∧ st' = put cfg st (call.update.loc owner call.schema) new ∧
      (∀ p ∈ new, PageOk cfg (call.update.loc owner call.schema) p) := by
  obtain ⟨owner, ha⟩ := dispatch_accepted h
  have hr := hx owner ha.howner
  obtain ⟨old, new, h1, h2, h3⟩ := exec_ok ha.exec
  obtain ⟨v, h4, h5⟩ := hs.read hc hr
  have e : v = old := by
    have := h4.symm.trans h1
    simpa using this
  subst e
  exact ⟨owner, v, new, ha, hr, h1, h5, h2, h3, h2.pageOk hc ha.bounded h5⟩

theorem storeOk_apply {cfg st x} (hc : CfgOk cfg) (hs : StoreOk cfg st) (hx : StepOk cfg x) :
    StoreOk cfg (apply cfg st x) := by
  unfold apply
  split
  · rename_i st' h
    obtain ⟨owner, old, new, _, hr, _, _, _, h3, h4⟩ := dispatch_effect hc hs hx h
    rw [h3]
    exact storeOk_put hs hr h4
  · exact hs

theorem storeOk_run {cfg} (hc : CfgOk cfg) (hist : List Step) : ∀ {st}, StoreOk cfg st →
    (∀ x ∈ hist, StepOk cfg x) → StoreOk cfg (run cfg st hist) := by
  induction hist with
  | nil => intro st hs _; exact hs
  | cons x rest ih =>
    intro st hs hx
    exact ih (storeOk_apply hc hs (hx x (by simp))) (fun y hy => hx y (List.mem_cons_of_mem _ hy))

theorem Reachable.storeOk {cfg st} (hc : CfgOk cfg) (h : Reachable cfg st) : StoreOk cfg st := by
  obtain ⟨hist, h1, rfl⟩ := h
  refine storeOk_run hc hist ?_ h1
  intro k v hk
  simp [SMap.get_empty] at hk

theorem Reachable.run {cfg st} (h : Reachable cfg st) {hist : List Step} (hh : ∀ x ∈ hist, StepOk cfg x) :
    Reachable cfg (run cfg st hist) := by
  obtain ⟨h0, h1, rfl⟩ := h
  refine ⟨h0 ++ hist, ?_, ?_⟩
  · intro x hx
    rcases List.mem_append.1 hx with hx | hx
    · exact h1 x hx
    · exact hh x hx
  · simp [Stateful.run, List.foldl_append]

/-- What a step does to the page read at a location. -/
theorem readAt_apply {cfg st x} (hc : CfgOk cfg) (hs : StoreOk cfg st) (hx : StepOk cfg x) {l : Loc}
    (hl : l.InRange cfg) :
    readAt cfg (apply cfg st x) l = readAt cfg st l ∨
    ∃ owner old new, Accepted cfg x.env st x.who x.call (apply cfg st x) owner ∧
      l = x.call.update.loc owner x.call.schema ∧ readAt cfg st l = .ok old ∧
      (∀ p ∈ old, PageOk cfg l p) ∧
      Change cfg old x.call.update new ∧ readAt cfg (apply cfg st x) l = .ok new := by
  unfold apply
  split
  · rename_i st' h
    obtain ⟨owner, old, new, h1, hr, h2, h3, h4, h5, h6⟩ := dispatch_effect hc hs hx h
    by_cases e : x.call.update.loc owner x.call.schema = l
    · subst e
      refine .inr ⟨owner, old, new, h1, rfl, h2, h3, h4, ?_⟩
      rw [h5]
      exact readAt_put_same _ _ _ (fun p hp => ⟨(h6 p hp).1, (h6 p hp).2.1⟩) (hc.maxSize _)
    · left
      rw [h5]
      exact readAt_put_ne hc.toHashOk _ _ hr hl e
  · exact .inl rfl

end Verif.Stateful
