import Verif.Stateful.Events
/-!
# C108: the events follow every page from hash to hash
-/

namespace Verif.Stateful

/-! ## Specification -/

/-- The page an event is about. -/
def Event.loc : Event → Loc
  | .itemizedUpdated m s _ _ => .items m s
  | .itemizedDeleted m s _ => .items m s
  | .paginatedUpdated m s p _ _ => .page m s p
  | .paginatedDeleted m s p _ => .page m s p

/-- Hash reported as the one before. -/
def Event.prev : Event → Nat
  | .itemizedUpdated _ _ h _ => h
  | .itemizedDeleted _ _ h => h
  | .paginatedUpdated _ _ _ h _ => h
  | .paginatedDeleted _ _ _ h => h

/-- Hash reported as the one after: zero for a deletion, as clients see it. -/
def Event.curr : Event → Nat
  | .itemizedUpdated _ _ _ h => h
  | .itemizedDeleted _ _ _ => 0
  | .paginatedUpdated _ _ _ _ h => h
  | .paginatedDeleted _ _ _ _ => 0

/-- What a follower of the events takes the hash of a page to be, beginning with `h`: that of the last event about
it. -/
def followed (l : Loc) (h : Nat) : List Event → Nat
  | [] => h
  | e :: rest => followed l (if e.loc = l then e.curr else h) rest

/-! ## Lemmas -/

theorem followed_append (l : Loc) (a b : List Event) : ∀ h, followed l h (a ++ b) = followed l (followed l h a) b := by
  induction a with
  | nil => intro h; rfl
  | cons e a ih => intro h; exact ih _

/-- What a successful call reports: at most one event, about the page it is for, with the hashes before and after;
none only if it is to delete a page that is not there. -/
theorem events_change {cfg : Config} {st : Store} {m s} {u : Update} {old new : Option Page}
    (hr : readAt cfg st (u.loc m s) = .ok old) (h : Change cfg old u new) :
    (∃ e, u.events cfg st m s = [e] ∧ e.loc = u.loc m s ∧ e.prev = hashOf cfg old ∧ e.curr = hashOf cfg new) ∨
    (u.events cfg st m s = [] ∧ old = none ∧ new = none) := by
  cases h with
  | @items th a p hh ha hne =>
    left
    simp only [Update.loc, readAt] at hr
    refine ⟨.itemizedUpdated m s (hashOf cfg old) (hashOf cfg (some ⟨((old.getD .default).nonce + 1) % 65536, p.data⟩)),
      ?_, rfl, rfl, rfl⟩
    simp only [Update.events, itemizedEvents, hr, ha, Page.isEmpty]
    rw [getHash_getD]
    simp [Page.getHash, Page.isEmpty, hashOf, hne]
  | @cleared th a p hh ha he =>
    left
    simp only [Update.loc, readAt] at hr
    refine ⟨.itemizedDeleted m s (hashOf cfg old), ?_, rfl, rfl, rfl⟩
    simp only [Update.events, itemizedEvents, hr, ha, Page.isEmpty]
    rw [getHash_getD]
    simp [he]
  | @upsert p th d hh =>
    left
    simp only [Update.loc, readAt] at hr
    refine ⟨.paginatedUpdated m s p (hashOf cfg old) (hashOf cfg (some ⟨((old.getD .default).nonce + 1) % 65536, d⟩)),
      ?_, rfl, rfl, rfl⟩
    simp only [Update.events, paginatedEvents, hr]
    rw [getHash_getD]
    have := getHash_getD cfg (some ⟨((old.getD Page.default).nonce + 1) % 65536, d⟩)
    simp only [Option.getD_some] at this
    rw [this]
  | @delete p th q ho hh =>
    left
    subst ho
    simp only [Update.loc, readAt] at hr
    refine ⟨.paginatedDeleted m s p (hashOf cfg (some q)), ?_, rfl, rfl, rfl⟩
    simp only [Update.events, deleteEvents, hr]
    have := getHash_getD cfg (some q)
    simp only [Option.getD_some] at this
    rw [this]
  | @absent p th ho =>
    right
    subst ho
    simp only [Update.loc, readAt] at hr
    exact ⟨by simp only [Update.events, deleteEvents, hr], rfl, rfl⟩

/-- A step: either nothing is reported and no page differs, or one event is, and no page but that one differs. -/
theorem eventsOf_step {cfg : Config} {st : Store} {x : Step} (hc : CfgOk cfg) (hs : StoreOk cfg st)
    (hx : StepOk cfg x) :
    (eventsOf cfg st x = [] ∧ apply cfg st x = st) ∨
    ∃ e old new, eventsOf cfg st x = [e] ∧ e.loc.InRange cfg ∧ readAt cfg st e.loc = .ok old ∧
      readAt cfg (apply cfg st x) e.loc = .ok new ∧ e.prev = hashOf cfg old ∧ e.curr = hashOf cfg new ∧
      ∀ l, l.InRange cfg → l ≠ e.loc → readAt cfg (apply cfg st x) l = readAt cfg st l := by
  cases hd : dispatch cfg x.env st x.who x.call with
  | error er => left; constructor <;> simp only [eventsOf, apply, hd]
  | ok st' =>
    obtain ⟨owner, old, new, ha, hr, h1, h2, h3, h4, h5⟩ := dispatch_effect hc hs hx hd
    have hap : apply cfg st x = st' := by simp only [apply, hd]
    have hev : eventsOf cfg st x = x.call.update.events cfg st owner x.call.schema := by
      simp only [eventsOf, hd, ha.howner]
    rcases events_change h1 h3 with ⟨e, e1, e2, e3, e4⟩ | ⟨e1, e2, e3⟩
    · right
      refine ⟨e, old, new, by rw [hev, e1], e2 ▸ hr, e2 ▸ h1, ?_, e3, e4, ?_⟩
      · rw [hap, h4, e2]
        exact readAt_put_same _ _ _ (fun p hp => ⟨(h5 p hp).1, (h5 p hp).2.1⟩) (hc.maxSize _)
      · intro l hl hne
        rw [hap, h4]
        exact readAt_put_ne hc.toHashOk _ _ hr hl (fun h => hne (by rw [← h, e2]))
    · left
      subst e2; subst e3
      exact ⟨by rw [hev, e1], by rw [hap, h4]; exact erase_absent h1⟩

/-- Following from any state. -/
theorem followed_run {cfg : Config} (hc : CfgOk cfg) {l : Loc} (hl : l.InRange cfg) (hist : List Step) :
    ∀ st, StoreOk cfg st → (∀ x ∈ hist, StepOk cfg x) → ∀ v, readAt cfg st l = .ok v →
    ∃ w, readAt cfg (run cfg st hist) l = .ok w ∧ hashOf cfg w = followed l (hashOf cfg v) (eventsFrom cfg st hist) := by
  induction hist with
  | nil => intro st _ _ v hv; exact ⟨v, hv, rfl⟩
  | cons x rest ih =>
    intro st hs hx v hv
    have hx0 := hx x (by simp)
    have hs' := storeOk_apply hc hs hx0
    have ih := ih (apply cfg st x) hs' (fun y hy => hx y (List.mem_cons_of_mem _ hy))
    rcases eventsOf_step hc hs hx0 with ⟨h1, h2⟩ | ⟨e, old, new, h1, h2, h3, h4, h5, h6, h7⟩
    · rw [h2] at ih
      obtain ⟨w, w1, w2⟩ := ih v hv
      refine ⟨w, ?_, ?_⟩
      · show readAt cfg (run cfg (apply cfg st x) rest) l = _; rw [h2]; exact w1
      · show _ = followed l _ (eventsOf cfg st x ++ eventsFrom cfg (apply cfg st x) rest)
        rw [h1, h2]; exact w2
    · have hv' : readAt cfg (apply cfg st x) l = .ok (if e.loc = l then new else v) := by
        split
        · rename_i h; rw [← h]; exact h4
        · rename_i h; rw [h7 l hl (fun h' => h h'.symm)]; exact hv
      obtain ⟨w, w1, w2⟩ := ih _ hv'
      refine ⟨w, w1, ?_⟩
      show _ = followed l _ (eventsOf cfg st x ++ eventsFrom cfg (apply cfg st x) rest)
      rw [h1, w2]
      show _ = followed l (if e.loc = l then e.curr else hashOf cfg v) _
      congr 1
      split
      · exact h6.symm
      · rfl

theorem prev_run {cfg : Config} (hc : CfgOk cfg) (hist : List Step) :
    ∀ st, StoreOk cfg st → (∀ x ∈ hist, StepOk cfg x) → ∀ before e after,
    eventsFrom cfg st hist = before ++ e :: after →
    e.loc.InRange cfg ∧ ∀ v, readAt cfg st e.loc = .ok v → e.prev = followed e.loc (hashOf cfg v) before := by
  induction hist with
  | nil => intro st _ _ before e after h; simp [eventsFrom] at h
  | cons x rest ih =>
    intro st hs hx before e after h
    have hx0 := hx x (by simp)
    have ih := ih (apply cfg st x) (storeOk_apply hc hs hx0) (fun y hy => hx y (List.mem_cons_of_mem _ hy))
    rw [eventsFrom] at h
    rcases eventsOf_step hc hs hx0 with ⟨h1, h2⟩ | ⟨e', old, new, h1, h2, h3, h4, h5, h6, h7⟩
    · rw [h1, List.nil_append, h2] at h
      rw [h2] at ih
      exact ih before e after h
    · rw [h1] at h
      cases before with
      | nil =>
        simp only [List.cons_append, List.nil_append, List.cons.injEq] at h
        obtain ⟨rfl, _⟩ := h
        refine ⟨h2, fun v hv => ?_⟩
        have : v = old := by have := hv.symm.trans h3; simpa using this
        rw [this]; exact h5
      | cons b before =>
        simp only [List.cons_append, List.nil_append, List.cons.injEq] at h
        obtain ⟨rfl, h⟩ := h
        obtain ⟨hr, ih⟩ := ih before e after h
        refine ⟨hr, fun v hv => ?_⟩
        have hv' : readAt cfg (apply cfg st x) e.loc = .ok (if e'.loc = e.loc then new else v) := by
          split
          · rename_i h; rw [← h]; exact h4
          · rename_i h; rw [h7 _ hr (fun h' => h h'.symm)]; exact hv
        rw [ih _ hv']
        show _ = followed e.loc (if e'.loc = e.loc then e'.curr else hashOf cfg v) before
        congr 1
        split
        · exact h6.symm
        · rfl

theorem storeOk_empty (cfg : Config) : StoreOk cfg ∅ := by
  intro k v hk
  simp [SMap.get_empty] at hk

theorem readAt_empty (cfg : Config) (l : Loc) : readAt cfg ∅ l = .ok none := by
  rw [readAt_eq]; simp [SMap.get_empty]

/-! ## C108 -/

/-- C108, first part: whoever has followed the events since the beginning knows the hash of every page: that of the
last event about it, zero if there is none or it was a deletion. -/
theorem C108_followed_hash (cfg : Config) (hc : CfgOk cfg) (hist : List Step) (hh : ∀ x ∈ hist, StepOk cfg x) (l : Loc)
    (hl : l.InRange cfg) :
    ∃ v, readAt cfg (run cfg ∅ hist) l = .ok v ∧ hashOf cfg v = followed l 0 (eventsFrom cfg ∅ hist) :=
  followed_run hc hl hist ∅ (storeOk_empty cfg) hh none (readAt_empty cfg l)

/-- C108, second part: the chain has no gap. The hash an event gives as the previous one is the one the follower has. -/
theorem C108_unbroken (cfg : Config) (hc : CfgOk cfg) (hist : List Step) (hh : ∀ x ∈ hist, StepOk cfg x)
    (before after : List Event) (e : Event) (h : eventsFrom cfg ∅ hist = before ++ e :: after) :
    e.prev = followed e.loc 0 before :=
  (prev_run hc hist ∅ (storeOk_empty cfg) hh before e after h).2 none (readAt_empty cfg _)

/-- C108, third part: no page changes without an event about it, in the very call, and a call that reports nothing
changes nothing. -/
theorem C108_change_reported (cfg : Config) (hc : CfgOk cfg) (st : Store) (hst : Reachable cfg st) (x : Step)
    (hx : StepOk cfg x) :
    (∀ l, l.InRange cfg → readAt cfg (apply cfg st x) l ≠ readAt cfg st l → ∃ e ∈ eventsOf cfg st x, e.loc = l) ∧
    (eventsOf cfg st x = [] → apply cfg st x = st) ∧ (eventsOf cfg st x).length ≤ 1 := by
  rcases eventsOf_step hc (hst.storeOk hc) hx with ⟨h1, h2⟩ | ⟨e, old, new, h1, h2, h3, h4, h5, h6, h7⟩
  · exact ⟨fun l hl hne => absurd (by rw [h2]) hne, fun _ => h2, by simp [h1]⟩
  · refine ⟨fun l hl hne => ⟨e, by simp [h1], ?_⟩, fun h => by simp [h1] at h, by simp [h1]⟩
    by_contra hn
    exact hne (h7 l hl fun h => hn h.symm)

/-- The example history leaves four events about four pages; items added and then removed again leave a chain of
three for the page, back to zero. -/
example : (eventsFrom exCfg ∅ exHist).map Event.loc =
    [.items 1 1, .page 1 4 1, .page 1 2 3, .items 1 3] := by decide +kernel

def exPage : List Step :=
  let h1 := (⟨1, [1, 0, 5]⟩ : Page).getHash exCfg.hash
  let h2 := (⟨2, [1, 0, 5, 1, 0, 6]⟩ : Page).getHash exCfg.hash
  [⟨exEnv, some 11, .applyItemActions 1 1 0 [.add [5]]⟩,
   ⟨exEnv, some 22, .applyItemActions 1 1 h1 [.add [6]]⟩,
   ⟨exEnv, some 22, .applyItemActions 1 1 h1 [.add [7]]⟩,
   ⟨exEnv, some 22, .deletePage 1 2 0 0⟩,
   ⟨exEnv, some 11, .applyItemActions 1 1 h2 [.delete 0, .delete 1]⟩]

example :
    let h1 := (⟨1, [1, 0, 5]⟩ : Page).getHash exCfg.hash
    let h2 := (⟨2, [1, 0, 5, 1, 0, 6]⟩ : Page).getHash exCfg.hash
    eventsFrom exCfg ∅ exPage = [.itemizedUpdated 1 1 0 h1, .itemizedUpdated 1 1 h1 h2, .itemizedDeleted 1 1 h2] := by
  decide +kernel

example : ∀ x ∈ exPage, StepOk exCfg x := by
  intro x hx o ho
  simp only [exPage, List.mem_cons, List.not_mem_nil, or_false] at hx
  rcases hx with rfl | rfl | rfl | rfl | rfl <;>
  · simp only [Call.owner, Option.some.injEq] at ho
    subst ho; decide

end Verif.Stateful
