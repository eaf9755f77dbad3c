import Verif.Handles.Lemmas
/-!
# Invariant of the handles pallet
-/

namespace Verif.Handles

/-- Canonical name and suffix announced by an event. -/
def claimedName (cfg : Config) : Event → Option (Str × Nat)
  | .claimed _ d => (partsOf d).map (fun p => (canonical cfg p.1, p.2))
  | .retired _ _ => none

/-- All canonical names with suffix assigned by claims so far, in order. -/
def assigned (cfg : Config) (s : State) : List (Str × Nat) := s.events.filterMap (claimedName cfg)

/-- The suffixes assigned to the canonical name `c` so far, in order. -/
def assignedTo (cfg : Config) (s : State) (c : Str) : List Nat :=
  ((assigned cfg s).filter (fun p => p.1 = c)).map Prod.snd

/-- Number of suffixes used up according to the stored index. -/
def used (s : State) (key : Bytes) : Nat :=
  match s.index.get key with
  | none => 0
  | some (i, _) => i + 1

/-- Invariant of states reached with the suffix range `lo..hi`. -/
structure Inv (cfg : Config) (lo hi : Nat) (s : State) : Prop where
  indexLo : ∀ k i l, s.index.get k = some (i, l) → l = lo
  stored : ∀ m d e, s.byMsa.get m = some (d, e) → ∃ base x, ValidBase cfg base ∧ d = displayOf base x ∧
    lo ≤ x ∧ x ≤ hi ∧ (canonical cfg base, x) ∈ assigned cfg s
  distinct : ∀ m m' d d' e e' b x b' x', s.byMsa.get m = some (d, e) → s.byMsa.get m' = some (d', e') →
    partsOf d = some (b, x) → partsOf d' = some (b', x') →
    (canonical cfg b, x) = (canonical cfg b', x') → m = m'
  issued : ∀ c x, (c, x) ∈ assigned cfg s → ∃ i, (uniqueSuffixes lo hi c)[i]? = some x ∧ i < used s (keyOf c)
  nodup : (assigned cfg s).Nodup
  order : ∀ c, c ≠ [] → (utf8Encode c).length ≤ 32 →
    assignedTo cfg s c = (uniqueSuffixes lo hi c).take (used s (keyOf c))
  lookup : ∀ m d e b x, s.byMsa.get m = some (d, e) → partsOf d = some (b, x) →
    (utf8Encode (canonical cfg b)).length ≤ 32 → s.byName.get (keyOf (canonical cfg b), x) = some m
  holder : ∀ k x m, s.byName.get (k, x) = some m →
    ∃ d e b, s.byMsa.get m = some (d, e) ∧ partsOf d = some (b, x) ∧ keyOf (canonical cfg b) = k

theorem inv_init (cfg : Config) (lo hi : Nat) : Inv cfg lo hi .init := by
  constructor
  · intro k i l h; cases h
  · intro m d e h; cases h
  · intro m m' d d' e e' b x b' x' h; cases h
  · intro c x h; cases h
  · exact List.nodup_nil
  · intro c _ _; rfl
  · intro m d e b x h; cases h
  · intro k x m h; cases h

/-- The suffix range fits the types of the code, see `suffixes`. -/
def RangeOk (hi : Nat) : Prop := hi < 65535

theorem Inv.parts {cfg lo hi s} (hi' : Inv cfg lo hi s) (hr : RangeOk hi) {m d e b x}
    (h : s.byMsa.get m = some (d, e)) (hp : partsOf d = some (b, x)) :
    ValidBase cfg b ∧ d = displayOf b x ∧ lo ≤ x ∧ x ≤ hi ∧ (canonical cfg b, x) ∈ assigned cfg s := by
  obtain ⟨base, y, hv, rfl, h1, h2, h3⟩ := hi'.stored m d e h
  rw [partsOf_displayOf hv.noDot (by unfold RangeOk at hr; omega)] at hp
  cases hp
  exact ⟨hv, rfl, h1, h2, h3⟩

theorem ValidBase.canonical_ne {cfg base} (h : ValidBase cfg base) : canonical cfg base ≠ [] := by
  intro e
  have := h.canonicalChars.1
  rw [e] at this
  simp at this

theorem inv_retire {cfg lo hi s m s1 d base x e} (hi' : Inv cfg lo hi s) (hr : RangeOk hi)
    (h : Retired cfg s m s1 d base x e) :
    Inv cfg lo hi { s1 with events := s1.events ++ [.retired m d] } := by
  have hst := h.state
  subst hst
  have hass : assigned cfg { s with
      byMsa := s.byMsa.erase m
      byName := s.byName.erase (keyOf (canonical cfg base), x)
      events := s.events ++ [.retired m d] } = assigned cfg s := by
    simp [assigned, claimedName]
  have hsub : ∀ {m' v}, (s.byMsa.erase m).get m' = some v → m' ≠ m ∧ s.byMsa.get m' = some v := by
    intro m' v hg
    rw [SMap.get_erase] at hg
    split at hg
    · cases hg
    · rename_i hne; exact ⟨fun e => hne e.symm, hg⟩
  constructor
  · exact hi'.indexLo
  · intro m' d' e' hg
    rw [hass]
    exact hi'.stored m' d' e' (hsub hg).2
  · intro m1 m2 d1 d2 e1 e2 b1 x1 b2 x2 g1 g2
    exact hi'.distinct m1 m2 d1 d2 e1 e2 b1 x1 b2 x2 (hsub g1).2 (hsub g2).2
  · intro c y hc
    rw [hass] at hc
    exact hi'.issued c y hc
  · rw [hass]; exact hi'.nodup
  · intro c h1 h2
    unfold assignedTo
    rw [hass]
    exact hi'.order c h1 h2
  · intro m' d' e' b y hg hp hlen
    obtain ⟨hne, hg⟩ := hsub hg
    rw [SMap.get_erase_ne]
    · exact hi'.lookup m' d' e' b y hg hp hlen
    · intro heq
      rw [Prod.mk.injEq] at heq
      have hv := (hi'.parts hr hg hp).1
      have hcc : canonical cfg b = canonical cfg base := keyOf_inj hv.canonical_ne hlen heq.1.symm
      exact hne (hi'.distinct m' m d' d e' e b y base x hg h.stored hp h.parts (by rw [hcc, heq.2]))
  · intro k y m' hg
    rw [SMap.get_erase] at hg
    split at hg
    · cases hg
    · rename_i hne
      obtain ⟨d', e', b, h1, h2, h3⟩ := hi'.holder k y m' hg
      have hmm : m ≠ m' := by
        rintro rfl
        have h4 := h.stored
        rw [h1] at h4
        cases h4
        have h5 := h.parts
        rw [h2] at h5
        cases h5
        exact hne (by rw [h3])
      refine ⟨d', e', b, ?_, h2, h3⟩
      show (s.byMsa.erase m).get m' = _
      rw [SMap.get_erase_ne _ hmm]
      exact h1

/-- The next index is the number of suffixes used up. -/
theorem Inv.next {cfg lo hi s env k i} (hi' : Inv cfg lo hi s) (he : env.lo = lo)
    (h : nextSuffixIndex env s k = .ok i) : i = used s k := by
  unfold nextSuffixIndex at h
  unfold used
  cases hg : s.index.get k with
  | none => rw [hg] at h; cases h; rfl
  | some p =>
    obtain ⟨j, l⟩ := p
    rw [hg] at h
    have := hi'.indexLo k j l hg
    simp only at h
    rw [if_neg (by rw [he, this]; simp)] at h
    split at h
    · cases h; rfl
    · cases h

/-- A new assignment is fresh. -/
theorem Inv.fresh {cfg lo hi s c x} (hi' : Inv cfg lo hi s)
    (hx : (uniqueSuffixes lo hi c)[used s (keyOf c)]? = some x) : (c, x) ∉ assigned cfg s := by
  intro hm
  obtain ⟨j, hj, hlt⟩ := hi'.issued c x hm
  have hjl : j < (uniqueSuffixes lo hi c).length := (List.getElem?_eq_some_iff.1 hj).1
  have := (List.getElem?_inj hjl (uniqueSuffixes_nodup lo hi c)).1 (hj.trans hx.symm)
  omega

theorem inv_claim {cfg lo hi s env m p s' d base i x} (hi' : Inv cfg lo hi s) (hr : RangeOk hi)
    (he : env.lo = lo ∧ env.hi = hi) (hlen : p.baseHandle.length ≤ 32)
    (h : Claimed cfg env s m p s' d base i x) :
    Inv cfg lo hi { s' with events := s'.events ++ [.claimed m d] } := by
  obtain ⟨e1, e2⟩ := he
  have hst := h.state
  have hnext := hi'.next e1 h.nextIndex
  have hsuf := h.suffix
  rw [e1, e2, hnext] at hsuf
  have hxm : lo ≤ x ∧ x ≤ hi := (mem_uniqueSuffixes lo hi _ x).1 (List.mem_of_getElem? hsuf)
  have hv : ValidBase cfg base :=
    ⟨h.chars, by rw [utf8Encode_decode h.decoded]; exact hlen, h.blocked, h.reserved, h.supp, h.canonicalChars⟩
  have hparts : partsOf d = some (base, x) := by
    rw [h.display]
    exact partsOf_displayOf hv.noDot (by unfold RangeOk at hr; omega)
  have hfresh := hi'.fresh hsuf
  have hass : assigned cfg { s' with events := s'.events ++ [.claimed m d] } =
      assigned cfg s ++ [(canonical cfg base, x)] := by
    rw [hst]
    simp [assigned, claimedName, hparts]
  have hbm : s'.byMsa = s.byMsa.insert m (d, p.expiration) := by rw [hst]
  have hbn : s'.byName = s.byName.insert (keyOf (canonical cfg base), x) m := by rw [hst]
  have hix : s'.index = s.index.insert (keyOf (canonical cfg base)) (i, env.lo) := by rw [hst]
  have hget : ∀ {m' v}, s'.byMsa.get m' = some v →
      (m' = m ∧ v = (d, p.expiration)) ∨ (m' ≠ m ∧ s.byMsa.get m' = some v) := by
    intro m' v hg
    rw [hbm, SMap.get_insert] at hg
    split at hg
    · rename_i e; exact .inl ⟨e.symm, (Option.some.inj hg).symm⟩
    · rename_i e; exact .inr ⟨fun h => e h.symm, hg⟩
  have hused : ∀ k, used s' k = if keyOf (canonical cfg base) = k then used s k + 1 else used s k := by
    intro k
    by_cases e : keyOf (canonical cfg base) = k
    · rw [if_pos e]
      have : used s' k = i + 1 := by
        unfold used
        rw [hix, SMap.get_insert, if_pos e]
      rw [this, hnext, e]
    · rw [if_neg e]
      unfold used
      rw [hix, SMap.get_insert, if_neg e]
  have hused' : ∀ k, used { s' with events := s'.events ++ [.claimed m d] } k = used s' k := fun _ => rfl
  constructor
  · intro k j l hg
    replace hg : s'.index.get k = some (j, l) := hg
    rw [hix, SMap.get_insert] at hg
    split at hg
    · cases hg; exact e1
    · exact hi'.indexLo k j l hg
  · intro m' d' e' hg
    rw [hass]
    rcases hget hg with ⟨rfl, h1⟩ | ⟨_, h1⟩
    · cases h1
      exact ⟨base, x, hv, h.display, hxm.1, hxm.2, by simp⟩
    · obtain ⟨b, y, h2, h3, h4, h5, h6⟩ := hi'.stored m' d' e' h1
      exact ⟨b, y, h2, h3, h4, h5, by simp [h6]⟩
  · intro m1 m2 d1 d2 e1' e2' b1 x1 b2 x2 g1 g2 p1 p2 heq
    rcases hget g1 with ⟨r1, h1⟩ | ⟨n1, h1⟩ <;> rcases hget g2 with ⟨r2, h2⟩ | ⟨n2, h2⟩
    · rw [r1, r2]
    · exfalso
      cases h1
      rw [hparts] at p1
      cases p1
      apply hfresh
      rw [heq]
      exact (hi'.parts hr h2 p2).2.2.2.2
    · exfalso
      cases h2
      rw [hparts] at p2
      cases p2
      apply hfresh
      rw [← heq]
      exact (hi'.parts hr h1 p1).2.2.2.2
    · exact hi'.distinct m1 m2 d1 d2 e1' e2' b1 x1 b2 x2 h1 h2 p1 p2 heq
  · intro c y hc
    rw [hass] at hc
    rw [hused', hused]
    rcases List.mem_append.1 hc with hc | hc
    · obtain ⟨j, hj, hlt⟩ := hi'.issued c y hc
      exact ⟨j, hj, by split <;> omega⟩
    · simp only [List.mem_singleton, Prod.mk.injEq] at hc
      obtain ⟨rfl, rfl⟩ := hc
      exact ⟨_, hsuf, by rw [if_pos rfl]; omega⟩
  · rw [hass]
    exact List.Nodup.append hi'.nodup (by simp) (by simpa using hfresh)
  · intro c h1 h2
    rw [hused', hused]
    unfold assignedTo
    rw [hass, List.filter_append, List.map_append]
    have ho := hi'.order c h1 h2
    unfold assignedTo at ho
    rw [ho]
    by_cases hc : canonical cfg base = c
    · subst hc
      rw [if_pos rfl]
      simp only [decide_true, List.filter_cons_of_pos, List.filter_nil, List.map_cons, List.map_nil]
      rw [List.take_succ, hsuf]
      rfl
    · have hk : keyOf (canonical cfg base) ≠ keyOf c := by
        intro hk
        exact hc (keyOf_inj h1 h2 hk.symm).symm
      rw [if_neg hk]
      simp [hc]
  · intro m' d' e' b y hg hp hl
    show s'.byName.get _ = _
    rw [hbn]
    rcases hget hg with ⟨rfl, h1⟩ | ⟨hne, h1⟩
    · cases h1
      rw [hparts] at hp
      cases hp
      exact SMap.get_insert_self _ _ _
    · have hvp := hi'.parts hr h1 hp
      rw [SMap.get_insert_ne]
      · exact hi'.lookup m' d' e' b y h1 hp hl
      · intro heq
        rw [Prod.mk.injEq] at heq
        have hcc := keyOf_inj hvp.1.canonical_ne hl heq.1.symm
        apply hfresh
        rw [← hcc, heq.2]
        exact hvp.2.2.2.2
  · intro k y m' hg
    replace hg : s'.byName.get (k, y) = some m' := hg
    show ∃ d' e' b, s'.byMsa.get m' = _ ∧ _
    rw [hbn, SMap.get_insert] at hg
    split at hg
    · rename_i e
      cases hg
      rw [Prod.mk.injEq] at e
      obtain ⟨rfl, rfl⟩ := e
      exact ⟨d, p.expiration, base, by rw [hbm, SMap.get_insert_self], hparts, rfl⟩
    · obtain ⟨d', e', b, h1, h2, h3⟩ := hi'.holder k y m' hg
      have hmm : m ≠ m' := by
        rintro rfl
        rw [h.noHandle] at h1
        cases h1
      exact ⟨d', e', b, by rw [hbm, SMap.get_insert_ne _ hmm]; exact h1, h2, h3⟩

theorem inv_apply {cfg lo hi s} (hi' : Inv cfg lo hi s) (hr : RangeOk hi) (x : Step)
    (hx : x.env.lo = lo ∧ x.env.hi = hi) : Inv cfg lo hi (apply cfg s x) := by
  have he := apply_eff cfg s x
  generalize apply cfg s x = s' at he
  cases he with
  | fail e h => exact hi'
  | claim hlen hm hw hsig h => exact inv_claim hi' hr hx hlen h
  | change hlen hm hw hsig h1 h => exact inv_claim (inv_retire hi' hr h1) hr hx hlen h
  | retire hm h hexp => exact inv_retire hi' hr h
  | retireWrapped hm h => exact inv_retire hi' hr h

/-- All steps of a history run under the suffix range `lo..hi`. -/
def Fixed (lo hi : Nat) (hist : List Step) : Prop := ∀ x ∈ hist, x.env.lo = lo ∧ x.env.hi = hi

theorem inv_run {cfg lo hi} (hr : RangeOk hi) (hist : List Step) :
    ∀ {s}, Inv cfg lo hi s → Fixed lo hi hist → Inv cfg lo hi (run cfg s hist) := by
  induction hist with
  | nil => intro s h _; exact h
  | cons x rest ih =>
    intro s h hf
    exact ih (inv_apply h hr x (hf x (by simp))) (fun y hy => hf y (by simp [hy]))

end Verif.Handles
