import Verif.Stateful.Props
/-!
# Storage keys, replay of signed payloads, shared payload bytes
-/

namespace Verif.Stateful

/-! ## C26: storage keys -/

/-- The key hash (`Twox128` in the runtime) has no collisions on two-byte inputs: an assumption. -/
def KeyInj (cfg : Config) : Prop :=
  ∀ s s', s < 2 ^ 16 → s' < 2 ^ 16 → cfg.keyHasher (Scale.u16 s) = cfg.keyHasher (Scale.u16 s') → s = s'

theorem decodePair_u16 {s p : Nat} (hs : s < 2 ^ 16) (hp : p < 2 ^ 16) :
    decodePair (Scale.u16 s ++ Scale.u16 p) = some (s, p) := by
  unfold decodePair
  have h1 := Scale.decLe_leBytes 2 s (by omega) (Scale.u16 p)
  have h2 := Scale.decLe_leBytes 2 p (by omega) []
  rw [List.append_nil] at h2
  unfold Scale.u16 at *
  simp only [h1, h2]

/-- C26: the key of a page decodes to its schema and page ids; keys of different (schema, page) pairs
differ; the trees of different accounts or storage kinds differ. -/
theorem C26_keys_unique (cfg : Config) (h : HashOk cfg) (s s' p p' : Nat) (hs : s < 2 ^ 16)
    (hs' : s' < 2 ^ 16) (hp : p < 2 ^ 16) (hp' : p' < 2 ^ 16) :
    decodePageKey (pageKey cfg s p) = some (s, p) ∧
    (pageKey cfg s p = pageKey cfg s' p' ↔ s = s' ∧ p = p') ∧
    (itemKey cfg s = itemKey cfg s' ↔ s = s') ∧
    (∀ m m' k k', m < cfg.accounts → m' < cfg.accounts →
      (childTree cfg m k = childTree cfg m' k' ↔ m = m' ∧ k = k')) := by
  refine ⟨?_, ⟨pageKey_inj h hs hs' hp hp', ?_⟩, ⟨itemKey_inj h hs hs', ?_⟩, fun m m' k k' hm hm' =>
    ⟨childTree_inj h hm hm', ?_⟩⟩
  · unfold decodePageKey reverse
    have hl : (pageKey cfg s p).length = 36 := by
      simp [pageKey, h.keyLen, length_u16]
    rw [if_neg (by omega)]
    have hd : (pageKey cfg s p).drop (16 * 2) = Scale.u16 s ++ Scale.u16 p := by
      unfold pageKey
      rw [List.drop_append_of_le_length (by simp [h.keyLen])]
      rw [List.drop_of_length_le (by simp [h.keyLen])]
      rfl
    rw [hd]
    exact decodePair_u16 hs hp
  · rintro ⟨rfl, rfl⟩; rfl
  · rintro rfl; rfl
  · rintro ⟨rfl, rfl⟩; rfl

theorem isPrefixOf_append_eq {a b c : Bytes} (hl : a.length = b.length) :
    (a.isPrefixOf (b ++ c) = true) ↔ a = b := by
  rw [List.isPrefixOf_iff_prefix]
  constructor
  · intro h
    obtain ⟨t, ht⟩ := h
    exact (List.append_inj ht hl).1
  · rintro rfl; exact List.prefix_append _ _

/-- The function that `getPaginatedStorage` maps over the entries, on an entry of a location. -/
theorem listed_iff {cfg : Config} (hc : CfgOk cfg) (hk : KeyInj cfg) {m s : Nat} (hm : m < cfg.accounts)
    (hs : s < 2 ^ 16) {l : Loc} (hl : l.InRange cfg) {p : Page} (hp : PageOk cfg l p) (r : Nat × Page) :
    (if (l.raw cfg).1 = childTree cfg m .paginated ∧ (prefixKey cfg s).isPrefixOf (l.raw cfg).2 then
      match decodeWithoutPrefix ((l.raw cfg).2.drop (prefixKey cfg s).length),
        decodePage cfg.maxPaginatedPage p.encode with
      | some (_, p), some page => some (p, page)
      | _, _ => none
    else none) = some r ↔ l = .page m s r.1 ∧ r.2 = p := by
  cases l with
  | items m' s' =>
    rw [if_neg (fun h => absurd (childTree_inj hc.toHashOk hl.1 hm h.1).2 (by simp))]
    simp
  | page m' s' id =>
    obtain ⟨hl1, hl2, hl3⟩ := hl
    have hdec : decodePage cfg.maxPaginatedPage p.encode = some p :=
      decodePage_encode hp.1 hp.2.1 hc.paginatedSmall
    rw [hdec]
    by_cases e : m' = m ∧ s' = s
    · obtain ⟨rfl, rfl⟩ := e
      have hd : decodeWithoutPrefix ((pageKey cfg s' id).drop (prefixKey cfg s').length) =
          some (s', id) := by
        have : (pageKey cfg s' id).drop (prefixKey cfg s').length =
            cfg.keyHasher (Scale.u16 id) ++ (Scale.u16 s' ++ Scale.u16 id) := by
          unfold pageKey prefixKey
          rw [List.append_assoc, List.drop_left]
        rw [this]
        unfold decodeWithoutPrefix reverse
        rw [if_neg (by simp [hc.keyLen])]
        rw [List.drop_append_of_le_length (by simp [hc.keyLen]),
          List.drop_of_length_le (by simp [hc.keyLen])]
        exact decodePair_u16 hl2 hl3
      rw [if_pos]
      · simp only [Loc.raw, hd, Option.some.injEq, Loc.page.injEq, true_and]
        obtain ⟨r1, r2⟩ := r
        simp only [Prod.mk.injEq]
        constructor
        · rintro ⟨h1, h2⟩; exact ⟨h1, h2.symm⟩
        · rintro ⟨h1, h2⟩; exact ⟨h1, h2.symm⟩
      · refine ⟨rfl, ?_⟩
        show (prefixKey cfg s').isPrefixOf (pageKey cfg s' id) = true
        unfold pageKey prefixKey
        rw [List.append_assoc]
        exact (isPrefixOf_append_eq rfl).2 rfl
    · rw [if_neg]
      · simp only [reduceCtorEq, Loc.page.injEq, false_iff]
        rintro ⟨⟨rfl, rfl, _⟩, _⟩
        exact e ⟨rfl, rfl⟩
      · rintro ⟨h1, h2⟩
        have e1 := (childTree_inj hc.toHashOk hl1 hm h1).1
        replace h2 : (prefixKey cfg s).isPrefixOf (pageKey cfg s' id) = true := h2
        unfold pageKey prefixKey at h2
        rw [List.append_assoc, isPrefixOf_append_eq (by simp [hc.keyLen])] at h2
        exact e ⟨e1, (hk s s' hs hl2 h2).symm⟩

/-- C26: the query that iterates over the prefix of a schema lists exactly the stored pages of this
account and schema, each with its page id, and each once. -/
theorem C26_query_lists_exactly (cfg : Config) (hc : CfgOk cfg) (hk : KeyInj cfg) (st : Store)
    (hst : Reachable cfg st) (env : Env) (m : MsaId) (hm : m < cfg.accounts) (s : SchemaId) (hs : s < 2 ^ 16)
    (l : List (Nat × Page)) (h : getPaginatedStorage cfg env st m s = .ok l) :
    (∀ id page, (id, page) ∈ l ↔ id < 2 ^ 16 ∧ readAt cfg st (.page m s id) = .ok (some page)) ∧
    (l.map Prod.fst).Nodup := by
  have hok := hst.storeOk hc
  simp only [getPaginatedStorage, bind_eq_ok_iff, pure_eq_ok_iff] at h
  obtain ⟨_, _, rfl⟩ := h
  constructor
  · intro id page
    simp only [List.mem_filterMap]
    constructor
    · rintro ⟨⟨k, v⟩, he, hf⟩
      have hget := (SMap.mem_entries_iff st k v).1 he
      obtain ⟨l, p, h1, rfl, rfl, h4⟩ := hok k v hget
      replace hf := (listed_iff hc hk hm hs h1 h4 (id, page)).1 hf
      obtain ⟨rfl, rfl⟩ := hf
      refine ⟨h1.2.2, ?_⟩
      rw [readAt_eq, hget]
      simp only [decodePage_encode h4.1 h4.2.1 (hc.maxSize _)]
    · rintro ⟨hid, hr⟩
      have hr' := hr
      rw [readAt_eq] at hr
      cases hg : st.get (Loc.raw cfg (.page m s id)) with
      | none => rw [hg] at hr; simp at hr
      | some v =>
        refine ⟨(_, v), (SMap.mem_entries_iff st _ _).2 hg, ?_⟩
        obtain ⟨l, p, h1, h2, rfl, h4⟩ := hok _ _ hg
        have := raw_inj hc.toHashOk (l := .page m s id) ⟨hm, hs, hid⟩ h1 h2
        subst this
        refine (listed_iff hc hk hm hs h1 h4 (id, page)).2 ⟨rfl, ?_⟩
        rw [hg] at hr
        simp only [decodePage_encode h4.1 h4.2.1 (hc.maxSize _), Except.ok.injEq, Option.some.injEq] at hr
        exact hr.symm
  · rw [List.Nodup, List.pairwise_map, List.pairwise_filterMap]
    have hn := st.nodup
    rw [List.Nodup, List.pairwise_map] at hn
    refine hn.imp_of_mem ?_
    rintro ⟨k, v⟩ ⟨k', v'⟩ hmem hmem' hne r hr r' hr' heq
    obtain ⟨l, p, h1, rfl, rfl, h4⟩ := hok k v ((SMap.mem_entries_iff st k v).1 hmem)
    obtain ⟨l', p', h1', rfl, rfl, h4'⟩ := hok k' v' ((SMap.mem_entries_iff st k' v').1 hmem')
    have e1 := (listed_iff hc hk hm hs h1 h4 r).1 hr
    have e2 := (listed_iff hc hk hm hs h1' h4' r').1 hr'
    apply hne
    simp only
    rw [e1.1, e2.1, heq]

theorem exCfg_keyInj : KeyInj exCfg := fun s s' hs hs' h =>
  u16_inj hs hs' (pad_inj (k := 2) (length_u16 s) (length_u16 s') (by omega) h)

/-- Hypotheses met: two pages of schema 2 and one of schema 4, listed separately. -/
example :
    let st := apply exCfg exStore ⟨exEnv, some 11, .upsertPage 1 2 0 0 [4, 4]⟩
    (getPaginatedStorage exCfg exEnv st 1 2).toOption = some [(0, ⟨1, [4, 4]⟩), (3, ⟨1, [1]⟩)] ∧
    (getPaginatedStorage exCfg exEnv st 1 4).toOption = some [(1, ⟨1, [8, 9]⟩)] := by decide

/-! ## C28: single use -/

/-- What is stored has content. -/
def HasContent : Option Page → Prop
  | none => False
  | some p => p.data ≠ []

theorem hashOf_zero {cfg : Config} (hi : IdealHash cfg) {v : Option Page} : hashOf cfg v = 0 ↔ ¬ HasContent v := by
  cases v with
  | none => simp [hashOf, HasContent]
  | some p =>
    simp only [hashOf, HasContent, ne_eq, not_not]
    constructor
    · intro h
      split at h
      · assumption
      · exact absurd h (hi.pos _)
    · intro h; rw [if_pos h]

theorem hashOf_inj {cfg : Config} (hi : IdealHash cfg) {v w : Option Page} (hv : HasContent v)
    (hvn : ∀ p ∈ v, p.nonce < 65536) (hwn : ∀ p ∈ w, p.nonce < 65536)
    (h : hashOf cfg v = hashOf cfg w) : v = w := by
  have hw : HasContent w := by
    by_contra hw
    rw [(hashOf_zero hi).2 hw] at h
    exact (hashOf_zero hi).1 h hv
  cases v with
  | none => exact hv.elim
  | some p =>
    cases w with
    | none => exact hw.elim
    | some q =>
      simp only [HasContent] at hv hw
      simp only [hashOf, if_neg hv, if_neg hw] at h
      have := List.append_inj (hi.inj _ _ h) (by simp [length_u16])
      have hn := u16_inj (hvn p rfl) (hwn q rfl) this.1
      obtain ⟨n, d⟩ := p
      obtain ⟨n', d'⟩ := q
      simp only at hn this
      rw [hn, this.2]

/-- An accepted call carries the hash of the page it finds, except a deletion of nothing. -/
theorem accepted_hash {cfg old u new} (h : Change cfg old u new) :
    u.targetHash = hashOf cfg old ∨ (old = none ∧ ∃ p h, u = .delete p h) := by
  cases h with
  | items hh => rw [getHash_getD] at hh; exact .inl hh
  | cleared hh => rw [getHash_getD] at hh; exact .inl hh
  | upsert hh => rw [getHash_getD] at hh; exact .inl hh
  | delete ho hh => subst ho; rw [← getHash_getD]; exact .inl hh
  | absent ho => exact .inr ⟨ho, _, _, rfl⟩

/-- C28, partial: with a collision-free page hash, a payload that is accepted at two times for the same
account finds the same page (with the same nonce and content) both times, or no content both times, or
deletes and finds nothing at one of the times. The full claim — never accepted twice — is false, see the
witnesses below. -/
theorem C28_reuse_needs_same_page_partial (cfg : Config) (hc : CfgOk cfg) (hi : IdealHash cfg)
    (st1 st2 : Store) (hst1 : Reachable cfg st1) (hst2 : Reachable cfg st2) (env1 env2 : Env)
    (who1 who2 : Option AccountId) (call : Call)
    (hx1 : StepOk cfg ⟨env1, who1, call⟩) (hx2 : StepOk cfg ⟨env2, who2, call⟩) (st1' st2' : Store)
    (h1 : dispatch cfg env1 st1 who1 call = .ok st1') (h2 : dispatch cfg env2 st2 who2 call = .ok st2')
    (m : MsaId) (ho1 : call.owner env1 = some m) (ho2 : call.owner env2 = some m) :
    ∃ v1 v2, readAt cfg st1 (call.update.loc m call.schema) = .ok v1 ∧
      readAt cfg st2 (call.update.loc m call.schema) = .ok v2 ∧
      (v1 = v2 ∨ (¬ HasContent v1 ∧ ¬ HasContent v2) ∨
        ((v1 = none ∨ v2 = none) ∧ ∃ p h, call.update = .delete p h)) := by
  obtain ⟨o1, v1, n1, a1, _, r1, k1, c1, _⟩ := dispatch_effect hc (hst1.storeOk hc) hx1 h1
  obtain ⟨o2, v2, n2, a2, _, r2, k2, c2, _⟩ := dispatch_effect hc (hst2.storeOk hc) hx2 h2
  have e1 : o1 = m := by have := a1.howner.symm.trans ho1; simpa using this
  have e2 : o2 = m := by have := a2.howner.symm.trans ho2; simpa using this
  subst e1
  subst e2
  refine ⟨v1, v2, r1, r2, ?_⟩
  rcases accepted_hash c1 with hh1 | ⟨e, hd⟩
  · rcases accepted_hash c2 with hh2 | ⟨e, hd⟩
    · by_cases hcont : HasContent v1
      · exact .inl (hashOf_inj hi hcont (fun p hp => (k1 p hp).1) (fun p hp => (k2 p hp).1)
          (hh1.symm.trans hh2))
      · refine .inr (.inl ⟨hcont, ?_⟩)
        rw [← hashOf_zero hi] at hcont ⊢
        rw [← hh2, hh1, hcont]
    · exact .inr (.inr ⟨.inr e, hd⟩)
  · exact .inr (.inr ⟨.inl e, hd⟩)

/-- The step is addressed to the location. -/
def touches (l : Loc) (x : Step) : Bool :=
  match x.call.owner x.env with
  | some o => decide (x.call.update.loc o x.call.schema = l)
  | none => false

theorem change_nonce {cfg old u new} (h : Change cfg old u new) {q : Page} (hq : new = some q) :
    q.nonce = ((old.getD .default).nonce + 1) % 65536 := by
  cases h with
  | items => simp only [Option.some.injEq] at hq; rw [← hq]
  | cleared => simp at hq
  | upsert => simp only [Option.some.injEq] at hq; rw [← hq]
  | delete => simp at hq
  | absent => simp at hq

/-- While a page keeps its content, its nonce counts the updates. -/
theorem nonce_counts {cfg : Config} (hc : CfgOk cfg) {l : Loc} (hl : l.InRange cfg) (mid : List Step) :
    ∀ {st : Store} {p : Page}, StoreOk cfg st → (∀ x ∈ mid, StepOk cfg x) →
    readAt cfg st l = .ok (some p) → p.nonce < 65536 →
    (∀ k ≤ mid.length, ∃ v, readAt cfg (run cfg st (mid.take k)) l = .ok v ∧ HasContent v) →
    ∃ q j, readAt cfg (run cfg st mid) l = .ok (some q) ∧ q.nonce = (p.nonce + j) % 65536 ∧
      j ≤ mid.countP (touches l) := by
  induction mid with
  | nil =>
    intro st p _ _ hp hn _
    exact ⟨p, 0, hp, by omega, by simp⟩
  | cons x rest ih =>
    intro st p hs hx hp hn hk
    have hx0 := hx x (by simp)
    have hs' := storeOk_apply hc hs hx0
    have hrun : run cfg st (x :: rest) = run cfg (apply cfg st x) rest := rfl
    rw [hrun]
    have hk' : ∀ k ≤ rest.length, ∃ v, readAt cfg (run cfg (apply cfg st x) (rest.take k)) l = .ok v ∧
        HasContent v := by
      intro k hkl
      obtain ⟨v, h1, h2⟩ := hk (k + 1) (by simp; omega)
      exact ⟨v, h1, h2⟩
    have hrest := fun y hy => hx y (List.mem_cons_of_mem _ hy)
    rcases readAt_apply hc hs hx0 hl with h | ⟨o, old, new, hacc, hloc, hold, hpok, hchg, hnew⟩
    · obtain ⟨q, j, h1, h2, h3⟩ := ih hs' hrest (h.trans hp) hn hk'
      refine ⟨q, j, h1, h2, ?_⟩
      rw [List.countP_cons]; omega
    · obtain ⟨v, h1, h2⟩ := hk' 0 (by simp)
      have hv : new = v := by
        have := hnew.symm.trans h1
        simpa using this
      subst hv
      cases new with
      | none => exact h2.elim
      | some q' =>
        have ho : old = some p := by
          have := hold.symm.trans hp
          simpa using this
        subst ho
        have hn' := change_nonce hchg rfl
        simp only [Option.getD_some] at hn'
        obtain ⟨q, j, g1, g2, g3⟩ := ih hs' hrest hnew (by omega) hk'
        refine ⟨q, j + 1, g1, by omega, ?_⟩
        have : touches l x = true := by
          unfold touches
          rw [hacc.howner]
          simpa using hloc.symm
        rw [List.countP_cons, if_pos this]
        omega

/-- C28, partial: with a collision-free page hash, a payload that wrote a page is refused from then on as
long as the page keeps its content and fewer than 65535 further calls are addressed to it. Missing for the
full claim: pages that were emptied or deleted, 16-bit wrap-around of the nonce, keys that move to another
account; there the claim is false (witnesses below). -/
theorem C28_single_use_partial (cfg : Config) (hc : CfgOk cfg) (hi : IdealHash cfg) (st : Store)
    (hst : Reachable cfg st) (env env' : Env) (who who' : Option AccountId) (call : Call)
    (hx : StepOk cfg ⟨env, who, call⟩) (hx' : StepOk cfg ⟨env', who', call⟩) (st' : Store)
    (h : dispatch cfg env st who call = .ok st') (m : MsaId) (ho : call.owner env = some m)
    (ho' : call.owner env' = some m) (mid : List Step) (hmid : ∀ x ∈ mid, StepOk cfg x)
    (hkeep : ∀ k ≤ mid.length, ∃ v,
      readAt cfg (run cfg st' (mid.take k)) (call.update.loc m call.schema) = .ok v ∧ HasContent v)
    (hfew : mid.countP (touches (call.update.loc m call.schema)) < 65535) :
    ∃ e, dispatch cfg env' (run cfg st' mid) who' call = .error e := by
  cases h2 : dispatch cfg env' (run cfg st' mid) who' call with
  | error e => exact ⟨e, rfl⟩
  | ok st2 =>
    exfalso
    have hs := hst.storeOk hc
    obtain ⟨o, v, new, a, hr, r, k, c, e, kn⟩ := dispatch_effect hc hs hx h
    have eo : o = m := by have := a.howner.symm.trans ho; simpa using this
    subst eo
    have hs' : StoreOk cfg st' := by rw [e]; exact storeOk_put hs hr kn
    have hnew : readAt cfg st' (call.update.loc o call.schema) = .ok new := by
      rw [e]
      exact readAt_put_same _ _ _ (fun p hp => ⟨(kn p hp).1, (kn p hp).2.1⟩) (hc.maxSize _)
    obtain ⟨v0, g1, g2⟩ := hkeep 0 (by simp)
    have : new = v0 := by
      have := hnew.symm.trans g1
      simpa using this
    subst this
    cases new with
    | none => exact g2.elim
    | some p =>
      obtain ⟨q, j, q1, q2, q3⟩ := nonce_counts hc hr mid hs' hmid hnew (kn p rfl).1 hkeep
      have hn := change_nonce c rfl
      obtain ⟨o2, v2, n2, a2, _, r2, k2, c2, _⟩ :=
        dispatch_effect hc (storeOk_run hc mid hs' hmid) hx' h2
      have e2 : o2 = o := by have := a2.howner.symm.trans ho'; simpa using this
      subst e2
      have : v2 = some q := by
        have := r2.symm.trans q1
        simpa using this
      subst this
      obtain ⟨vl, gl1, gl2⟩ := hkeep mid.length (le_refl _)
      rw [List.take_length] at gl1
      have hqc : HasContent (some q) := by
        have := gl1.symm.trans q1
        simp only [Except.ok.injEq] at this
        rw [← this]; exact gl2
      rcases accepted_hash c2 with hh2 | ⟨e, _⟩
      · rcases accepted_hash c with hh | ⟨_, pd, hd, eud⟩
        · have := hashOf_inj hi hqc (fun p hp => (k2 p hp).1) (fun p hp => (k p hp).1)
            (hh2.symm.trans hh)
          subst this
          simp only [Option.getD_some] at hn
          have := (k2 q rfl).1
          omega
        · rw [eud] at c
          cases c
      · simp at e

/-- The toy hash of the examples is collision-free. -/
theorem exCfg_ideal : IdealHash exCfg where
  pos a := by simp [exCfg]
  inj := by
    have key : ∀ a b : Bytes, ∀ n : Nat,
        (a.reverse).foldr (fun x a => a * 257 + x.toNat + 1) 0 =
        (b.reverse).foldr (fun x a => a * 257 + x.toNat + 1) 0 → a.reverse = b.reverse := by
      intro a b _
      generalize a.reverse = c
      generalize b.reverse = d
      intro h
      induction c generalizing d with
      | nil =>
        cases d with
        | nil => rfl
        | cons y d => simp only [List.foldr_nil, List.foldr_cons] at h; omega
      | cons x c ih =>
        cases d with
        | nil => simp only [List.foldr_nil, List.foldr_cons] at h; omega
        | cons y d =>
          simp only [List.foldr_cons] at h
          have hx := x.toNat_lt
          have hy := y.toNat_lt
          have e1 : x.toNat = y.toNat := by omega
          have e2 := ih d (by omega)
          rw [e2, UInt8.toNat_inj.1 e1]
    intro a b h
    simp only [exCfg, Nat.add_right_cancel_iff] at h
    rw [← List.foldr_reverse, ← List.foldr_reverse] at h
    exact List.reverse_injective (key a b 0 h)

/-- A payload that writes `[2]` to the absent page 0 of schema 4. -/
def exSigned : Call := .upsertPageWithSignature 11 11 ⟨none, 4, 0, 0, 50, [2]⟩

/-- Hypotheses met: used once, then another update, then refused. -/
example :
    let st' := apply exCfg exStore ⟨exEnv, some 99, exSigned⟩
    let mid : List Step := [⟨exEnv, some 11, .upsertPage 1 4 0 (hashOf exCfg (some ⟨1, [2]⟩)) [3]⟩]
    readAt exCfg st' (.page 1 4 0) = .ok (some ⟨1, [2]⟩) ∧
    readAt exCfg (run exCfg st' mid) (.page 1 4 0) = .ok (some ⟨2, [3]⟩) ∧
    errOf (dispatch exCfg exEnv (run exCfg st' mid) (some 99) exSigned) = some .stalePageState := by
  decide

/-- C28 is false of the code when the page is deleted in between: the nonce starts again at zero, so the
payload is accepted again and brings the deleted content back. -/
theorem C28_replay_after_delete :
    let st1 := apply exCfg exStore ⟨exEnv, some 99, exSigned⟩
    let st2 := apply exCfg st1 ⟨exEnv, some 11, .deletePage 1 4 0 (hashOf exCfg (some ⟨1, [2]⟩))⟩
    let st3 := apply exCfg st2 ⟨exEnv, some 99, exSigned⟩
    readAt exCfg st1 (.page 1 4 0) = .ok (some ⟨1, [2]⟩) ∧ readAt exCfg st2 (.page 1 4 0) = .ok none ∧
    readAt exCfg st3 (.page 1 4 0) = .ok (some ⟨1, [2]⟩) := by decide

/-- C28 is false of the code for an empty payload: the page it writes has the same hash as no page, so it
is accepted again at once, and changes the nonce. -/
theorem C28_replay_empty_payload :
    let c : Call := .upsertPageWithSignature 11 11 ⟨none, 4, 0, 0, 50, []⟩
    let st1 := apply exCfg exStore ⟨exEnv, some 99, c⟩
    let st2 := apply exCfg st1 ⟨exEnv, some 99, c⟩
    readAt exCfg st1 (.page 1 4 0) = .ok (some ⟨1, []⟩) ∧
    readAt exCfg st2 (.page 1 4 0) = .ok (some ⟨2, []⟩) := by decide

/-- C28 is false of the code when the signing key moves to another account: a payload of the second
version does not name the account. -/
theorem C28_replay_after_key_moves :
    let env' : Env := { exEnv with msaOf := fun k => if k = 11 then some 5 else none }
    let st1 := apply exCfg exStore ⟨exEnv, some 99, exSigned⟩
    let st2 := apply exCfg st1 ⟨env', some 99, exSigned⟩
    readAt exCfg st1 (.page 1 4 0) = .ok (some ⟨1, [2]⟩) ∧
    readAt exCfg st2 (.page 5 4 0) = .ok (some ⟨1, [2]⟩) := by decide

/-- The window of the runtime, runtime/common/src/constants.rs 338. -/
def wrapCfg : Config := { exCfg with window := 14400 }

/-- Accounts and schemas as in the examples, at block `b`. -/
def wrapEnv (b : BlockNumber) : Env := { exEnv with block := b }

/-- A payload of key 11 for the page with nonce `n` and content `d`. -/
def wrapSigned (n : Nat) (d : Bytes) : Call :=
  .upsertPageWithSignature 11 11 ⟨none, 4, 1, hashOf wrapCfg (some ⟨n, d⟩), 14000, [9]⟩

/-- What key 11 does after the payload was used: it writes the content `d`, `k` times, five times in each block. -/
def wrapWrites (n : Nat) (d : Bytes) (k : Nat) : List Step :=
  (List.range k).map (fun i => ⟨wrapEnv (10 + i / 5), some 11,
    .upsertPage 1 4 1 (hashOf wrapCfg (some ⟨(n + 1 + i) % 65536, if i = 0 then [9] else d⟩)) d⟩)

theorem wrap_write (st : Store) (q : Page) (d : Bytes) (hd : d.length ≤ 8) (b : BlockNumber)
    (h : readAt wrapCfg st (.page 1 4 1) = .ok (some q)) :
    readAt wrapCfg (apply wrapCfg st ⟨wrapEnv b, some 11, .upsertPage 1 4 1 (hashOf wrapCfg (some q)) d⟩) (.page 1 4 1) =
      .ok (some ⟨(q.nonce + 1) % 65536, d⟩) := by
  have h' : getPaginatedPage wrapCfg st 1 4 1 = .ok (some q) := h
  have hh : hashOf wrapCfg (some q) = q.getHash wrapCfg.hash := (getHash_getD wrapCfg (some q)).symm
  have hdis : dispatch wrapCfg (wrapEnv b) st (some 11) (.upsertPage 1 4 1 (hashOf wrapCfg (some q)) d) =
      .ok (put wrapCfg st (.page 1 4 1) (some ⟨(q.nonce + 1) % 65536, d⟩)) := by
    have e1 : d.length ≤ wrapCfg.maxPaginatedPage := hd
    have e2 : (1 : Nat) ≤ wrapCfg.maxPageId := by decide
    have e3 : checkMsaAndGrants (wrapEnv b) 11 1 4 = .ok 1 := rfl
    have e4 : checkSchemaForWrite (wrapEnv b) 4 .paginated true false = .ok () := rfl
    simp only [dispatch, ensure, e1, e2, okOr, e3, e4, updatePaginated, h', hh, if_true, decide_true, bind, Except.bind,
      pure, Except.pure, Option.getD_some]
    rfl
  have happ : apply wrapCfg st ⟨wrapEnv b, some 11, .upsertPage 1 4 1 (hashOf wrapCfg (some q)) d⟩ =
      put wrapCfg st (.page 1 4 1) (some ⟨(q.nonce + 1) % 65536, d⟩) := by
    simp only [apply, hdis]
  rw [happ]
  refine readAt_put_same st _ _ ?_ (by decide)
  intro p hp
  obtain rfl : p = ⟨(q.nonce + 1) % 65536, d⟩ := by simpa using hp.symm
  exact ⟨Nat.mod_lt _ (by decide), hd⟩

theorem wrap_use (st : Store) (q : Page) (n : Nat) (d : Bytes) (b : BlockNumber) (hb : b < 14000) (hb' : 14000 < b + 14400)
    (h : readAt wrapCfg st (.page 1 4 1) = .ok (some q)) (hq : hashOf wrapCfg (some q) = hashOf wrapCfg (some ⟨n, d⟩)) :
    readAt wrapCfg (apply wrapCfg st ⟨wrapEnv b, some 99, wrapSigned n d⟩) (.page 1 4 1) =
      .ok (some ⟨(q.nonce + 1) % 65536, [9]⟩) := by
  have h' : getPaginatedPage wrapCfg st 1 4 1 = .ok (some q) := h
  have hh : hashOf wrapCfg (some ⟨n, d⟩) = q.getHash wrapCfg.hash :=
    hq.symm.trans (getHash_getD wrapCfg (some q)).symm
  have hdis : dispatch wrapCfg (wrapEnv b) st (some 99) (wrapSigned n d) =
      .ok (put wrapCfg st (.page 1 4 1) (some ⟨(q.nonce + 1) % 65536, [9]⟩)) := by
    have e1 : ([9] : Bytes).length ≤ wrapCfg.maxPaginatedPage := by decide
    have e2 : (1 : Nat) ≤ wrapCfg.maxPageId := by decide
    have e3 : ownerOf (wrapEnv b) 11 none = .ok 1 := rfl
    have e4 : checkSchemaForWrite (wrapEnv b) 4 .paginated true false = .ok () := rfl
    have e5 : (wrapEnv b).block < 14000 := hb
    have e6 : 14000 < (wrapEnv b).block + wrapCfg.window := hb'
    simp only [dispatch, wrapSigned, ensure, e1, e2, okOr, e3, e4, e5, e6, updatePaginated, h', hh, if_true,
      bind, Except.bind, pure, Except.pure, Option.getD_some, checkPayloadExpiration]
    rfl
  have happ : apply wrapCfg st ⟨wrapEnv b, some 99, wrapSigned n d⟩ =
      put wrapCfg st (.page 1 4 1) (some ⟨(q.nonce + 1) % 65536, [9]⟩) := by
    simp only [apply, hdis]
  rw [happ]
  refine readAt_put_same st _ _ ?_ (by decide)
  intro p hp
  obtain rfl : p = ⟨(q.nonce + 1) % 65536, [9]⟩ := by simpa using hp.symm
  exact ⟨Nat.mod_lt _ (by decide), (by decide : ([9] : Bytes).length ≤ 8)⟩

theorem wrap_writes (st : Store) (n : Nat) (d : Bytes) (hd : d.length ≤ 8)
    (h : readAt wrapCfg st (.page 1 4 1) = .ok (some ⟨(n + 1) % 65536, [9]⟩)) (k : Nat) :
    readAt wrapCfg (run wrapCfg st (wrapWrites n d k)) (.page 1 4 1) =
      .ok (some ⟨(n + 1 + k) % 65536, if k = 0 then [9] else d⟩) := by
  induction k with
  | zero => exact h
  | succ k ih =>
    have hr : run wrapCfg st (wrapWrites n d (k + 1)) =
        apply wrapCfg (run wrapCfg st (wrapWrites n d k)) ⟨wrapEnv (10 + k / 5), some 11,
          .upsertPage 1 4 1 (hashOf wrapCfg (some ⟨(n + 1 + k) % 65536, if k = 0 then [9] else d⟩)) d⟩ := by
      simp only [run, wrapWrites, List.range_succ, List.map_append, List.foldl_append, List.map_cons, List.map_nil,
        List.foldl_cons, List.foldl_nil]
    rw [hr, wrap_write _ _ d hd _ ih, if_neg (Nat.succ_ne_zero k)]
    simp only [Except.ok.injEq, Option.some.injEq, Page.mk.injEq, and_true]
    omega

/-- C28 is false of the code when the nonce wraps around, and 65535 in `C28_single_use_partial` is sharp: whatever page
with content `d` is stored, a payload is signed for it and used, then the account writes the content `d` again, 65,535
times, five times a block. The page never lost its content, the payload is still within the window of 14,400 blocks, and
is accepted again: it overwrites what the account wrote. -/
theorem C28_replay_after_wrap (st : Store) (n : Nat) (hn : n < 65536) (d : Bytes) (hd : d.length ≤ 8)
    (h : readAt wrapCfg st (.page 1 4 1) = .ok (some ⟨n, d⟩)) :
    let st1 := apply wrapCfg st ⟨wrapEnv 10, some 99, wrapSigned n d⟩
    let st2 := run wrapCfg st1 (wrapWrites n d 65535)
    let st3 := apply wrapCfg st2 ⟨wrapEnv 13200, some 99, wrapSigned n d⟩
    readAt wrapCfg st1 (.page 1 4 1) = .ok (some ⟨(n + 1) % 65536, [9]⟩) ∧
    (∀ k, 0 < k → readAt wrapCfg (run wrapCfg st1 (wrapWrites n d k)) (.page 1 4 1) =
      .ok (some ⟨(n + 1 + k) % 65536, d⟩)) ∧
    (∀ x ∈ wrapWrites n d 65535, x.env.block < 13200) ∧
    readAt wrapCfg st2 (.page 1 4 1) = .ok (some ⟨n, d⟩) ∧
    readAt wrapCfg st3 (.page 1 4 1) = .ok (some ⟨(n + 1) % 65536, [9]⟩) := by
  intro st1 st2 st3
  have h1 : readAt wrapCfg st1 (.page 1 4 1) = .ok (some ⟨(n + 1) % 65536, [9]⟩) :=
    wrap_use st ⟨n, d⟩ n d 10 (by decide) (by decide) h rfl
  have h2 : readAt wrapCfg st2 (.page 1 4 1) = .ok (some ⟨n, d⟩) := by
    have := wrap_writes st1 n d hd h1 65535
    rw [if_neg (by decide), show (n + 1 + 65535) % 65536 = n by omega] at this
    exact this
  refine ⟨h1, fun k hk => ?_, ?_, h2, wrap_use st2 ⟨n, d⟩ n d 13200 (by decide) (by decide) h2 rfl⟩
  · have := wrap_writes st1 n d hd h1 k
    rwa [if_neg (by omega)] at this
  · intro x hx
    simp only [wrapWrites, List.mem_map, List.mem_range] at hx
    obtain ⟨i, hi, rfl⟩ := hx
    show 10 + i / 5 < 13200
    omega

/-- Hypotheses met, and the payload is refused until then: after one of the writes. -/
example :
    let st := run wrapCfg ∅ [⟨wrapEnv 9, some 11, .upsertPage 1 4 1 0 [8]⟩]
    let st1 := apply wrapCfg st ⟨wrapEnv 10, some 99, wrapSigned 1 [8]⟩
    readAt wrapCfg st (.page 1 4 1) = .ok (some ⟨1, [8]⟩) ∧
    readAt wrapCfg st1 (.page 1 4 1) = .ok (some ⟨2, [9]⟩) ∧
    errOf (dispatch wrapCfg (wrapEnv 11) (run wrapCfg st1 (wrapWrites 1 [8] 1)) (some 99) (wrapSigned 1 [8])) =
      some .stalePageState := by decide

/-! ## C70: signed bytes -/

theorem encodeMsa_inj {a b : MsaId} (ha : a < 2 ^ 64) (hb : b < 2 ^ 64) {x y : Bytes}
    (h : encodeMsa (some a) ++ x = encodeMsa (some b) ++ y) : a = b ∧ x = y :=
  Scale.compact64_inj ha hb h

/-- The values fit their types. -/
def ItemAction.Sized : ItemAction → Prop
  | .add d => d.length < 2 ^ 32
  | .delete i => i < 2 ^ 16

theorem ItemAction.encode_inj {a b : ItemAction} (ha : a.Sized) (hb : b.Sized) {x y : Bytes}
    (h : a.encode ++ x = b.encode ++ y) : a = b ∧ x = y := by
  cases a with
  | add d =>
    cases b with
    | add d' =>
      simp only [ItemAction.encode, List.cons_append, List.cons.injEq, true_and] at h
      obtain ⟨rfl, h2⟩ := Scale.vecU8_inj ha hb h
      exact ⟨rfl, h2⟩
    | delete i => simp [ItemAction.encode] at h
  | delete i =>
    cases b with
    | add d' => simp [ItemAction.encode] at h
    | delete i' =>
      simp only [ItemAction.encode, List.cons_append, List.cons.injEq, true_and] at h
      simp only [ItemAction.Sized] at ha hb
      obtain ⟨rfl, h2⟩ := Scale.leBytes_append_inj (k := 2) (by omega) (by omega) h
      exact ⟨rfl, h2⟩

theorem actions_inj {a b : List ItemAction} (hl : a.length = b.length) (ha : ∀ i ∈ a, i.Sized)
    (hb : ∀ i ∈ b, i.Sized) (h : (a.map ItemAction.encode).flatten = (b.map ItemAction.encode).flatten) :
    a = b := by
  induction a generalizing b with
  | nil => simp only [List.length_nil] at hl; exact (List.length_eq_zero_iff.1 hl.symm).symm
  | cons i a ih =>
    cases b with
    | nil => simp at hl
    | cons j b =>
      simp only [List.map_cons, List.flatten_cons] at h
      obtain ⟨rfl, h2⟩ := ItemAction.encode_inj (ha i (by simp)) (hb j (by simp)) h
      rw [ih (by simpa using hl) (fun x hx => ha x (List.mem_cons_of_mem _ hx))
        (fun x hx => hb x (List.mem_cons_of_mem _ hx)) h2]

/-- The fields fit their types. -/
structure ItemizedPayload.Sized (p : ItemizedPayload) : Prop where
  msa : ∀ m ∈ p.msaId, m < 2 ^ 64
  schema : p.schemaId < 2 ^ 16
  hash : p.targetHash < 2 ^ 32
  expiration : p.expiration < 2 ^ 32
  count : p.actions.length < 2 ^ 32
  actions : ∀ i ∈ p.actions, i.Sized

/-- The fields fit their types. -/
structure UpsertPayload.Sized (p : UpsertPayload) : Prop where
  msa : ∀ m ∈ p.msaId, m < 2 ^ 64
  schema : p.schemaId < 2 ^ 16
  page : p.pageId < 2 ^ 16
  hash : p.targetHash < 2 ^ 32
  expiration : p.expiration < 2 ^ 32
  size : p.payload.length < 2 ^ 32

/-- The fields fit their types. -/
structure DeletePayload.Sized (p : DeletePayload) : Prop where
  msa : ∀ m ∈ p.msaId, m < 2 ^ 64
  schema : p.schemaId < 2 ^ 16
  page : p.pageId < 2 ^ 16
  hash : p.targetHash < 2 ^ 32
  expiration : p.expiration < 2 ^ 32

theorem msaId_inj {a b : Option MsaId} (hv : a.isSome = b.isSome) (ha : ∀ m ∈ a, m < 2 ^ 64)
    (hb : ∀ m ∈ b, m < 2 ^ 64) {x y : Bytes} (h : encodeMsa a ++ x = encodeMsa b ++ y) :
    a = b ∧ x = y := by
  cases a with
  | none =>
    cases b with
    | none => exact ⟨rfl, h⟩
    | some => simp at hv
  | some m =>
    cases b with
    | none => simp at hv
    | some m' =>
      obtain ⟨rfl, h2⟩ := encodeMsa_inj (ha m rfl) (hb m' rfl) h
      exact ⟨rfl, h2⟩

/-- C70, partial: among payloads of one kind and one version (with or without an account id), the signed
bytes determine every field, so a signature authorises one payload only. Across kinds and versions this
is false (`C70_delete_bytes_are_upsert_bytes`). -/
theorem C70_signed_bytes_determine_payload_partial :
    (∀ p q : ItemizedPayload, p.Sized → q.Sized → p.msaId.isSome = q.msaId.isSome →
      p.encode = q.encode → p = q) ∧
    (∀ p q : UpsertPayload, p.Sized → q.Sized → p.msaId.isSome = q.msaId.isSome →
      p.encode = q.encode → p = q) ∧
    (∀ p q : DeletePayload, p.Sized → q.Sized → p.msaId.isSome = q.msaId.isSome →
      p.encode = q.encode → p = q) := by
  refine ⟨?_, ?_, ?_⟩
  · rintro ⟨m, s, th, e, a⟩ ⟨m', s', th', e', a'⟩ ⟨p1, p2, p3, p4, p5, p6⟩ ⟨q1, q2, q3, q4, q5, q6⟩ hv h
    simp only [ItemizedPayload.encode, Scale.vecOf] at *
    obtain ⟨rfl, h1⟩ := msaId_inj hv p1 q1 h
    obtain ⟨rfl, h2⟩ := Scale.compact_inj (by omega) (by omega) h1
    obtain ⟨rfl, h3⟩ := Scale.compact_inj (by omega) (by omega) h2
    obtain ⟨rfl, h4⟩ := Scale.leBytes_append_inj (k := 4) (by omega) (by omega) h3
    obtain ⟨hl, h5⟩ := Scale.compact_inj (by omega) (by omega) h4
    rw [actions_inj hl p6 q6 h5]
  · rintro ⟨m, s, p, th, e, d⟩ ⟨m', s', p', th', e', d'⟩ ⟨p1, p2, p3, p4, p5, p6⟩
      ⟨q1, q2, q3, q4, q5, q6⟩ hv h
    simp only [UpsertPayload.encode] at *
    obtain ⟨rfl, h1⟩ := msaId_inj hv p1 q1 h
    obtain ⟨rfl, h2⟩ := Scale.compact_inj (by omega) (by omega) h1
    obtain ⟨rfl, h3⟩ := Scale.compact_inj (by omega) (by omega) h2
    obtain ⟨rfl, h4⟩ := Scale.compact_inj (by omega) (by omega) h3
    obtain ⟨rfl, h5⟩ := Scale.leBytes_append_inj (k := 4) (by omega) (by omega) h4
    have h' : Scale.vecU8 d ++ [] = Scale.vecU8 d' ++ [] := by rw [h5]
    rw [(Scale.vecU8_inj p6 q6 h').1]
  · rintro ⟨m, s, p, th, e⟩ ⟨m', s', p', th', e'⟩ ⟨p1, p2, p3, p4, p5⟩
      ⟨q1, q2, q3, q4, q5⟩ hv h
    simp only [DeletePayload.encode] at *
    obtain ⟨rfl, h1⟩ := msaId_inj hv p1 q1 h
    obtain ⟨rfl, h2⟩ := Scale.compact_inj (by omega) (by omega) h1
    obtain ⟨rfl, h3⟩ := Scale.compact_inj (by omega) (by omega) h2
    obtain ⟨rfl, h4⟩ := Scale.compact_inj (by omega) (by omega) h3
    rw [Scale.leBytes_inj (k := 4) (by omega) (by omega) h4]

/-- Hypotheses met. -/
example : (UpsertPayload.mk (some 5) 7 0 16384 3084 [1, 2]).Sized :=
  ⟨by simp, by decide, by decide, by decide, by decide, by decide⟩

/-- C70 is false of the code across kinds: the bytes of a payload of the first version that deletes a
page (account 5, schema 7, page 0, hash 16384, expiration 3084) are also the bytes of a payload of the
second version that writes a page (schema 5, page 7, hash 0, expiration 65538, three bytes). A signature
for the one is a signature for the other. -/
theorem C70_delete_bytes_are_upsert_bytes :
    (DeletePayload.mk (some 5) 7 0 16384 3084).encode =
      (UpsertPayload.mk none 5 7 0 65538 [12, 0, 0]).encode := by decide

end Verif.Stateful
