import Verif.Handles.Props
/-!
# When handle calls succeed, and exactly what they then change
-/

namespace Verif.Handles

/-! ## Specification -/

/-- The name given as `b` is acceptable: at most 32 bytes encoding 3 to 20 characters, none of them blocked,
not reserved, with a canonical form of 3 to 20 characters, all of supported scripts. -/
structure NameOk (cfg : Config) (b : Bytes) (base : Str) : Prop where
  encoding : b = utf8Encode base
  bytes : b.length ≤ 32
  chars : 3 ≤ base.length ∧ base.length ≤ 20
  blocked : ∀ c ∈ base, c ∉ ['"', '#', '%', '(', ')', ',', '.', ':', ';', '<', '>', '@', '\\', '`', '{', '}']
  reserved : base ∉ ["admin".toList, "everyone".toList, "all".toList, "administrator".toList, "mod".toList,
    "moderator".toList, "here".toList, "channel".toList]
  canonicalChars : 3 ≤ (canonical cfg base).length ∧ (canonical cfg base).length ≤ 20
  supported : ∀ c ∈ canonical cfg base, InSupportedRange c

/-- The account of `k` agreed to the name `base`, in time, and a suffix is left for it. -/
def Agreed (cfg : Config) (env : Env) (s : State) (k : AccountId) (sig : Signature) (p : Payload) (base : Str) :
    Prop :=
  NameOk cfg p.baseHandle base ∧ env.block < p.expiration ∧ p.expiration < env.block + cfg.window ∧
  cfg.verify sig k (wrap p.encode) = true ∧
  (assignedTo cfg s (canonical cfg base)).length < env.hi + 1 - env.lo

/-- When a call should succeed. -/
def Permitted (cfg : Config) (env : Env) (s : State) : Op → Prop
  | .claim k sig p => ∃ m base, env.msaOf k = some m ∧ s.byMsa.get m = none ∧ Agreed cfg env s k sig p base
  | .change k sig p => ∃ m base, env.msaOf k = some m ∧ s.byMsa.get m ≠ none ∧ Agreed cfg env s k sig p base
  | .retire k => ∃ m d e, env.msaOf k = some m ∧ s.byMsa.get m = some (d, e) ∧ e ≤ env.block
  | .retireWrapped k => ∃ m, env.msaOf k = some m ∧ s.byMsa.get m ≠ none

/-- The name is short in its canonical form and that form is in the basic plane of Unicode. -/
def Plain (cfg : Config) (base : Str) : Prop :=
  (utf8Encode (canonical cfg base)).length ≤ 32 ∧ ∀ c ∈ canonical cfg base, c.toNat < 65536

/-- The name that a call asks for. -/
def asked : Op → Option Bytes
  | .claim _ _ p | .change _ _ p => some p.baseHandle
  | _ => none

/-- Canonical name and suffix that a display handle denotes. -/
def denoted (cfg : Config) (d : Bytes) : Option (Str × Nat) :=
  ((utf8Decode d).bind splitDisplayName).map (fun p => (canonical cfg p.1, p.2))

/-- The canonical name of a display handle is short. -/
def Short (cfg : Config) (d : Bytes) : Prop :=
  ∀ c x, denoted cfg d = some (c, x) → (utf8Encode c).length ≤ 32

/-- The handle of `m` is released: its display name leads to nobody, everything else is as before. -/
structure Released (cfg : Config) (s s' : State) (m : MsaId) (d : Bytes) : Prop where
  handles : ∀ m', s'.byMsa.get m' = if m' = m then none else s.byMsa.get m'
  lookups : ∀ d', msaForHandle cfg s' d' =
    if denoted cfg d' = denoted cfg d then none else msaForHandle cfg s d'
  assignments : assigned cfg s' = assigned cfg s
  events : s'.events = s.events ++ [.retired m d]

/-- The account `m` gets the name `base` with suffix `x` until at least `e`, everything else is as before: the
suffix is the next one announced, and was never given out for this name. -/
structure Obtained (cfg : Config) (env : Env) (s s' : State) (m : MsaId) (base : Str) (x : Nat) (e : BlockNumber) :
    Prop where
  range : env.lo ≤ x ∧ x ≤ env.hi
  announced : nextSuffixes cfg env s (utf8Encode base) 1 = [x]
  fresh : x ∉ assignedTo cfg s (canonical cfg base)
  handles : ∀ m', s'.byMsa.get m' =
    if m' = m then some (utf8Encode (base ++ '.' :: Nat.toDigits 10 x), e) else s.byMsa.get m'
  lookups : ∀ d', msaForHandle cfg s' d' =
    if denoted cfg d' = some (canonical cfg base, x) then some m else msaForHandle cfg s d'
  assignments : assigned cfg s' = assigned cfg s ++ [(canonical cfg base, x)]
  events : s'.events = s.events ++ [.claimed m (utf8Encode (base ++ '.' :: Nat.toDigits 10 x))]

/-! ## Lemmas -/

theorem supported_iff {c : Str} (h : ∀ x ∈ c, x.toNat < 65536) :
    supported c = true ↔ ∀ x ∈ c, InSupportedRange x := by
  simp only [supported, List.all_eq_true, List.any_eq_true, Bool.and_eq_true, decide_eq_true_eq, inSupportedRange_iff]
  constructor
  · intro hs x hx
    obtain ⟨r, hr, h2⟩ := hs x hx
    rw [Nat.mod_eq_of_lt (h x hx)] at h2
    exact ⟨r, hr, h2⟩
  · intro hs x hx
    obtain ⟨r, hr, h2⟩ := hs x hx
    rw [← Nat.mod_eq_of_lt (h x hx)] at h2
    exact ⟨r, hr, h2⟩

theorem Inv.left {cfg lo hi s c} (h : Inv cfg lo hi s) (h0 : c ≠ []) (h32 : (utf8Encode c).length ≤ 32) :
    (assignedTo cfg s c).length < hi + 1 - lo ↔ used s (keyOf c) < hi + 1 - lo := by
  rw [h.order c h0 h32, List.length_take, length_uniqueSuffixes]
  omega

theorem Inv.length_assigned {cfg lo hi s c} (h : Inv cfg lo hi s) (h0 : c ≠ []) (h32 : (utf8Encode c).length ≤ 32)
    (hl : used s (keyOf c) < hi + 1 - lo) : (assignedTo cfg s c).length = used s (keyOf c) := by
  rw [h.order c h0 h32, List.length_take, length_uniqueSuffixes]
  omega

theorem Inv.next_ok {cfg lo hi s env k} (h : Inv cfg lo hi s) (he : env.lo = lo) (hr : RangeOk hi)
    (hl : used s k < hi + 1 - lo) : nextSuffixIndex env s k = .ok (used s k) := by
  unfold nextSuffixIndex
  unfold used at *
  cases hg : s.index.get k with
  | none => rfl
  | some p =>
    obtain ⟨i, l⟩ := p
    rw [hg] at hl
    have := h.indexLo k i l hg
    unfold RangeOk at hr
    simp only at hl ⊢
    rw [if_neg (by rw [he, this]; simp), if_pos (by omega)]

theorem length_displayOf {base : Str} {x : Nat} (hb : (utf8Encode base).length ≤ 32) (hx : x ≤ 65535) :
    (displayOf base x).length ≤ 38 := by
  have h1 : displayOf base x = utf8Encode base ++ utf8Encode ['.'] ++ utf8Encode (dec x) := by
    simp [displayOf, displayStr, utf8Encode]
  rw [h1, List.length_append, List.length_append, utf8_digits _ (fun c hc => dec_digit hc)]
  have := length_dec 4 x (by omega)
  have : (utf8Encode ['.']).length = 1 := by decide
  omega

theorem doClaim_iff {cfg env s m p lo hi} (h : Inv cfg lo hi s) (he : env.lo = lo ∧ env.hi = hi)
    (hr : RangeOk hi) (hlen : p.baseHandle.length ≤ 32)
    (hp : ∀ base, p.baseHandle = utf8Encode base → Plain cfg base) :
    (∃ r, doClaim cfg env s m p = .ok r) ↔ s.byMsa.get m = none ∧ ∃ base, NameOk cfg p.baseHandle base ∧
      (assignedTo cfg s (canonical cfg base)).length < env.hi + 1 - env.lo := by
  obtain ⟨rfl, rfl⟩ := he
  constructor
  · rintro ⟨⟨s', d⟩, hd⟩
    obtain ⟨base, i, x, hc⟩ := doClaim_ok hd
    have henc := (utf8Encode_decode hc.decoded).symm
    have h0 : canonical cfg base ≠ [] := by
      intro e
      have := hc.canonicalChars.1
      rw [e] at this; simp at this
    refine ⟨hc.noHandle, base, ⟨henc, hlen, hc.chars, hc.blocked, hc.reserved, hc.canonicalChars,
      (supported_iff (hp base henc).2).1 hc.supp⟩, (h.left h0 (hp base henc).1).2 ?_⟩
    rw [← h.next rfl hc.nextIndex, ← length_uniqueSuffixes _ _ (canonical cfg base)]
    exact (List.getElem?_eq_some_iff.1 hc.suffix).1
  · rintro ⟨hn, base, ok, hl⟩
    have henc := ok.encoding
    have hpl := hp base henc
    have h0 : canonical cfg base ≠ [] := by
      intro e
      have := ok.canonicalChars.1
      rw [e] at this; simp at this
    rw [h.left h0 hpl.1] at hl
    have hnx := h.next_ok (k := keyOf (canonical cfg base)) rfl hr hl
    rw [← length_uniqueSuffixes _ _ (canonical cfg base)] at hl
    have hsx := List.getElem?_eq_getElem hl
    generalize (uniqueSuffixes env.lo env.hi (canonical cfg base))[used s (keyOf (canonical cfg base))] = x at hsx
    have hx := (mem_uniqueSuffixes _ _ _ _).1 (List.mem_of_getElem? hsx)
    have hdl := length_displayOf (x := x) (by rw [← henc]; exact hlen) (by unfold RangeOk at hr; omega)
    simp only [doClaim, validateBaseHandle, validateSupported, validateCanonicalLength, generateSuffix,
      buildDisplay, bind_eq_ok_iff, ensure_eq_ok_iff, okOr_eq_ok_iff, pure_eq_ok_iff, canonicalBase_eq]
    have hd : utf8Encode base ++ utf8Encode ['.'] ++ utf8Encode (Nat.toDigits 10 x) = displayOf base x := by
      simp [displayOf, displayStr, utf8Encode, dec]
    refine ⟨_, (), hn, base, ⟨base, by rw [henc, utf8Decode_encode], (), ok.chars, (), ?_, (), ?_, rfl⟩, (),
      ensure_eq_ok_iff.2 ((supported_iff hpl.2).2 ok.supported), (), ensure_eq_ok_iff.2 ok.canonicalChars,
      _, hnx, x, hsx, displayOf base x, ⟨(), ?_, hd⟩, rfl⟩
    · rw [← Bool.not_eq_true, isReserved, List.contains_iff_mem]
      exact ok.reserved
    · simp only [containsBlocked, List.any_eq_false, List.contains_iff_mem]
      exact ok.blocked
    · rw [hd]; exact hdl

theorem Inv.retirable {cfg lo hi s m} (h : Inv cfg lo hi s) (hr : RangeOk hi) :
    (∃ r, doRetire cfg s m = .ok r) ↔ s.byMsa.get m ≠ none := by
  simp only [doRetire, bind_eq_ok_iff, okOr_eq_ok_iff, pure_eq_ok_iff]
  constructor
  · rintro ⟨_, v, hv, _⟩
    rw [hv]; simp
  · intro hn
    cases hv : s.byMsa.get m with
    | none => exact absurd hv hn
    | some v =>
      obtain ⟨d, e⟩ := v
      obtain ⟨base, x, hb, rfl, _, hx, _⟩ := h.stored m d e hv
      exact ⟨_, _, rfl, _, utf8Decode_encode _, (base, x),
        splitDisplayName_displayStr hb.noDot (by unfold RangeOk at hr; omega), rfl⟩

theorem msaForHandle_eq (cfg : Config) (s : State) (d : Bytes) :
    msaForHandle cfg s d = (denoted cfg d).bind (fun p => s.byName.get (keyOf p.1, p.2)) := by
  unfold msaForHandle denoted
  cases h : utf8Decode d with
  | none => rfl
  | some str =>
    simp only [Option.getD_some, Option.bind_some, Option.bind_eq_bind]
    cases splitDisplayName str with
    | none => rfl
    | some p => rfl

theorem denoted_displayOf {cfg base x} (hb : '.' ∉ base) (hx : x ≤ 65535) :
    denoted cfg (displayOf base x) = some (canonical cfg base, x) := by
  have := partsOf_displayOf hb hx
  unfold partsOf at this
  unfold denoted
  rw [this]
  rfl

/-- Keys of nonempty short names are not shared. -/
theorem key_eq_iff {c c' : Str} {x x' : Nat} (h0 : c ≠ []) (h32 : (utf8Encode c).length ≤ 32) :
    (keyOf c, x) = (keyOf c', x') ↔ (c', x') = (c, x) := by
  simp only [Prod.mk.injEq]
  constructor
  · rintro ⟨h, rfl⟩; exact ⟨(keyOf_inj h0 h32 h).symm, rfl⟩
  · rintro ⟨rfl, rfl⟩; exact ⟨rfl, rfl⟩

theorem released_of {cfg lo hi s m s1 d base x e} (h : Inv cfg lo hi s) (hr : RangeOk hi)
    (hret : Retired cfg s m s1 d base x e) (hs : Short cfg d) :
    Released cfg s { s1 with events := s1.events ++ [.retired m d] } m d := by
  obtain ⟨hv, rfl, _, hx, _⟩ := h.parts hr hret.stored hret.parts
  have hden : denoted cfg (displayOf base x) = some (canonical cfg base, x) :=
    denoted_displayOf hv.noDot (by unfold RangeOk at hr; omega)
  have hst := hret.state
  subst hst
  refine ⟨fun m' => ?_, fun d' => ?_, ?_, rfl⟩
  · simp only [SMap.get_erase, eq_comm (b := m')]
  · rw [msaForHandle_eq, msaForHandle_eq, hden]
    cases hd : denoted cfg d' with
    | none => simp
    | some p =>
      obtain ⟨c', x'⟩ := p
      simp only [Option.bind_some, SMap.get_erase, key_eq_iff hv.canonical_ne (hs _ _ hden), Option.some.injEq]
  · simp [assigned, claimedName]

theorem obtained_of {cfg env s m p s1 d base i x lo hi} (h : Inv cfg lo hi s) (hr : RangeOk hi)
    (he : env.lo = lo ∧ env.hi = hi) (hc : Claimed cfg env s m p s1 d base i x)
    (h32 : (utf8Encode (canonical cfg base)).length ≤ 32) :
    Obtained cfg env s { s1 with events := s1.events ++ [.claimed m d] } m base x p.expiration := by
  obtain ⟨rfl, rfl⟩ := he
  have h0 : canonical cfg base ≠ [] := by
    intro e
    have := hc.canonicalChars.1
    rw [e] at this; simp at this
  have hdot : '.' ∉ base := fun hm => hc.blocked _ hm (by decide)
  have hx := (mem_uniqueSuffixes _ _ _ _).1 (List.mem_of_getElem? hc.suffix)
  have hx' : x ≤ 65535 := by unfold RangeOk at hr; omega
  have hparts := partsOf_displayOf (n := x) hdot hx'
  have hnext := h.next rfl hc.nextIndex
  have hsuf := hc.suffix
  rw [hnext] at hsuf
  have hst := hc.state
  subst hst
  have hd := hc.display
  subst hd
  refine ⟨hx, ?_, ?_, fun m' => ?_, fun d' => ?_, ?_, rfl⟩
  · unfold nextSuffixes
    simp only [utf8Decode_encode, Option.getD_some, canonicalBase_eq, hc.nextIndex]
    rw [collect_full]
    have hl := (List.getElem?_eq_some_iff.1 hc.suffix)
    obtain ⟨hl, hl2⟩ := hl
    rw [List.drop_eq_getElem_cons hl, hl2]
    rfl
  · intro hm
    have := h.fresh hsuf
    apply this
    simp only [assignedTo, List.mem_map, List.mem_filter, decide_eq_true_eq] at hm
    obtain ⟨⟨c, y⟩, ⟨h1, rfl⟩, rfl⟩ := hm
    exact h1
  · simp only [SMap.get_insert, eq_comm (b := m')]
    rfl
  · rw [msaForHandle_eq, msaForHandle_eq]
    cases hd : denoted cfg d' with
    | none => simp
    | some p =>
      obtain ⟨c', x'⟩ := p
      simp only [Option.bind_some, SMap.get_insert, key_eq_iff h0 h32, Option.some.injEq]
  · simp [assigned, claimedName, hparts]

/-! ## C86 -/

/-- C86 in full: calls succeed exactly if `Permitted`, and have exactly the effect described. -/
def C86_full : Prop :=
  ∀ (cfg : Config) (lo hi : Nat) (_ : RangeOk hi) (hist : List Step) (_ : Fixed lo hi hist) (x : Step)
    (_ : x.env.lo = lo ∧ x.env.hi = hi),
    let s := run cfg .init hist
    ((∃ s', dispatch cfg s x = .ok s') ↔ Permitted cfg x.env s x.op) ∧
    ∀ s', dispatch cfg s x = .ok s' → match x.op with
      | .claim k _ p => ∃ m base y, x.env.msaOf k = some m ∧ p.baseHandle = utf8Encode base ∧
          Obtained cfg x.env s s' m base y p.expiration
      | .change k _ p => ∃ m d e s1 base y, x.env.msaOf k = some m ∧ s.byMsa.get m = some (d, e) ∧
          Released cfg s s1 m d ∧ p.baseHandle = utf8Encode base ∧
          Obtained cfg x.env s1 s' m base y p.expiration
      | .retire k | .retireWrapped k => ∃ m d e, x.env.msaOf k = some m ∧ s.byMsa.get m = some (d, e) ∧
          Released cfg s s' m d

/-- C86, partial: acceptance, for names in the basic plane of Unicode whose canonical form has at most 32
bytes. Missing: other names, where characters beyond the supported scripts are accepted and the suffixes
of one name are used up by others. -/
theorem C86_accepted_iff_partial (cfg : Config) (lo hi : Nat) (hr : RangeOk hi) (hist : List Step)
    (hf : Fixed lo hi hist) (x : Step) (hx : x.env.lo = lo ∧ x.env.hi = hi)
    (hp : ∀ base, asked x.op = some (utf8Encode base) → Plain cfg base) :
    (∃ s', dispatch cfg (run cfg .init hist) x = .ok s') ↔ Permitted cfg x.env (run cfg .init hist) x.op := by
  have h := inv_run hr hist (inv_init cfg lo hi) hf
  generalize run cfg .init hist = s at *
  obtain ⟨env, op⟩ := x
  cases op with
  | claim k sig p =>
    have hp' : ∀ base, p.baseHandle = utf8Encode base → Plain cfg base := fun base e => hp base (by simp [asked, e])
    simp only [dispatch, claim, verifyByteLength, verifyMortality, verifySigned, bind_eq_ok_iff,
      ensure_eq_ok_iff, okOr_eq_ok_iff, pure_eq_ok_iff, Permitted, Agreed]
    constructor
    · rintro ⟨_, _, h1, m, hm, _, ⟨_, h2, h3⟩, _, h4, r, h5, _⟩
      obtain ⟨hn, base, hok, hl⟩ := (doClaim_iff h hx hr h1 hp').1 ⟨r, h5⟩
      exact ⟨m, base, hm, hn, hok, h3, h2, h4, hl⟩
    · rintro ⟨m, base, hm, hn, hok, h3, h2, h4, hl⟩
      obtain ⟨r, h5⟩ := (doClaim_iff h hx hr hok.bytes hp').2 ⟨hn, base, hok, hl⟩
      exact ⟨_, (), hok.bytes, m, hm, (), ⟨(), h2, h3⟩, (), h4, r, h5, rfl⟩
  | change k sig p =>
    have hp' : ∀ base, p.baseHandle = utf8Encode base → Plain cfg base := fun base e => hp base (by simp [asked, e])
    simp only [dispatch, change, verifyByteLength, verifyMortality, verifySigned, bind_eq_ok_iff,
      ensure_eq_ok_iff, okOr_eq_ok_iff, pure_eq_ok_iff, Permitted, Agreed]
    have hret : ∀ {m s1 d}, doRetire cfg s m = .ok (s1, d) →
        Inv cfg lo hi { s1 with events := s1.events ++ [.retired m d] } ∧ s1.byMsa.get m = none ∧
        ∀ c, assignedTo cfg { s1 with events := s1.events ++ [.retired m d] } c = assignedTo cfg s c := by
      intro m s1 d hd
      obtain ⟨b, y, e, hre⟩ := doRetire_ok hd
      refine ⟨inv_retire h hr hre, ?_, fun c => ?_⟩
      · rw [hre.state]; simp
      · rw [hre.state]; simp [assignedTo, assigned, claimedName]
    constructor
    · rintro ⟨_, _, h1, m, hm, _, ⟨_, h2, h3⟩, _, h4, _, _, ⟨s1, d⟩, hd, r, h5, _⟩
      obtain ⟨hi1, hn, ha⟩ := hret hd
      obtain ⟨_, base, hok, hl⟩ := (doClaim_iff hi1 hx hr h1 hp').1 ⟨r, h5⟩
      rw [ha] at hl
      exact ⟨m, base, hm, (h.retirable hr).1 ⟨_, hd⟩, hok, h3, h2, h4, hl⟩
    · rintro ⟨m, base, hm, hn, hok, h3, h2, h4, hl⟩
      obtain ⟨⟨s1, d⟩, hd⟩ := (h.retirable hr).2 hn
      obtain ⟨v, hv⟩ := Option.ne_none_iff_exists'.1 hn
      obtain ⟨hi1, hn1, ha⟩ := hret hd
      rw [← ha] at hl
      obtain ⟨r, h5⟩ := (doClaim_iff hi1 hx hr hok.bytes hp').2 ⟨hn1, base, hok, hl⟩
      exact ⟨_, (), hok.bytes, m, hm, (), ⟨(), h2, h3⟩, (), h4, v, hv, (s1, d), hd, r, h5, rfl⟩
  | retire k =>
    simp only [dispatch, validateRetire, retire, bind_eq_ok_iff, ensure_eq_ok_iff, okOr_eq_ok_iff, pure_eq_ok_iff,
      Permitted]
    constructor
    · rintro ⟨_, _, ⟨m, hm, ⟨d, e⟩, h1, h2⟩, _⟩
      exact ⟨m, d, e, hm, h1, h2⟩
    · rintro ⟨m, d, e, hm, h1, h2⟩
      obtain ⟨r, hd⟩ := (h.retirable hr (m := m)).2 (by rw [h1]; simp)
      exact ⟨_, (), ⟨m, hm, (d, e), h1, h2⟩, m, hm, r, hd, rfl⟩
  | retireWrapped k =>
    simp only [dispatch, retire, bind_eq_ok_iff, okOr_eq_ok_iff, pure_eq_ok_iff, Permitted]
    constructor
    · rintro ⟨_, m, hm, r, hd, _⟩
      exact ⟨m, hm, (h.retirable hr).1 ⟨r, hd⟩⟩
    · rintro ⟨m, hm, hn⟩
      obtain ⟨r, hd⟩ := (h.retirable hr).2 hn
      exact ⟨_, m, hm, r, hd, rfl⟩

/-- C86, partial: effect of a claim, for names with a canonical form of at most 32 bytes. -/
theorem C86_claim_effect_partial (cfg : Config) (lo hi : Nat) (hr : RangeOk hi) (hist : List Step)
    (hf : Fixed lo hi hist) (env : Env) (hx : env.lo = lo ∧ env.hi = hi) (k : AccountId) (sig : Signature)
    (p : Payload) (s' : State)
    (hp : ∀ base, p.baseHandle = utf8Encode base → (utf8Encode (canonical cfg base)).length ≤ 32)
    (hd : dispatch cfg (run cfg .init hist) ⟨env, .claim k sig p⟩ = .ok s') :
    ∃ m base y, env.msaOf k = some m ∧ p.baseHandle = utf8Encode base ∧
      Obtained cfg env (run cfg .init hist) s' m base y p.expiration := by
  have h := inv_run hr hist (inv_init cfg lo hi) hf
  generalize run cfg .init hist = s at *
  simp only [dispatch, claim, bind_eq_ok_iff, okOr_eq_ok_iff, pure_eq_ok_iff] at hd
  obtain ⟨_, _, m, hm, _, _, _, _, ⟨s1, d⟩, h5, rfl⟩ := hd
  obtain ⟨base, i, x, hc⟩ := doClaim_ok h5
  have henc := (utf8Encode_decode hc.decoded).symm
  exact ⟨m, base, x, hm, henc, obtained_of h hr hx hc (hp base henc)⟩

/-- C86, partial: effect of a change: as if the old handle were released and then the new one claimed. For
old and new names with a canonical form of at most 32 bytes. -/
theorem C86_change_effect_partial (cfg : Config) (lo hi : Nat) (hr : RangeOk hi) (hist : List Step)
    (hf : Fixed lo hi hist) (env : Env) (hx : env.lo = lo ∧ env.hi = hi) (k : AccountId) (sig : Signature)
    (p : Payload) (s' : State)
    (hp : ∀ base, p.baseHandle = utf8Encode base → (utf8Encode (canonical cfg base)).length ≤ 32)
    (hold : ∀ m d e, env.msaOf k = some m → (run cfg .init hist).byMsa.get m = some (d, e) → Short cfg d)
    (hd : dispatch cfg (run cfg .init hist) ⟨env, .change k sig p⟩ = .ok s') :
    ∃ m d e s1 base y, env.msaOf k = some m ∧ (run cfg .init hist).byMsa.get m = some (d, e) ∧
      Released cfg (run cfg .init hist) s1 m d ∧ p.baseHandle = utf8Encode base ∧
      Obtained cfg env s1 s' m base y p.expiration := by
  have h := inv_run hr hist (inv_init cfg lo hi) hf
  generalize run cfg .init hist = s at *
  simp only [dispatch, change, bind_eq_ok_iff, okOr_eq_ok_iff, pure_eq_ok_iff] at hd
  obtain ⟨_, _, m, hm, _, _, _, _, _, _, ⟨s1, d1⟩, hre, ⟨s2, d⟩, h5, rfl⟩ := hd
  obtain ⟨b1, x1, e1, hre⟩ := doRetire_ok hre
  obtain ⟨base, i, x, hc⟩ := doClaim_ok h5
  have henc := (utf8Encode_decode hc.decoded).symm
  exact ⟨m, d1, e1, _, base, x, hm, hre.stored, released_of h hr hre (hold _ _ _ hm hre.stored), henc,
    obtained_of (inv_retire h hr hre) hr hx hc (hp base henc)⟩

/-- C86, partial: effect of a retirement, direct or not, for names with a canonical form of at most 32
bytes. -/
theorem C86_retire_effect_partial (cfg : Config) (lo hi : Nat) (hr : RangeOk hi) (hist : List Step)
    (hf : Fixed lo hi hist) (env : Env) (op : Op) (k : AccountId) (hop : op = .retire k ∨ op = .retireWrapped k)
    (s' : State)
    (hold : ∀ m d e, env.msaOf k = some m → (run cfg .init hist).byMsa.get m = some (d, e) → Short cfg d)
    (hd : dispatch cfg (run cfg .init hist) ⟨env, op⟩ = .ok s') :
    ∃ m d e, env.msaOf k = some m ∧ (run cfg .init hist).byMsa.get m = some (d, e) ∧
      Released cfg (run cfg .init hist) s' m d := by
  have h := inv_run hr hist (inv_init cfg lo hi) hf
  generalize run cfg .init hist = s at *
  have hret : retire cfg env s k = .ok s' := by
    rcases hop with rfl | rfl
    · simp only [dispatch, bind_eq_ok_iff] at hd
      exact hd.choose_spec.2
    · exact hd
  obtain ⟨m, s1, d, base, x, e, hm, hre, rfl⟩ := retire_ok hret
  exact ⟨m, d, e, hm, hre.stored, released_of h hr hre (hold _ _ _ hm hre.stored)⟩

/-- C86 is false of the code: the claim of a Korean name changes where the handle of another account leads. -/
theorem C86_full_false : ¬ C86_full := by
  intro hf
  have hd : (dispatch exCfg (run exCfg .init [⟨exEnv 1, .claim 1 1 (pl "블록체인" 50)⟩])
      ⟨exEnv 2, .claim 2 2 (pl "부산광역시" 60)⟩).toOption.bind
        (fun s' => msaForHandle exCfg s' (displayOf "블록체인".toList 54)) = some 2 := by decide +kernel
  have h := (hf exCfg 10 99 (by unfold RangeOk; omega) [⟨exEnv 1, .claim 1 1 (pl "블록체인" 50)⟩]
    (by intro x hx; simp only [List.mem_singleton] at hx; subst hx; exact ⟨rfl, rfl⟩)
    ⟨exEnv 2, .claim 2 2 (pl "부산광역시" 60)⟩ ⟨rfl, rfl⟩).2
  match e : dispatch exCfg (run exCfg .init [⟨exEnv 1, .claim 1 1 (pl "블록체인" 50)⟩])
      ⟨exEnv 2, .claim 2 2 (pl "부산광역시" 60)⟩ with
  | .error _ => rw [e] at hd; cases hd
  | .ok s' =>
    rw [e] at hd
    replace hd : msaForHandle exCfg s' (displayOf "블록체인".toList 54) = some 2 := hd
    obtain ⟨m, base, y, _, hb, ho⟩ := h s' e
    have hb : "부산광역시".toList = base := utf8Encode_inj hb
    subst hb
    have hl := ho.lookups (displayOf "블록체인".toList 54)
    have h1 : denoted exCfg (displayOf "블록체인".toList 54) = some (canonical exCfg "블록체인".toList, 54) := by
      decide +kernel
    have h2 : canonical exCfg "블록체인".toList ≠ canonical exCfg "부산광역시".toList := by decide +kernel
    have h3 : msaForHandle exCfg (run exCfg .init [⟨exEnv 1, .claim 1 1 (pl "블록체인" 50)⟩])
        (displayOf "블록체인".toList 54) = some 1 := by decide +kernel
    rw [if_neg (fun e => h2 (congrArg Prod.fst (Option.some.inj (h1.symm.trans e)))), h3, hd] at hl
    cases hl

/-- Acceptance is false, too. With a range of three suffixes, three accounts claim one Korean name; then no suffix
is left for another one that nobody has. -/
theorem C86_suffixes_used_up_by_others :
    let env : Env := ⟨1, fun k => some k, 10, 12⟩
    let s := run exCfg .init [⟨env, .claim 1 1 (pl "블록체인" 50)⟩, ⟨env, .claim 2 2 (pl "블록체인" 50)⟩,
      ⟨env, .claim 3 3 (pl "블록체인" 50)⟩]
    assignedTo exCfg s (canonical exCfg "부산광역시".toList) = [] ∧
    (assignedTo exCfg s (canonical exCfg "블록체인".toList)).length = 3 ∧
    (dispatch exCfg s ⟨env, .claim 4 4 (pl "부산광역시" 60)⟩).isOk = false := by
  decide +kernel

/-! ## Concrete cases -/

/-- Hypotheses of the partial theorems met: the names of the history are short and plain. -/
example : (∀ c ∈ canonical exCfg "abCdEfg".toList, c.toNat < 65536) ∧
    (utf8Encode (canonical exCfg "abCdEfg".toList)).length ≤ 32 ∧
    denoted exCfg (displayOf "abCdEfg".toList 16) = some ("abcdefg".toList, 16) := by decide +kernel

/-- A name that is permitted, by the theorem, since claiming it succeeds; the same name is not permitted to an
account that has a handle, or with another signature. -/
example : Permitted exCfg (exEnv 51) exState (.claim 3 3 (pl "abcdefg" 100)) ∧
    ¬ Permitted exCfg (exEnv 51) exState (.claim 1 1 (pl "abcdefg" 100)) ∧
    ¬ Permitted exCfg (exEnv 51) exState (.claim 3 2 (pl "abcdefg" 100)) ∧
    Permitted exCfg (exEnv 51) exState (.change 1 1 (pl "abcdefg" 100)) := by
  have hplain : Plain exCfg "abcdefg".toList := by unfold Plain; decide +kernel
  have key : ∀ op, asked op = some (utf8Encode "abcdefg".toList) →
      ((dispatch exCfg exState ⟨exEnv 51, op⟩).isOk = true ↔ Permitted exCfg (exEnv 51) exState op) := by
    intro op ho
    refine Iff.trans ?_ (C86_accepted_iff_partial exCfg 10 99 (by unfold RangeOk; omega) exHist exFixed
      ⟨exEnv 51, op⟩ ⟨rfl, rfl⟩ (by
        intro base hb
        rw [show asked (⟨exEnv 51, op⟩ : Step).op = _ from ho, Option.some.injEq] at hb
        rw [← utf8Encode_inj hb]; exact hplain))
    show _ ↔ ∃ s', dispatch exCfg exState ⟨exEnv 51, op⟩ = .ok s'
    cases dispatch exCfg exState ⟨exEnv 51, op⟩ with
    | ok s' => simp [Except.isOk, Except.toBool]
    | error e => simp [Except.isOk, Except.toBool]
  rw [← key _ rfl, ← key _ rfl, ← key _ rfl, ← key _ rfl]
  decide +kernel

end Verif.Handles
