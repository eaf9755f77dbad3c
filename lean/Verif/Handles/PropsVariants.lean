import Verif.Handles.Props
/-!
# C110: spellings of the same name
-/

namespace Verif.Handles

/-! ## Specification -/

/-- Unicode white space (`White_Space` of PropList.txt). -/
def spaces : List Nat :=
  [0x9, 0xA, 0xB, 0xC, 0xD, 0x20, 0x85, 0xA0, 0x1680, 0x2000, 0x2001, 0x2002, 0x2003, 0x2004, 0x2005, 0x2006, 0x2007,
   0x2008, 0x2009, 0x200A, 0x2028, 0x2029, 0x202F, 0x205F, 0x3000]

/-- The name without white space. -/
def unspaced (s : Str) : Str := s.filter (fun c => c.toNat ∉ spaces)

/-- Look-alikes of ASCII characters among themselves, lines 5, 14 and 15 of data/confusable_characters.txt. -/
def lookAlike (c : Char) : Char :=
  if c = '`' then '\'' else if c = 'O' ∨ c = 'o' then '0' else if c = 'I' ∨ c = 'i' ∨ c = 'l' ∨ c = '|' then '1' else c

/-- The parameters are those of the code as far as ASCII names are concerned: these are their own decomposition,
without combining marks. -/
structure RealAscii (cfg : Config) : Prop where
  nfkd : ∀ s : Str, (∀ c ∈ s, c.toNat < 128) → cfg.nfkd s = s
  marks : ∀ c : Char, c.toNat < 128 → cfg.isMark c = false
  table : ∀ c : Char, c.toNat < 128 → c ≠ '`' → cfg.confusable c = lookAlike c

/-- A name of ASCII characters, none of which is blocked. -/
def PlainAscii (s : Str) : Prop := ∀ c ∈ s, c.toNat < 128 ∧ c ≠ '.' ∧ c ≠ '`'

/-- Two ASCII characters that a client takes for spellings of the same: equal but for case, or look-alikes. -/
def Alike (a b : Char) : Prop := a.toLower = b.toLower ∨ lookAlike a = lookAlike b

/-- Two spellings of a name, character by character. -/
def Spellings (a b : Str) : Prop := List.Forall₂ Alike a b

/-- C110 in full: spaces do not matter, nor does the spelling of ASCII names, and the canonical name that is reported
for an account leads to it. -/
def C110_full : Prop :=
  ∀ (cfg : Config), RealAscii cfg → ∀ (lo hi : Nat) (hist : List Step), RangeOk hi → Fixed lo hi hist →
    ∀ (a b : Str) (x : Nat), x ≤ 65535 →
    let s := run cfg .init hist
    ('.' ∉ a → unspaced a = unspaced b → msaForHandle cfg s (displayOf a x) = msaForHandle cfg s (displayOf b x)) ∧
    (PlainAscii a → PlainAscii b → Spellings (unspaced a) (unspaced b) →
      msaForHandle cfg s (displayOf a x) = msaForHandle cfg s (displayOf b x)) ∧
    ∀ m d k, PlainAscii a → handleForMsa cfg s m = some (utf8Encode a, k, x) → utf8Decode k = some d →
      msaForHandle cfg s (displayOf d x) = some m

/-! ## Lemmas -/

theorem isWhitespace_iff (c : Char) : isWhitespace c = true ↔ c.toNat ∈ spaces := by
  unfold isWhitespace spaces
  simp only [Bool.or_eq_true, Bool.and_eq_true, decide_eq_true_eq, beq_iff_eq, List.mem_cons, List.not_mem_nil, or_false]
  omega

theorem stripWhitespace_eq (s : Str) : stripWhitespace s = unspaced s := by
  unfold stripWhitespace unspaced
  refine List.filter_congr fun c _ => ?_
  have h := isWhitespace_iff c
  by_cases hc : c.toNat ∈ spaces
  · simp [h.2 hc, hc]
  · have : isWhitespace c = false := by
      cases he : isWhitespace c with
      | false => rfl
      | true => exact absurd (h.1 he) hc
    simp [this, hc]

theorem dot_unspaced {a : Str} : '.' ∉ unspaced a ↔ '.' ∉ a := by
  unfold unspaced
  rw [List.mem_filter]
  constructor
  · intro h hm; exact h ⟨hm, by decide⟩
  · intro h hm; exact h hm.1

theorem msaForHandle_displayOf (cfg : Config) (s : State) {a : Str} {x : Nat} (ha : '.' ∉ a) (hx : x ≤ 65535) :
    msaForHandle cfg s (displayOf a x) = s.byName.get (keyOf (canonical cfg a), x) := by
  have hdec : utf8Decode (displayOf a x) = some (displayStr a x) := utf8Decode_encode _
  simp only [msaForHandle, hdec, Option.getD_some, splitDisplayName_displayStr ha hx, Option.bind_eq_bind,
    Option.bind_some, canonicalBase_eq]

/-- The canonical form of an ASCII name, character by character. -/
theorem canonical_ascii {cfg : Config} (h : RealAscii cfg) {a : Str} (ha : PlainAscii a) :
    canonical cfg a = (unspaced a).map (fun c => (lookAlike c).toLower) := by
  have hu : ∀ c ∈ unspaced a, c.toNat < 128 ∧ c ≠ '.' ∧ c ≠ '`' := fun c hc => ha c (List.mem_filter.1 hc).1
  unfold canonical stripDiacriticals replaceConfusables asciiLower
  rw [stripWhitespace_eq, h.nfkd _ (fun c hc => (hu c hc).1), List.filter_eq_self.2, List.map_map]
  · refine List.map_congr_left fun c hc => ?_
    simp only [Function.comp]
    rw [h.table c (hu c hc).1 (hu c hc).2.2]
  · intro c hc
    rw [h.marks c (hu c hc).1]; rfl

/-! ## C110 -/

/-- C110, spaces: names that differ only in white space have the same canonical form, whatever the tables of
decompositions and look-alikes are; so their handles lead to the same account. -/
theorem C110_spaces (cfg : Config) (s : State) (a b : Str) (x : Nat) (ha : '.' ∉ a) (hx : x ≤ 65535)
    (h : unspaced a = unspaced b) : canonical cfg a = canonical cfg b ∧
      msaForHandle cfg s (displayOf a x) = msaForHandle cfg s (displayOf b x) := by
  have hc : canonical cfg a = canonical cfg b := by
    unfold canonical; rw [stripWhitespace_eq, stripWhitespace_eq, h]
  have hb : '.' ∉ b := dot_unspaced.1 (h ▸ dot_unspaced.2 ha)
  exact ⟨hc, by rw [msaForHandle_displayOf cfg s ha hx, msaForHandle_displayOf cfg s hb hx, hc]⟩

/-- Hypotheses met, by a handle in use. -/
example : unspaced "ab cde fg".toList = unspaced "abcdefg".toList ∧
    msaForHandle exCfg exState (displayOf "ab cde fg".toList 65) = some 2 := by decide +kernel

theorem realAscii_exCfg : RealAscii exCfg := by
  refine ⟨fun s h => ?_, fun _ _ => rfl, ?_⟩
  · show s.flatMap nfkdHangul = s
    induction s with
    | nil => rfl
    | cons c s ih =>
      rw [List.flatMap_cons, ih (fun x hx => h x (List.mem_cons_of_mem _ hx))]
      have := h c (by simp)
      unfold nfkdHangul
      rw [if_neg (by omega)]; rfl
  · intro c hc hb
    have key : ∀ n < 128, n ≠ 96 → exCfg.confusable (Char.ofNat n) = lookAlike (Char.ofNat n) := by decide +kernel
    have := key c.toNat hc (by
      intro e
      apply hb
      rw [← Char.ofNat_toNat c, e])
    rwa [Char.ofNat_toNat] at this

instance (a : Str) : Decidable (PlainAscii a) := by unfold PlainAscii; infer_instance
instance (a b : Char) : Decidable (Alike a b) := by unfold Alike; infer_instance

/-- C110 is false of the code: the table turns `l` into `1`, but leaves `L`, which becomes `l` afterwards. The account
that claimed `PAUL1` is found neither under `paul1` nor under the canonical name reported for it, which is `paul1`. -/
theorem C110_full_false : ¬ C110_full := by
  intro h
  have := (h exCfg realAscii_exCfg 10 99 [⟨exEnv 1, .claim 1 1 (pl "PAUL1" 50)⟩] (by unfold RangeOk; omega)
    (by intro y hy; simp only [List.mem_singleton] at hy; subst hy; exact ⟨rfl, rfl⟩)
    "PAUL1".toList "paul1".toList 13 (by omega)).2.1 (by decide) (by decide)
    (by
      have e1 : unspaced "PAUL1".toList = "PAUL1".toList := by decide +kernel
      have e2 : unspaced "paul1".toList = "paul1".toList := by decide +kernel
      rw [e1, e2]
      unfold Spellings; simp only [String.toList]; repeat' constructor)
  revert this
  decide +kernel

/-- A second account claims the other spelling and even gets the same suffix. The canonical name reported for the
first now leads to the second. -/
theorem C110_two_spellings :
    let s := run exCfg .init [⟨exEnv 1, .claim 1 1 (pl "PAUL1" 50)⟩, ⟨exEnv 1, .claim 2 2 (pl "paul1" 50)⟩]
    handleForMsa exCfg s 1 = some (utf8Encode "PAUL1".toList, utf8Encode "paul1".toList, 13) ∧
    handleForMsa exCfg s 2 = some (utf8Encode "paul1".toList, utf8Encode "pau11".toList, 13) ∧
    msaForHandle exCfg s (displayOf "PAUL1".toList 13) = some 1 ∧
    msaForHandle exCfg s (displayOf "paul1".toList 13) = some 2 := by decide +kernel

/-- Two characters have the same canonical form exactly if they are alike, capital `L` apart. -/
theorem alike_iff (a b : Char) (ha : a.toNat < 128) (hb : b.toNat < 128) (ha' : a ≠ 'L') (hb' : b ≠ 'L') :
    (lookAlike a).toLower = (lookAlike b).toLower ↔ Alike a b := by
  have h : ∀ n < 128, ∀ m < 128, Char.ofNat n ≠ 'L' → Char.ofNat m ≠ 'L' →
      ((lookAlike (Char.ofNat n)).toLower = (lookAlike (Char.ofNat m)).toLower ↔ Alike (Char.ofNat n) (Char.ofNat m)) := by
    decide +kernel
  have := h a.toNat ha b.toNat hb
  rw [Char.ofNat_toNat, Char.ofNat_toNat] at this
  exact this ha' hb'

/-- C110, spelling: ASCII names without a capital `L` have the same canonical form exactly if they are spellings of
each other. Missing: capital `L`, where it is false. -/
theorem C110_spellings_partial (cfg : Config) (hc : RealAscii cfg) (a b : Str) (ha : PlainAscii a) (hb : PlainAscii b)
    (ha' : 'L' ∉ a) (hb' : 'L' ∉ b) :
    canonical cfg a = canonical cfg b ↔ Spellings (unspaced a) (unspaced b) := by
  rw [canonical_ascii hc ha, canonical_ascii hc hb]
  have hu : ∀ {a : Str}, PlainAscii a → 'L' ∉ a → ∀ c ∈ unspaced a, c.toNat < 128 ∧ c ≠ 'L' := by
    intro a ha ha' c hm
    have hm := (List.mem_filter.1 hm).1
    exact ⟨(ha c hm).1, fun e => ha' (e ▸ hm)⟩
  have h1 := hu ha ha'
  have h2 := hu hb hb'
  clear ha hb ha' hb' hu
  generalize unspaced a = u at h1 ⊢
  generalize unspaced b = v at h2 ⊢
  unfold Spellings
  induction u generalizing v with
  | nil => cases v <;> simp
  | cons c u ih =>
    cases v with
    | nil => simp
    | cons d v =>
      have hcd := alike_iff c d (h1 c (by simp)).1 (h2 d (by simp)).1 (h1 c (by simp)).2 (h2 d (by simp)).2
      simp only [List.map_cons, List.cons.injEq, List.forall₂_cons, hcd,
        ih (fun x hx => h1 x (by simp [hx])) v (fun x hx => h2 x (by simp [hx]))]

/-- The handles of two such spellings lead to the same account. -/
theorem C110_lookup_partial (cfg : Config) (hc : RealAscii cfg) (s : State) (a b : Str) (x : Nat) (hx : x ≤ 65535)
    (ha : PlainAscii a) (hb : PlainAscii b) (ha' : 'L' ∉ a) (hb' : 'L' ∉ b)
    (h : Spellings (unspaced a) (unspaced b)) :
    msaForHandle cfg s (displayOf a x) = msaForHandle cfg s (displayOf b x) := by
  have h := (C110_spellings_partial cfg hc a b ha hb ha' hb').2 h
  rw [msaForHandle_displayOf cfg s (fun hm => (ha _ hm).2.1 rfl) hx,
    msaForHandle_displayOf cfg s (fun hm => (hb _ hm).2.1 rfl) hx, h]

/-- Hypotheses met: a name with look-alikes, another case and a space. -/
example : let a := "B0b Smith".toList; let b := "bOBsm1TH".toList
    PlainAscii a ∧ PlainAscii b ∧ 'L' ∉ a ∧ 'L' ∉ b ∧ canonical exCfg a = "b0bsm1th".toList ∧
    canonical exCfg b = "b0bsm1th".toList := by decide +kernel

theorem canonical_char (c : Char) (h : c.toNat < 128 ∧ c ≠ '.' ∧ c ≠ '`') (hL : c ≠ 'L') (hs : c.toNat ∉ spaces) :
    let d := (lookAlike c).toLower
    d.toNat < 128 ∧ d ≠ '.' ∧ d ≠ '`' ∧ d.toNat ∉ spaces ∧ (lookAlike d).toLower = d := by
  have key : ∀ n < 128, (Char.ofNat n ≠ '.' ∧ Char.ofNat n ≠ '`') ∧ Char.ofNat n ≠ 'L' ∧ (Char.ofNat n).toNat ∉ spaces →
      ((lookAlike (Char.ofNat n)).toLower.toNat < 128 ∧ (lookAlike (Char.ofNat n)).toLower ≠ '.') ∧
      ((lookAlike (Char.ofNat n)).toLower ≠ '`' ∧ (lookAlike (Char.ofNat n)).toLower.toNat ∉ spaces) ∧
      (lookAlike (lookAlike (Char.ofNat n)).toLower).toLower = (lookAlike (Char.ofNat n)).toLower := by
    decide +kernel
  have := key c.toNat h.1
  rw [Char.ofNat_toNat] at this
  obtain ⟨⟨h1, h2⟩, ⟨h3, h4⟩, h5⟩ := this ⟨h.2, hL, hs⟩
  exact ⟨h1, h2, h3, h4, h5⟩

/-- The canonical form of an ASCII name without `L` is its own canonical form. -/
theorem canonical_idem {cfg : Config} (hc : RealAscii cfg) {a : Str} (ha : PlainAscii a) (hL : 'L' ∉ a) :
    PlainAscii (canonical cfg a) ∧ canonical cfg (canonical cfg a) = canonical cfg a := by
  have h := canonical_ascii hc ha
  have hu : ∀ c ∈ unspaced a, (c.toNat < 128 ∧ c ≠ '.' ∧ c ≠ '`') ∧ c ≠ 'L' ∧ c.toNat ∉ spaces := by
    intro c hm
    obtain ⟨hm, hs⟩ := List.mem_filter.1 hm
    exact ⟨ha c hm, fun e => hL (e ▸ hm), by simpa using hs⟩
  have hp : PlainAscii (canonical cfg a) := by
    rw [h]
    intro d hd
    obtain ⟨c, hm, rfl⟩ := List.mem_map.1 hd
    have := canonical_char c (hu c hm).1 (hu c hm).2.1 (hu c hm).2.2
    exact ⟨this.1, this.2.1, this.2.2.1⟩
  refine ⟨hp, ?_⟩
  rw [canonical_ascii hc hp, h]
  have he : unspaced ((unspaced a).map fun c => (lookAlike c).toLower) =
      (unspaced a).map fun c => (lookAlike c).toLower := by
    conv_lhs => unfold unspaced
    refine List.filter_eq_self.2 fun d hd => ?_
    obtain ⟨c, hm, rfl⟩ := List.mem_map.1 hd
    have := (canonical_char c (hu c hm).1 (hu c hm).2.1 (hu c hm).2.2).2.2.2.1
    simpa using this
  rw [he, List.map_map]
  refine List.map_congr_left fun c hm => ?_
  exact (canonical_char c (hu c hm).1 (hu c hm).2.1 (hu c hm).2.2).2.2.2.2

theorem utf8_ascii (l : Str) (h : ∀ c ∈ l, c.toNat < 128) : (utf8Encode l).length = l.length := by
  induction l with
  | nil => rfl
  | cons c l ih =>
    have h1 : ∀ n < 128, (String.utf8EncodeChar (Char.ofNat n)).length = 1 := by decide +kernel
    have h2 := h1 c.toNat (h c (by simp))
    rw [Char.ofNat_toNat] at h2
    rw [utf8Encode_cons, List.length_append, h2, ih (fun x hx => h x (by simp [hx])), List.length_cons]
    omega

/-- C110, canonical names: what is reported for an account with such a name leads to the account. Missing: capital
`L`, where it is false. -/
theorem C110_canonical_found_partial (cfg : Config) (hc : RealAscii cfg) (lo hi : Nat) (hr : RangeOk hi)
    (hist : List Step) (hf : Fixed lo hi hist) (a d : Str) (k : Bytes) (x : Nat) (m : MsaId) (ha : PlainAscii a)
    (hL : 'L' ∉ a) (h : handleForMsa cfg (run cfg .init hist) m = some (utf8Encode a, k, x))
    (hk : utf8Decode k = some d) :
    msaForHandle cfg (run cfg .init hist) (displayOf d x) = some m := by
  have hi' := inv_run hr hist (inv_init cfg lo hi) hf
  generalize run cfg .init hist = s at *
  simp only [handleForMsa, Option.bind_eq_bind, Option.bind_eq_some_iff, Option.some.injEq, Prod.mk.injEq,
    canonicalBase_eq] at h
  obtain ⟨⟨dd, e⟩, h0, str, h1, ⟨base, y⟩, h2, h3, h4, h5⟩ := h
  simp only at h3 h4 h5 h1
  subst h5
  have hb : base = a := by
    have := congrArg utf8Decode h3
    rw [utf8Decode_encode, utf8Decode_encode] at this
    exact Option.some.inj this
  subst hb
  have hp : partsOf dd = some (base, y) := by simp [partsOf, h1, h2]
  obtain ⟨hv, -, -, hy, -⟩ := hi'.parts hr h0 hp
  obtain ⟨hpc, hid⟩ := canonical_idem hc ha hL
  have hlen : (utf8Encode (canonical cfg base)).length ≤ 32 := by
    rw [utf8_ascii _ (fun c hc => (hpc c hc).1)]
    have := hv.canonicalChars.2
    omega
  have hd : d = canonical cfg base := by
    rw [← h4, keyOf, if_pos hlen, utf8Decode_encode] at hk
    exact (Option.some.inj hk).symm
  subst hd
  rw [msaForHandle_displayOf cfg s (fun hm => (hpc _ hm).2.1 rfl) (by unfold RangeOk at hr; omega), hid]
  exact hi'.lookup m dd e base y h0 hp hlen

/-- Hypotheses met. -/
example : handleForMsa exCfg exState 2 = some (utf8Encode "abcdefg".toList, utf8Encode "abcdefg".toList, 65) ∧
    PlainAscii "abcdefg".toList := by decide +kernel

end Verif.Handles
