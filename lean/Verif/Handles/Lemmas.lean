import Verif.Handles.Model
/-!
# Lemmas about the handles pallet
-/

namespace Verif.Handles

/-! ## Decimal numbers -/

/-- Decimal digits of a number. -/
def dec (n : Nat) : Str := Nat.toDigits 10 n

theorem dec_digit {n : Nat} {c : Char} (h : c ∈ dec n) : c.isDigit = true :=
  Nat.isDigit_of_mem_toDigits (by decide) (by decide) h

theorem dec_ne_nil (n : Nat) : dec n ≠ [] := Nat.toDigits_ne_nil

theorem digit_val {d : Nat} (h : d < 10) : (Nat.digitChar d).toNat - '0'.toNat = d := by
  have : d = 0 ∨ d = 1 ∨ d = 2 ∨ d = 3 ∨ d = 4 ∨ d = 5 ∨ d = 6 ∨ d = 7 ∨ d = 8 ∨ d = 9 := by omega
  rcases this with rfl | rfl | rfl | rfl | rfl | rfl | rfl | rfl | rfl | rfl <;> decide

theorem dec_step {n : Nat} (h : 10 ≤ n) : dec n = dec (n / 10) ++ [Nat.digitChar (n % 10)] := by
  unfold dec
  exact Nat.toDigits_of_base_le (by decide) h

theorem dec_small {n : Nat} (h : n < 10) : dec n = [Nat.digitChar n] := Nat.toDigits_of_lt_base h

theorem decimalValue_dec (n : Nat) : decimalValue (dec n) = n := by
  induction n using Nat.strongRecOn with
  | ind n ih =>
    by_cases h : n < 10
    · rw [dec_small h]
      show 0 * 10 + _ = _
      rw [digit_val h]; omega
    · rw [dec_step (by omega)]
      have := ih (n / 10) (by omega)
      unfold decimalValue at *
      rw [List.foldl_append, this]
      show n / 10 * 10 + _ = _
      rw [digit_val (by omega)]; omega

theorem length_dec (k : Nat) : ∀ n, n < 10 ^ (k + 1) → (dec n).length ≤ k + 1 := by
  induction k with
  | zero => intro n h; rw [dec_small (by omega)]; simp
  | succ k ih =>
    intro n h
    by_cases hn : n < 10
    · rw [dec_small hn]; simp
    · rw [dec_step (by omega), List.length_append]
      have hdiv : n / 10 < 10 ^ (k + 1) := by
        apply Nat.div_lt_of_lt_mul
        rw [Nat.pow_succ] at h; omega
      have := ih (n / 10) hdiv
      simp; omega

theorem isDigit_toNat {c : Char} (h : c.isDigit = true) : 48 ≤ c.toNat ∧ c.toNat ≤ 57 := by
  simp only [Char.isDigit, ge_iff_le, Bool.and_eq_true, decide_eq_true_eq] at h
  obtain ⟨h1, h2⟩ := h
  rw [UInt32.le_iff_toNat_le] at h1 h2
  exact ⟨h1, h2⟩

theorem isDigit_utf8 {c : Char} (h : c.isDigit = true) : (String.utf8EncodeChar c).length = 1 := by
  rw [String.length_utf8EncodeChar]
  obtain ⟨_, h2⟩ := isDigit_toNat h
  rw [Char.utf8Size_eq_one_iff]
  rw [UInt32.le_iff_toNat_le]
  exact Nat.le_trans h2 (by decide)

theorem utf8_digits (l : Str) (h : ∀ c ∈ l, c.isDigit = true) : (utf8Encode l).length = l.length := by
  induction l with
  | nil => rfl
  | cons c l ih =>
    rw [utf8Encode_cons, List.length_append, isDigit_utf8 (h c (by simp)),
      ih (fun d hd => h d (by simp [hd])), List.length_cons]
    omega

theorem parseU16_dec {n : Nat} (h : n ≤ 65535) : parseU16 (dec n) = some n := by
  have hd : ∀ c ∈ dec n, c.isDigit = true := fun c hc => dec_digit hc
  have hne := dec_ne_nil n
  have hv := decimalValue_dec n
  have hs : stripPlus (dec n) = dec n := by
    cases hl : dec n with
    | nil => rfl
    | cons c r =>
      have hc : c ≠ '+' := by
        intro e
        have := hd c (by rw [hl]; simp)
        rw [e] at this
        revert this
        decide
      rw [stripPlus, if_neg hc]
  unfold parseU16
  simp only [hs]
  rw [hv, if_pos ⟨hne, by rw [List.all_eq_true]; exact hd, h⟩]

/-! ## Splitting -/

theorem splitDot_ne_nil (s : Str) : splitDot s ≠ [] := by
  cases s with
  | nil => simp [splitDot]
  | cons c s =>
    rw [splitDot]
    split
    · simp
    · split <;> simp

theorem splitDot_noDot (s : Str) (h : '.' ∉ s) : splitDot s = [s] := by
  induction s with
  | nil => rfl
  | cons c s ih =>
    rw [splitDot, if_neg (by intro e; apply h; simp [e]), ih (by intro e; apply h; simp [e])]

theorem splitDot_append (a b : Str) (ha : '.' ∉ a) : splitDot (a ++ '.' :: b) = a :: splitDot b := by
  induction a with
  | nil => simp [splitDot]
  | cons c a ih =>
    rw [List.cons_append, splitDot, if_neg (by intro e; apply ha; simp [e]),
      ih (by intro e; apply ha; simp [e])]

/-- The display handle with base name `base` and suffix `n`: name, dot, decimal digits. -/
def displayStr (base : Str) (n : Nat) : Str := base ++ '.' :: dec n

/-- Its bytes. -/
def displayOf (base : Str) (n : Nat) : Bytes := utf8Encode (displayStr base n)

theorem splitDisplayName_displayStr {base : Str} {n : Nat} (hb : '.' ∉ base) (hn : n ≤ 65535) :
    splitDisplayName (displayStr base n) = some (base, n) := by
  have hd : '.' ∉ dec n := by
    intro h
    have := dec_digit h
    revert this
    decide
  unfold splitDisplayName displayStr
  rw [splitDot_append _ _ hb, splitDot_noDot _ hd]
  simp [parseU16_dec hn]

/-- Name and suffix read from display handle bytes. -/
def partsOf (d : Bytes) : Option (Str × Nat) := (utf8Decode d).bind splitDisplayName

theorem partsOf_displayOf {base : Str} {n : Nat} (hb : '.' ∉ base) (hn : n ≤ 65535) :
    partsOf (displayOf base n) = some (base, n) := by
  unfold partsOf displayOf
  rw [utf8Decode_encode]
  exact splitDisplayName_displayStr hb hn

/-! ## Valid names -/

/-- What a stored base name satisfies. -/
structure ValidBase (cfg : Config) (base : Str) : Prop where
  chars : 3 ≤ base.length ∧ base.length ≤ 20
  bytes : (utf8Encode base).length ≤ 32
  blocked : ∀ c ∈ base, c ∉ blockedCharacters
  reserved : base ∉ reservedWords
  supported : supported (canonical cfg base) = true
  canonicalChars : 3 ≤ (canonical cfg base).length ∧ (canonical cfg base).length ≤ 20

theorem ValidBase.noDot {cfg base} (h : ValidBase cfg base) : '.' ∉ base := by
  intro hm
  exact h.blocked _ hm (by decide)

/-- Key of a canonical form in storage. -/
def keyOf (c : Str) : Bytes := if (utf8Encode c).length ≤ 32 then utf8Encode c else []

theorem canonicalBase_eq (cfg : Config) (base : Str) :
    canonicalBase cfg base = (canonical cfg base, keyOf (canonical cfg base)) := rfl

theorem keyOf_inj {c c' : Str} (hlen : c ≠ []) (hc : (utf8Encode c).length ≤ 32) (h : keyOf c = keyOf c') :
    c = c' := by
  unfold keyOf at h
  rw [if_pos hc] at h
  split at h
  · exact utf8Encode_inj h
  · have := (length_utf8Encode c).1
    rw [h] at this
    cases c with
    | nil => exact absurd rfl hlen
    | cons a l => simp at this

/-- Effect of a successful `do_claim_handle`. -/
structure Claimed (cfg : Config) (env : Env) (s : State) (m : MsaId) (p : Payload) (s' : State)
    (d : Bytes) (base : Str) (i x : Nat) : Prop where
  noHandle : s.byMsa.get m = none
  decoded : utf8Decode p.baseHandle = some base
  chars : 3 ≤ base.length ∧ base.length ≤ 20
  blocked : ∀ c ∈ base, c ∉ blockedCharacters
  reserved : base ∉ reservedWords
  supp : supported (canonical cfg base) = true
  canonicalChars : 3 ≤ (canonical cfg base).length ∧ (canonical cfg base).length ≤ 20
  nextIndex : nextSuffixIndex env s (keyOf (canonical cfg base)) = .ok i
  suffix : (uniqueSuffixes env.lo env.hi (canonical cfg base))[i]? = some x
  display : d = displayOf base x
  state : s' = { s with
    byName := s.byName.insert (keyOf (canonical cfg base), x) m
    index := s.index.insert (keyOf (canonical cfg base)) (i, env.lo)
    byMsa := s.byMsa.insert m (d, p.expiration) }

theorem doClaim_ok {cfg env s m p s' d} (h : doClaim cfg env s m p = .ok (s', d)) :
    ∃ base i x, Claimed cfg env s m p s' d base i x := by
  simp only [doClaim, validateBaseHandle, validateSupported, validateCanonicalLength, generateSuffix,
    buildDisplay, bind_eq_ok_iff, ensure_eq_ok_iff, okOr_eq_ok_iff, pure_eq_ok_iff, canonicalBase_eq] at h
  obtain ⟨_, h0, _, ⟨base, hd, _, h1, _, h2, _, h3, rfl⟩, _, h4, _, h5, i, h6, x, h7, d', ⟨_, h8, h9⟩, h10⟩ := h
  refine ⟨base, i, x, ?_⟩
  have hd' : d' = displayOf base x := by
    rw [← h9]
    simp [displayOf, displayStr, utf8Encode, dec]
  rw [Prod.mk.injEq] at h10
  obtain ⟨h10, h11⟩ := h10
  subst h11
  refine ⟨h0, hd, h1, ?_, ?_, ensure_eq_ok_iff.1 h4, ensure_eq_ok_iff.1 h5, h6, h7, hd', h10.symm⟩
  · intro c hc hb
    simp only [containsBlocked, List.any_eq_false, List.contains_iff_mem] at h3
    exact h3 c hc hb
  · intro hb
    simp only [isReserved] at h2
    rw [← Bool.not_eq_true, List.contains_iff_mem] at h2
    exact h2 hb

/-- Effect of a successful `do_retire_handle`. -/
structure Retired (cfg : Config) (s : State) (m : MsaId) (s' : State) (d : Bytes) (base : Str) (x : Nat)
    (e : BlockNumber) : Prop where
  stored : s.byMsa.get m = some (d, e)
  parts : partsOf d = some (base, x)
  state : s' = { s with byMsa := s.byMsa.erase m
                        byName := s.byName.erase (keyOf (canonical cfg base), x) }

theorem doRetire_ok {cfg s m s' d} (h : doRetire cfg s m = .ok (s', d)) :
    ∃ base x e, Retired cfg s m s' d base x e := by
  simp only [doRetire, bind_eq_ok_iff, okOr_eq_ok_iff, pure_eq_ok_iff, canonicalBase_eq] at h
  obtain ⟨⟨d', e⟩, h1, str, h2, ⟨base, x⟩, h3, h4⟩ := h
  rw [Prod.mk.injEq] at h4
  obtain ⟨h4, h5⟩ := h4
  subst h5
  exact ⟨base, x, e, h1, by simp [partsOf, h2, h3], h4.symm⟩

/-- Effect of an operation. -/
inductive Eff (cfg : Config) (s : State) : Step → State → Prop
  | fail (x : Step) (e : Err) (h : dispatch cfg s x = .error e) : Eff cfg s x s
  | claim {env k sig p m s' d base i x} (hlen : p.baseHandle.length ≤ 32) (hm : env.msaOf k = some m)
      (hw : env.block < p.expiration ∧ p.expiration < env.block + cfg.window)
      (hsig : cfg.verify sig k (wrap p.encode) = true) (h : Claimed cfg env s m p s' d base i x) :
      Eff cfg s ⟨env, .claim k sig p⟩ { s' with events := s'.events ++ [.claimed m d] }
  | change {env k sig p m s1 d1 base1 x1 e1 s' d base i x} (hlen : p.baseHandle.length ≤ 32)
      (hm : env.msaOf k = some m) (hw : env.block < p.expiration ∧ p.expiration < env.block + cfg.window)
      (hsig : cfg.verify sig k (wrap p.encode) = true)
      (h1 : Retired cfg s m s1 d1 base1 x1 e1)
      (h : Claimed cfg env { s1 with events := s1.events ++ [.retired m d1] } m p s' d base i x) :
      Eff cfg s ⟨env, .change k sig p⟩ { s' with events := s'.events ++ [.claimed m d] }
  | retire {env k m s' d base x e} (hm : env.msaOf k = some m) (h : Retired cfg s m s' d base x e)
      (hexp : e ≤ env.block) :
      Eff cfg s ⟨env, .retire k⟩ { s' with events := s'.events ++ [.retired m d] }
  | retireWrapped {env k m s' d base x e} (hm : env.msaOf k = some m) (h : Retired cfg s m s' d base x e) :
      Eff cfg s ⟨env, .retireWrapped k⟩ { s' with events := s'.events ++ [.retired m d] }

theorem retire_ok {cfg env s k s'} (h : retire cfg env s k = .ok s') :
    ∃ m s1 d base x e, env.msaOf k = some m ∧ Retired cfg s m s1 d base x e ∧
      s' = { s1 with events := s1.events ++ [.retired m d] } := by
  simp only [retire, bind_eq_ok_iff, okOr_eq_ok_iff, pure_eq_ok_iff] at h
  obtain ⟨m, hm, ⟨s1, d⟩, h1, rfl⟩ := h
  obtain ⟨base, x, e, hr⟩ := doRetire_ok h1
  exact ⟨m, s1, d, base, x, e, hm, hr, rfl⟩

theorem apply_eff (cfg : Config) (s : State) (x : Step) : Eff cfg s x (apply cfg s x) := by
  obtain ⟨env, op⟩ := x
  unfold apply
  cases hd : dispatch cfg s ⟨env, op⟩ with
  | error e => exact .fail _ e hd
  | ok s' =>
    show Eff cfg s ⟨env, op⟩ s'
    cases op with
    | claim k sig p =>
      simp only [dispatch, claim, verifyByteLength, verifyMortality, verifySigned, bind_eq_ok_iff,
        ensure_eq_ok_iff, okOr_eq_ok_iff, pure_eq_ok_iff] at hd
      obtain ⟨_, h1, m, hm, _, ⟨_, h2, h3⟩, _, h4, ⟨s1, d⟩, h5, rfl⟩ := hd
      obtain ⟨base, i, x, hc⟩ := doClaim_ok h5
      exact .claim h1 hm ⟨h3, h2⟩ h4 hc
    | change k sig p =>
      simp only [dispatch, change, verifyByteLength, verifyMortality, verifySigned, bind_eq_ok_iff,
        ensure_eq_ok_iff, okOr_eq_ok_iff, pure_eq_ok_iff] at hd
      obtain ⟨_, h1, m, hm, _, ⟨_, h2, h3⟩, _, h4, _, _, ⟨s1, d1⟩, hr, ⟨s2, d⟩, h5, rfl⟩ := hd
      obtain ⟨base, i, x, hc⟩ := doClaim_ok h5
      obtain ⟨base1, x1, e1, hr⟩ := doRetire_ok hr
      exact .change h1 hm ⟨h3, h2⟩ h4 hr hc
    | retire k =>
      simp only [dispatch, validateRetire, bind_eq_ok_iff, ensure_eq_ok_iff, okOr_eq_ok_iff] at hd
      obtain ⟨_, ⟨m, hm, ⟨d, e⟩, h1, h2⟩, h3⟩ := hd
      obtain ⟨m', s1, d', base, x, e', hm', hr, rfl⟩ := retire_ok h3
      rw [hm] at hm'
      cases hm'
      have := hr.stored
      rw [h1] at this
      cases this
      exact .retire hm hr h2
    | retireWrapped k =>
      obtain ⟨m', s1, d', base, x, e', hm', hr, rfl⟩ := retire_ok hd
      exact .retireWrapped hm' hr

/-! ## Suffix previews -/

theorem collect_skip (start count : Nat) (l : List Nat) (n : Nat) (h : n + l.length ≤ start) (acc : List Nat)
    (hc : acc.length < count) : collectSuffixes start count (enumFrom n l) acc = acc := by
  induction l generalizing n with
  | nil => rfl
  | cons x l ih =>
    simp only [List.length_cons] at h
    rw [enumFrom, collectSuffixes]
    have hn : ¬ (start ≤ n ∧ n < start + count) := by omega
    simp only [if_neg hn, if_neg (Nat.ne_of_lt hc)]
    exact ih (n + 1) (by omega)

theorem collect_eq (start count : Nat) (l : List Nat) (n : Nat) (acc : List Nat) (hc : acc.length < count)
    (hacc : acc.length = n - start) :
    collectSuffixes start count (enumFrom n l) acc =
      acc ++ (l.drop (start - n)).take (count - acc.length) := by
  induction l generalizing n acc with
  | nil => simp [enumFrom, collectSuffixes]
  | cons x l ih =>
    rw [enumFrom, collectSuffixes]
    by_cases hn : start ≤ n
    · have hin : start ≤ n ∧ n < start + count := by omega
      have h0 : start - n = 0 := by omega
      simp only [if_pos hin, h0, List.drop_zero]
      have hk : count - acc.length = (count - (acc.length + 1)) + 1 := by omega
      rw [hk, List.take_succ_cons]
      by_cases he : (acc ++ [x]).length = count
      · rw [if_pos he]
        have : count - (acc.length + 1) = 0 := by simp at he; omega
        rw [this]; simp
      · rw [if_neg he]
        have hl : (acc ++ [x]).length = acc.length + 1 := by simp
        rw [ih (n + 1) (acc ++ [x]) (by omega) (by omega)]
        have : start - (n + 1) = 0 := by omega
        rw [this, hl]
        simp
    · have hout : ¬ (start ≤ n ∧ n < start + count) := by omega
      simp only [if_neg hout, if_neg (Nat.ne_of_lt hc)]
      rw [ih (n + 1) acc hc (by omega)]
      have : start - n = (start - (n + 1)) + 1 := by omega
      rw [this, List.drop_succ_cons]

theorem collect_zero (start : Nat) (l : List Nat) (n : Nat) : collectSuffixes start 0 (enumFrom n l) [] = [] := by
  cases l with
  | nil => rfl
  | cons x l =>
    rw [enumFrom, collectSuffixes]
    have hn : ¬ (start ≤ n ∧ n < start + 0) := by omega
    simp [if_neg hn]

/-- The preview is the part of the sequence from the next index on. -/
theorem collect_full (start count : Nat) (l : List Nat) :
    collectSuffixes start count (enumFrom 0 l) [] = (l.drop start).take count := by
  by_cases h : count = 0
  · subst h; rw [collect_zero]; simp
  · rw [collect_eq start count l 0 [] (by simp; omega) (by simp)]
    simp

end Verif.Handles
