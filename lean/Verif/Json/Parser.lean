import Verif.Json.Lemmas
/-!
# The parser accepts exactly the grammar

Lemmas for C116: the reader of `Model.lean` accepts the texts of `Grammar.lean` and nothing else, and reads the values
that they denote.
-/

namespace Verif.Json

/-! ## White space -/

theorem isWs_iff (b : UInt8) : isWs b = true ↔ b = 32 ∨ b = 10 ∨ b = 9 ∨ b = 13 := by
  simp only [isWs, Bool.or_eq_true, beq_iff_eq]
  constructor
  · rintro (((h | h) | h) | h) <;> simp [h]
  · rintro (h | h | h | h) <;> simp [h]

theorem skipWs_white {w : Bytes} (hw : White w) (r : Bytes) : skipWs (w ++ r) = skipWs r := by
  induction w with
  | nil => rfl
  | cons b w ih =>
    rw [List.cons_append, skipWs, List.dropWhile_cons_of_pos ((isWs_iff b).mpr (hw b (by simp)))]
    exact ih (fun x hx => hw x (by simp [hx]))

theorem skipWs_spec (b : Bytes) : ∃ w, b = w ++ skipWs b ∧ White w := by
  refine ⟨b.takeWhile isWs, (List.takeWhile_append_dropWhile).symm, ?_⟩
  intro x hx
  have := List.all_takeWhile (l := b) (p := isWs)
  exact (isWs_iff x).mp (List.all_eq_true.mp this x hx)

theorem skipWs_cons {c : UInt8} (hc : isWs c = false) (r : Bytes) : skipWs (c :: r) = c :: r := by
  rw [skipWs, List.dropWhile_cons_of_neg (by simp [hc])]

theorem skipWs_idem (b : Bytes) : skipWs (skipWs b) = skipWs b := by
  obtain ⟨w, h, hw⟩ := skipWs_spec b
  conv_rhs => rw [h]
  rw [skipWs_white hw]

theorem White.nil : White [] := fun _ h => by cases h

theorem White.append {a b : Bytes} (ha : White a) (hb : White b) : White (a ++ b) := by
  intro x hx
  rcases List.mem_append.mp hx with h | h
  · exact ha x h
  · exact hb x h

theorem eat_iff (l b r : Bytes) : eat l b = some r ↔ b = l ++ r := by
  induction l generalizing b with
  | nil => simp [eat]
  | cons x l ih =>
    cases b with
    | nil => simp [eat]
    | cons y b =>
      rw [eat]
      split
      · rename_i h
        subst h
        rw [ih]
        simp
      · rename_i h
        simp only [reduceCtorEq, List.cons_append, List.cons.injEq, false_iff, not_and]
        exact fun h' => absurd h'.symm h

/-! ## Strings -/

theorem ofNat_toNat (b : UInt8) : UInt8.ofNat b.toNat = b := by simp

theorem hexVal_iff (b : UInt8) (n : Nat) : hexVal b = some n ↔ HexDigit b n := by
  constructor
  · intro h
    simp only [hexVal] at h
    have hb := ofNat_toNat b
    split at h
    · cases h
      have := HexDigit.digit (b.toNat - 48) (by omega)
      rwa [show 48 + (b.toNat - 48) = b.toNat by omega, hb] at this
    split at h
    · cases h
      have := HexDigit.capital (b.toNat - 55) (by omega) (by omega)
      rwa [show 55 + (b.toNat - 55) = b.toNat by omega, hb] at this
    split at h
    · cases h
      have := HexDigit.small (b.toNat - 87) (by omega) (by omega)
      rwa [show 87 + (b.toNat - 87) = b.toNat by omega, hb] at this
    · cases h
  · intro h
    cases h with
    | digit n h =>
      have : (UInt8.ofNat (48 + n)).toNat = 48 + n := by rw [UInt8.toNat_ofNat']; omega
      simp only [hexVal, this]
      rw [if_pos (by omega)]
      congr 1; omega
    | capital n h1 h2 =>
      have : (UInt8.ofNat (55 + n)).toNat = 55 + n := by rw [UInt8.toNat_ofNat']; omega
      simp only [hexVal, this]
      rw [if_neg (by omega), if_pos (by omega)]
      congr 1; omega
    | small n h1 h2 =>
      have : (UInt8.ofNat (87 + n)).toNat = 87 + n := by rw [UInt8.toNat_ofNat']; omega
      simp only [hexVal, this]
      rw [if_neg (by omega), if_neg (by omega), if_pos (by omega)]
      congr 1; omega

theorem hex4_iff (b : Bytes) (n : Nat) (r : Bytes) : hex4 b = some (n, r) ↔ ∃ t, Hex4 t n ∧ b = t ++ r := by
  constructor
  · intro h
    match b, h with
    | a :: b :: c :: d :: r', h =>
      simp only [hex4, Option.bind_eq_bind, Option.bind_eq_some_iff, Option.some.injEq, Prod.mk.injEq] at h
      obtain ⟨i, h1, j, h2, k, h3, l, h4, h5, rfl⟩ := h
      exact ⟨[a, b, c, d], ⟨a, b, c, d, i, j, k, l, rfl, (hexVal_iff _ _).mp h1, (hexVal_iff _ _).mp h2,
        (hexVal_iff _ _).mp h3, (hexVal_iff _ _).mp h4, h5.symm⟩, rfl⟩
    | [], h => cases h
    | [_], h => cases h
    | [_, _], h => cases h
    | [_, _, _], h => cases h
  · rintro ⟨t, ⟨a, b, c, d, i, j, k, l, rfl, h1, h2, h3, h4, rfl⟩, rfl⟩
    simp [hex4, (hexVal_iff _ _).mpr h1, (hexVal_iff _ _).mpr h2, (hexVal_iff _ _).mpr h3, (hexVal_iff _ _).mpr h4]

theorem Hex4.length {t : Bytes} {n : Nat} (h : Hex4 t n) : t.length = 4 := by
  obtain ⟨a, b, c, d, i, j, k, l, rfl, -⟩ := h
  rfl

/-- An escape after its backslash: its text and what it stands for. -/
inductive EscText : Bytes → Bytes → Prop where
  | short {e c : UInt8} : (e, c) ∈ shortEscapes → EscText [e] [c]
  | code {h : Bytes} {n : Nat} : Hex4 h n → ¬ (0xD800 ≤ n ∧ n ≤ 0xDFFF) →
      EscText (117 :: h) (String.utf8EncodeChar (Char.ofNat n))
  | pair {h g : Bytes} {n m : Nat} : Hex4 h (0xD800 + n) → n < 1024 → Hex4 g (0xDC00 + m) → m < 1024 →
      EscText (117 :: (h ++ 92 :: 117 :: g)) (String.utf8EncodeChar (Char.ofNat (0x10000 + n * 1024 + m)))

theorem StrText.esc {t s u v : Bytes} (h : EscText u v) (ht : StrText t s) : StrText (92 :: (u ++ t)) (v ++ s) := by
  cases h with
  | short h => exact .short h ht
  | code h1 h2 => exact .code h1 h2 ht
  | pair h1 h2 h3 h4 =>
    have := StrText.pair h1 h2 h3 h4 ht
    simpa using this

theorem unicode_sound {b u r : Bytes} (h : unicode b = some (u, r)) : ∃ t, b = t ++ r ∧ EscText (117 :: t) u := by
  simp only [unicode, Option.bind_eq_bind, Option.bind_eq_some_iff] at h
  obtain ⟨⟨n, r1⟩, h1, h⟩ := h
  obtain ⟨t1, g1, rfl⟩ := (hex4_iff _ _ _).mp h1
  dsimp only at h
  split at h
  · cases h
  · split at h
    · rename_i hn1 hn2
      rw [Option.bind_eq_some_iff] at h
      obtain ⟨r2, h2, h⟩ := h
      rw [Option.bind_eq_some_iff] at h
      obtain ⟨⟨m, r3⟩, h3, h⟩ := h
      dsimp only at h
      split at h
      · rename_i hm
        obtain ⟨t2, g2, rfl⟩ := (hex4_iff _ _ _).mp h3
        rw [eat_iff] at h2
        obtain ⟨n', rfl⟩ : ∃ n', n = 0xD800 + n' := ⟨n - 0xD800, by omega⟩
        obtain ⟨m', rfl⟩ : ∃ m', m = 0xDC00 + m' := ⟨m - 0xDC00, by omega⟩
        have hs : surrogate (0xD800 + n') (0xDC00 + m') = Char.ofNat (0x10000 + n' * 1024 + m') :=
          congrArg Char.ofNat (by omega)
        rw [hs] at h
        have hp := EscText.pair g1 (by omega) g2 (by omega)
        generalize String.utf8EncodeChar (Char.ofNat (0x10000 + n' * 1024 + m')) = e at h hp
        cases h
        refine ⟨t1 ++ 92 :: 117 :: t2, ?_, hp⟩
        rw [h2]
        simp only [List.append_assoc, List.cons_append, List.nil_append, show ch '\\' = 92 from rfl,
          show ch 'u' = 117 from rfl]
      · cases h
    · rename_i hn1 hn2
      have hc := EscText.code g1 (by omega)
      generalize String.utf8EncodeChar (Char.ofNat n) = e at h hc
      cases h
      exact ⟨t1, rfl, hc⟩

theorem unicode_complete {t u : Bytes} (h : EscText (117 :: t) u) (r : Bytes) : unicode (t ++ r) = some (u, r) := by
  generalize hx : (117 : UInt8) :: t = x at h
  cases h with
  | short h =>
    exfalso
    simp only [List.cons.injEq] at hx
    obtain ⟨rfl, rfl⟩ := hx
    simp [shortEscapes] at h
  | @code h n h1 h2 =>
    cases hx
    simp only [unicode, (hex4_iff (t ++ r) n r).mpr ⟨t, h1, rfl⟩, Option.bind_eq_bind, Option.bind_some]
    rw [if_neg (by omega), if_neg (by omega)]
  | @pair h g n m h1 h2 h3 h4 =>
    cases hx
    have e1 := (hex4_iff ((h ++ 92 :: 117 :: g) ++ r) (0xD800 + n) (92 :: 117 :: (g ++ r))).mpr ⟨h, h1, by simp⟩
    have e2 := (hex4_iff (g ++ r) (0xDC00 + m) r).mpr ⟨g, h3, rfl⟩
    have e3 : eat [ch '\\', ch 'u'] (92 :: 117 :: (g ++ r)) = some (g ++ r) := (eat_iff _ _ _).mpr rfl
    simp only [unicode, e1, e2, e3, Option.bind_eq_bind, Option.bind_some]
    rw [if_neg (by omega), if_pos (by omega), if_pos (by omega)]
    have hs : surrogate (0xD800 + n) (0xDC00 + m) = Char.ofNat (0x10000 + n * 1024 + m) :=
      congrArg Char.ofNat (by omega)
    simp only [hs]

theorem escape_sound {b u r : Bytes} (h : escape b = some (u, r)) : ∃ t, b = t ++ r ∧ EscText t u := by
  cases b with
  | nil => cases h
  | cons c b =>
    simp only [escape] at h
    split at h
    · rename_i hc
      cases h
      exact ⟨[c], rfl, .short (by rcases hc with rfl | rfl | rfl <;> decide)⟩
    split at h
    · rename_i hc; subst hc; cases h; exact ⟨_, rfl, .short (by decide)⟩
    split at h
    · rename_i hc; subst hc; cases h; exact ⟨_, rfl, .short (by decide)⟩
    split at h
    · rename_i hc; subst hc; cases h; exact ⟨_, rfl, .short (by decide)⟩
    split at h
    · rename_i hc; subst hc; cases h; exact ⟨_, rfl, .short (by decide)⟩
    split at h
    · rename_i hc; subst hc; cases h; exact ⟨_, rfl, .short (by decide)⟩
    split at h
    · rename_i hc
      subst hc
      obtain ⟨t, rfl, ht⟩ := unicode_sound h
      exact ⟨117 :: t, rfl, ht⟩
    · cases h

theorem escape_u (b : Bytes) : escape (117 :: b) = unicode b := rfl

theorem escape_complete {t u : Bytes} (h : EscText t u) (r : Bytes) : escape (t ++ r) = some (u, r) := by
  have h' := h
  cases h with
  | short h =>
    simp only [shortEscapes, List.mem_cons, Prod.mk.injEq, List.not_mem_nil, or_false] at h
    rcases h with ⟨rfl, rfl⟩ | ⟨rfl, rfl⟩ | ⟨rfl, rfl⟩ | ⟨rfl, rfl⟩ | ⟨rfl, rfl⟩ | ⟨rfl, rfl⟩ | ⟨rfl, rfl⟩ | ⟨rfl, rfl⟩ <;>
      rfl
  | code h1 h2 =>
    exact (escape_u _).trans (unicode_complete h' r)
  | pair h1 h2 h3 h4 =>
    exact (escape_u _).trans (unicode_complete h' r)

theorem strBody_sound : ∀ (n : Nat) (b s r : Bytes), strBody n b = some (s, r) →
    ∃ t, b = t ++ 34 :: r ∧ StrText t s
  | 0, _, _, _, h => by simp [strBody] at h
  | _ + 1, [], _, _, h => by simp [strBody] at h
  | n + 1, c :: b, s, r, h => by
    rw [strBody] at h
    split at h
    · rename_i hc
      subst hc
      cases h
      exact ⟨[], rfl, .nil⟩
    · rename_i hq
      split at h
      · rename_i hc
        subst hc
        simp only [Option.bind_eq_bind, Option.bind_eq_some_iff, Option.some.injEq, Prod.mk.injEq] at h
        obtain ⟨⟨u, r1⟩, h1, ⟨s', r2⟩, h2, rfl, rfl⟩ := h
        obtain ⟨t1, rfl, g1⟩ := escape_sound h1
        dsimp only at h2
        obtain ⟨t2, rfl, g2⟩ := strBody_sound n _ _ _ h2
        exact ⟨92 :: (t1 ++ t2), by simp [show ch '\\' = 92 from rfl], g2.esc g1⟩
      · rename_i hb
        split at h
        · cases h
        · rename_i hl
          simp only [Option.bind_eq_bind, Option.bind_eq_some_iff, Option.some.injEq, Prod.mk.injEq] at h
          obtain ⟨⟨s', r2⟩, h2, rfl, rfl⟩ := h
          obtain ⟨t2, rfl, g2⟩ := strBody_sound n _ _ _ h2
          exact ⟨c :: t2, rfl, .plain (by omega) hq hb g2⟩

theorem strBody_esc {n : Nat} {t u : Bytes} (h : EscText t u) (b : Bytes) :
    strBody (n + 1) (92 :: (t ++ b)) = (strBody n b).map (fun p => (u ++ p.1, p.2)) := by
  rw [strBody, if_neg (by decide), if_pos (show (92 : UInt8) = ch '\\' from rfl), escape_complete h b]
  simp only [Option.bind_eq_bind, Option.bind_some]
  cases strBody n b <;> rfl

theorem strBody_complete {t s : Bytes} (h : StrText t s) : ∀ (n : Nat) (r : Bytes), t.length < n →
    strBody n (t ++ 34 :: r) = some (s, r) := by
  induction h with
  | nil =>
    intro n r hn
    cases n with
    | zero => omega
    | succ n => rfl
  | @plain b t s h1 h2 h3 _ ih =>
    intro n r hn
    cases n with
    | zero => omega
    | succ n =>
      rw [List.length_cons] at hn
      rw [List.cons_append, strBody, if_neg (show ¬ b = ch '"' from h2), if_neg (show ¬ b = ch '\\' from h3), if_neg (by omega), ih n r (by omega)]
      rfl
  | @short e c t s h1 _ ih =>
    intro n r hn
    cases n with
    | zero => omega
    | succ n =>
      simp only [List.length_cons] at hn
      have := strBody_esc (n := n) (.short h1) (t ++ 34 :: r)
      rw [ih n r (by omega)] at this
      exact this
  | @code h' m t s h1 h2 _ ih =>
    intro n r hn
    cases n with
    | zero => omega
    | succ n =>
      simp only [List.length_cons, List.length_append] at hn
      have := strBody_esc (n := n) (.code h1 h2) (t ++ 34 :: r)
      rw [ih n r (by omega)] at this
      rw [Option.map_some] at this
      rw [← this]
      simp only [List.cons_append, List.append_assoc]
  | @pair h' g a m t s h1 h2 h3 h4 _ ih =>
    intro n r hn
    cases n with
    | zero => omega
    | succ n =>
      simp only [List.length_cons, List.length_append] at hn
      have := strBody_esc (n := n) (.pair h1 h2 h3 h4) (t ++ 34 :: r)
      rw [ih n r (by omega)] at this
      rw [Option.map_some] at this
      rw [← this]
      simp only [List.cons_append, List.append_assoc]

theorem parseStr_sound {b s r : Bytes} (h : parseStr b = some (s, r)) :
    ∃ t u, b = t ++ 34 :: r ∧ s = utf8Encode u ∧ StrText t (utf8Encode u) := by
  simp only [parseStr, Option.bind_eq_bind, Option.bind_eq_some_iff] at h
  obtain ⟨⟨s', r'⟩, h1, h⟩ := h
  dsimp only at h
  split at h
  · rename_i hs
    cases h
    obtain ⟨t, ht, hu⟩ := strBody_sound _ _ _ _ h1
    obtain ⟨u, rfl⟩ := (utf8_iff s).mpr hs
    exact ⟨t, u, ht, rfl, hu⟩
  · cases h

theorem parseStr_complete {t : Bytes} {u : Str} (h : StrText t (utf8Encode u)) (r : Bytes) :
    parseStr (t ++ 34 :: r) = some (utf8Encode u, r) := by
  simp only [parseStr]
  rw [strBody_complete h _ r (by simp; omega)]
  simp [utf8Decode_encode]

/-! ## Numbers -/

theorem isDigit_iff (b : UInt8) : isDigit b = true ↔ 48 ≤ b.toNat ∧ b.toNat ≤ 57 := by simp [isDigit]

/-- No more of a number follows. -/
def Delim (r : Bytes) : Prop := ∀ c ∈ r.head?, isDigit c = false ∧ c ≠ 46 ∧ c ≠ 101 ∧ c ≠ 69

theorem dropDigits_complete {t : Bytes} (h : Digits t) {r : Bytes} (hr : ∀ c ∈ r.head?, isDigit c = false) :
    (t ++ r).dropWhile isDigit = r := by
  induction t with
  | nil =>
    cases r with
    | nil => rfl
    | cons c r => exact List.dropWhile_cons_of_neg (by simp [hr c (by simp)])
  | cons b t ih =>
    rw [List.cons_append, List.dropWhile_cons_of_pos ((isDigit_iff b).mpr (h b (by simp)))]
    exact ih (fun x hx => h x (by simp [hx]))

theorem dropDigits_sound (b : Bytes) : ∃ t, b = t ++ b.dropWhile isDigit ∧ Digits t := by
  refine ⟨b.takeWhile isDigit, (List.takeWhile_append_dropWhile).symm, ?_⟩
  intro x hx
  have := List.all_takeWhile (l := b) (p := isDigit)
  exact (isDigit_iff x).mp (List.all_eq_true.mp this x hx)

theorem digits1_sound {b r : Bytes} (h : digits1 b = some r) : ∃ t, b = t ++ r ∧ Digits1 t := by
  cases b with
  | nil => cases h
  | cons c b =>
    simp only [digits1] at h
    split at h
    · rename_i hc
      cases h
      obtain ⟨t, ht, hd⟩ := dropDigits_sound b
      refine ⟨c :: t, by rw [List.cons_append, ← ht], by simp, ?_⟩
      intro x hx
      rcases List.mem_cons.mp hx with rfl | hx
      · exact (isDigit_iff _).mp hc
      · exact hd x hx
    · cases h

theorem digits1_complete {t : Bytes} (h : Digits1 t) {r : Bytes} (hr : ∀ c ∈ r.head?, isDigit c = false) :
    digits1 (t ++ r) = some r := by
  obtain ⟨h0, h⟩ := h
  cases t with
  | nil => exact absurd rfl h0
  | cons c t =>
    rw [List.cons_append, digits1, if_pos ((isDigit_iff c).mpr (h c (by simp)))]
    rw [dropDigits_complete (fun x hx => h x (by simp [hx])) hr]

theorem intPart_sound {b r : Bytes} (h : intPart b = some r) : ∃ t, b = t ++ r ∧ IntText t := by
  cases b with
  | nil => cases h
  | cons c b =>
    simp only [intPart] at h
    split at h
    · rename_i hc
      subst hc
      have : b = r := by
        split at h
        · split at h
          · cases h
          · cases h; rfl
        · cases h; rfl
      exact ⟨[48], by rw [this]; rfl, .inl rfl⟩
    · rename_i hz
      split at h
      · rename_i hc
        cases h
        obtain ⟨t, ht, hd⟩ := dropDigits_sound b
        refine ⟨c :: t, by rw [List.cons_append, ← ht], .inr ⟨⟨by simp, ?_⟩, ?_⟩⟩
        · intro x hx
          rcases List.mem_cons.mp hx with rfl | hx
          · exact (isDigit_iff _).mp hc
          · exact hd x hx
        · simp only [List.head?_cons, ne_eq, Option.some.injEq]
          exact hz
      · cases h

theorem intPart_complete {t : Bytes} (h : IntText t) {r : Bytes} (hr : ∀ c ∈ r.head?, isDigit c = false) :
    intPart (t ++ r) = some r := by
  rcases h with rfl | ⟨⟨h0, h⟩, hz⟩
  · have h48 : (48 : UInt8) = ch '0' := rfl
    cases r with
    | nil => rfl
    | cons d r =>
      simp only [List.cons_append, List.nil_append, intPart]
      rw [if_pos h48, if_neg (by simp [hr d (by simp)])]
  · cases t with
    | nil => exact absurd rfl h0
    | cons c t =>
      simp only [List.head?_cons, ne_eq, Option.some.injEq] at hz
      simp only [List.cons_append, intPart]
      rw [if_neg (show ¬ c = ch '0' from hz), if_pos ((isDigit_iff c).mpr (h c (by simp)))]
      rw [dropDigits_complete (fun x hx => h x (by simp [hx])) hr]

theorem fracPart_sound {b r : Bytes} (h : fracPart b = some r) : ∃ t, b = t ++ r ∧ FracText t := by
  cases b with
  | nil => cases h; exact ⟨[], rfl, .inl rfl⟩
  | cons c b =>
    simp only [fracPart] at h
    split at h
    · rename_i hc
      obtain ⟨t, rfl, ht⟩ := digits1_sound h
      exact ⟨46 :: t, by rw [hc]; rfl, .inr ⟨t, rfl, ht⟩⟩
    · cases h; exact ⟨[], rfl, .inl rfl⟩

theorem fracPart_complete {t : Bytes} (h : FracText t) {r : Bytes} (hr : ∀ c ∈ r.head?, isDigit c = false ∧ c ≠ 46) :
    fracPart (t ++ r) = some r := by
  rcases h with rfl | ⟨u, rfl, hu⟩
  · cases r with
    | nil => rfl
    | cons c r =>
      rw [List.nil_append, fracPart, if_neg (show ¬ c = ch '.' from (hr c (by simp)).2)]
  · rw [List.cons_append, fracPart, if_pos (show (46 : UInt8) = ch '.' from rfl)]
    exact digits1_complete hu (fun c hc => (hr c hc).1)

theorem expPart_sound {b r : Bytes} (h : expPart b = some r) : ∃ t, b = t ++ r ∧ ExpText t := by
  cases b with
  | nil => cases h; exact ⟨[], rfl, .inl rfl⟩
  | cons c b =>
    simp only [expPart] at h
    split at h
    · rename_i hc
      have hc' : c = 101 ∨ c = 69 := hc
      split at h
      · rename_i s r'
        split at h
        · rename_i hs
          obtain ⟨t, rfl, ht⟩ := digits1_sound h
          refine ⟨c :: s :: t, rfl, .inr ⟨c, [s], t, rfl, hc', .inr ?_, ht⟩⟩
          rcases hs with hs | hs
          · exact .inl (by rw [hs]; rfl)
          · exact .inr (by rw [hs]; rfl)
        · obtain ⟨t, ht, hd⟩ := digits1_sound h
          exact ⟨c :: t, by rw [ht]; rfl, .inr ⟨c, [], t, rfl, hc', .inl rfl, hd⟩⟩
      · cases h
    · cases h; exact ⟨[], rfl, .inl rfl⟩

theorem expPart_complete {t : Bytes} (h : ExpText t) {r : Bytes}
    (hr : ∀ c ∈ r.head?, isDigit c = false ∧ c ≠ 101 ∧ c ≠ 69) : expPart (t ++ r) = some r := by
  rcases h with rfl | ⟨e, g, u, rfl, he, hg, hu⟩
  · cases r with
    | nil => rfl
    | cons c r =>
      have := hr c (by simp)
      rw [List.nil_append]
      unfold expPart
      dsimp only
      rw [if_neg (show ¬ (c = ch 'e' ∨ c = ch 'E') from fun h => h.elim this.2.1 this.2.2)]
  · have hd : digits1 (u ++ r) = some r := digits1_complete hu (fun c hc => (hr c hc).1)
    rw [List.cons_append]
    unfold expPart
    dsimp only
    rw [if_pos (show e = ch 'e' ∨ e = ch 'E' from he)]
    rcases hg with rfl | rfl | rfl
    · obtain ⟨h0, h1⟩ := hu
      cases u with
      | nil => exact absurd rfl h0
      | cons s u =>
        have hs := h1 s (by simp)
        simp only [List.nil_append, List.cons_append] at hd ⊢
        rw [if_neg]
        · exact hd
        · rintro (rfl | rfl) <;> revert hs <;> decide
    · simp only [List.cons_append, List.nil_append]
      rw [if_pos (show (43 : UInt8) = ch '+' ∨ _ from .inl rfl)]
      exact hd
    · simp only [List.cons_append, List.nil_append]
      rw [if_pos (show (45 : UInt8) = ch '+' ∨ (45 : UInt8) = ch '-' from .inr rfl)]
      exact hd

theorem numEnd_sound {b r : Bytes} (h : numEnd b = some r) : ∃ t, b = t ++ r ∧ NumText t := by
  simp only [numEnd, Option.bind_eq_bind, Option.bind_eq_some_iff] at h
  obtain ⟨r1, h1, r2, h2, h3⟩ := h
  obtain ⟨i, g1, hi⟩ := intPart_sound h1
  obtain ⟨f, rfl, hf⟩ := fracPart_sound h2
  obtain ⟨e, rfl, he⟩ := expPart_sound h3
  have hs : ∃ g, b = g ++ afterSign b ∧ (g = [] ∨ g = [45]) := by
    cases b with
    | nil => exact ⟨[], rfl, .inl rfl⟩
    | cons c b =>
      simp only [afterSign]
      split
      · rename_i hc
        exact ⟨[45], by rw [hc]; rfl, .inr rfl⟩
      · exact ⟨[], rfl, .inl rfl⟩
  obtain ⟨g, hb, hg⟩ := hs
  refine ⟨g ++ (i ++ (f ++ e)), ?_, g, i, f, e, rfl, hg, hi, hf, he⟩
  rw [hb, g1]
  simp

theorem IntText.cons {t : Bytes} (h : IntText t) : ∃ c u, t = c :: u ∧ 48 ≤ c.toNat ∧ c.toNat ≤ 57 := by
  rcases h with rfl | ⟨⟨h0, h⟩, -⟩
  · exact ⟨48, [], rfl, by decide, by decide⟩
  · cases t with
    | nil => exact absurd rfl h0
    | cons c t => exact ⟨c, t, rfl, h c (by simp)⟩

theorem numEnd_complete {t : Bytes} (h : NumText t) {r : Bytes} (hr : Delim r) : numEnd (t ++ r) = some r := by
  obtain ⟨g, i, f, e, rfl, hg, hi, hf, he⟩ := h
  have h3 : expPart (e ++ r) = some r := expPart_complete he (fun c hc => ⟨(hr c hc).1, (hr c hc).2.2⟩)
  have hr2 : ∀ c ∈ (e ++ r).head?, isDigit c = false ∧ c ≠ 46 := by
    rcases he with rfl | ⟨x, y, u, rfl, hx, -, -⟩
    · exact fun c hc => ⟨(hr c hc).1, (hr c hc).2.1⟩
    · intro c hc
      simp only [List.cons_append, List.head?_cons, Option.mem_def, Option.some.injEq] at hc
      subst hc
      rcases hx with rfl | rfl <;> decide
  have h2 : fracPart (f ++ (e ++ r)) = some (e ++ r) := fracPart_complete hf hr2
  have hr1 : ∀ c ∈ (f ++ (e ++ r)).head?, isDigit c = false := by
    rcases hf with rfl | ⟨u, rfl, -⟩
    · exact fun c hc => (hr2 c hc).1
    · intro c hc
      simp only [List.cons_append, List.head?_cons, Option.mem_def, Option.some.injEq] at hc
      subst hc
      decide
  have h1 : intPart (i ++ (f ++ (e ++ r))) = some (f ++ (e ++ r)) := intPart_complete hi hr1
  have h0 : afterSign (g ++ (i ++ (f ++ (e ++ r)))) = i ++ (f ++ (e ++ r)) := by
    rcases hg with rfl | rfl
    · obtain ⟨c, u, rfl, hc1, hc2⟩ := hi.cons
      rw [List.nil_append, List.cons_append, afterSign, if_neg]
      intro hc
      rw [hc] at hc1
      revert hc1
      decide
    · rfl
  have : (g ++ (i ++ (f ++ e))) ++ r = g ++ (i ++ (f ++ (e ++ r))) := by simp
  rw [this, numEnd, h0, h1]
  simp only [Option.bind_eq_bind, Option.bind_some, h2, h3]

theorem number_sound {b t r : Bytes} (h : number b = some (t, r)) : b = t ++ r ∧ NumText t := by
  simp only [number, Option.map_eq_some_iff, Prod.mk.injEq] at h
  obtain ⟨r', h1, h2, rfl⟩ := h
  obtain ⟨u, rfl, hu⟩ := numEnd_sound h1
  have : t = u := by rw [← h2]; simp
  subst this
  exact ⟨rfl, hu⟩

theorem number_complete {t : Bytes} (h : NumText t) {r : Bytes} (hr : Delim r) : number (t ++ r) = some (t, r) := by
  rw [number, numEnd_complete h hr]
  simp

end Verif.Json
