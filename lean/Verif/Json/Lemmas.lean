import Verif.Json.Model
/-!
# What accepted JSON looks like

Lemmas: a text whose strings are all checked is UTF-8.
-/

namespace Verif.Json

/-- Valid UTF-8. -/
def Utf8 (b : Bytes) : Prop := ∃ s : Str, utf8Encode s = b

theorem utf8_iff (b : Bytes) : Utf8 b ↔ (utf8Decode b).isSome = true := by
  constructor
  · rintro ⟨s, rfl⟩
    rw [utf8Decode_encode]
    rfl
  · intro h
    obtain ⟨s, hs⟩ := Option.isSome_iff_exists.mp h
    exact ⟨s, utf8Encode_decode hs⟩

theorem utf8_nil : Utf8 [] := ⟨[], rfl⟩

theorem Utf8.append {a b : Bytes} (ha : Utf8 a) (hb : Utf8 b) : Utf8 (a ++ b) := by
  obtain ⟨s, rfl⟩ := ha
  obtain ⟨t, rfl⟩ := hb
  exact ⟨s ++ t, utf8Encode_append s t⟩

theorem utf8_char (c : Char) : Utf8 (String.utf8EncodeChar c) := ⟨[c], by simp [utf8Encode]⟩

theorem utf8_byte {b : UInt8} (h : b.toNat < 128) : Utf8 [b] := by
  refine ⟨[Char.ofNat b.toNat], ?_⟩
  have hv : (Char.ofNat b.toNat).val.toNat = b.toNat := by
    rw [Char.ofNat, dif_pos (show b.toNat.isValidChar from Or.inl (by omega))]
    rfl
  simp only [utf8Encode, List.flatMap_cons, List.flatMap_nil, List.append_nil, String.utf8EncodeChar, hv]
  rw [if_pos (show b.toNat ≤ 0x7f by omega)]
  simp

theorem utf8_ascii {l : Bytes} (h : ∀ b ∈ l, b.toNat < 128) : Utf8 l := by
  induction l with
  | nil => exact utf8_nil
  | cons b l ih =>
    exact (utf8_byte (h b (by simp))).append (ih (fun x hx => h x (by simp [hx])))

theorem encodeChar_cons (c : Char) : ∃ b l, String.utf8EncodeChar c = b :: l ∧ b.IsUTF8FirstByte := by
  cases h : String.utf8EncodeChar c with
  | nil => exact absurd h String.utf8EncodeChar_ne_nil
  | cons b l =>
    refine ⟨b, l, rfl, ?_⟩
    have h2 : 0 < (String.utf8EncodeChar c).length := by rw [h]; simp
    have := (UInt8.isUTF8FirstByte_getElem_utf8EncodeChar (c := c) (i := 0) (hi := h2)).mpr rfl
    simpa [h] using this

/-- Texts are divided before the first byte of a character only. -/
theorem Utf8.split : ∀ (u : Str) (a : Bytes) (e : UInt8) (r : Bytes), e.IsUTF8FirstByte →
    utf8Encode u = a ++ e :: r → Utf8 a ∧ Utf8 (e :: r)
  | [], a, e, r, _, h => by cases a <;> cases h
  | c :: u, a, e, r, he, h => by
    rw [utf8Encode_cons] at h
    by_cases hl : (String.utf8EncodeChar c).length ≤ a.length
    · obtain ⟨a', rfl⟩ : ∃ a', a = String.utf8EncodeChar c ++ a' := by
        refine ⟨a.drop (String.utf8EncodeChar c).length, ?_⟩
        have := congrArg (List.take (String.utf8EncodeChar c).length) h
        rw [List.take_left, List.take_append_of_le_length hl] at this
        conv_lhs => rw [← List.take_append_drop (String.utf8EncodeChar c).length a, ← this]
      rw [List.append_assoc, List.append_cancel_left_eq] at h
      obtain ⟨h1, h2⟩ := Utf8.split u a' e r he h
      exact ⟨(utf8_char c).append h1, h2⟩
    · cases a with
      | nil => exact ⟨utf8_nil, ⟨c :: u, h⟩⟩
      | cons x a =>
        exfalso
        have hlt : (x :: a).length < (String.utf8EncodeChar c).length := by omega
        have hg : (String.utf8EncodeChar c)[(x :: a).length]'hlt = e := by
          have h1 : (String.utf8EncodeChar c ++ utf8Encode u)[(x :: a).length]? = some e := by
            rw [h, List.getElem?_append_right (Nat.le_refl _)]
            simp
          rw [List.getElem?_append_left hlt, List.getElem?_eq_getElem hlt] at h1
          exact Option.some.inj h1
        have := (UInt8.isUTF8FirstByte_getElem_utf8EncodeChar (c := c) (i := (x :: a).length) (hi := hlt)).mp
          (by rw [hg]; exact he)
        simp at this

/-- A character in front does not matter. -/
theorem Utf8.tail {c : Char} {r : Bytes} (h : Utf8 (String.utf8EncodeChar c ++ r)) : Utf8 r := by
  obtain ⟨u, hu⟩ := h
  cases u with
  | nil =>
    obtain ⟨b, l, hb, _⟩ := encodeChar_cons c
    rw [hb] at hu
    cases hu
  | cons c' u =>
    rw [utf8Encode_cons] at hu
    have h1 := ByteArray.utf8DecodeChar?_utf8EncodeChar_append (b := (utf8Encode u).toByteArray) (c := c')
    have h2 := ByteArray.utf8DecodeChar?_utf8EncodeChar_append (b := r.toByteArray) (c := c)
    rw [← List.toByteArray_append] at h1 h2
    rw [hu, h2] at h1
    cases Option.some.inj h1
    exact ⟨u, List.append_cancel_left hu⟩

/-- `b` is a text in UTF-8 followed by `r`. -/
def Reads (b r : Bytes) : Prop := ∃ t, b = t ++ r ∧ Utf8 t

theorem Reads.refl (b : Bytes) : Reads b b := ⟨[], rfl, utf8_nil⟩

theorem Reads.trans {a b c : Bytes} (h : Reads a b) (g : Reads b c) : Reads a c := by
  obtain ⟨t, rfl, ht⟩ := h
  obtain ⟨u, rfl, hu⟩ := g
  exact ⟨t ++ u, by simp, ht.append hu⟩

theorem Reads.byte {b : UInt8} (h : b.toNat < 128) (r : Bytes) : Reads (b :: r) r := ⟨[b], rfl, utf8_byte h⟩

theorem ch_lt {c : Char} (h : c.toNat < 128) : (ch c).toNat < 128 := by
  simp only [ch]
  rw [Nat.toUInt8, UInt8.toNat_ofNat']
  omega

theorem Reads.ch {b : UInt8} (c : Char) (hc : c.toNat < 128) (h : b = Json.ch c) (r : Bytes) : Reads (b :: r) r :=
  .byte (by rw [h]; exact ch_lt hc) r

theorem reads_skip (p : UInt8 → Bool) (hp : ∀ b, p b = true → b.toNat < 128) (b : Bytes) :
    Reads b (b.dropWhile p) := by
  induction b with
  | nil => exact .refl _
  | cons x b ih =>
    rw [List.dropWhile_cons]
    split
    · rename_i h
      exact (Reads.byte (hp x h) b).trans ih
    · exact .refl _

theorem reads_ws (b : Bytes) : Reads b (skipWs b) := by
  refine reads_skip isWs ?_ b
  intro b h
  simp only [isWs, Bool.or_eq_true, beq_iff_eq] at h
  rcases h with ((rfl | rfl) | rfl) | rfl <;> decide

theorem isDigit_lt {b : UInt8} (h : isDigit b = true) : b.toNat < 128 := by
  simp only [isDigit, Bool.and_eq_true, decide_eq_true_eq] at h
  omega

theorem reads_digits (b : Bytes) : Reads b (b.dropWhile isDigit) := reads_skip isDigit (fun _ h => isDigit_lt h) b

theorem reads_eat : ∀ (l b r : Bytes), (∀ x ∈ l, x.toNat < 128) → eat l b = some r → Reads b r
  | [], b, r, _, h => by cases h; exact .refl _
  | _ :: _, [], _, _, h => by cases h
  | x :: l, y :: b, r, hl, h => by
    rw [eat] at h
    split at h
    · rename_i hxy
      subst hxy
      exact (Reads.byte (hl x (by simp)) b).trans (reads_eat l b r (fun z hz => hl z (by simp [hz])) h)
    · cases h

theorem reads_digits1 {b r : Bytes} (h : digits1 b = some r) : Reads b r := by
  cases b with
  | nil => cases h
  | cons c b =>
    simp only [digits1] at h
    split at h
    · rename_i hc
      cases h
      exact (Reads.byte (isDigit_lt hc) b).trans (reads_digits b)
    · cases h

theorem reads_intPart {b r : Bytes} (h : intPart b = some r) : Reads b r := by
  cases b with
  | nil => cases h
  | cons c b =>
    simp only [intPart] at h
    split at h
    · rename_i hc
      have : Reads (c :: b) b := .ch '0' (by decide) hc b
      split at h
      · split at h
        · cases h
        · cases h; exact this
      · cases h; exact this
    · split at h
      · rename_i hc
        cases h
        exact (Reads.byte (isDigit_lt hc) b).trans (reads_digits b)
      · cases h

theorem reads_fracPart {b r : Bytes} (h : fracPart b = some r) : Reads b r := by
  cases b with
  | nil => cases h; exact .refl _
  | cons c b =>
    simp only [fracPart] at h
    split at h
    · rename_i hc
      exact (Reads.ch '.' (by decide) hc b).trans (reads_digits1 h)
    · cases h; exact .refl _

theorem reads_expPart {b r : Bytes} (h : expPart b = some r) : Reads b r := by
  cases b with
  | nil => cases h; exact .refl _
  | cons c b =>
    simp only [expPart] at h
    split at h
    · rename_i hc
      have h1 : Reads (c :: b) b := by
        rcases hc with hc | hc
        · exact .ch 'e' (by decide) hc b
        · exact .ch 'E' (by decide) hc b
      split at h
      · rename_i s r'
        split at h
        · rename_i hs
          have h2 : Reads (s :: r') r' := by
            rcases hs with hs | hs
            · exact .ch '+' (by decide) hs r'
            · exact .ch '-' (by decide) hs r'
          exact h1.trans (h2.trans (reads_digits1 h))
        · exact h1.trans (reads_digits1 h)
      · cases h
    · cases h; exact .refl _

theorem reads_numEnd {b r : Bytes} (h : numEnd b = some r) : Reads b r := by
  simp only [numEnd, Option.bind_eq_bind, Option.bind_eq_some_iff] at h
  obtain ⟨r1, h1, r2, h2, h3⟩ := h
  have h0 : Reads b (afterSign b) := by
    cases b with
    | nil => exact .refl _
    | cons c b =>
      simp only [afterSign]
      split
      · rename_i hc
        exact .ch '-' (by decide) hc b
      · exact .refl _
  exact h0.trans ((reads_intPart h1).trans ((reads_fracPart h2).trans (reads_expPart h3)))

theorem reads_number {b : Bytes} {p : Bytes × Bytes} (h : number b = some p) : Reads b p.2 := by
  simp only [number, Option.map_eq_some_iff] at h
  obtain ⟨r, h1, rfl⟩ := h
  exact reads_numEnd h1

theorem hexVal_lt {b : UInt8} {n : Nat} (h : hexVal b = some n) : b.toNat < 128 := by
  simp only [hexVal] at h
  split at h
  · omega
  · split at h
    · omega
    · split at h
      · omega
      · cases h

theorem reads_hex4 {b : Bytes} {p : Nat × Bytes} (h : hex4 b = some p) : Reads b p.2 := by
  match b, h with
  | a :: b :: c :: d :: r, h =>
    simp only [hex4, Option.bind_eq_bind, Option.bind_eq_some_iff, Option.some.injEq] at h
    obtain ⟨_, h1, _, h2, _, h3, _, h4, rfl⟩ := h
    exact (Reads.byte (hexVal_lt h1) _).trans ((Reads.byte (hexVal_lt h2) _).trans
      ((Reads.byte (hexVal_lt h3) _).trans (Reads.byte (hexVal_lt h4) _)))
  | [], h => cases h
  | [_], h => cases h
  | [_, _], h => cases h
  | [_, _, _], h => cases h

/-- The text of an escape is UTF-8, and it stands for a character. -/
theorem reads_unicode {b : Bytes} {p : Bytes × Bytes} (h : unicode b = some p) :
    Reads b p.2 ∧ ∃ c, p.1 = String.utf8EncodeChar c := by
  simp only [unicode, Option.bind_eq_bind, Option.bind_eq_some_iff] at h
  obtain ⟨⟨n, r⟩, h1, h⟩ := h
  have hr := reads_hex4 h1
  dsimp only at h hr
  split at h
  · cases h
  · split at h
    · rw [Option.bind_eq_some_iff] at h
      obtain ⟨r2, h2, h⟩ := h
      rw [Option.bind_eq_some_iff] at h
      obtain ⟨⟨m, r3⟩, h3, h⟩ := h
      dsimp only at h
      split at h
      · have h4 := reads_hex4 h3
        generalize surrogate n m = x at h
        cases h
        refine ⟨hr.trans ((reads_eat _ _ _ ?_ h2).trans h4), x, rfl⟩
        intro x hx
        simp only [List.mem_cons, List.not_mem_nil, or_false] at hx
        rcases hx with rfl | rfl <;> decide
      · cases h
    · obtain rfl := Option.some.inj h
      exact ⟨hr, _, rfl⟩

theorem char_of_byte {b : UInt8} (h : b.toNat < 128) : ∃ c, [b] = String.utf8EncodeChar c := by
  obtain ⟨s, hs⟩ := utf8_byte h
  cases s with
  | nil => cases hs
  | cons c s =>
    rw [utf8Encode_cons] at hs
    obtain ⟨x, l, hx, _⟩ := encodeChar_cons c
    rw [hx] at hs
    simp only [List.cons_append, List.cons.injEq, List.append_eq_nil_iff] at hs
    exact ⟨c, by rw [hx, hs.1, hs.2.1]⟩

theorem reads_escape {b : Bytes} {p : Bytes × Bytes} (h : escape b = some p) :
    Reads b p.2 ∧ ∃ c, p.1 = String.utf8EncodeChar c := by
  cases b with
  | nil => cases h
  | cons c r =>
    simp only [escape] at h
    split at h
    · rename_i hc
      cases h
      have : c.toNat < 128 := by rcases hc with rfl | rfl | rfl <;> decide
      exact ⟨.byte this r, char_of_byte this⟩
    · split at h
      · rename_i hc; cases h
        exact ⟨.ch _ (by decide) hc r, char_of_byte (by decide)⟩
      · split at h
        · rename_i hc; cases h
          exact ⟨.ch _ (by decide) hc r, char_of_byte (by decide)⟩
        · split at h
          · rename_i hc; cases h
            exact ⟨.ch _ (by decide) hc r, char_of_byte (by decide)⟩
          · split at h
            · rename_i hc; cases h
              exact ⟨.ch _ (by decide) hc r, char_of_byte (by decide)⟩
            · split at h
              · rename_i hc; cases h
                exact ⟨.ch _ (by decide) hc r, char_of_byte (by decide)⟩
              · split at h
                · rename_i hc
                  obtain ⟨h1, h2⟩ := reads_unicode h
                  exact ⟨(Reads.ch 'u' (by decide) hc r).trans h1, h2⟩
                · cases h

/-- If what a string stands for is UTF-8, so is its text. -/
theorem reads_strBody : ∀ (n : Nat) (b : Bytes) (p : Bytes × Bytes), strBody n b = some p →
    ∃ t, b = t ++ p.2 ∧ ∀ q, Utf8 (q ++ p.1) → Utf8 (q ++ t)
  | 0, _, _, h => by simp [strBody] at h
  | _ + 1, [], _, h => by simp [strBody] at h
  | n + 1, c :: r, p, h => by
    rw [strBody] at h
    split at h
    · rename_i hc
      cases h
      refine ⟨[c], rfl, fun q hq => ?_⟩
      rw [List.append_nil] at hq
      exact hq.append (utf8_byte (by rw [hc]; decide))
    · split at h
      · rename_i hc
        simp only [Option.bind_eq_bind, Option.bind_eq_some_iff, Option.some.injEq] at h
        obtain ⟨⟨u, r1⟩, h1, ⟨s, r2⟩, h2, rfl⟩ := h
        obtain ⟨⟨t1, ht1, hu1⟩, x, hx⟩ := reads_escape h1
        obtain ⟨t2, ht2, hu2⟩ := reads_strBody n _ _ h2
        dsimp only at ht1 hx ht2 hu2 ⊢
        refine ⟨c :: (t1 ++ t2), by rw [ht1, ht2]; simp, fun q hq => ?_⟩
        subst hx
        obtain ⟨y, l, hy, hf⟩ := encodeChar_cons x
        obtain ⟨w, hw⟩ := id hq
        rw [hy, List.cons_append] at hw
        obtain ⟨h3, h4⟩ := Utf8.split w q y (l ++ s) hf hw
        rw [← List.cons_append, ← hy] at h4
        have h5 := hu2 [] h4.tail
        rw [List.nil_append] at h5
        have h6 := h3.append ((utf8_byte (b := c) (by rw [hc]; decide)).append (hu1.append h5))
        simpa using h6
      · split at h
        · cases h
        · simp only [Option.bind_eq_bind, Option.bind_eq_some_iff, Option.some.injEq] at h
          obtain ⟨⟨s, r2⟩, h2, rfl⟩ := h
          obtain ⟨t2, ht2, hu2⟩ := reads_strBody n _ _ h2
          dsimp only at ht2 hu2 ⊢
          refine ⟨c :: t2, by rw [ht2]; rfl, fun q hq => ?_⟩
          have := hu2 (q ++ [c]) (by simpa using hq)
          simpa using this

theorem reads_parseStr {b : Bytes} {p : Bytes × Bytes} (h : parseStr b = some p) : Reads b p.2 := by
  simp only [parseStr, Option.bind_eq_bind, Option.bind_eq_some_iff] at h
  obtain ⟨⟨s, r⟩, h1, h⟩ := h
  dsimp only at h
  split at h
  · rename_i hs
    cases h
    obtain ⟨t, ht, hu⟩ := reads_strBody _ _ _ h1
    exact ⟨t, ht, by simpa using hu [] (by simpa using (utf8_iff s).mpr hs)⟩
  · cases h

theorem reads_eat_lit {l b r : Bytes} (hl : l.all (fun x => decide (x.toNat < 128)) = true) (h : eat l b = some r) :
    Reads b r := reads_eat l b r (by simpa using hl) h

/-- Text that was read as a value is UTF-8. -/
theorem reads_values (inRange : Bytes → Bool) : ∀ n,
    (∀ d b p, value inRange n d b = some p → Reads b p.2) ∧
    (∀ d f b p, elements inRange n d f b = some p → Reads b p.2) ∧
    (∀ d f b p, members inRange n d f b = some p → Reads b p.2) ∧
    (∀ d b p, member inRange n d b = some p → Reads b p.2)
  | 0 => ⟨fun _ _ _ h => by simp [value] at h, fun _ _ _ _ h => by simp [elements] at h,
      fun _ _ _ _ h => by simp [members] at h, fun _ _ _ h => by simp [member] at h⟩
  | n + 1 => by
    obtain ⟨iv, ie, im, ip⟩ := reads_values inRange n
    refine ⟨?_, ?_, ?_, ?_⟩
    · intro d b p h
      rw [value] at h
      have hw := reads_ws b
      split at h
      · cases h
      · rename_i c r hs
        rw [hs] at hw
        refine hw.trans ?_
        split at h
        · rename_i hc
          rw [Option.map_eq_some_iff] at h
          obtain ⟨r', h1, rfl⟩ := h
          exact (Reads.ch 'n' (by decide) hc r).trans (reads_eat_lit (by decide) h1)
        split at h
        · rename_i hc
          rw [Option.map_eq_some_iff] at h
          obtain ⟨r', h1, rfl⟩ := h
          exact (Reads.ch 't' (by decide) hc r).trans (reads_eat_lit (by decide) h1)
        split at h
        · rename_i hc
          rw [Option.map_eq_some_iff] at h
          obtain ⟨r', h1, rfl⟩ := h
          exact (Reads.ch 'f' (by decide) hc r).trans (reads_eat_lit (by decide) h1)
        split at h
        · rw [Option.bind_eq_some_iff] at h
          obtain ⟨q, h1, h⟩ := h
          split at h
          · cases h; exact reads_number h1
          · cases h
        split at h
        · rename_i hc
          rw [Option.map_eq_some_iff] at h
          obtain ⟨r', h1, rfl⟩ := h
          exact (Reads.ch '"' (by decide) hc r).trans (reads_parseStr h1)
        split at h
        · rename_i hc
          split at h
          · cases h
          · rw [Option.map_eq_some_iff] at h
            obtain ⟨r', h1, rfl⟩ := h
            exact (Reads.ch '[' (by decide) hc r).trans (ie _ _ _ _ h1)
        split at h
        · rename_i hc
          split at h
          · cases h
          · rw [Option.map_eq_some_iff] at h
            obtain ⟨r', h1, rfl⟩ := h
            exact (Reads.ch '{' (by decide) hc r).trans (im _ _ _ _ h1)
        · cases h
    · intro d f b p h
      rw [elements] at h
      have hw := reads_ws b
      split at h
      · cases h
      · rename_i c r hs
        rw [hs] at hw
        refine hw.trans ?_
        split at h
        · rename_i hc
          cases h
          exact .ch ']' (by decide) hc r
        split at h
        · rw [Option.bind_eq_some_iff] at h
          obtain ⟨q, h1, h⟩ := h
          rw [Option.map_eq_some_iff] at h
          obtain ⟨q2, h2, rfl⟩ := h
          exact (iv _ _ _ h1).trans (ie _ _ _ q2 h2)
        split at h
        · rename_i hc
          rw [Option.bind_eq_some_iff] at h
          obtain ⟨q, h1, h⟩ := h
          rw [Option.map_eq_some_iff] at h
          obtain ⟨q2, h2, rfl⟩ := h
          exact (Reads.ch ',' (by decide) hc r).trans ((iv _ _ _ h1).trans (ie _ _ _ q2 h2))
        · cases h
    · intro d f b p h
      rw [members] at h
      have hw := reads_ws b
      split at h
      · cases h
      · rename_i c r hs
        rw [hs] at hw
        refine hw.trans ?_
        split at h
        · rename_i hc
          cases h
          exact .ch '}' (by decide) hc r
        split at h
        · exact ip _ _ _ h
        split at h
        · rename_i hc
          exact (Reads.ch ',' (by decide) hc r).trans (ip _ _ _ h)
        · cases h
    · intro d b p h
      rw [member] at h
      simp only [Option.bind_eq_some_iff, Option.map_eq_some_iff] at h
      obtain ⟨r1, h1, k, h2, r3, h3, q, h4, q2, h5, rfl⟩ := h
      exact (reads_ws b).trans ((reads_eat_lit (by decide) h1).trans ((reads_parseStr h2).trans
        ((reads_ws _).trans ((reads_eat_lit (by decide) h3).trans ((iv _ _ _ h4).trans (im _ _ _ q2 h5))))))

theorem reads_value {inRange : Bytes → Bool} {n d : Nat} {b : Bytes} {p : Value × Bytes}
    (h : value inRange n d b = some p) : Reads b p.2 := (reads_values inRange n).1 d b p h

theorem reads_atEnd {b : Bytes} (h : atEnd b = true) : Utf8 b := by
  obtain ⟨t, ht, hu⟩ := reads_ws b
  have : skipWs b = [] := by simpa [atEnd] using h
  rw [this, List.append_nil] at ht
  rw [ht]
  exact hu

theorem Reads.utf8 {b r : Bytes} (h : Reads b r) (hr : Utf8 r) : Utf8 b := by
  obtain ⟨t, rfl, ht⟩ := h
  exact ht.append hr

/-- What is accepted as a value is UTF-8. -/
theorem utf8_fromSlice {inRange : Bytes → Bool} {b : Bytes} {v : Value} (h : fromSlice inRange b = some v) :
    Utf8 b := by
  simp only [fromSlice, Option.bind_eq_some_iff] at h
  obtain ⟨p, h1, h⟩ := h
  split at h
  · rename_i he
    exact (reads_value h1).utf8 (reads_atEnd he)
  · cases h

end Verif.Json
