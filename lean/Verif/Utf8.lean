import Verif.Prelude
/-!
# UTF-8

Rust strings are modelled as lists of characters (Lean's `Char` is a Unicode scalar value, as Rust's
`char`). Encoding of one character and decoding of the first character of a byte string are those of
Lean's core library; this file lifts them to lists and proves that they are inverse.
-/

namespace Verif

/-- A Rust `String`. -/
abbrev Str := List Char

/-- `str::as_bytes`. -/
def utf8Encode (s : Str) : Bytes := s.flatMap String.utf8EncodeChar

/-- Decoder with fuel. -/
def utf8DecodeAux : Nat → Bytes → Option Str
  | _, [] => some []
  | 0, _ :: _ => none
  | n + 1, b :: bs =>
    match ByteArray.utf8DecodeChar? (b :: bs).toByteArray 0 with
    | none => none
    | some c => (utf8DecodeAux n ((b :: bs).drop c.utf8Size)).map (c :: ·)

/-- `String::from_utf8`, `core::str::from_utf8`. -/
def utf8Decode (bs : Bytes) : Option Str := utf8DecodeAux bs.length bs

theorem utf8Encode_nil : utf8Encode [] = [] := rfl

theorem utf8Encode_cons (c : Char) (s : Str) :
    utf8Encode (c :: s) = String.utf8EncodeChar c ++ utf8Encode s := rfl

theorem utf8Encode_append (s t : Str) : utf8Encode (s ++ t) = utf8Encode s ++ utf8Encode t := by
  simp [utf8Encode]

theorem utf8DecodeAux_encode (s : Str) :
    ∀ n, (utf8Encode s).length ≤ n → utf8DecodeAux n (utf8Encode s) = some s := by
  induction s with
  | nil => intro n _; cases n <;> rfl
  | cons c s ih =>
    intro n hn
    have hpos := c.utf8Size_pos
    have hlen := String.length_utf8EncodeChar c
    rw [utf8Encode_cons] at hn ⊢
    rw [List.length_append, hlen] at hn
    obtain ⟨b, bs, hb⟩ : ∃ b bs, String.utf8EncodeChar c ++ utf8Encode s = b :: bs := by
      cases h : String.utf8EncodeChar c with
      | nil => rw [h] at hlen; simp at hlen; omega
      | cons b bs => exact ⟨b, bs ++ utf8Encode s, rfl⟩
    have hdec : ByteArray.utf8DecodeChar? (b :: bs).toByteArray 0 = some c := by
      rw [← hb, List.toByteArray_append']
      exact ByteArray.utf8DecodeChar?_utf8EncodeChar_append
    have hdrop : (b :: bs).drop c.utf8Size = utf8Encode s := by
      rw [← hb, ← hlen, List.drop_left]
    rw [hb]
    cases n with
    | zero => omega
    | succ n =>
      rw [utf8DecodeAux]
      simp only [hdec, hdrop]
      rw [ih n (by omega)]
      rfl

/-- Decoding inverts encoding. -/
theorem utf8Decode_encode (s : Str) : utf8Decode (utf8Encode s) = some s :=
  utf8DecodeAux_encode s _ (Nat.le_refl _)

theorem utf8Encode_inj {s t : Str} (h : utf8Encode s = utf8Encode t) : s = t := by
  have := utf8Decode_encode s
  rw [h, utf8Decode_encode] at this
  exact (Option.some.inj this).symm

theorem utf8DecodeAux_sound : ∀ n (bs : Bytes) (s : Str), utf8DecodeAux n bs = some s → utf8Encode s = bs := by
  intro n
  induction n with
  | zero =>
    intro bs s h
    cases bs with
    | nil => simp only [utf8DecodeAux, Option.some.injEq] at h; subst h; rfl
    | cons b bs => simp [utf8DecodeAux] at h
  | succ n ih =>
    intro bs s h
    cases bs with
    | nil => simp only [utf8DecodeAux, Option.some.injEq] at h; subst h; rfl
    | cons b bs =>
      rw [utf8DecodeAux] at h
      cases hc : ByteArray.utf8DecodeChar? (b :: bs).toByteArray 0 with
      | none => simp [hc] at h
      | some c =>
        simp only [hc, Option.map_eq_some_iff] at h
        obtain ⟨t, ht, rfl⟩ := h
        have h1 := ih _ _ ht
        have h2 := String.toByteArray_utf8EncodeChar_of_utf8DecodeChar?_eq_some hc
        have h3 : String.utf8EncodeChar c = (b :: bs).take c.utf8Size := by
          have := congrArg (fun x => x.data.toList) h2
          simpa using this
        rw [utf8Encode_cons, h1, h3, List.take_append_drop]

/-- Encoding inverts decoding: only valid UTF-8 is decoded. -/
theorem utf8Encode_decode {bs : Bytes} {s : Str} (h : utf8Decode bs = some s) : utf8Encode s = bs :=
  utf8DecodeAux_sound _ _ _ h

/-- A string has at least as many bytes as characters, at most four times as many. -/
theorem length_utf8Encode (s : Str) :
    s.length ≤ (utf8Encode s).length ∧ (utf8Encode s).length ≤ 4 * s.length := by
  induction s with
  | nil => simp [utf8Encode]
  | cons c s ih =>
    rw [utf8Encode_cons, List.length_append, String.length_utf8EncodeChar, List.length_cons]
    have := c.utf8Size_pos
    have := c.utf8Size_le_four
    omega

example : utf8Encode "aé안".toList = [0x61, 0xc3, 0xa9, 0xec, 0x95, 0x88] ∧
    utf8Decode [0x61, 0xc3, 0xa9, 0xec, 0x95, 0x88] = some "aé안".toList ∧
    utf8Decode [0x61, 0xc3] = none ∧ utf8Decode [0xc0, 0x80] = none := by decide +kernel

end Verif
