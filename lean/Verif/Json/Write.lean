import Verif.Json.Exact
/-!
# JSON as `serde_json` writes it

`serde_json::to_string` with the compact formatter (version 1.0.117, Cargo.lock 11694), in which the RPC server
(`jsonrpsee`) answers. The library is not part of the repository; this file follows its published source (`ser.rs`:
`format_escaped_str_contents`, the table `ESCAPE`, `CompactFormatter`). Numbers are written by `itoa`.
-/

namespace Verif.Json

/-- A hexadecimal digit, small: `HEX_DIGITS` of ser.rs. -/
def hexDigit (n : Nat) : UInt8 := if n < 10 then UInt8.ofNat (48 + n) else UInt8.ofNat (87 + n)

/-- The table `ESCAPE` and `write_char_escape`, ser.rs: quotation mark, backslash, the control characters with an escape of
their own, and the other control characters by their number. -/
def escapeByte (b : UInt8) : Bytes :=
  if b = 34 then [92, 34]
  else if b = 92 then [92, 92]
  else if b = 8 then [92, 98]
  else if b = 9 then [92, 116]
  else if b = 10 then [92, 110]
  else if b = 12 then [92, 102]
  else if b = 13 then [92, 114]
  else if b.toNat < 32 then [92, 117, 48, 48, hexDigit (b.toNat / 16), hexDigit (b.toNat % 16)]
  else [b]

/-- `format_escaped_str`, ser.rs. -/
def printStr (s : Bytes) : Bytes := 34 :: (s.flatMap escapeByte ++ [34])

mutual
/-- `Serialize for Value` with `CompactFormatter`, ser.rs: no white space. -/
def print : Value → Bytes
  | .null => [110, 117, 108, 108]
  | .bool true => [116, 114, 117, 101]
  | .bool false => [102, 97, 108, 115, 101]
  | .num t => t
  | .str s => printStr s
  | .arr l => 91 :: (printElems l ++ [93])
  | .obj l => 123 :: (printMembers l ++ [125])

/-- The elements, with commas between them. -/
def printElems : List Value → Bytes
  | [] => []
  | v :: l => print v ++ printMoreElems l

/-- Each further element after a comma. -/
def printMoreElems : List Value → Bytes
  | [] => []
  | v :: l => 44 :: (print v ++ printMoreElems l)

/-- The members, with commas between them. -/
def printMembers : List (Bytes × Value) → Bytes
  | [] => []
  | p :: l => printMember p ++ printMoreMembers l

/-- Each further member after a comma. -/
def printMoreMembers : List (Bytes × Value) → Bytes
  | [] => []
  | p :: l => 44 :: (printMember p ++ printMoreMembers l)

/-- A member: key, colon, value. -/
def printMember : Bytes × Value → Bytes
  | (k, v) => printStr k ++ 58 :: print v
end

/-- `itoa`: the decimal digits of a natural number. -/
def decimal (n : Nat) : Bytes := (Nat.toDigits 10 n).map ch

example : print (.obj [(lit "a", .arr [.num (decimal 10), .null]), (lit "b", .str [104, 34, 10, 7])]) =
    lit "{\"a\":[10,null],\"b\":\"h\\\"\\n\\u0007\"}" := by decide +kernel

/-! ## What is written is JSON -/

theorem white_nil : White [] := fun _ h => absurd h (by simp)

theorem hexDigit_spec {n : Nat} (h : n < 16) : HexDigit (hexDigit n) n := by
  unfold hexDigit
  split
  · rename_i hn; exact .digit n hn
  · rename_i hn; exact .small n (by omega) h

/-- What stands between the quotation marks denotes the string. -/
theorem strText_escape (s : Bytes) : StrText (s.flatMap escapeByte) s := by
  induction s with
  | nil => exact .nil
  | cons b s ih =>
    rw [List.flatMap_cons]
    unfold escapeByte
    split
    · rename_i h; subst h; exact .short (by simp [shortEscapes]) ih
    split
    · rename_i h; subst h; exact .short (by simp [shortEscapes]) ih
    split
    · rename_i h; subst h; exact .short (by simp [shortEscapes]) ih
    split
    · rename_i h; subst h; exact .short (by simp [shortEscapes]) ih
    split
    · rename_i h; subst h; exact .short (by simp [shortEscapes]) ih
    split
    · rename_i h; subst h; exact .short (by simp [shortEscapes]) ih
    split
    · rename_i h; subst h; exact .short (by simp [shortEscapes]) ih
    split
    · rename_i h
      have h4 : Hex4 [48, 48, hexDigit (b.toNat / 16), hexDigit (b.toNat % 16)] b.toNat :=
        ⟨_, _, _, _, 0, 0, _, _, rfl, .digit 0 (by omega), .digit 0 (by omega), hexDigit_spec (by omega),
          hexDigit_spec (by omega), by omega⟩
      have := StrText.code h4 (by omega) ih
      have he : String.utf8EncodeChar (Char.ofNat b.toNat) = [b] := by
        have : ∀ n : Fin 32, String.utf8EncodeChar (Char.ofNat n.val) = [UInt8.ofNat n.val] := by decide
        have h2 := this ⟨b.toNat, h⟩
        rw [h2]
        simp
      rw [he] at this
      exact this
    · exact .plain (by omega) (by assumption) (by assumption) ih

theorem print_str {r : Bytes → Bool} (k : Nat) (s : Str) : Doc r k (print (.str (utf8Encode s))) (.str (utf8Encode s)) := by
  rw [print]
  exact .str k (strText_escape _)

theorem elems_of {r : Bytes → Bool} {k : Nat} (v : Value) (l : List Value) (h : ∀ w ∈ v :: l, Doc r k (print w) w) :
    Elems r k (print v ++ printMoreElems l) (v :: l) := by
  induction l generalizing v with
  | nil =>
    have := Elems.one white_nil (h v (by simp)) white_nil
    simpa [printMoreElems] using this
  | cons w l ih =>
    have := Elems.cons white_nil (h v (by simp)) white_nil (ih w (fun u hu => h u (List.mem_cons_of_mem _ hu)))
    simpa [printMoreElems] using this

theorem print_arr {r : Bytes → Bool} {k : Nat} (l : List Value) (h : ∀ w ∈ l, Doc r k (print w) w) :
    Doc r (k + 1) (print (.arr l)) (.arr l) := by
  rw [print]
  cases l with
  | nil => simpa [printElems] using Doc.arr0 (inRange := r) k white_nil
  | cons v l => rw [printElems]; exact .arr (elems_of v l h)

theorem member_of {r : Bytes → Bool} {k : Nat} (key : Str) (v : Value) (h : Doc r k (print v) v) :
    Member r k (printMember (utf8Encode key, v)) (utf8Encode key, v) := by
  have := Member.mk (s := (utf8Encode key).flatMap escapeByte) white_nil (strText_escape _) white_nil white_nil h
  simpa [printMember, printStr] using this

theorem members_of {r : Bytes → Bool} {k : Nat} (p : Str × Value) (l : List (Str × Value))
    (h : ∀ q ∈ p :: l, Doc r k (print q.2) q.2) :
    Members r k (printMember (utf8Encode p.1, p.2) ++ printMoreMembers (l.map (fun q => (utf8Encode q.1, q.2))))
      ((utf8Encode p.1, p.2) :: l.map (fun q => (utf8Encode q.1, q.2))) := by
  induction l generalizing p with
  | nil =>
    have := Members.one (member_of p.1 p.2 (h p (by simp))) white_nil
    simpa [printMoreMembers] using this
  | cons q l ih =>
    have := Members.cons (member_of p.1 p.2 (h p (by simp))) white_nil
      (ih q (fun u hu => h u (List.mem_cons_of_mem _ hu)))
    simpa [printMoreMembers] using this

theorem print_obj {r : Bytes → Bool} {k : Nat} (l : List (Str × Value)) (h : ∀ q ∈ l, Doc r k (print q.2) q.2) :
    Doc r (k + 1) (print (.obj (l.map (fun q => (utf8Encode q.1, q.2))))) (.obj (l.map (fun q => (utf8Encode q.1, q.2)))) := by
  rw [print]
  cases l with
  | nil => simpa [printMembers] using Doc.obj0 (inRange := r) k white_nil
  | cons p l => rw [List.map_cons, printMembers]; exact .obj (members_of p l h)

/-! ## Numbers -/

theorem digits_decimal (n : Nat) : Digits1 (decimal n) := by
  refine ⟨by simp [decimal, Nat.toDigits_ne_nil], ?_⟩
  intro b hb
  obtain ⟨c, hc, rfl⟩ := List.mem_map.1 hb
  have := Nat.isDigit_of_mem_toDigits (by decide) (by decide) hc
  simp only [Char.isDigit, Bool.and_eq_true, decide_eq_true_eq] at this
  have h1 : 48 ≤ c.toNat := this.1
  have h2 : c.toNat ≤ 57 := this.2
  have : (ch c).toNat = c.toNat := by simp [ch]; omega
  omega

theorem decimal_small {n : Nat} (h : n < 10) : decimal n = [ch (Nat.digitChar n)] := by
  simp [decimal, Nat.toDigits_of_lt_base h]

theorem decimal_step {n : Nat} (h : 10 ≤ n) : decimal n = decimal (n / 10) ++ [ch (Nat.digitChar (n % 10))] := by
  simp [decimal, Nat.toDigits_of_base_le (by decide : 1 < 10) h]

theorem digitChar_value {d : Nat} (h : d < 10) : (ch (Nat.digitChar d)).toNat = 48 + d := by
  have : ∀ m : Fin 10, (ch (Nat.digitChar m.val)).toNat = 48 + m.val := by decide
  exact this ⟨d, h⟩

/-- `parse_integer`, de.rs: the number that decimal digits denote. -/
def digitsValue (t : Bytes) : Nat := t.foldl (fun a b => a * 10 + (b.toNat - 48)) 0

theorem digitsValue_decimal (n : Nat) : digitsValue (decimal n) = n := by
  induction n using Nat.strongRecOn with
  | _ n ih =>
    by_cases h : n < 10
    · rw [decimal_small h]
      simp only [digitsValue, List.foldl_cons, List.foldl_nil, digitChar_value h]
      omega
    · have := ih (n / 10) (by omega)
      unfold digitsValue at this ⊢
      rw [decimal_step (by omega), List.foldl_append, this]
      simp only [List.foldl_cons, List.foldl_nil, digitChar_value (show n % 10 < 10 by omega)]
      omega

/-- The decimal digits of a number are a number of the grammar. -/
theorem intText_decimal (n : Nat) : IntText (decimal n) := by
  induction n using Nat.strongRecOn with
  | _ n ih =>
    by_cases h : n < 10
    · by_cases h0 : n = 0
      · subst h0; exact .inl (by decide)
      · refine .inr ⟨digits_decimal n, ?_⟩
        rw [decimal_small h]
        have : ∀ m : Fin 10, m.val ≠ 0 → [ch (Nat.digitChar m.val)].head? ≠ some 48 := by decide
        exact this ⟨n, h⟩ h0
    · refine .inr ⟨digits_decimal n, ?_⟩
      rw [decimal_step (by omega)]
      rcases ih (n / 10) (by omega) with h1 | ⟨⟨h1, _⟩, h2⟩
      · have := digitsValue_decimal (n / 10)
        rw [h1] at this
        have : 0 = n / 10 := this
        omega
      · cases hx : decimal (n / 10) with
        | nil => exact absurd hx h1
        | cons a l => rw [hx] at h2; simpa using h2

theorem numText_decimal (n : Nat) : NumText (decimal n) :=
  ⟨[], decimal n, [], [], by simp, .inl rfl, intText_decimal n, .inl rfl, .inl rfl⟩

end Verif.Json
