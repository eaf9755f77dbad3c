import Verif.Rpc.Model
/-!
# Lemmas about the answers as JSON
-/

namespace Verif.Rpc

open Verif.Json

/-- The grammar without limits on numbers. -/
abbrev J (k : Nat) (t : Bytes) (v : Value) : Prop := Doc (fun _ => true) k t v

/-- A value that is written as a text denoting it. -/
def Good (k : Nat) (v : Value) : Prop := J k (print v) v

theorem good_null (k : Nat) : Good k .null := by unfold Good; rw [print]; exact .null k

theorem good_bool (k : Nat) (b : Bool) : Good k (.bool b) := by
  unfold Good
  cases b
  · rw [print]; exact Doc.false k
  · rw [print]; exact Doc.true k

theorem good_nat (k n : Nat) : Good k (writeNat n) := by
  unfold Good writeNat
  rw [print]
  exact .num k (numText_decimal n) rfl

theorem good_str (k : Nat) (s : Str) : Good k (.str (utf8Encode s)) := print_str k s

theorem good_arr {k : Nat} {l : List Value} (h : ∀ v ∈ l, Good k v) : Good (k + 1) (.arr l) := print_arr l h

theorem good_object {k : Nat} {l : Fields} (h : ∀ p ∈ l, Good k p.2) : Good (k + 1) (object l) := by
  have := print_obj (r := fun _ => true) (k := k) (l.map (fun p => (p.1.toList, p.2))) (by
    intro q hq
    obtain ⟨p, hp, rfl⟩ := List.mem_map.1 hq
    exact h p hp)
  simpa [Good, object, key, Function.comp_def] using this

theorem hexDigit_ascii {n : Nat} (h : n < 16) :
    String.utf8EncodeChar (Char.ofNat (hexDigit n).toNat) = [hexDigit n] ∧ hexVal (hexDigit n) = some n := by
  have : ∀ m : Fin 16, String.utf8EncodeChar (Char.ofNat (hexDigit m.val).toNat) = [hexDigit m.val] ∧
      hexVal (hexDigit m.val) = some m.val := by decide
  exact this ⟨n, h⟩

theorem hexText_utf8 (b : Bytes) : ∃ s : Str, utf8Encode s = hexText b := by
  induction b with
  | nil => exact ⟨[], rfl⟩
  | cons x b ih =>
    obtain ⟨s, hs⟩ := ih
    refine ⟨Char.ofNat (hexDigit (x.toNat / 16)).toNat :: Char.ofNat (hexDigit (x.toNat % 16)).toNat :: s, ?_⟩
    have hx := x.toNat_lt
    rw [utf8Encode_cons, utf8Encode_cons, (hexDigit_ascii (by omega)).1, (hexDigit_ascii (by omega)).1, hs]
    simp [hexText]

theorem good_hex (k : Nat) (b : Bytes) : Good k (writeHex b) := by
  obtain ⟨s, hs⟩ := hexText_utf8 b
  have : (48 :: 120 :: hexText b : Bytes) = utf8Encode ('0' :: 'x' :: s) := by
    rw [utf8Encode_cons, utf8Encode_cons, hs]; rfl
  unfold writeHex
  rw [this]
  exact good_str k _

theorem unhex_hexText (b : Bytes) : unhex (hexText b) = some b := by
  induction b with
  | nil => rfl
  | cons x b ih =>
    have hx := x.toNat_lt
    have : hexText (x :: b) = hexDigit (x.toNat / 16) :: hexDigit (x.toNat % 16) :: hexText b := by simp [hexText]
    rw [this, unhex, (hexDigit_ascii (by omega)).2, (hexDigit_ascii (by omega)).2, ih]
    have : x.toNat / 16 * 16 + x.toNat % 16 = x.toNat := by omega
    show some (UInt8.ofNat (x.toNat / 16 * 16 + x.toNat % 16) :: b) = _
    rw [this, UInt8.ofNat_toNat]

theorem readHex_writeHex (b : Bytes) : readHex (writeHex b) = some b := unhex_hexText b

theorem readNat_writeNat {bound n : Nat} (h : n < bound) : readNat bound (writeNat n) = some n := by
  have hd : (decimal n).all isDigit = true := by
    rw [List.all_eq_true]
    intro b hb
    have := (digits_decimal n).2 b hb
    simp [isDigit, this.1, this.2]
  unfold readNat writeNat
  simp only
  rw [digitsValue_decimal, if_pos ⟨hd, h⟩]

theorem writeText_some {b : Bytes} {v : Value} (h : writeText b = some v) : v = .str b ∧ ∃ s, utf8Encode s = b := by
  unfold writeText at h
  cases hd : utf8Decode b with
  | none => rw [hd] at h; cases h
  | some s =>
    rw [hd] at h
    have := utf8Encode_decode hd
    cases h
    exact ⟨congrArg Value.str this, s, this⟩

theorem writeText_utf8 (s : Str) : writeText (utf8Encode s) = some (.str (utf8Encode s)) := by
  unfold writeText
  rw [utf8Decode_encode]; rfl

theorem good_text (k : Nat) {b : Bytes} {v : Value} (h : writeText b = some v) : Good k v := by
  obtain ⟨rfl, s, rfl⟩ := writeText_some h
  exact good_str k s

/-! ## Fields -/

theorem key_inj {s t : String} : key s = key t ↔ s = t := by
  constructor
  · intro h
    have := utf8Encode_inj h
    exact String.toList_inj.1 this
  · rintro rfl; rfl

/-- The fields of an object by name. -/
def find (l : Fields) (k : String) : Option (Option Value) :=
  match l.filter (fun p => decide (p.1 = k)) with
  | [] => some none
  | [p] => some (some p.2)
  | _ => none

theorem lookup_map (l : Fields) (k : String) : lookup (l.map (fun p => (key p.1, p.2))) k = find l k := by
  unfold lookup find
  rw [List.filter_map]
  have : ((fun p : Bytes × Value => decide (p.1 = key k)) ∘ fun p : String × Value => (key p.1, p.2)) =
      fun p => decide (p.1 = k) := by
    funext p
    simp [key_inj]
  rw [this]
  generalize l.filter (fun p => decide (p.1 = k)) = m
  match m with
  | [] => rfl
  | [p] => rfl
  | p :: q :: r => rfl

/-- The members of an object with the given fields. -/
def enc (l : Fields) : List (Bytes × Value) := l.map (fun p => (key p.1, p.2))

theorem members_object (l : Fields) : members (object l) = some (enc l) := rfl

theorem field_enc {α : Type} (l : Fields) (k : String) (read : Value → Option α) :
    field (enc l) k read = (find l k).bind (fun v => v.bind read) := by
  unfold field enc
  rw [lookup_map]; rfl

theorem fieldOr_enc {α : Type} (l : Fields) (k : String) (a : α) (read : Value → Option α) :
    fieldOr (enc l) k a read = (find l k).bind (fun v => match v with | none => some a | some v => read v) := by
  unfold fieldOr enc
  rw [lookup_map]; rfl

theorem mapM_write {α : Type} {write : α → Value} {read : Value → Option α} {l : List α}
    (h : ∀ a ∈ l, read (write a) = some a) : (l.map write).mapM read = some l := by
  induction l with
  | nil => rfl
  | cons a l ih =>
    rw [List.map_cons, List.mapM_cons, h a (by simp), ih (fun b hb => h b (List.mem_cons_of_mem _ hb))]
    rfl

theorem mapM_some {α β : Type} {f : α → Option β} {l : List α} {l' : List β} (h : l.mapM f = some l') :
    l'.length = l.length ∧ ∀ b ∈ l', ∃ a ∈ l, f a = some b := by
  induction l generalizing l' with
  | nil => cases h; simp
  | cons a l ih =>
    rw [List.mapM_cons] at h
    cases ha : f a with
    | none => rw [ha] at h; cases h
    | some b =>
      cases hl : l.mapM f with
      | none => rw [ha, hl] at h; cases h
      | some l'' =>
        rw [ha, hl] at h
        cases h
        obtain ⟨h1, h2⟩ := ih hl
        refine ⟨by simp [h1], ?_⟩
        intro c hc
        rcases List.mem_cons.1 hc with rfl | hc
        · exact ⟨a, by simp, ha⟩
        · obtain ⟨d, hd, he⟩ := h2 c hc
          exact ⟨d, List.mem_cons_of_mem _ hd, he⟩

theorem mapM_back {α β : Type} {f : α → Option β} {g : β → Option α} {l : List α} {l' : List β} (h : l.mapM f = some l')
    (hg : ∀ a ∈ l, ∀ b, f a = some b → g b = some a) : l'.mapM g = some l := by
  induction l generalizing l' with
  | nil => cases h; rfl
  | cons a l ih =>
    rw [List.mapM_cons] at h
    cases ha : f a with
    | none => rw [ha] at h; cases h
    | some b =>
      cases hl : l.mapM f with
      | none => rw [ha, hl] at h; cases h
      | some l'' =>
        rw [ha, hl] at h
        cases h
        rw [List.mapM_cons, hg a (by simp) b ha, ih hl (fun c hc => hg c (List.mem_cons_of_mem _ hc))]
        rfl

theorem mapM_all {α β : Type} {f : α → Option β} {l : List α} (h : ∀ a ∈ l, ∃ b, f a = some b) : ∃ l', l.mapM f = some l' := by
  induction l with
  | nil => exact ⟨[], rfl⟩
  | cons a l ih =>
    obtain ⟨b, hb⟩ := h a (by simp)
    obtain ⟨l', hl⟩ := ih (fun c hc => h c (List.mem_cons_of_mem _ hc))
    exact ⟨b :: l', by rw [List.mapM_cons, hb, hl]; rfl⟩

/-! ## Readings of a text -/

/-- A text that a value is written as is read as that value only. -/
theorem reading {v w : Value} (hg : Good 127 v) (hw : J 127 (print v) w) : w = v := by
  have h1 := (fromSlice_iff (fun _ => true) (print v) v).2 ⟨[], print v, [], by simp, white_nil, white_nil, hg⟩
  have h2 := (fromSlice_iff (fun _ => true) (print v) w).2 ⟨[], print v, [], by simp, white_nil, white_nil, hw⟩
  rw [h1] at h2
  exact (Option.some.inj h2).symm

end Verif.Rpc
