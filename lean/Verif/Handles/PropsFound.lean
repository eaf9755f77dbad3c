import Verif.Handles.PropsVariants
/-!
# C157: the texts under which an account is found
-/

namespace Verif.Handles

/-! ## Specification -/

/-- Value of digits, most significant first. -/
def valueOf (d : Str) : Nat := d.foldl (fun v c => v * 10 + (c.toNat - 48)) 0

/-- Another way to write the number: leading zeros, and a plus sign. -/
def Numeral (t : Str) (x : Nat) : Prop :=
  ∃ d : Str, (t = d ∨ t = '+' :: d) ∧ d ≠ [] ∧ (∀ c ∈ d, 48 ≤ c.toNat ∧ c.toNat ≤ 57) ∧ valueOf d = x ∧ x < 65536

/-- C157 in full: a text leads to an account only if it is a name with the canonical form of the account's, a dot and
the account's suffix as it is reported. -/
def C157_full : Prop :=
  ∀ (cfg : Config) (lo hi : Nat) (hist : List Step), RangeOk hi → Fixed lo hi hist →
    ∀ (t : Bytes) (m : MsaId), msaForHandle cfg (run cfg .init hist) t = some m →
    ∃ name b x, '.' ∉ name ∧ utf8Decode t = some (name ++ '.' :: dec x) ∧
      handleForMsa cfg (run cfg .init hist) m = some (b, (canonicalBase cfg name).2, x)

/-! ## Lemmas -/

theorem splitDot_pair {s a b : Str} (h : splitDot s = [a, b]) : s = a ++ '.' :: b ∧ '.' ∉ a ∧ '.' ∉ b := by
  have hone : ∀ (s b : Str), splitDot s = [b] → s = b ∧ '.' ∉ b := by
    intro s
    induction s with
    | nil => intro b h; simp only [splitDot, List.cons.injEq, and_true] at h; subst h; simp
    | cons c s ih =>
      intro b h
      rw [splitDot] at h
      by_cases hc : c = '.'
      · rw [if_pos hc] at h
        simp only [List.cons.injEq] at h
        exact absurd h.2 (splitDot_ne_nil s)
      · rw [if_neg hc] at h
        cases hs : splitDot s with
        | nil => exact absurd hs (splitDot_ne_nil s)
        | cons p ps =>
          rw [hs] at h
          simp only [List.cons.injEq] at h
          obtain ⟨rfl, rfl⟩ := h
          obtain ⟨h1, h2⟩ := ih p hs
          subst h1
          exact ⟨rfl, by simp [Ne.symm hc, h2]⟩
  induction s generalizing a with
  | nil => simp [splitDot] at h
  | cons c s ih =>
    rw [splitDot] at h
    by_cases hc : c = '.'
    · rw [if_pos hc] at h
      simp only [List.cons.injEq] at h
      obtain ⟨rfl, h⟩ := h
      obtain ⟨h1, h2⟩ := hone s b h
      subst h1
      subst hc
      exact ⟨rfl, by simp, h2⟩
    · rw [if_neg hc] at h
      cases hs : splitDot s with
      | nil => exact absurd hs (splitDot_ne_nil s)
      | cons p ps =>
        rw [hs] at h
        simp only [List.cons.injEq] at h
        obtain ⟨rfl, rfl⟩ := h
        obtain ⟨h1, h2, h3⟩ := ih hs
        subst h1
        exact ⟨rfl, by simp [Ne.symm hc, h2], h3⟩

theorem numeral_iff {t : Str} {x : Nat} : parseU16 t = some x ↔ Numeral t x := by
  unfold parseU16
  dsimp only
  have hd : ∀ d : Str, d.all Char.isDigit = true ↔ ∀ c ∈ d, 48 ≤ c.toNat ∧ c.toNat ≤ 57 := by
    intro d
    rw [List.all_eq_true]
    refine forall_congr' fun c => forall_congr' fun _ => ?_
    simp only [Char.isDigit, Bool.and_eq_true, decide_eq_true_eq, Char.toNat, UInt32.le_iff_toNat_le, ge_iff_le]
    exact Iff.rfl
  have hv : ∀ d : Str, decimalValue d = valueOf d := fun _ => rfl
  constructor
  · intro h
    split at h
    · rename_i hc
      obtain ⟨h1, h2, h3⟩ := hc
      simp only [Option.some.injEq] at h
      refine ⟨stripPlus t, ?_, h1, (hd _).1 h2, by rw [← hv]; exact h, by omega⟩
      cases t with
      | nil => exact Or.inl rfl
      | cons c r =>
        simp only [stripPlus]
        by_cases hc : c = '+'
        · rw [if_pos hc, hc]; exact Or.inr rfl
        · rw [if_neg hc]; exact Or.inl rfl
    · cases h
  · rintro ⟨d, ht, h1, h2, h3, h4⟩
    have hs : stripPlus t = d := by
      rcases ht with rfl | rfl
      · cases t with
        | nil => rfl
        | cons c r =>
          simp only [stripPlus]
          rw [if_neg]
          rintro rfl
          have := h2 '+' (by simp)
          revert this
          decide
      · simp [stripPlus]
    rw [hs, if_pos ⟨h1, (hd d).2 h2, by rw [hv]; omega⟩, hv, h3]

/-! ## C157 -/

/-- C157: a text leads to an account only if it consists of a name, one dot and a numeral, and the account has a handle with
this suffix and the canonical form of the name. Missing: the numeral need not be the usual one (`C157_full_false`). -/
theorem C157_found_partial (cfg : Config) (lo hi : Nat) (hr : RangeOk hi) (hist : List Step) (hf : Fixed lo hi hist)
    (t : Bytes) (m : MsaId) (h : msaForHandle cfg (run cfg .init hist) t = some m) :
    ∃ name num b x, utf8Decode t = some (name ++ '.' :: num) ∧ '.' ∉ name ∧ '.' ∉ num ∧ Numeral num x ∧
      handleForMsa cfg (run cfg .init hist) m = some (b, (canonicalBase cfg name).2, x) := by
  unfold msaForHandle at h
  simp only [Option.bind_eq_bind, Option.bind_eq_some_iff] at h
  obtain ⟨⟨name, x⟩, hp, hg⟩ := h
  cases hu : utf8Decode t with
  | none =>
    rw [hu] at hp
    have he : splitDisplayName ((none : Option Str).getD []) = none := by decide +kernel
    rw [he] at hp
    cases hp
  | some s =>
    rw [hu, Option.getD_some] at hp
    unfold splitDisplayName at hp
    split at hp
    · rename_i base num hs
      obtain ⟨y, hy, he⟩ := Option.map_eq_some_iff.1 hp
      cases he
      obtain ⟨h1, h2, h3⟩ := splitDot_pair hs
      have hn := numeral_iff.1 hy
      have hx : x ≤ 65535 := by obtain ⟨_, _, _, _, _, h⟩ := hn; omega
      have hfound : msaForHandle cfg (run cfg .init hist) (displayOf name x) = some m := by
        rw [msaForHandle_displayOf cfg _ h2 hx]
        exact hg
      obtain ⟨b, hb⟩ := C30_found_account_has_handle cfg lo hi hr hist hf name h2 x hx m hfound
      exact ⟨name, num, b, x, by rw [h1], h2, h3, hn, hb⟩
    · cases hp

/-- C157: every numeral of the suffix will do. -/
theorem C157_numerals (cfg : Config) (s : State) (name num : Str) (x : Nat) (hn : '.' ∉ name) (hx : Numeral num x) :
    msaForHandle cfg s (utf8Encode (name ++ '.' :: num)) = msaForHandle cfg s (displayOf name x) := by
  have hd : '.' ∉ num := by
    obtain ⟨d, ht, _, h2, _⟩ := hx
    have : '.' ∉ d := by
      intro h
      have := h2 _ h
      revert this
      decide
    rcases ht with rfl | rfl
    · exact this
    · simp [this]
  have hb : x ≤ 65535 := by obtain ⟨_, _, _, _, _, h⟩ := hx; omega
  have e1 : splitDisplayName (name ++ '.' :: num) = some (name, x) := by
    unfold splitDisplayName
    rw [splitDot_append _ _ hn, splitDot_noDot _ hd]
    simp only [numeral_iff.2 hx, Option.map_some]
  rw [msaForHandle_displayOf cfg s hn hb]
  unfold msaForHandle
  rw [utf8Decode_encode, Option.getD_some, e1]
  rfl

/-- The account that has `PAUL1.13`. -/
def foundHist : List Step := [⟨exEnv 1, .claim 1 1 (pl "PAUL1" 50)⟩]

/-- Hypotheses met: found under four texts, of which one is the handle; not found with a second dot, another number or
a number with a sign or digits that are not allowed. -/
example : (["PAUL1.13", "PAUL1.013", "PAUL1.+13", " PA UL1.+0013"].all fun t =>
      decide (msaForHandle exCfg (run exCfg .init foundHist) (utf8Encode t.toList) = some 1)) = true ∧
    (["PAUL1.14", "PAUL1", "PAUL1.13.", "PAUL1.13.13", ".PAUL1.13", "PAUL1.-13", "PAUL1.++13", "PAUL1. 13", "PAUL1.65549",
      "PAUL1.", "PAUL1.+", "13.PAUL1"].all fun t =>
      decide (msaForHandle exCfg (run exCfg .init foundHist) (utf8Encode t.toList) = none)) = true := by
  decide +kernel

theorem fixed_foundHist : Fixed 10 99 foundHist := by
  intro y hy
  simp only [foundHist, List.mem_singleton] at hy
  subst hy
  exact ⟨rfl, rfl⟩

/-- C157 in full is false: a plus sign does not matter. -/
theorem C157_full_false : ¬ C157_full := by
  intro h
  obtain ⟨name, b, x, h1, h2, h3⟩ := h exCfg 10 99 foundHist (by unfold RangeOk; omega) fixed_foundHist
    (utf8Encode "PAUL1.+13".toList) 1 (by decide +kernel)
  have h4 : handleForMsa exCfg (run exCfg .init foundHist) 1 =
    some (utf8Encode "PAUL1".toList, utf8Encode "paul1".toList, 13) := by decide +kernel
  rw [h4] at h3
  simp only [Option.some.injEq, Prod.mk.injEq] at h3
  obtain ⟨_, _, rfl⟩ := h3
  rw [utf8Decode_encode] at h2
  simp only [Option.some.injEq] at h2
  have h5 := congrArg splitDot h2
  have h6 : '.' ∉ dec 13 := by decide +kernel
  rw [splitDot_append _ _ h1, splitDot_noDot _ h6] at h5
  have h7 : splitDot "PAUL1.+13".toList = ["PAUL1".toList, "+13".toList] := by decide +kernel
  rw [h7] at h5
  simp only [List.cons.injEq, and_true] at h5
  exact absurd h5.2 (by decide +kernel)

end Verif.Handles
