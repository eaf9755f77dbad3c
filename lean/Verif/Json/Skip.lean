import Verif.Json.Exact
/-!
# Values that are skipped

What `ignore_value` of serde_json accepts where a value is not wanted: JSON, except that strings need not be text and
numbers and depth are not limited.
-/

namespace Verif.Json

/-! ## Specification -/

/-- What is between the quotation marks of a string that is skipped: section 7 of RFC 8259, without any check of the
encoding, and with surrogates anywhere. -/
inductive SkipStr : Bytes → Prop where
  | nil : SkipStr []
  | plain {b : UInt8} {t : Bytes} : 32 ≤ b.toNat → b ≠ 34 → b ≠ 92 → SkipStr t → SkipStr (b :: t)
  | short {e c : UInt8} {t : Bytes} : (e, c) ∈ shortEscapes → SkipStr t → SkipStr (92 :: e :: t)
  | code {h : Bytes} {n : Nat} {t : Bytes} : Hex4 h n → SkipStr t → SkipStr (92 :: 117 :: (h ++ t))

mutual
/-- A value that is skipped. -/
inductive Skip : Bytes → Prop where
  | null : Skip [110, 117, 108, 108]
  | true : Skip [116, 114, 117, 101]
  | false : Skip [102, 97, 108, 115, 101]
  | num {t : Bytes} : NumText t → Skip t
  | str {t : Bytes} : SkipStr t → Skip (34 :: (t ++ [34]))
  | arr0 {w : Bytes} : White w → Skip (91 :: (w ++ [93]))
  | arr {t : Bytes} : SkipElems t → Skip (91 :: (t ++ [93]))
  | obj0 {w : Bytes} : White w → Skip (123 :: (w ++ [125]))
  | obj {t : Bytes} : SkipMembers t → Skip (123 :: (t ++ [125]))

/-- The elements of a list that is skipped. -/
inductive SkipElems : Bytes → Prop where
  | one {w t w' : Bytes} : White w → Skip t → White w' → SkipElems (w ++ (t ++ w'))
  | cons {w t w' t' : Bytes} : White w → Skip t → White w' → SkipElems t' → SkipElems (w ++ (t ++ (w' ++ 44 :: t')))

/-- The members of an object that is skipped. -/
inductive SkipMembers : Bytes → Prop where
  | one {t w' : Bytes} : SkipMember t → White w' → SkipMembers (t ++ w')
  | cons {t w' t' : Bytes} : SkipMember t → White w' → SkipMembers t' → SkipMembers (t ++ (w' ++ 44 :: t'))

/-- A member of an object that is skipped. -/
inductive SkipMember : Bytes → Prop where
  | mk {w1 s w2 w3 t : Bytes} : White w1 → SkipStr s → White w2 → White w3 → Skip t →
      SkipMember (w1 ++ 34 :: (s ++ 34 :: (w2 ++ 58 :: (w3 ++ t))))
end

/-! ## Soundness -/

theorem ignoreEscape_sound {b r : Bytes} (h : ignoreEscape b = some r) :
    ∃ t, b = t ++ r ∧ ∀ u, SkipStr u → SkipStr (92 :: (t ++ u)) := by
  cases b with
  | nil => cases h
  | cons c b =>
    rw [ignoreEscape] at h
    split at h
    · rename_i hc
      cases h
      refine ⟨[c], rfl, fun u hu => ?_⟩
      rcases hc with rfl | rfl | rfl | rfl | rfl | rfl | rfl | rfl
      · exact .short (c := 34) (by decide) hu
      · exact .short (c := 92) (by decide) hu
      · exact .short (c := 47) (by decide) hu
      · exact .short (c := 8) (by decide) hu
      · exact .short (c := 12) (by decide) hu
      · exact .short (c := 10) (by decide) hu
      · exact .short (c := 13) (by decide) hu
      · exact .short (c := 9) (by decide) hu
    · split at h
      · rename_i hc
        rw [Option.map_eq_some_iff] at h
        obtain ⟨⟨n, r'⟩, h1, rfl⟩ := h
        obtain ⟨t, ht, rfl⟩ := (hex4_iff _ _ _).mp h1
        refine ⟨c :: t, rfl, fun u hu => ?_⟩
        subst hc
        exact .code ht hu
      · cases h

theorem ignoreStr_sound : ∀ (n : Nat) (b r : Bytes), ignoreStr n b = some r → ∃ t, b = t ++ 34 :: r ∧ SkipStr t
  | 0, _, _, h => by simp [ignoreStr] at h
  | _ + 1, [], _, h => by simp [ignoreStr] at h
  | n + 1, c :: b, r, h => by
    rw [ignoreStr] at h
    split at h
    · rename_i hc
      cases h
      subst hc
      exact ⟨[], rfl, .nil⟩
    · rename_i hq
      split at h
      · rename_i hc
        subst hc
        simp only [Option.bind_eq_bind, Option.bind_eq_some_iff] at h
        obtain ⟨r1, h1, h2⟩ := h
        obtain ⟨t1, rfl, g1⟩ := ignoreEscape_sound h1
        obtain ⟨t2, rfl, g2⟩ := ignoreStr_sound n _ _ h2
        exact ⟨92 :: (t1 ++ t2), by simp [show ch '\\' = 92 from rfl], g1 _ g2⟩
      · rename_i hb
        split at h
        · cases h
        · rename_i hl
          obtain ⟨t2, rfl, g2⟩ := ignoreStr_sound n _ _ h
          exact ⟨c :: t2, rfl, .plain (by omega) hq hb g2⟩

theorem sound_skips : ∀ n,
    (∀ b r, ignoreValue n b = some r → ∃ w t, b = w ++ (t ++ r) ∧ White w ∧ Skip t) ∧
    (∀ f b r, ignoreElements n f b = some r → (∃ w, White w ∧ b = w ++ 93 :: r) ∨
      (f = true ∧ ∃ t, b = t ++ 93 :: r ∧ SkipElems t) ∨
      (f = false ∧ ∃ w t, White w ∧ b = w ++ 44 :: (t ++ 93 :: r) ∧ SkipElems t)) ∧
    (∀ f b r, ignoreMembers n f b = some r → (∃ w, White w ∧ b = w ++ 125 :: r) ∨
      (f = true ∧ ∃ t, b = t ++ 125 :: r ∧ SkipMembers t) ∨
      (f = false ∧ ∃ w t, White w ∧ b = w ++ 44 :: (t ++ 125 :: r) ∧ SkipMembers t)) ∧
    (∀ b r, ignoreMember n b = some r → ∃ t', SkipMember t' ∧
      ((∃ w', White w' ∧ b = t' ++ (w' ++ 125 :: r)) ∨
       (∃ w' u, White w' ∧ b = t' ++ (w' ++ 44 :: (u ++ 125 :: r)) ∧ SkipMembers u)))
  | 0 => ⟨fun _ _ h => by simp [ignoreValue] at h, fun _ _ _ h => by simp [ignoreElements] at h,
      fun _ _ _ h => by simp [ignoreMembers] at h, fun _ _ h => by simp [ignoreMember] at h⟩
  | n + 1 => by
    obtain ⟨iv, ie, im, ip⟩ := sound_skips n
    refine ⟨?_, ?_, ?_, ?_⟩
    · intro b r h
      rw [ignoreValue] at h
      obtain ⟨w, hb, hw⟩ := skipWs_spec b
      split at h
      · cases h
      · rename_i c r0 hs
        rw [hs] at hb
        split at h
        · rename_i hc
          rw [eat_iff] at h
          exact ⟨w, _, by rw [hb, hc, h]; rfl, hw, .null⟩
        split at h
        · rename_i hc
          rw [eat_iff] at h
          exact ⟨w, _, by rw [hb, hc, h]; rfl, hw, .true⟩
        split at h
        · rename_i hc
          rw [eat_iff] at h
          exact ⟨w, _, by rw [hb, hc, h]; rfl, hw, .false⟩
        split at h
        · obtain ⟨t, h2, h3⟩ := numEnd_sound h
          exact ⟨w, t, by rw [hb, h2], hw, .num h3⟩
        split at h
        · rename_i hc
          obtain ⟨t, h2, h3⟩ := ignoreStr_sound _ _ _ h
          refine ⟨w, 34 :: (t ++ [34]), ?_, hw, .str h3⟩
          rw [hb, hc, h2, show ch '"' = 34 from rfl]
          simp
        split at h
        · rename_i hc
          rcases ie _ _ _ h with ⟨w', hw', h2⟩ | ⟨-, t, h2, ht⟩ | ⟨h', -⟩
          · refine ⟨w, 91 :: (w' ++ [93]), ?_, hw, .arr0 hw'⟩
            rw [hb, hc, h2, show ch '[' = 91 from rfl]
            simp
          · refine ⟨w, 91 :: (t ++ [93]), ?_, hw, .arr ht⟩
            rw [hb, hc, h2, show ch '[' = 91 from rfl]
            simp
          · cases h'
        split at h
        · rename_i hc
          rcases im _ _ _ h with ⟨w', hw', h2⟩ | ⟨-, t, h2, ht⟩ | ⟨h', -⟩
          · refine ⟨w, 123 :: (w' ++ [125]), ?_, hw, .obj0 hw'⟩
            rw [hb, hc, h2, show ch '{' = 123 from rfl]
            simp
          · refine ⟨w, 123 :: (t ++ [125]), ?_, hw, .obj ht⟩
            rw [hb, hc, h2, show ch '{' = 123 from rfl]
            simp
          · cases h'
        · cases h
    · intro f b r h
      rw [ignoreElements] at h
      obtain ⟨w, hb, hw⟩ := skipWs_spec b
      split at h
      · cases h
      · rename_i c r0 hs
        rw [hs] at hb
        split at h
        · rename_i hc
          cases h
          exact .inl ⟨w, hw, by rw [hb, hc]; rfl⟩
        have hm : ∀ b', (ignoreValue n b').bind (ignoreElements n false) = some r → ∀ w0, White w0 →
            ∃ t, w0 ++ b' = t ++ 93 :: r ∧ SkipElems t := by
          intro b' h' w0 hw0
          rw [Option.bind_eq_some_iff] at h'
          obtain ⟨r1, h1, h2⟩ := h'
          obtain ⟨w1, t1, rfl, hw1, ht1⟩ := iv _ _ h1
          rcases ie _ _ _ h2 with ⟨w', hw', rfl⟩ | ⟨h', -⟩ | ⟨-, w', t', hw', rfl, h4⟩
          · exact ⟨_, by simp, .one (hw0.append hw1) ht1 hw'⟩
          · cases h'
          · exact ⟨_, by simp, .cons (hw0.append hw1) ht1 hw' h4⟩
        split at h
        · rename_i hf
          obtain ⟨t, h1, ht⟩ := hm _ h w hw
          exact .inr (.inl ⟨hf, t, by rw [hb, h1], ht⟩)
        split at h
        · rename_i hf hc
          obtain ⟨t, h1, ht⟩ := hm _ h [] White.nil
          refine .inr (.inr ⟨by simpa using hf, w, t, hw, ?_, ht⟩)
          rw [List.nil_append] at h1
          rw [hb, hc, h1]
          rfl
        · cases h
    · intro f b r h
      rw [ignoreMembers] at h
      obtain ⟨w, hb, hw⟩ := skipWs_spec b
      split at h
      · cases h
      · rename_i c r0 hs
        rw [hs] at hb
        split at h
        · rename_i hc
          cases h
          exact .inl ⟨w, hw, by rw [hb, hc]; rfl⟩
        have hm : ∀ b', ignoreMember n b' = some r → ∀ w0, White w0 →
            ∃ t, w0 ++ b' = t ++ 125 :: r ∧ SkipMembers t := by
          intro b' h' w0 hw0
          obtain ⟨t', hp, h2⟩ := ip _ _ h'
          have hp' : SkipMember (w0 ++ t') := by
            cases hp with
            | mk g1 g2 g3 g4 g5 =>
              rw [← List.append_assoc]
              exact .mk (hw0.append g1) g2 g3 g4 g5
          rcases h2 with ⟨w', hw', rfl⟩ | ⟨w', u, hw', rfl, hu⟩
          · exact ⟨_, by simp, .one hp' hw'⟩
          · exact ⟨_, by simp, .cons hp' hw' hu⟩
        split at h
        · rename_i hf
          obtain ⟨t, h1, ht⟩ := hm _ h w hw
          exact .inr (.inl ⟨hf, t, by rw [hb, h1], ht⟩)
        split at h
        · rename_i hf hc
          obtain ⟨t, h1, ht⟩ := hm _ h [] White.nil
          refine .inr (.inr ⟨by simpa using hf, w, t, hw, ?_, ht⟩)
          rw [List.nil_append] at h1
          rw [hb, hc, h1]
          rfl
        · cases h
    · intro b r h
      rw [ignoreMember] at h
      simp only [Option.bind_eq_some_iff] at h
      obtain ⟨r1, h1, r2, h2, r3, h3, r4, h4, h5⟩ := h
      obtain ⟨w1, hb, hw1⟩ := skipWs_spec b
      rw [eat_iff] at h1 h3
      obtain ⟨s, h2', hk⟩ := ignoreStr_sound _ _ _ h2
      obtain ⟨w2, hb2, hw2⟩ := skipWs_spec r2
      obtain ⟨w3, t, h4', hw3, ht⟩ := iv _ _ h4
      refine ⟨_, .mk hw1 hk hw2 hw3 ht, ?_⟩
      have e : b = (w1 ++ 34 :: (s ++ 34 :: (w2 ++ 58 :: (w3 ++ t)))) ++ r4 := by
        rw [hb, h1, h2', hb2, h3, h4']
        simp [show ch '"' = 34 from rfl, show ch ':' = 58 from rfl]
      rcases im _ _ _ h5 with ⟨w', hw', h3⟩ | ⟨h', -⟩ | ⟨-, w', t', hw', h3, h4⟩
      · exact .inl ⟨w', hw', by rw [e, h3]⟩
      · cases h'
      · exact .inr ⟨w', t', hw', by rw [e, h3], h4⟩

/-! ## Completeness -/

theorem ignoreEscape_short {e c : UInt8} (h : (e, c) ∈ shortEscapes) (r : Bytes) : ignoreEscape (e :: r) = some r := by
  rw [ignoreEscape, if_pos]
  simp only [shortEscapes, List.mem_cons, Prod.mk.injEq, List.not_mem_nil, or_false] at h
  rcases h with ⟨rfl, -⟩ | ⟨rfl, -⟩ | ⟨rfl, -⟩ | ⟨rfl, -⟩ | ⟨rfl, -⟩ | ⟨rfl, -⟩ | ⟨rfl, -⟩ | ⟨rfl, -⟩ <;> decide

theorem ignoreStr_esc {n : Nat} {t b : Bytes} (h : ignoreEscape (t ++ b) = some b) :
    ignoreStr (n + 1) (92 :: (t ++ b)) = ignoreStr n b := by
  rw [ignoreStr, if_neg (by decide), if_pos (by decide), h]
  rfl

theorem ignoreStr_complete {t : Bytes} (h : SkipStr t) : ∀ (n : Nat) (r : Bytes), t.length < n →
    ignoreStr n (t ++ 34 :: r) = some r := by
  induction h with
  | nil =>
    intro n r hn
    obtain ⟨n, rfl⟩ : ∃ m, n = m + 1 := ⟨n - 1, by simp at hn; omega⟩
    rw [List.nil_append, ignoreStr, if_pos (by decide)]
  | plain h1 h2 h3 _ ih =>
    intro n r hn
    simp only [List.length_cons] at hn
    obtain ⟨n, rfl⟩ : ∃ m, n = m + 1 := ⟨n - 1, by omega⟩
    rw [List.cons_append, ignoreStr, if_neg (show ¬ _ = ch '"' from h2), if_neg (show ¬ _ = ch '\\' from h3),
      if_neg (by omega)]
    exact ih n r (by omega)
  | @short e c t h1 _ ih =>
    intro n r hn
    simp only [List.length_cons] at hn
    obtain ⟨n, rfl⟩ : ∃ m, n = m + 1 := ⟨n - 1, by omega⟩
    have := ignoreStr_esc (n := n) (t := [e]) (b := t ++ 34 :: r) (ignoreEscape_short h1 _)
    rw [List.cons_append, List.cons_append]
    exact this.trans (ih n r (by omega))
  | @code h m t h1 _ ih =>
    intro n r hn
    simp only [List.length_cons, List.length_append] at hn
    obtain ⟨n, rfl⟩ : ∃ m, n = m + 1 := ⟨n - 1, by omega⟩
    have := ignoreStr_esc (n := n) (t := 117 :: h) (b := t ++ 34 :: r) (by
      rw [List.cons_append, ignoreEscape, if_neg (by decide), if_pos (by decide), (hex4_iff _ _ _).mpr ⟨h, h1, rfl⟩]
      rfl)
    rw [List.cons_append, List.cons_append, List.append_assoc]
    exact this.trans (ih n r (by omega))

theorem skip_cons {t : Bytes} (h : Skip t) : ∃ c u, t = c :: u ∧ isWs c = false ∧ c ≠ 93 ∧ c ≠ 125 := by
  cases h with
  | num h => exact doc_cons (inRange := fun _ => true) (.num 0 h rfl)
  | _ => exact ⟨_, _, rfl, by decide⟩

theorem ignore_num {n : Nat} {b r : Bytes} {c : UInt8} (h : skipWs b = c :: r)
    (hc : c = 45 ∨ (48 ≤ c.toNat ∧ c.toNat ≤ 57)) : ignoreValue (n + 1) b = numEnd (c :: r) := by
  have h1 : c ≠ ch 'n' ∧ c ≠ ch 't' ∧ c ≠ ch 'f' := by
    rcases hc with rfl | hc
    · decide
    · refine ⟨?_, ?_, ?_⟩ <;> (rintro rfl; revert hc; decide)
  rw [ignoreValue, h]
  dsimp only
  rw [if_neg h1.1, if_neg h1.2.1, if_neg h1.2.2, if_pos]
  rcases hc with rfl | hc
  · exact .inl rfl
  · exact .inr ((isDigit_iff c).mpr hc)

theorem ignore_null {n : Nat} {b r : Bytes} (h : skipWs b = 110 :: r) :
    ignoreValue (n + 1) b = eat [ch 'u', ch 'l', ch 'l'] r := by
  rw [ignoreValue, h]; rfl

theorem ignore_true {n : Nat} {b r : Bytes} (h : skipWs b = 116 :: r) :
    ignoreValue (n + 1) b = eat [ch 'r', ch 'u', ch 'e'] r := by
  rw [ignoreValue, h]; rfl

theorem ignore_false {n : Nat} {b r : Bytes} (h : skipWs b = 102 :: r) :
    ignoreValue (n + 1) b = eat [ch 'a', ch 'l', ch 's', ch 'e'] r := by
  rw [ignoreValue, h]; rfl

theorem ignore_str {n : Nat} {b r : Bytes} (h : skipWs b = 34 :: r) :
    ignoreValue (n + 1) b = ignoreStr (r.length + 1) r := by
  rw [ignoreValue, h]; rfl

theorem ignore_arr {n : Nat} {b r : Bytes} (h : skipWs b = 91 :: r) :
    ignoreValue (n + 1) b = ignoreElements n true r := by
  rw [ignoreValue, h]; rfl

theorem ignore_obj {n : Nat} {b r : Bytes} (h : skipWs b = 123 :: r) :
    ignoreValue (n + 1) b = ignoreMembers n true r := by
  rw [ignoreValue, h]; rfl

theorem ignore_skip (n : Nat) (b : Bytes) : ignoreValue n (skipWs b) = ignoreValue n b := by
  cases n with
  | zero => rfl
  | succ n => rw [ignoreValue, ignoreValue, skipWs_idem]

theorem ignoreMember_skip (n : Nat) (b : Bytes) : ignoreMember n (skipWs b) = ignoreMember n b := by
  cases n with
  | zero => rfl
  | succ n => rw [ignoreMember, ignoreMember, skipWs_idem]

theorem ignoreElements_end {n : Nat} {f : Bool} {b r : Bytes} (h : skipWs b = 93 :: r) :
    ignoreElements (n + 1) f b = some r := by
  rw [ignoreElements, h]; rfl

theorem ignoreMembers_end {n : Nat} {f : Bool} {b r : Bytes} (h : skipWs b = 125 :: r) :
    ignoreMembers (n + 1) f b = some r := by
  rw [ignoreMembers, h]; rfl

theorem ignoreElements_first {n : Nat} {b r : Bytes} {c : UInt8} (h : skipWs b = c :: r) (hc : c ≠ 93) :
    ignoreElements (n + 1) true b = (ignoreValue n b).bind (ignoreElements n false) := by
  rw [ignoreElements, h]
  dsimp only
  rw [if_neg (show ¬ c = ch ']' from hc), if_pos rfl, ← h, ignore_skip]

theorem ignoreElements_comma {n : Nat} {b r : Bytes} (h : skipWs b = 44 :: r) :
    ignoreElements (n + 1) false b = (ignoreValue n r).bind (ignoreElements n false) := by
  rw [ignoreElements, h]; rfl

theorem ignoreMembers_first {n : Nat} {b r : Bytes} {c : UInt8} (h : skipWs b = c :: r) (hc : c ≠ 125) :
    ignoreMembers (n + 1) true b = ignoreMember n b := by
  rw [ignoreMembers, h]
  dsimp only
  rw [if_neg (show ¬ c = ch '}' from hc), if_pos rfl, ← h, ignoreMember_skip]

theorem ignoreMembers_comma {n : Nat} {b r : Bytes} (h : skipWs b = 44 :: r) :
    ignoreMembers (n + 1) false b = ignoreMember n r := by
  rw [ignoreMembers, h]; rfl

theorem skipElems_head {t : Bytes} (h : SkipElems t) (r : Bytes) : ∃ c u, skipWs (t ++ r) = c :: u ∧ c ≠ 93 := by
  cases h with
  | one h1 h2 _ =>
    obtain ⟨c, u, rfl, hc, hc1, -⟩ := skip_cons h2
    exact ⟨c, _, by simp only [List.append_assoc, List.cons_append]; exact skipWs_head hc h1 _, hc1⟩
  | cons h1 h2 _ _ =>
    obtain ⟨c, u, rfl, hc, hc1, -⟩ := skip_cons h2
    exact ⟨c, _, by simp only [List.append_assoc, List.cons_append]; exact skipWs_head hc h1 _, hc1⟩

theorem skipMembers_head {t : Bytes} (h : SkipMembers t) (r : Bytes) : ∃ c u, skipWs (t ++ r) = c :: u ∧ c ≠ 125 := by
  cases h with
  | one h1 _ =>
    cases h1 with
    | mk g1 _ _ _ _ =>
      exact ⟨34, _, by simp only [List.append_assoc, List.cons_append]; exact skipWs_head (by decide) g1 _, by decide⟩
  | cons h1 _ _ =>
    cases h1 with
    | mk g1 _ _ _ _ =>
      exact ⟨34, _, by simp only [List.append_assoc, List.cons_append]; exact skipWs_head (by decide) g1 _, by decide⟩

theorem complete_skips (n : Nat) :
    (∀ t, Skip t → ∀ (w r : Bytes), White w → Ends r → 2 * (w ++ (t ++ r)).length < n →
      ignoreValue n (w ++ (t ++ r)) = some r) ∧
    (∀ t, SkipElems t → ∀ (r : Bytes), 2 * (t ++ 93 :: r).length < n →
      (ignoreValue n (t ++ 93 :: r)).bind (ignoreElements n false) = some r) ∧
    (∀ t, SkipMembers t → ∀ (r : Bytes), 2 * (t ++ 125 :: r).length < n →
      ignoreMember n (t ++ 125 :: r) = some r) := by
  induction n using Nat.strong_induction_on with
  | _ n ih =>
  have hdoc : ∀ t, Skip t → ∀ (w r : Bytes), White w → Ends r → 2 * (w ++ (t ++ r)).length < n →
      ignoreValue n (w ++ (t ++ r)) = some r := by
   intro t h w r hw hr hn
   obtain ⟨n, rfl⟩ : ∃ m, n = m + 1 := ⟨n - 1, by omega⟩
   cases h with
   | null =>
      simp only [List.cons_append, List.nil_append]
      rw [ignore_null (skipWs_head (by decide) hw _)]; rfl
   | true =>
      simp only [List.cons_append, List.nil_append]
      rw [ignore_true (skipWs_head (by decide) hw _)]; rfl
   | false =>
      simp only [List.cons_append, List.nil_append]
      rw [ignore_false (skipWs_head (by decide) hw _)]; rfl
   | num h1 =>
     obtain ⟨c, u, rfl, hc⟩ := h1.cons
     have hws : isWs c = false := by
       rcases hc with rfl | hc
       · decide
       · rw [Bool.eq_false_iff, Ne, isWs_iff]
         rintro (rfl | rfl | rfl | rfl) <;> revert hc <;> decide
     rw [List.cons_append]
     rw [ignore_num (skipWs_head hws hw _) hc]
     exact numEnd_complete h1 hr.delim
   | str h1 =>
     rw [List.cons_append]
     rw [ignore_str (skipWs_head (by decide) hw _)]
     rw [List.append_assoc, List.singleton_append]
     exact ignoreStr_complete h1 _ _ (by simp only [List.length_append, List.length_cons]; omega)
   | arr0 h1 =>
     simp only [List.length_append, List.length_cons] at hn
     obtain ⟨n, rfl⟩ : ∃ m, n = m + 1 := ⟨n - 1, by omega⟩
     rw [List.cons_append]
     rw [ignore_arr (skipWs_head (by decide) hw _)]
     rw [List.append_assoc, List.singleton_append, ignoreElements_end (skipWs_head (by decide) h1 _)]
   | arr h1 =>
     simp only [List.length_append, List.length_cons, List.length_nil] at hn
     obtain ⟨n, rfl⟩ : ∃ m, n = m + 1 := ⟨n - 1, by omega⟩
     rw [List.cons_append]
     rw [ignore_arr (skipWs_head (by decide) hw _)]
     rw [List.append_assoc, List.singleton_append]
     have hc := (ih n (by omega)).2.1 _ h1 r (by simp only [List.length_append, List.length_cons]; omega)
     obtain ⟨c, u, hcu, hc1⟩ := skipElems_head h1 (93 :: r)
     rw [ignoreElements_first hcu hc1, hc]
   | obj0 h1 =>
     simp only [List.length_append, List.length_cons] at hn
     obtain ⟨n, rfl⟩ : ∃ m, n = m + 1 := ⟨n - 1, by omega⟩
     rw [List.cons_append]
     rw [ignore_obj (skipWs_head (by decide) hw _)]
     rw [List.append_assoc, List.singleton_append, ignoreMembers_end (skipWs_head (by decide) h1 _)]
   | obj h1 =>
     simp only [List.length_append, List.length_cons, List.length_nil] at hn
     obtain ⟨n, rfl⟩ : ∃ m, n = m + 1 := ⟨n - 1, by omega⟩
     rw [List.cons_append]
     rw [ignore_obj (skipWs_head (by decide) hw _)]
     rw [List.append_assoc, List.singleton_append]
     have hc := (ih n (by omega)).2.2 _ h1 r (by simp only [List.length_append, List.length_cons]; omega)
     obtain ⟨c, u, hcu, hc1⟩ := skipMembers_head h1 (125 :: r)
     rw [ignoreMembers_first hcu hc1, hc]
  refine ⟨hdoc, ?_, ?_⟩
  · intro t h r hn
    cases h with
    | one h1 h2 h3 =>
      simp only [List.append_assoc] at hn ⊢
      rw [hdoc _ h2 _ _ h1 (Ends.white h3 (by simp) r) hn]
      obtain ⟨n, rfl⟩ : ∃ m, n = m + 1 := ⟨n - 1, by omega⟩
      simp only [Option.bind_some]
      rw [ignoreElements_end (skipWs_head (by decide) h3 _)]
    | cons h1 h2 h3 h4 =>
      simp only [List.append_assoc, List.cons_append] at hn ⊢
      rw [hdoc _ h2 _ _ h1 (Ends.white h3 (by simp) _) hn]
      simp only [List.length_append, List.length_cons] at hn
      obtain ⟨n, rfl⟩ : ∃ m, n = m + 1 := ⟨n - 1, by omega⟩
      simp only [Option.bind_some]
      rw [ignoreElements_comma (skipWs_head (by decide) h3 _)]
      exact (ih n (by omega)).2.1 _ h4 r (by simp only [List.length_append, List.length_cons]; omega)
  · intro t h r hn
    cases h with
    | one h1 h2 =>
      cases h1 with
      | mk g1 g2 g3 g4 g5 =>
        simp only [List.append_assoc, List.cons_append] at hn ⊢
        simp only [List.length_append, List.length_cons] at hn
        obtain ⟨n, rfl⟩ : ∃ m, n = m + 2 := ⟨n - 2, by omega⟩
        rw [ignoreMember, skipWs_head (by decide) g1]
        simp only [show ∀ b : Bytes, eat [ch '"'] (34 :: b) = some b from fun _ => rfl, Option.bind_some]
        rw [ignoreStr_complete g2 _ _ (by simp only [List.length_append, List.length_cons]; omega)]
        simp only [Option.bind_some]
        rw [skipWs_head (by decide) g3]
        simp only [show ∀ b : Bytes, eat [ch ':'] (58 :: b) = some b from fun _ => rfl, Option.bind_some]
        rw [(ih (n + 1) (by omega)).1 _ g5 _ _ g4 (Ends.white h2 (by simp) _)
          (by simp only [List.length_append, List.length_cons]; omega)]
        simp only [Option.bind_some]
        rw [ignoreMembers_end (skipWs_head (by decide) h2 _)]
    | cons h1 h2 h3 =>
      cases h1 with
      | mk g1 g2 g3 g4 g5 =>
        simp only [List.append_assoc, List.cons_append] at hn ⊢
        simp only [List.length_append, List.length_cons] at hn
        obtain ⟨n, rfl⟩ : ∃ m, n = m + 2 := ⟨n - 2, by omega⟩
        rw [ignoreMember, skipWs_head (by decide) g1]
        simp only [show ∀ b : Bytes, eat [ch '"'] (34 :: b) = some b from fun _ => rfl, Option.bind_some]
        rw [ignoreStr_complete g2 _ _ (by simp only [List.length_append, List.length_cons]; omega)]
        simp only [Option.bind_some]
        rw [skipWs_head (by decide) g3]
        simp only [show ∀ b : Bytes, eat [ch ':'] (58 :: b) = some b from fun _ => rfl, Option.bind_some]
        rw [(ih (n + 1) (by omega)).1 _ g5 _ _ g4 (Ends.white h2 (by simp) _)
          (by simp only [List.length_append, List.length_cons]; omega)]
        simp only [Option.bind_some]
        rw [ignoreMembers_comma (skipWs_head (by decide) h2 _)]
        exact (ih n (by omega)).2.2 _ h3 r (by simp only [List.length_append, List.length_cons]; omega)

end Verif.Json
