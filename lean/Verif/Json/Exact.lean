import Verif.Json.Parser
/-!
# The parser accepts exactly the grammar: values

Lemmas for C116.
-/

namespace Verif.Json

variable {inRange : Bytes → Bool}

/-! ## Soundness -/

theorem sound_more {k n d : Nat} {b r1 : Bytes} {v : Value} {w t : Bytes} {l : List Value} {r : Bytes}
    (hb : b = w ++ (t ++ r1)) (hw : White w) (ht : Doc inRange k t v)
    (h : (∃ w', White w' ∧ r1 = w' ++ 93 :: r ∧ l = []) ∨
      (∃ w' t', White w' ∧ r1 = w' ++ 44 :: (t' ++ 93 :: r) ∧ Elems inRange k t' l)) :
    ∃ t, b = t ++ 93 :: r ∧ Elems inRange k t (v :: l) := by
  rcases h with ⟨w', hw', rfl, rfl⟩ | ⟨w', t', hw', rfl, hl⟩
  · exact ⟨_, by rw [hb]; simp, .one hw ht hw'⟩
  · exact ⟨_, by rw [hb]; simp, .cons hw ht hw' hl⟩

theorem sound_values (inRange : Bytes → Bool) : ∀ n,
    (∀ d b v r, value inRange n d b = some (v, r) →
      ∃ w t, b = w ++ (t ++ r) ∧ White w ∧ Doc inRange (d - 1) t v) ∧
    (∀ d f b l r, elements inRange n d f b = some (l, r) → (∃ w, White w ∧ b = w ++ 93 :: r ∧ l = []) ∨
      (f = true ∧ ∃ t, b = t ++ 93 :: r ∧ Elems inRange (d - 1) t l) ∨
      (f = false ∧ ∃ w t, White w ∧ b = w ++ 44 :: (t ++ 93 :: r) ∧ Elems inRange (d - 1) t l)) ∧
    (∀ d f b l r, members inRange n d f b = some (l, r) → (∃ w, White w ∧ b = w ++ 125 :: r ∧ l = []) ∨
      (f = true ∧ ∃ t, b = t ++ 125 :: r ∧ Members inRange (d - 1) t l) ∨
      (f = false ∧ ∃ w t, White w ∧ b = w ++ 44 :: (t ++ 125 :: r) ∧ Members inRange (d - 1) t l)) ∧
    (∀ d b l r, member inRange n d b = some (l, r) → ∃ w p t' l', White w ∧ Member inRange (d - 1) t' p ∧ l = p :: l' ∧
      ((∃ w', White w' ∧ b = t' ++ (w' ++ 125 :: r) ∧ l' = []) ∨
       (∃ w' u, White w' ∧ b = t' ++ (w' ++ 44 :: (u ++ 125 :: r)) ∧ Members inRange (d - 1) u l')))
  | 0 => ⟨fun _ _ _ _ h => by simp [value] at h, fun _ _ _ _ _ h => by simp [elements] at h,
      fun _ _ _ _ _ h => by simp [members] at h, fun _ _ _ _ h => by simp [member] at h⟩
  | n + 1 => by
    obtain ⟨iv, ie, im, ip⟩ := sound_values inRange n
    refine ⟨?_, ?_, ?_, ?_⟩
    · intro d b v r h
      rw [value] at h
      obtain ⟨w, hb, hw⟩ := skipWs_spec b
      split at h
      · cases h
      · rename_i c r0 hs
        rw [hs] at hb
        split at h
        · rename_i hc
          simp only [Option.map_eq_some_iff, Prod.mk.injEq] at h
          obtain ⟨r', h1, rfl, rfl⟩ := h
          rw [eat_iff] at h1
          exact ⟨w, _, by rw [hb, hc, h1]; rfl, hw, .null _⟩
        split at h
        · rename_i hc
          simp only [Option.map_eq_some_iff, Prod.mk.injEq] at h
          obtain ⟨r', h1, rfl, rfl⟩ := h
          rw [eat_iff] at h1
          exact ⟨w, _, by rw [hb, hc, h1]; rfl, hw, .true _⟩
        split at h
        · rename_i hc
          simp only [Option.map_eq_some_iff, Prod.mk.injEq] at h
          obtain ⟨r', h1, rfl, rfl⟩ := h
          rw [eat_iff] at h1
          exact ⟨w, _, by rw [hb, hc, h1]; rfl, hw, .false _⟩
        split at h
        · rw [Option.bind_eq_some_iff] at h
          obtain ⟨⟨t, r'⟩, h1, h⟩ := h
          obtain ⟨h2, h3⟩ := number_sound h1
          split at h
          · rename_i hi
            cases h
            exact ⟨w, t, by rw [hb, h2], hw, .num _ h3 hi⟩
          · cases h
        split at h
        · rename_i hc
          simp only [Option.map_eq_some_iff, Prod.mk.injEq] at h
          obtain ⟨⟨s, r'⟩, h1, rfl, rfl⟩ := h
          obtain ⟨t, u, h2, rfl, h3⟩ := parseStr_sound h1
          refine ⟨w, 34 :: (t ++ [34]), ?_, hw, .str _ h3⟩
          rw [hb, hc, h2, show ch '"' = 34 from rfl]
          simp
        split at h
        · rename_i hc
          split at h
          · cases h
          · rename_i hd
            simp only [Option.map_eq_some_iff, Prod.mk.injEq] at h
            obtain ⟨⟨l, r'⟩, h1, rfl, rfl⟩ := h
            obtain ⟨k, rfl⟩ : ∃ k, d = k + 2 := ⟨d - 2, by omega⟩
            rcases ie _ _ _ _ _ h1 with ⟨w', hw', h2, rfl⟩ | ⟨-, t, h2, ht⟩ | ⟨h', -⟩
            · refine ⟨w, 91 :: (w' ++ [93]), ?_, hw, .arr0 k hw'⟩
              rw [hb, hc, h2, show ch '[' = 91 from rfl]
              simp
            · refine ⟨w, 91 :: (t ++ [93]), ?_, hw, .arr ht⟩
              rw [hb, hc, h2, show ch '[' = 91 from rfl]
              simp
            · cases h'
        split at h
        · rename_i hc
          split at h
          · cases h
          · rename_i hd
            simp only [Option.map_eq_some_iff, Prod.mk.injEq] at h
            obtain ⟨⟨l, r'⟩, h1, rfl, rfl⟩ := h
            obtain ⟨k, rfl⟩ : ∃ k, d = k + 2 := ⟨d - 2, by omega⟩
            rcases im _ _ _ _ _ h1 with ⟨w', hw', h2, rfl⟩ | ⟨-, t, h2, ht⟩ | ⟨h', -⟩
            · refine ⟨w, 123 :: (w' ++ [125]), ?_, hw, .obj0 k hw'⟩
              rw [hb, hc, h2, show ch '{' = 123 from rfl]
              simp
            · refine ⟨w, 123 :: (t ++ [125]), ?_, hw, .obj ht⟩
              rw [hb, hc, h2, show ch '{' = 123 from rfl]
              simp
            · cases h'
        · cases h
    · intro d f b l r h
      rw [elements] at h
      obtain ⟨w, hb, hw⟩ := skipWs_spec b
      split at h
      · cases h
      · rename_i c r0 hs
        rw [hs] at hb
        split at h
        · rename_i hc
          cases h
          exact .inl ⟨w, hw, by rw [hb, hc]; rfl, rfl⟩
        have hm : ∀ b', (value inRange n d b').bind (fun p =>
            (elements inRange n d false p.2).map (fun q => (p.1 :: q.1, q.2))) = some (l, r) →
            ∃ t, b' = t ++ 93 :: r ∧ Elems inRange (d - 1) t l := by
          intro b' h'
          simp only [Option.bind_eq_some_iff, Option.map_eq_some_iff, Prod.mk.injEq] at h'
          obtain ⟨⟨v, r1⟩, h1, ⟨l', r2⟩, h2, rfl, rfl⟩ := h'
          obtain ⟨w1, t1, g1, hw1, ht1⟩ := iv _ _ _ _ h1
          refine sound_more (n := n) (d := d) g1 hw1 ht1 ?_
          rcases ie _ _ _ _ _ h2 with ⟨w', hw', h3, h4⟩ | ⟨h', -⟩ | ⟨-, w', t', hw', h3, h4⟩
          · exact .inl ⟨w', hw', h3, h4⟩
          · cases h'
          · exact .inr ⟨w', t', hw', h3, h4⟩
        split at h
        · rename_i hf
          obtain ⟨t, h1, ht⟩ := hm _ h
          refine .inr (.inl ⟨hf, w ++ t, by rw [hb, h1]; simp, ?_⟩)
          cases ht with
          | one g1 g2 g3 =>
            rw [← List.append_assoc]
            exact .one (hw.append g1) g2 g3
          | cons g1 g2 g3 g4 =>
            rw [← List.append_assoc]
            exact .cons (hw.append g1) g2 g3 g4
        split at h
        · rename_i hf hc
          obtain ⟨t, h1, ht⟩ := hm _ h
          refine .inr (.inr ⟨by simpa using hf, w, t, hw, ?_, ht⟩)
          rw [hb, hc, h1]
          rfl
        · cases h
    · intro d f b l r h
      rw [members] at h
      obtain ⟨w, hb, hw⟩ := skipWs_spec b
      split at h
      · cases h
      · rename_i c r0 hs
        rw [hs] at hb
        split at h
        · rename_i hc
          cases h
          exact .inl ⟨w, hw, by rw [hb, hc]; rfl, rfl⟩
        have hm : ∀ b', member inRange n d b' = some (l, r) → ∀ w0, White w0 →
            ∃ t, w0 ++ b' = t ++ 125 :: r ∧ Members inRange (d - 1) t l := by
          intro b' h' w0 hw0
          obtain ⟨-, p, t', l', -, hp, rfl, h2⟩ := ip _ _ _ _ h'
          have hp' : Member inRange (d - 1) (w0 ++ t') p := by
            cases hp with
            | mk g1 g2 g3 g4 g5 =>
              rw [← List.append_assoc]
              exact .mk (hw0.append g1) g2 g3 g4 g5
          rcases h2 with ⟨w', hw', rfl, rfl⟩ | ⟨w', u, hw', rfl, hu⟩
          · exact ⟨_, by simp, .one hp' hw'⟩
          · exact ⟨_, by simp, .cons hp' hw' hu⟩
        split at h
        · rename_i hf
          obtain ⟨t, h1, ht⟩ := hm _ h w hw
          exact .inr (.inl ⟨hf, t, by rw [hb, h1], ht⟩)
        split at h
        · rename_i hf hc
          obtain ⟨t, h1, ht⟩ := hm _ h [] White.nil
          refine .inr (.inr ⟨by simpa using hf, w, t, hw, ?_, ht⟩)
          rw [List.nil_append] at h1
          rw [hb, hc, h1]
          rfl
        · cases h
    · intro d b l r h
      rw [member] at h
      simp only [Option.bind_eq_some_iff, Option.map_eq_some_iff, Prod.mk.injEq] at h
      obtain ⟨r1, h1, ⟨k, r2⟩, h2, r3, h3, ⟨v, r4⟩, h4, ⟨l', r5⟩, h5, rfl, rfl⟩ := h
      obtain ⟨w1, hb, hw1⟩ := skipWs_spec b
      rw [eat_iff] at h1 h3
      obtain ⟨s, key, h2', rfl, hk⟩ := parseStr_sound h2
      obtain ⟨w2, hb2, hw2⟩ := skipWs_spec r2
      dsimp only at h3 h4 h5
      obtain ⟨w3, t, h4', hw3, ht⟩ := iv _ _ _ _ h4
      refine ⟨[], (utf8Encode key, v), _, l', White.nil, .mk hw1 hk hw2 hw3 ht, rfl, ?_⟩
      have e : b = (w1 ++ 34 :: (s ++ 34 :: (w2 ++ 58 :: (w3 ++ t)))) ++ r4 := by
        rw [hb, h1, h2', hb2, h3, h4']
        simp [show ch '"' = 34 from rfl, show ch ':' = 58 from rfl]
      rcases im _ _ _ _ _ h5 with ⟨w', hw', h3, h4⟩ | ⟨h', -⟩ | ⟨-, w', t', hw', h3, h4⟩
      · exact .inl ⟨w', hw', by rw [e, h3], h4⟩
      · cases h'
      · exact .inr ⟨w', t', hw', by rw [e, h3], h4⟩

/-! ## Completeness -/

theorem skipWs_head {c : UInt8} (hc : isWs c = false) {w : Bytes} (hw : White w) (r : Bytes) :
    skipWs (w ++ c :: r) = c :: r := by rw [skipWs_white hw, skipWs_cons hc]

/-- What may follow a value: nothing, white space, a comma, or the end of a list or object. -/
def Ends (r : Bytes) : Prop := ∀ c ∈ r.head?, c = 32 ∨ c = 10 ∨ c = 9 ∨ c = 13 ∨ c = 44 ∨ c = 93 ∨ c = 125

theorem Ends.delim {r : Bytes} (h : Ends r) : Delim r := by
  intro c hc
  rcases h c hc with rfl | rfl | rfl | rfl | rfl | rfl | rfl <;> decide

theorem Ends.white {w : Bytes} (hw : White w) {c : UInt8} (hc : c = 44 ∨ c = 93 ∨ c = 125) (r : Bytes) :
    Ends (w ++ c :: r) := by
  intro x hx
  cases w with
  | nil =>
    simp only [List.nil_append, List.head?_cons, Option.mem_def, Option.some.injEq] at hx
    subst hx
    rcases hc with rfl | rfl | rfl <;> simp
  | cons y w =>
    simp only [List.cons_append, List.head?_cons, Option.mem_def, Option.some.injEq] at hx
    subst hx
    rcases hw y (by simp) with rfl | rfl | rfl | rfl <;> simp

theorem NumText.cons {t : Bytes} (h : NumText t) : ∃ c u, t = c :: u ∧ (c = 45 ∨ (48 ≤ c.toNat ∧ c.toNat ≤ 57)) := by
  obtain ⟨g, i, f, e, rfl, hg, hi, -, -⟩ := h
  rcases hg with rfl | rfl
  · obtain ⟨c, u, rfl, hc⟩ := hi.cons
    exact ⟨c, _, rfl, .inr hc⟩
  · exact ⟨45, _, rfl, .inl rfl⟩

theorem not_digit {c : UInt8} (h : isDigit c = false) : ¬ (48 ≤ c.toNat ∧ c.toNat ≤ 57) := by
  rw [← isDigit_iff, h]
  simp

/-- The first byte of a value. -/
theorem doc_cons {k : Nat} {t : Bytes} {v : Value} (h : Doc inRange k t v) :
    ∃ c u, t = c :: u ∧ isWs c = false ∧ c ≠ 93 ∧ c ≠ 125 := by
  cases h with
  | null => exact ⟨_, _, rfl, by decide⟩
  | true => exact ⟨_, _, rfl, by decide⟩
  | false => exact ⟨_, _, rfl, by decide⟩
  | num _ h _ =>
    obtain ⟨c, u, rfl, hc⟩ := h.cons
    refine ⟨c, u, rfl, ?_⟩
    rcases hc with rfl | hc
    · decide
    · refine ⟨?_, ?_, ?_⟩
      · rw [Bool.eq_false_iff, Ne, isWs_iff]
        rintro (rfl | rfl | rfl | rfl) <;> revert hc <;> decide
      · rintro rfl; revert hc; decide
      · rintro rfl; revert hc; decide
  | str => exact ⟨_, _, rfl, by decide⟩
  | arr0 => exact ⟨_, _, rfl, by decide⟩
  | arr => exact ⟨_, _, rfl, by decide⟩
  | obj0 => exact ⟨_, _, rfl, by decide⟩
  | obj => exact ⟨_, _, rfl, by decide⟩

theorem value_num {n d : Nat} {b r : Bytes} {c : UInt8} (h : skipWs b = c :: r)
    (hc : c = 45 ∨ (48 ≤ c.toNat ∧ c.toNat ≤ 57)) : value inRange (n + 1) d b =
      (number (c :: r)).bind (fun p => if inRange p.1 then some (.num p.1, p.2) else none) := by
  have h1 : c ≠ ch 'n' ∧ c ≠ ch 't' ∧ c ≠ ch 'f' := by
    rcases hc with rfl | hc
    · decide
    · refine ⟨?_, ?_, ?_⟩ <;> (rintro rfl; revert hc; decide)
  rw [value, h]
  dsimp only
  rw [if_neg h1.1, if_neg h1.2.1, if_neg h1.2.2, if_pos]
  rcases hc with rfl | hc
  · exact .inl rfl
  · exact .inr ((isDigit_iff c).mpr hc)

theorem value_null {n d : Nat} {b r : Bytes} (h : skipWs b = 110 :: r) :
    value inRange (n + 1) d b = (eat [ch 'u', ch 'l', ch 'l'] r).map (fun r => (.null, r)) := by
  rw [value, h]; rfl

theorem value_true {n d : Nat} {b r : Bytes} (h : skipWs b = 116 :: r) :
    value inRange (n + 1) d b = (eat [ch 'r', ch 'u', ch 'e'] r).map (fun r => (.bool true, r)) := by
  rw [value, h]; rfl

theorem value_false {n d : Nat} {b r : Bytes} (h : skipWs b = 102 :: r) :
    value inRange (n + 1) d b = (eat [ch 'a', ch 'l', ch 's', ch 'e'] r).map (fun r => (.bool false, r)) := by
  rw [value, h]; rfl

theorem value_str {n d : Nat} {b r : Bytes} (h : skipWs b = 34 :: r) :
    value inRange (n + 1) d b = (parseStr r).map (fun p => (.str p.1, p.2)) := by
  rw [value, h]; rfl

theorem value_arr {n d : Nat} {b r : Bytes} (h : skipWs b = 91 :: r) :
    value inRange (n + 1) (d + 2) b = (elements inRange n (d + 1) true r).map (fun p => (.arr p.1, p.2)) := by
  rw [value, h]; rfl

theorem value_obj {n d : Nat} {b r : Bytes} (h : skipWs b = 123 :: r) :
    value inRange (n + 1) (d + 2) b = (members inRange n (d + 1) true r).map (fun p => (.obj p.1, p.2)) := by
  rw [value, h]; rfl

theorem value_skip (n d : Nat) (b : Bytes) : value inRange n d (skipWs b) = value inRange n d b := by
  cases n with
  | zero => simp [value]
  | succ n => rw [value, value, skipWs_idem]

theorem member_skip (n d : Nat) (b : Bytes) : member inRange n d (skipWs b) = member inRange n d b := by
  cases n with
  | zero => simp [member]
  | succ n => rw [member, member, skipWs_idem]

theorem elements_end {n d : Nat} {f : Bool} {b r : Bytes} (h : skipWs b = 93 :: r) :
    elements inRange (n + 1) d f b = some ([], r) := by
  rw [elements, h]; rfl

theorem members_end {n d : Nat} {f : Bool} {b r : Bytes} (h : skipWs b = 125 :: r) :
    members inRange (n + 1) d f b = some ([], r) := by
  rw [members, h]; rfl

theorem elements_first {n d : Nat} {b r : Bytes} {c : UInt8} (h : skipWs b = c :: r) (hc : c ≠ 93) :
    elements inRange (n + 1) d true b = (value inRange n d b).bind (fun p =>
          (elements inRange n d false p.2).map (fun q => (p.1 :: q.1, q.2))) := by
  rw [elements, h]
  dsimp only
  rw [if_neg (show ¬ c = ch ']' from hc), if_pos rfl, ← h, value_skip]

theorem elements_comma {n d : Nat} {b r : Bytes} (h : skipWs b = 44 :: r) :
    elements inRange (n + 1) d false b = (value inRange n d r).bind (fun p =>
          (elements inRange n d false p.2).map (fun q => (p.1 :: q.1, q.2))) := by
  rw [elements, h]; rfl

theorem members_first {n d : Nat} {b r : Bytes} {c : UInt8} (h : skipWs b = c :: r) (hc : c ≠ 125) :
    members inRange (n + 1) d true b = member inRange n d b := by
  rw [members, h]
  dsimp only
  rw [if_neg (show ¬ c = ch '}' from hc), if_pos rfl, ← h, member_skip]

theorem members_comma {n d : Nat} {b r : Bytes} (h : skipWs b = 44 :: r) :
    members inRange (n + 1) d false b = member inRange n d r := by
  rw [members, h]; rfl

theorem elems_head {k : Nat} {t : Bytes} {l : List Value} (h : Elems inRange k t l) (r : Bytes) :
    ∃ c u, skipWs (t ++ r) = c :: u ∧ c ≠ 93 := by
  cases h with
  | one h1 h2 h3 =>
    obtain ⟨c, u, rfl, hc, hc', -⟩ := doc_cons h2
    simp only [List.append_assoc, List.cons_append]
    exact ⟨c, _, skipWs_head hc h1 _, hc'⟩
  | cons h1 h2 h3 h4 =>
    obtain ⟨c, u, rfl, hc, hc', -⟩ := doc_cons h2
    simp only [List.append_assoc, List.cons_append]
    exact ⟨c, _, skipWs_head hc h1 _, hc'⟩

theorem members_head {k : Nat} {t : Bytes} {l : List (Bytes × Value)} (h : Members inRange k t l) (r : Bytes) :
    ∃ c u, skipWs (t ++ r) = c :: u ∧ c ≠ 125 := by
  have hm : ∀ {t p}, Member inRange k t p → ∀ r, ∃ c u, skipWs (t ++ r) = c :: u ∧ c ≠ 125 := by
    intro t p hp r
    cases hp with
    | mk g1 g2 g3 g4 g5 =>
      simp only [List.append_assoc, List.cons_append]
      exact ⟨34, _, skipWs_head (by decide) g1 _, by decide⟩
  cases h with
  | one h1 h2 =>
    rw [List.append_assoc]
    exact hm h1 _
  | cons h1 h2 h3 =>
    rw [List.append_assoc]
    exact hm h1 _

theorem complete_all (inRange : Bytes → Bool) (n : Nat) :
    (∀ k t v, Doc inRange k t v → ∀ (d : Nat) (w r : Bytes), k < d →
      White w → Ends r → 2 * (w ++ (t ++ r)).length < n → value inRange n d (w ++ (t ++ r)) = some (v, r)) ∧
    (∀ k t l, Elems inRange k t l → ∀ (d : Nat) (r : Bytes), k < d → 2 * (t ++ 93 :: r).length < n →
      (value inRange n d (t ++ 93 :: r)).bind (fun p =>
        (elements inRange n d false p.2).map (fun q => (p.1 :: q.1, q.2))) = some (l, r)) ∧
    (∀ k t l, Members inRange k t l → ∀ (d : Nat) (r : Bytes), k < d → 2 * (t ++ 125 :: r).length < n →
      member inRange n d (t ++ 125 :: r) = some (l, r)) := by
  induction n using Nat.strong_induction_on with
  | _ n ih =>
  have hdoc : ∀ k t v, Doc inRange k t v → ∀ (d : Nat) (w r : Bytes), k < d → White w → Ends r →
      2 * (w ++ (t ++ r)).length < n → value inRange n d (w ++ (t ++ r)) = some (v, r) := by
   intro k t v h d w r hd hw hr hn
   obtain ⟨n, rfl⟩ : ∃ m, n = m + 1 := ⟨n - 1, by omega⟩
   cases h with
   | null =>
      simp only [List.cons_append, List.nil_append]
      rw [value_null (skipWs_head (by decide) hw _)]; rfl
   | true =>
      simp only [List.cons_append, List.nil_append]
      rw [value_true (skipWs_head (by decide) hw _)]; rfl
   | false =>
      simp only [List.cons_append, List.nil_append]
      rw [value_false (skipWs_head (by decide) hw _)]; rfl
   | num _ h1 h2 =>
     obtain ⟨c, u, rfl, hc⟩ := h1.cons
     have hws : isWs c = false := by
       rcases hc with rfl | hc
       · decide
       · rw [Bool.eq_false_iff, Ne, isWs_iff]
         rintro (rfl | rfl | rfl | rfl) <;> revert hc <;> decide
     rw [List.cons_append]
     rw [value_num (skipWs_head hws hw _) hc]
     have := number_complete h1 hr.delim
     rw [List.cons_append] at this
     rw [this]
     simp [h2]
   | str _ h1 =>
     rw [List.cons_append]
     rw [value_str (skipWs_head (by decide) hw _)]
     rw [List.append_assoc, List.singleton_append, parseStr_complete h1]
     rfl
   | arr0 k h1 =>
     obtain ⟨d, rfl⟩ : ∃ e, d = e + 2 := ⟨d - 2, by omega⟩
     simp only [List.length_append, List.length_cons] at hn
     obtain ⟨n, rfl⟩ : ∃ m, n = m + 1 := ⟨n - 1, by omega⟩
     rw [List.cons_append]
     rw [value_arr (skipWs_head (by decide) hw _)]
     rw [List.append_assoc, List.singleton_append, elements_end (skipWs_head (by decide) h1 _)]
     rfl
   | arr h1 =>
     obtain ⟨d, rfl⟩ : ∃ e, d = e + 2 := ⟨d - 2, by omega⟩
     simp only [List.length_append, List.length_cons, List.length_nil] at hn
     obtain ⟨n, rfl⟩ : ∃ m, n = m + 1 := ⟨n - 1, by omega⟩
     rw [List.cons_append]
     rw [value_arr (skipWs_head (by decide) hw _)]
     rw [List.append_assoc, List.singleton_append]
     have hc := (ih n (by omega)).2.1 _ _ _ h1 (d + 1) r (by omega) (by simp only [List.length_append, List.length_cons]; omega)
     obtain ⟨c, u, hcu, hc1⟩ := elems_head h1 (93 :: r)
     rw [elements_first hcu hc1, hc]
     rfl
   | obj0 k h1 =>
     obtain ⟨d, rfl⟩ : ∃ e, d = e + 2 := ⟨d - 2, by omega⟩
     simp only [List.length_append, List.length_cons] at hn
     obtain ⟨n, rfl⟩ : ∃ m, n = m + 1 := ⟨n - 1, by omega⟩
     rw [List.cons_append]
     rw [value_obj (skipWs_head (by decide) hw _)]
     rw [List.append_assoc, List.singleton_append, members_end (skipWs_head (by decide) h1 _)]
     rfl
   | obj h1 =>
     obtain ⟨d, rfl⟩ : ∃ e, d = e + 2 := ⟨d - 2, by omega⟩
     simp only [List.length_append, List.length_cons, List.length_nil] at hn
     obtain ⟨n, rfl⟩ : ∃ m, n = m + 1 := ⟨n - 1, by omega⟩
     rw [List.cons_append]
     rw [value_obj (skipWs_head (by decide) hw _)]
     rw [List.append_assoc, List.singleton_append]
     have hc := (ih n (by omega)).2.2 _ _ _ h1 (d + 1) r (by omega) (by simp only [List.length_append, List.length_cons]; omega)
     obtain ⟨c, u, hcu, hc1⟩ := members_head h1 (125 :: r)
     rw [members_first hcu hc1, hc]
     rfl
  refine ⟨hdoc, ?_, ?_⟩
  · intro k t l h d r hd hn
    cases h with
    | one h1 h2 h3 =>
      simp only [List.append_assoc] at hn ⊢
      rw [hdoc _ _ _ h2 d _ _ hd h1 (Ends.white h3 (by simp) r) hn]
      obtain ⟨n, rfl⟩ : ∃ m, n = m + 1 := ⟨n - 1, by omega⟩
      simp only [Option.bind_some]
      rw [elements_end (skipWs_head (by decide) h3 _)]
      rfl
    | cons h1 h2 h3 h4 =>
      simp only [List.append_assoc, List.cons_append] at hn ⊢
      rw [hdoc _ _ _ h2 d _ _ hd h1 (Ends.white h3 (by simp) _) hn]
      simp only [List.length_append, List.length_cons] at hn
      obtain ⟨n, rfl⟩ : ∃ m, n = m + 1 := ⟨n - 1, by omega⟩
      simp only [Option.bind_some]
      rw [elements_comma (skipWs_head (by decide) h3 _)]
      rw [(ih n (by omega)).2.1 _ _ _ h4 d r hd (by simp only [List.length_append, List.length_cons]; omega)]
      rfl
  · intro k t l h d r hd hn
    cases h with
    | one h1 h2 =>
      cases h1 with
      | mk g1 g2 g3 g4 g5 =>
        simp only [List.append_assoc, List.cons_append] at hn ⊢
        simp only [List.length_append, List.length_cons] at hn
        obtain ⟨n, rfl⟩ : ∃ m, n = m + 2 := ⟨n - 2, by omega⟩
        rw [member, skipWs_head (by decide) g1]
        simp only [show ∀ b : Bytes, eat [ch '"'] (34 :: b) = some b from fun _ => rfl, Option.bind_some]
        rw [parseStr_complete g2]
        simp only [Option.bind_some]
        rw [skipWs_head (by decide) g3]
        simp only [show ∀ b : Bytes, eat [ch ':'] (58 :: b) = some b from fun _ => rfl, Option.bind_some]
        rw [(ih (n + 1) (by omega)).1 _ _ _ g5 d _ _ hd g4 (Ends.white h2 (by simp) _)
          (by simp only [List.length_append, List.length_cons]; omega)]
        simp only [Option.bind_some]
        rw [members_end (skipWs_head (by decide) h2 _)]
        rfl
    | cons h1 h2 h3 =>
      cases h1 with
      | mk g1 g2 g3 g4 g5 =>
        simp only [List.append_assoc, List.cons_append] at hn ⊢
        simp only [List.length_append, List.length_cons] at hn
        obtain ⟨n, rfl⟩ : ∃ m, n = m + 2 := ⟨n - 2, by omega⟩
        rw [member, skipWs_head (by decide) g1]
        simp only [show ∀ b : Bytes, eat [ch '"'] (34 :: b) = some b from fun _ => rfl, Option.bind_some]
        rw [parseStr_complete g2]
        simp only [Option.bind_some]
        rw [skipWs_head (by decide) g3]
        simp only [show ∀ b : Bytes, eat [ch ':'] (58 :: b) = some b from fun _ => rfl, Option.bind_some]
        rw [(ih (n + 1) (by omega)).1 _ _ _ g5 d _ _ hd g4 (Ends.white h2 (by simp) _)
          (by simp only [List.length_append, List.length_cons]; omega)]
        simp only [Option.bind_some]
        rw [members_comma (skipWs_head (by decide) h2 _)]
        rw [(ih n (by omega)).2.2 _ _ _ h3 d r hd (by simp only [List.length_append, List.length_cons]; omega)]
        rfl

theorem atEnd_iff (b : Bytes) : atEnd b = true ↔ White b := by
  rw [atEnd, List.isEmpty_iff]
  constructor
  · intro h
    obtain ⟨w, hb, hw⟩ := skipWs_spec b
    rw [h, List.append_nil] at hb
    rw [hb]
    exact hw
  · intro h
    have := skipWs_white h []
    rw [List.append_nil] at this
    rw [this]
    rfl

theorem White.ends {w : Bytes} (h : White w) : Ends w := by
  intro c hc
  cases w with
  | nil => cases hc
  | cons x w =>
    simp only [List.head?_cons, Option.mem_def, Option.some.injEq] at hc
    subst hc
    rcases h x (by simp) with rfl | rfl | rfl | rfl <;> simp

/-- The reader accepts exactly the texts of the grammar, with white space around them, that are nested at most 127
deep. -/
theorem fromSlice_iff (inRange : Bytes → Bool) (b : Bytes) (v : Value) : fromSlice inRange b = some v ↔
    ∃ w t w', b = w ++ (t ++ w') ∧ White w ∧ White w' ∧ Doc inRange 127 t v := by
  constructor
  · intro h
    simp only [fromSlice, Option.bind_eq_some_iff] at h
    obtain ⟨⟨v', r⟩, h1, h⟩ := h
    split at h
    · rename_i he
      cases h
      obtain ⟨w, t, hb, hw, ht⟩ := (sound_values inRange _).1 _ _ _ _ h1
      exact ⟨w, t, r, hb, hw, (atEnd_iff r).mp he, ht⟩
    · cases h
  · rintro ⟨w, t, w', rfl, hw, hw', ht⟩
    rw [fromSlice, (complete_all inRange _).1 _ _ _ ht 128 w w' (by omega) hw hw'.ends (by rw [fuel]; omega)]
    simp only [Option.bind_some]
    rw [if_pos ((atEnd_iff w').mpr hw')]

end Verif.Json
