import Verif.Schemas.Model
import Mathlib.Data.List.Basic
import Mathlib.Tactic.IntervalCases
/-!
# Lemmas on schema names
-/

namespace Verif.Schemas

/-- Every byte: facts checked on all 256 of them. -/
theorem byte_forall {P : UInt8 → Prop} [DecidablePred P] (h : ∀ n : Fin 256, P (UInt8.ofNat n)) (b : UInt8) : P b := by
  have := h ⟨b.toNat, b.toNat_lt⟩
  simpa using this

theorem lower_lower (b : UInt8) : lower (lower b) = lower b :=
  byte_forall (P := fun b => lower (lower b) = lower b) (by decide +kernel) b

theorem lower_ascii (b : UInt8) : b.toNat < 128 ↔ (lower b).toNat < 128 :=
  byte_forall (P := fun b => b.toNat < 128 ↔ (lower b).toNat < 128) (by decide +kernel) b

theorem isSpace_lower (b : UInt8) : isSpace (lower b) = isSpace b :=
  byte_forall (P := fun b => isSpace (lower b) = isSpace b) (by decide +kernel) b

theorem isSpace_ascii (b : UInt8) (h : isSpace b = true) : b.toNat < 128 ∧ lower b = b :=
  byte_forall (P := fun b => isSpace b = true → b.toNat < 128 ∧ lower b = b) (by decide +kernel) b h

/-- Lower-case letter or hyphen. -/
def PartChar (b : UInt8) : Prop := (97 ≤ b.toNat ∧ b.toNat ≤ 122) ∨ b.toNat = 45

instance (b : UInt8) : Decidable (PartChar b) := by unfold PartChar; infer_instance

theorem partChar_of (b : UInt8) (h : nameChar (lower b) = true) (hd : lower b ≠ dot) : PartChar (lower b) :=
  byte_forall (P := fun b => nameChar (lower b) = true → lower b ≠ dot → PartChar (lower b)) (by decide +kernel) b h hd

theorem partChar_facts (b : UInt8) (h : PartChar b) :
    b.toNat < 128 ∧ lower b = b ∧ nameChar b = true ∧ isSpace b = false ∧ b ≠ dot :=
  byte_forall (P := fun b => PartChar b → b.toNat < 128 ∧ lower b = b ∧ nameChar b = true ∧ isSpace b = false ∧ b ≠ dot)
    (by decide +kernel) b h

/-- Part of a name. -/
structure GoodPart (lo hi : Nat) (b : Bytes) : Prop where
  lo : lo ≤ b.length
  hi : b.length ≤ hi
  chars : ∀ c ∈ b, PartChar c
  ends : b.head? ≠ some hyphen ∧ b.getLast? ≠ some hyphen

/-- A name as it is stored. -/
structure GoodName (n : Name) : Prop where
  ns : GoodPart 3 30 n.namespace_
  desc : GoodPart 1 28 n.descriptor
  len : n.combined.length ≤ 32

theorem hyphenated_false {b : Bytes} : hyphenated b = false ↔ b.head? ≠ some hyphen ∧ b.getLast? ≠ some hyphen := by
  simp [hyphenated]

theorem splitDot_ne_nil (b : Bytes) : splitDot b ≠ [] := by
  induction b with
  | nil => simp [splitDot]
  | cons c s ih =>
    unfold splitDot
    split
    · simp
    · split <;> simp

theorem splitDot_no_dot (b : Bytes) : ∀ p ∈ splitDot b, dot ∉ p := by
  induction b with
  | nil => simp [splitDot]
  | cons c s ih =>
    unfold splitDot
    split
    · intro p hp
      rcases List.mem_cons.1 hp with rfl | hp
      · simp
      · exact ih p hp
    · rename_i hc
      split
      · rename_i q qs e
        intro p hp
        rcases List.mem_cons.1 hp with rfl | hp
        · intro h
          rcases List.mem_cons.1 h with h | h
          · exact hc h.symm
          · exact ih q (by rw [e]; simp) h
        · exact ih p (by rw [e]; simp [hp])
      · intro p hp
        simp only [List.mem_singleton] at hp
        subst hp
        simp [Ne.symm hc]

theorem splitDot_mem (b : Bytes) : ∀ p ∈ splitDot b, ∀ c ∈ p, c ∈ b := by
  induction b with
  | nil => simp [splitDot]
  | cons a s ih =>
    unfold splitDot
    split
    · intro p hp c hc
      rcases List.mem_cons.1 hp with rfl | hp
      · simp at hc
      · exact List.mem_cons_of_mem _ (ih p hp c hc)
    · split
      · rename_i q qs e
        intro p hp c hc
        rcases List.mem_cons.1 hp with rfl | hp
        · rcases List.mem_cons.1 hc with rfl | hc
          · simp
          · exact List.mem_cons_of_mem _ (ih q (by rw [e]; simp) c hc)
        · exact List.mem_cons_of_mem _ (ih p (by rw [e]; simp [hp]) c hc)
      · intro p hp c hc
        simp only [List.mem_singleton] at hp
        subst hp
        simp at hc
        simp [hc]

theorem splitDot_of_no_dot {b : Bytes} (h : dot ∉ b) : splitDot b = [b] := by
  induction b with
  | nil => rfl
  | cons c s ih =>
    simp only [List.mem_cons, not_or] at h
    unfold splitDot
    rw [if_neg (Ne.symm h.1), ih h.2]

theorem splitDot_two {a b : Bytes} (ha : dot ∉ a) (hb : dot ∉ b) : splitDot (a ++ [dot] ++ b) = [a, b] := by
  induction a with
  | nil => simp [splitDot, splitDot_of_no_dot hb]
  | cons c s ih =>
    simp only [List.mem_cons, not_or] at ha
    have := ih ha.2
    simp only [List.cons_append]
    unfold splitDot
    rw [if_neg (Ne.symm ha.1), this]

theorem splitDot_one_inv {b a : Bytes} (h : splitDot b = [a]) : b = a := by
  induction b generalizing a with
  | nil => simp [splitDot] at h; exact h.symm ▸ rfl
  | cons c s ih =>
    unfold splitDot at h
    split at h
    · simp at h
      exact absurd h.2 (splitDot_ne_nil s)
    · split at h
      · rename_i q qs e
        simp at h
        obtain ⟨h1, h2⟩ := h
        subst h2
        rw [← h1, ih e]
      · rename_i e
        exact absurd e (splitDot_ne_nil s)

theorem splitDot_two_inv {b x y : Bytes} (h : splitDot b = [x, y]) : b = x ++ [dot] ++ y := by
  induction b generalizing x with
  | nil => simp [splitDot] at h
  | cons c s ih =>
    unfold splitDot at h
    split at h
    · rename_i hc
      simp at h
      obtain ⟨rfl, h2⟩ := h
      rw [splitDot_one_inv h2, hc]
      rfl
    · split at h
      · rename_i q qs e
        simp at h
        obtain ⟨h1, h2⟩ := h
        subst h2
        rw [← h1, ih e]
        rfl
      · rename_i e
        exact absurd e (splitDot_ne_nil s)

theorem dropWhile_eq_self {p : UInt8 → Bool} {l : Bytes} (h : ∀ c, l.head? = some c → p c = false) :
    l.dropWhile p = l := by
  cases l with
  | nil => rfl
  | cons c s => rw [List.dropWhile_cons, if_neg (by rw [h c rfl]; simp)]

theorem trim_eq_self {l : Bytes} (h1 : ∀ c, l.head? = some c → isSpace c = false)
    (h2 : ∀ c, l.getLast? = some c → isSpace c = false) : trim l = l := by
  unfold trim
  rw [dropWhile_eq_self h1, dropWhile_eq_self (by simpa using h2), List.reverse_reverse]

theorem trim_length (l : Bytes) : (trim l).length ≤ l.length := by
  unfold trim
  rw [List.length_reverse]
  refine Nat.le_trans (List.dropWhile_sublist _).length_le ?_
  rw [List.length_reverse]
  exact (List.dropWhile_sublist _).length_le

theorem mem_trim {l : Bytes} {c : UInt8} (h : c ∈ trim l) : c ∈ l := by
  unfold trim at h
  rw [List.mem_reverse] at h
  have := (List.dropWhile_sublist _).subset h
  rw [List.mem_reverse] at this
  exact (List.dropWhile_sublist _).subset this

theorem dropWhile_append_space {w l : Bytes} (h : ∀ c ∈ w, isSpace c = true) :
    (w ++ l).dropWhile isSpace = l.dropWhile isSpace := by
  induction w with
  | nil => rfl
  | cons c s ih =>
    rw [List.cons_append, List.dropWhile_cons, if_pos (h c (by simp))]
    exact ih (fun c hc => h c (by simp [hc]))

theorem dropWhile_append_right {w l : Bytes} (h : ∀ c ∈ w, isSpace c = true) :
    ((l ++ w).dropWhile isSpace).reverse.dropWhile isSpace = (l.dropWhile isSpace).reverse.dropWhile isSpace := by
  induction l with
  | nil =>
    have : w.dropWhile isSpace = [] := by
      have := dropWhile_append_space (l := []) h
      simpa using this
    simp [this]
  | cons c s ih =>
    rw [List.cons_append, List.dropWhile_cons, List.dropWhile_cons]
    split
    · exact ih
    · rw [← List.cons_append, List.reverse_append, dropWhile_append_space (by simpa using h)]

theorem trim_spaces {w l w' : Bytes} (h : ∀ c ∈ w, isSpace c = true) (h' : ∀ c ∈ w', isSpace c = true) :
    trim (w ++ l ++ w') = trim l := by
  unfold trim
  rw [dropWhile_append_right h', dropWhile_append_space h]

/-- What a successful strict parse says. -/
theorem tryParse_strict {b : Bytes} {n : Name} (hlen : b.length ≤ 32) (h : tryParse b true = .ok n) :
    GoodName n := by
  simp only [tryParse, bind_eq_ok_iff, ensure_eq_ok_iff] at h
  obtain ⟨_, h1, _, h2, h3⟩ := h
  have hno := splitDot_no_dot (trim (b.map lower))
  have hmem := splitDot_mem (trim (b.map lower))
  generalize hs : splitDot (trim (b.map lower)) = chunks at h3
  rw [hs] at hno hmem
  have hchars : ∀ p ∈ chunks, ∀ c ∈ p, PartChar c := by
    intro p hp c hc
    have hc1 := hmem p hp c hc
    have hn := h2 c hc1
    have hc2 := mem_trim hc1
    obtain ⟨a, _, rfl⟩ := List.mem_map.1 hc2
    exact partChar_of a hn (fun e => hno p hp (e ▸ hc))
  unfold nameOfChunks at h3
  split at h3
  · simp [bind_eq_ok_iff, ensure_eq_ok_iff] at h3
  · rename_i ns d
    simp only [checkNamespace, checkDescriptor, bind_eq_ok_iff, ensure_eq_ok_iff, pure_eq_ok_iff,
      hyphenated_false] at h3
    obtain ⟨_, ⟨_, a1, _, a2, a3⟩, _, ⟨_, b1, _, b2, b3⟩, rfl⟩ := h3
    refine ⟨⟨a2, a1, hchars _ (by simp), a3⟩, ⟨b2, b1, hchars _ (by simp), b3⟩, ?_⟩
    have := splitDot_two_inv hs
    have hl := trim_length (b.map lower)
    rw [this, List.length_map] at hl
    exact Nat.le_trans hl hlen
  · cases h3

theorem GoodPart.ne_nil {lo hi b} (h : GoodPart lo hi b) (hlo : 1 ≤ lo) : b ≠ [] := by
  rintro rfl
  have := h.lo
  simp at this
  omega

theorem GoodPart.noDot {lo hi b} (h : GoodPart lo hi b) : dot ∉ b :=
  fun hd => (partChar_facts _ (h.chars _ hd)).2.2.2.2 rfl

theorem GoodName.combined_chars {n : Name} (h : GoodName n) : ∀ c ∈ n.combined, PartChar c ∨ c = dot := by
  intro c hc
  simp only [Name.combined, List.mem_append, List.mem_singleton] at hc
  rcases hc with (hc | hc) | hc
  · exact .inl (h.ns.chars c hc)
  · exact .inr hc
  · exact .inl (h.desc.chars c hc)

/-- The combined name parses back. -/
theorem tryParse_combined {n : Name} (h : GoodName n) (strict : Bool) : tryParse n.combined strict = .ok n := by
  have hlow : n.combined.map lower = n.combined := by
    conv_rhs => rw [← List.map_id n.combined]
    apply List.map_congr_left
    intro c hc
    rcases h.combined_chars c hc with hc | rfl
    · exact (partChar_facts c hc).2.1
    · rfl
  have hns := h.ns.ne_nil (by omega)
  have hd := h.desc.ne_nil (by omega)
  have htrim : trim n.combined = n.combined := by
    apply trim_eq_self
    · intro c hc
      cases hn : n.namespace_ with
      | nil => exact absurd hn hns
      | cons a r =>
        rw [Name.combined, hn] at hc
        simp at hc
        subst hc
        exact (partChar_facts _ (h.ns.chars _ (by rw [hn]; simp))).2.2.2.1
    · intro c hc
      rw [Name.combined, List.getLast?_append] at hc
      cases hg : n.descriptor.getLast? with
      | none => exact absurd (List.getLast?_eq_none_iff.1 hg) hd
      | some a =>
        rw [hg] at hc
        simp at hc
        subst hc
        exact (partChar_facts _ (h.desc.chars _ (List.mem_of_getLast? hg))).2.2.2.1
  have hasc : ∀ c ∈ n.combined, c.toNat < 128 := by
    intro c hc
    rcases h.combined_chars c hc with hc | rfl
    · exact (partChar_facts c hc).1
    · decide
  have hnc : ∀ c ∈ n.combined, nameChar c = true := by
    intro c hc
    rcases h.combined_chars c hc with hc | rfl
    · exact (partChar_facts c hc).2.2.1
    · decide
  have hsplit : splitDot n.combined = [n.namespace_, n.descriptor] := splitDot_two h.ns.noDot h.desc.noDot
  simp only [tryParse, hlow, htrim, hsplit, bind_eq_ok_iff, ensure_eq_ok_iff]
  refine ⟨(), hasc, (), hnc, ?_⟩
  simp only [nameOfChunks, checkNamespace, checkDescriptor, bind_eq_ok_iff, ensure_eq_ok_iff, pure_eq_ok_iff,
    hyphenated_false]
  exact ⟨(), ⟨(), h.ns.hi, (), h.ns.lo, h.ns.ends⟩, (), ⟨(), h.desc.hi, (), h.desc.lo, h.desc.ends⟩, trivial⟩

theorem combined_inj {n m : Name} (hn : GoodName n) (hm : GoodName m) (h : n.combined = m.combined) : n = m := by
  have h1 := tryParse_combined hn true
  rw [h, tryParse_combined hm true] at h1
  cases h1
  rfl

end Verif.Schemas
