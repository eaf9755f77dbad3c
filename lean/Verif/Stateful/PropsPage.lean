import Verif.Stateful.Page
/-!
# C19 and C20: itemized pages
-/

namespace Verif.Stateful

/-! ## Specification -/

/-- The bytes of a page holding these items. -/
def encodeItems (items : List Bytes) : Bytes := (items.map encodeItem).flatten

/-- Items whose length fits the header. -/
def Fit (items : List Bytes) : Prop := ∀ d ∈ items, d.length ≤ 65535

/-- Number the elements from `n`. -/
def number {α : Type} : Nat → List α → List (Nat × α)
  | _, [] => []
  | n, x :: xs => (n, x) :: number (n + 1) xs

/-- Positions that the actions delete. -/
def deletedPos : List ItemAction → List Nat
  | [] => []
  | .delete i :: rest => i :: deletedPos rest
  | .add _ :: rest => deletedPos rest

/-- Data that the actions add. -/
def addedItems : List ItemAction → List Bytes
  | [] => []
  | .delete _ :: rest => addedItems rest
  | .add d :: rest => d :: addedItems rest

/-- The items at positions other than `ds`, counting from `n`, in order. -/
def survivors (ds : List Nat) : Nat → List Bytes → List Bytes
  | _, [] => []
  | n, x :: xs => if n ∈ ds then survivors ds (n + 1) xs else x :: survivors ds (n + 1) xs

/-! ## Parsing -/

theorem length_encodeItem (d : Bytes) : (encodeItem d).length = 2 + d.length := by
  simp [encodeItem, Scale.u16, Scale.length_leBytes]

theorem encodeItems_cons (d : Bytes) (items : List Bytes) :
    encodeItems (d :: items) = encodeItem d ++ encodeItems items := by simp [encodeItems]

theorem encodeItems_append (a b : List Bytes) : encodeItems (a ++ b) = encodeItems a ++ encodeItems b := by
  simp [encodeItems]

theorem take2_encodeItem (d rest : Bytes) : (encodeItem d ++ rest).take 2 = Scale.u16 d.length := by
  unfold encodeItem
  rw [List.append_assoc, List.take_append_of_le_length (by simp [Scale.u16, Scale.length_leBytes])]
  rw [List.take_of_length_le (by simp [Scale.u16, Scale.length_leBytes])]

theorem leVal_u16 (n : Nat) (h : n ≤ 65535) : Scale.leVal (Scale.u16 n) = n := by
  unfold Scale.u16
  rw [Scale.leVal_leBytes]
  omega

/-- What the parser returns for one item. -/
def shown (hdr : Bool) (d : Bytes) : Bytes := if hdr then encodeItem d else d

theorem map_shown_false (items : List Bytes) : items.map (shown false) = items := by
  have : shown false = id := by funext d; simp [shown]
  rw [this, List.map_id]

theorem tryParseAux_encode (hdr : Bool) (items : List Bytes) : ∀ (fuel count : Nat), Fit items →
    (encodeItems items).length ≤ fuel → count + items.length ≤ 65535 →
    tryParseAux hdr fuel (encodeItems items) count = .ok (number count (items.map (shown hdr))) := by
  induction items with
  | nil =>
    intro fuel count _ _ _
    cases fuel <;> simp [tryParseAux, encodeItems, number]
  | cons d items ih =>
    intro fuel count hf hl hc
    rw [encodeItems_cons] at *
    have hd : d.length ≤ 65535 := hf d (by simp)
    simp only [List.length_append, length_encodeItem] at hl
    simp only [List.length_cons] at hc
    cases fuel with
    | zero => omega
    | succ fuel =>
      have ih := ih fuel (count + 1) (fun x hx => hf x (List.mem_cons_of_mem _ hx)) (by omega) (by omega)
      have hne : (encodeItem d ++ encodeItems items).isEmpty = false := by
        cases h : encodeItem d with
        | nil => have := length_encodeItem d; rw [h] at this; simp at this; omega
        | cons a b => rfl
      simp only [tryParseAux, hne, Bool.false_eq_true, if_false, take2_encodeItem, leVal_u16 _ hd]
      rw [if_neg (by simp only [List.length_append, length_encodeItem]; omega),
        if_neg (by simp only [List.length_append, length_encodeItem]; omega), if_neg (by omega)]
      have hdrop : (encodeItem d ++ encodeItems items).drop (2 + d.length) = encodeItems items := by
        rw [← length_encodeItem d, List.drop_left]
      have htake : (encodeItem d ++ encodeItems items).take (2 + d.length) = encodeItem d := by
        rw [← length_encodeItem d, List.take_left]
      rw [hdrop, ih, htake]
      simp only [number, List.map_cons, Except.ok.injEq, List.cons.injEq, Prod.mk.injEq, true_and,
        and_true]
      cases hdr with
      | true => rfl
      | false =>
        simp only [Bool.false_eq_true, if_false, shown]
        unfold encodeItem
        have : (Scale.u16 d.length).length = 2 := by simp [Scale.u16, Scale.length_leBytes]
        rw [← this, List.drop_left]

theorem tryParseAux_sound (hdr : Bool) : ∀ (fuel count : Nat) (bs : Bytes) (l : List (Nat × Bytes)),
    tryParseAux hdr fuel bs count = .ok l →
    ∃ items, Fit items ∧ bs = encodeItems items ∧ l = number count (items.map (shown hdr)) ∧
      (items = [] ∨ count + items.length ≤ 65535) := by
  intro fuel
  induction fuel with
  | zero =>
    intro count bs l h
    simp only [tryParseAux] at h
    split at h
    · rename_i he
      simp only [Except.ok.injEq] at h
      refine ⟨[], by simp [Fit], by simpa [encodeItems] using he, by simp [number, ← h], Or.inl rfl⟩
    · simp at h
  | succ fuel ih =>
    intro count bs l h
    simp only [tryParseAux] at h
    split at h
    · rename_i he
      simp only [Except.ok.injEq] at h
      exact ⟨[], by simp [Fit], by simpa [encodeItems] using he, by simp [number, ← h], Or.inl rfl⟩
    split at h
    · simp at h
    split at h
    · simp at h
    split at h
    · simp at h
    rename_i he h2 hl hc
    split at h
    · simp at h
    rename_i rest hrest
    simp only [Except.ok.injEq] at h
    obtain ⟨items, hf, hbs, hl', hcnt⟩ := ih _ _ _ hrest
    have hlen2 : (bs.take 2).length = 2 := by simp; omega
    have hlt : Scale.leVal (bs.take 2) < 65536 := by
      have := Scale.leVal_lt (bs.take 2)
      rw [hlen2] at this
      exact this
    generalize hlen : Scale.leVal (bs.take 2) = len at *
    let d := (bs.take (2 + len)).drop 2
    have hdl : d.length = len := by simp [d]; omega
    have henc : encodeItem d = bs.take (2 + len) := by
      unfold encodeItem
      rw [hdl]
      have h1 : Scale.u16 len = bs.take 2 := by
        have := Scale.leBytes_leVal (bs.take 2)
        rw [hlen2, hlen] at this
        exact this
      rw [h1]
      have h3 : bs.take 2 = (bs.take (2 + len)).take 2 := by
        rw [List.take_take]; congr 1; omega
      rw [h3]
      exact List.take_append_drop 2 (bs.take (2 + len))
    refine ⟨d :: items, ?_, ?_, ?_, Or.inr ?_⟩
    · intro x hx
      rcases List.mem_cons.1 hx with rfl | hx
      · rw [hdl]; omega
      · exact hf x hx
    · rw [encodeItems_cons, henc, ← hbs, List.take_append_drop]
    · rw [← h, hl']
      simp only [List.map_cons, number]
      congr 2
      cases hdr with
      | true => simp only [if_true, shown]; exact henc.symm
      | false => rfl
    · simp only [List.length_cons]
      rcases hcnt with rfl | hcnt
      · simp; omega
      · omega

theorem encodeItems_inj {a b : List Bytes} (ha : Fit a) (hb : Fit b) (h : encodeItems a = encodeItems b) :
    a = b := by
  induction a generalizing b with
  | nil =>
    cases b with
    | nil => rfl
    | cons d b =>
      rw [encodeItems_cons] at h
      have := congrArg List.length h
      simp [encodeItems, length_encodeItem] at this
      omega
  | cons d a ih =>
    cases b with
    | nil =>
      rw [encodeItems_cons] at h
      have := congrArg List.length h
      simp [encodeItems, length_encodeItem] at this
    | cons d' b =>
      rw [encodeItems_cons, encodeItems_cons] at h
      have h2 : Scale.u16 d.length = Scale.u16 d'.length := by
        rw [← take2_encodeItem d (encodeItems a), h, take2_encodeItem]
      have hlen : d.length = d'.length := by
        rw [← leVal_u16 _ (ha d (by simp)), h2, leVal_u16 _ (hb d' (by simp))]
      have := List.append_inj h (by rw [length_encodeItem, length_encodeItem, hlen])
      have h3 : d = d' := by
        have := this.1
        unfold encodeItem at this
        rw [hlen] at this
        simpa using this
      rw [h3, ih (fun x hx => ha x (List.mem_cons_of_mem _ hx))
        (fun x hx => hb x (List.mem_cons_of_mem _ hx)) this.2]

/-- C19, round trip: a page built from items (each fitting its header, at most 65535 of them) parses to
exactly these items in order. -/
theorem C19_parse_of_encoded (nonce : Nat) (items : List Bytes) (hf : Fit items)
    (hn : items.length ≤ 65535) :
    tryParse ⟨nonce, encodeItems items⟩ false = .ok (number 0 items) := by
  have := tryParseAux_encode false items (encodeItems items).length 0 hf (le_refl _) (by omega)
  rw [map_shown_false] at this
  exact this

/-- C19, no wrong items: if arbitrary page bytes parse, they are the encoding of exactly the items
returned; hence bytes that are not such an encoding give an error. -/
theorem C19_parsed_reencodes (p : Page) (l : List (Nat × Bytes)) (h : tryParse p false = .ok l) :
    p.data = encodeItems (l.map Prod.snd) ∧ l.map Prod.fst = List.range l.length ∧
      Fit (l.map Prod.snd) := by
  obtain ⟨items, h1, h2, h3, _⟩ := tryParseAux_sound _ _ _ _ _ h
  have hsnd : ∀ (n : Nat) (xs : List Bytes), (number n xs).map Prod.snd = xs := by
    intro n xs
    induction xs generalizing n with
    | nil => rfl
    | cons x xs ih => simp [number, ih]
  have hfst : ∀ (n : Nat) (xs : List Bytes), (number n xs).map Prod.fst = List.range' n xs.length := by
    intro n xs
    induction xs generalizing n with
    | nil => rfl
    | cons x xs ih => simp [number, ih, List.range'_succ]
  have hlen : ∀ (n : Nat) (xs : List Bytes), (number n xs).length = xs.length := by
    intro n xs
    induction xs generalizing n with
    | nil => rfl
    | cons x xs ih => simp [number, ih]
  rw [map_shown_false] at h3
  subst h3
  rw [hsnd, hfst, hlen, List.range_eq_range']
  exact ⟨h2, rfl, h1⟩

/-- C19: parsing succeeds exactly on encodings. -/
theorem C19_parses_iff_encoding (p : Page) :
    (∃ l, tryParse p false = .ok l) ↔
      ∃ items, Fit items ∧ items.length ≤ 65535 ∧ p.data = encodeItems items := by
  constructor
  · rintro ⟨l, h⟩
    obtain ⟨items, h1, h2, h3, h4⟩ := tryParseAux_sound _ _ _ _ _ h
    refine ⟨items, h1, ?_, h2⟩
    rcases h4 with rfl | h4
    · simp
    · omega
  · rintro ⟨items, h1, h2, h3⟩
    obtain ⟨n, d⟩ := p
    simp only at h3
    subst h3
    exact ⟨_, C19_parse_of_encoded n items h1 h2⟩

example : tryParse ⟨7, encodeItems [[1, 2, 3], [], [9]]⟩ false = .ok [(0, [1, 2, 3]), (1, []), (2, [9])] := by
  decide

example : tryParse ⟨7, [3, 0, 1, 2]⟩ false = .error .errorParsing ∧
    tryParse ⟨7, [3]⟩ false = .error .errorParsing := by decide

/-! ## Actions -/

theorem number_any {n i : Nat} {xs : List Bytes} :
    (number n xs).any (fun x => x.1 == i) = true ↔ n ≤ i ∧ i < n + xs.length := by
  induction xs generalizing n with
  | nil => simp [number]
  | cons x xs ih =>
    simp only [number, List.any_cons, Bool.or_eq_true, beq_iff_eq, ih, List.length_cons]
    omega

/-- The numbered items without the positions already deleted. -/
def remaining (ds : List Nat) (n : Nat) (xs : List Bytes) : List (Nat × Bytes) :=
  (number n xs).filter (fun x => decide (x.1 ∉ ds))

theorem remaining_any {ds : List Nat} {n i : Nat} {xs : List Bytes} :
    (remaining ds n xs).any (fun x => x.1 == i) = true ↔ (n ≤ i ∧ i < n + xs.length) ∧ i ∉ ds := by
  rw [← number_any]
  simp only [remaining, List.any_eq_true, List.mem_filter, decide_eq_true_eq, beq_iff_eq]
  constructor
  · rintro ⟨x, ⟨h1, h2⟩, h3⟩; subst h3; exact ⟨⟨x, h1, rfl⟩, h2⟩
  · rintro ⟨⟨x, h1, h3⟩, h2⟩; subst h3; exact ⟨x, ⟨h1, h2⟩, rfl⟩

theorem remaining_snd (ds : List Nat) (n : Nat) (xs : List Bytes) (f : Bytes → Bytes) :
    (remaining ds n (xs.map f)).map Prod.snd = (survivors ds n xs).map f := by
  induction xs generalizing n with
  | nil => rfl
  | cons x xs ih =>
    have ih := ih (n + 1)
    simp only [remaining, List.map_cons, number, survivors] at *
    by_cases h : n ∈ ds
    · rw [List.filter_cons_of_neg (by simpa using h), if_pos h]; exact ih
    · rw [List.filter_cons_of_pos (by simpa using h), if_neg h, List.map_cons, ih, List.map_cons]

/-- The action loop, characterised. -/
theorem applyActions_iff (xs : List Bytes) (actions : List ItemAction) :
    ∀ (ds : List Nat) (buf : Bytes) (r : List (Nat × Bytes) × Bytes),
    applyActions actions (remaining ds 0 xs) buf = .ok r ↔
      (deletedPos actions).Nodup ∧ (∀ i ∈ deletedPos actions, i < xs.length ∧ i ∉ ds) ∧
      Fit (addedItems actions) ∧
      r = (remaining (ds ++ deletedPos actions) 0 xs, buf ++ encodeItems (addedItems actions)) := by
  induction actions with
  | nil =>
    intro ds buf r
    simp [applyActions, deletedPos, addedItems, encodeItems, Fit, eq_comm]
  | cons a rest ih =>
    intro ds buf r
    cases a with
    | delete i =>
      simp only [applyActions, deletedPos, addedItems]
      have hfil : (remaining ds 0 xs).filter (fun x => x.1 != i) = remaining (ds ++ [i]) 0 xs := by
        simp only [remaining, List.filter_filter]
        apply List.filter_congr
        intro x _
        simp only [List.mem_append, List.mem_singleton, not_or]
        by_cases h1 : x.1 = i <;> by_cases h2 : x.1 ∈ ds <;> simp [h1, h2]
      by_cases h : (remaining ds 0 xs).any (fun x => x.1 == i) = true
      · rw [if_pos h, hfil, ih]
        rw [remaining_any] at h
        constructor
        · rintro ⟨h1, h2, h3, h4⟩
          refine ⟨List.nodup_cons.2 ⟨?_, h1⟩, ?_, h3, ?_⟩
          · intro hmem; exact (h2 i hmem).2 (by simp)
          · intro j hj
            rcases List.mem_cons.1 hj with rfl | hj
            · exact ⟨by omega, h.2⟩
            · have := h2 j hj
              exact ⟨this.1, fun hc => this.2 (by simp [hc])⟩
          · rw [h4]; simp
        · rintro ⟨h1, h2, h3, h4⟩
          rw [List.nodup_cons] at h1
          refine ⟨h1.2, ?_, h3, ?_⟩
          · intro j hj
            have := h2 j (List.mem_cons_of_mem _ hj)
            refine ⟨this.1, fun hc => ?_⟩
            rcases List.mem_append.1 hc with hc | hc
            · exact this.2 hc
            · simp at hc; subst hc; exact h1.1 hj
          · rw [h4]; simp
      · rw [if_neg h]
        rw [remaining_any] at h
        constructor
        · intro h'; simp at h'
        · rintro ⟨h1, h2, _⟩
          exfalso
          have := h2 i (by simp)
          exact h ⟨⟨by omega, by omega⟩, this.2⟩
    | add d =>
      simp only [applyActions, deletedPos, addedItems]
      by_cases h : d.length ≤ 65535
      · rw [if_pos h, ih]
        rw [encodeItems_cons, List.append_assoc]
        constructor
        · rintro ⟨h1, h2, h3, h4⟩
          exact ⟨h1, h2, by intro x hx; rcases List.mem_cons.1 hx with rfl | hx; exacts [h, h3 x hx], h4⟩
        · rintro ⟨h1, h2, h3, h4⟩
          exact ⟨h1, h2, fun x hx => h3 x (List.mem_cons_of_mem _ hx), h4⟩
      · rw [if_neg h]
        constructor
        · intro h'; simp at h'
        · rintro ⟨_, _, h3, _⟩
          exact absurd (h3 d (by simp)) h

/-- C20: on a page holding `items`, the actions succeed exactly when no position is deleted twice, every
deleted position exists in the original page, every addition fits its header and the new page fits; and
then the new page holds the original items without the deleted positions, in order, followed by the
additions in order. In every other case the result is an error, so nothing is applied. -/
theorem C20_actions_exact (maxSize nonce : Nat) (items : List Bytes) (hf : Fit items)
    (hn : items.length ≤ 65535) (actions : List ItemAction) (p' : Page) :
    applyItemActions maxSize ⟨nonce, encodeItems items⟩ actions = .ok p' ↔
      (deletedPos actions).Nodup ∧ (∀ i ∈ deletedPos actions, i < items.length) ∧
      Fit (addedItems actions) ∧
      (encodeItems (survivors (deletedPos actions) 0 items ++ addedItems actions)).length ≤ maxSize ∧
      p'.nonce = 0 ∧
      p'.data = encodeItems (survivors (deletedPos actions) 0 items ++ addedItems actions) := by
  have hparse := tryParseAux_encode true items (encodeItems items).length 0 hf (le_refl _) (by omega)
  have hrem : number 0 (items.map (shown true)) = remaining [] 0 (items.map (shown true)) := by
    simp [remaining]
  unfold applyItemActions
  simp only [tryParse, hparse]
  rw [hrem]
  simp only [bind_eq_ok_iff, Except.ok.injEq, exists_eq_left', ensure_eq_ok_iff, pure_eq_ok_iff,
    applyActions_iff, List.length_map]
  have hflat : ∀ ds, ((remaining ds 0 (items.map (shown true))).map Prod.snd).flatten =
      encodeItems (survivors ds 0 items) := by
    intro ds
    rw [remaining_snd]
    rfl
  constructor
  · rintro ⟨⟨a, b⟩, ⟨h1, h2, h3, h4⟩, u, h5, h6⟩
    simp only [Prod.mk.injEq] at h4
    obtain ⟨rfl, rfl⟩ := h4
    simp only [List.nil_append, hflat, ← encodeItems_append] at h5 h6
    subst h6
    exact ⟨h1, fun i hi => (h2 i hi).1, h3, h5, rfl, rfl⟩
  · rintro ⟨h1, h2, h3, h4, h5, h6⟩
    refine ⟨(_, _), ⟨h1, fun i hi => ⟨h2 i hi, by simp⟩, h3, rfl⟩, (), ?_, ?_⟩
    · simp only [List.nil_append, hflat, ← encodeItems_append]; exact h4
    · obtain ⟨n, d⟩ := p'
      simp only at h5 h6
      simp only [List.nil_append, hflat, ← encodeItems_append, Page.mk.injEq]
      exact ⟨h5.symm, h6.symm⟩

/-- C20: on bytes that are no itemized page every list of actions fails. -/
theorem C20_malformed_fails (maxSize : Nat) (p : Page) (actions : List ItemAction)
    (h : ¬ ∃ items, Fit items ∧ items.length ≤ 65535 ∧ p.data = encodeItems items) :
    ∀ p', applyItemActions maxSize p actions ≠ .ok p' := by
  intro p' hok
  apply h
  unfold applyItemActions at hok
  simp only [bind_eq_ok_iff] at hok
  obtain ⟨l, hl, _⟩ := hok
  obtain ⟨items, h1, h2, _, h4⟩ := tryParseAux_sound _ _ _ _ _ hl
  refine ⟨items, h1, ?_, h2⟩
  rcases h4 with rfl | h4
  · simp
  · omega

example : (¬ ∃ l, tryParse ⟨0, [3, 0, 1, 2]⟩ false = .ok l) ∧
    applyItemActions 100 ⟨0, [3, 0, 1, 2]⟩ [.add [1]] = .error .errorParsing := by
  refine ⟨?_, by decide⟩
  have : tryParse ⟨0, [3, 0, 1, 2]⟩ false = .error .errorParsing := by decide
  rw [this]; simp

/-- The positions in C20 are those of the original page: what `survivors` keeps, by position. -/
theorem survivors_eq (ds : List Nat) (items : List Bytes) :
    survivors ds 0 items = ((items.zipIdx).filter (fun x => decide (x.2 ∉ ds))).map Prod.fst := by
  have : ∀ n, survivors ds n items =
      ((items.zipIdx n).filter (fun x => decide (x.2 ∉ ds))).map Prod.fst := by
    induction items with
    | nil => intro n; rfl
    | cons x xs ih =>
      intro n
      simp only [survivors, List.zipIdx_cons, ih (n + 1)]
      by_cases h : n ∈ ds
      · rw [if_pos h, List.filter_cons_of_neg (by simpa using h)]
      · rw [if_neg h, List.filter_cons_of_pos (by simpa using h)]; rfl
  exact this 0

/-- Deleting positions 0 and 2 and adding two items; deleting position 0 twice or position 3 fails. -/
example : applyItemActions 100 ⟨4, encodeItems [[1], [2, 2], [3]]⟩
      [.delete 2, .add [7], .delete 0, .add []] = .ok ⟨0, encodeItems [[2, 2], [7], []]⟩ ∧
    applyItemActions 100 ⟨4, encodeItems [[1], [2, 2], [3]]⟩ [.delete 0, .delete 0] =
      .error .invalidAction ∧
    applyItemActions 100 ⟨4, encodeItems [[1], [2, 2], [3]]⟩ [.delete 3] = .error .invalidAction := by
  decide

end Verif.Stateful
