import Verif.Schemas.Codec
import Verif.Schemas.Props
/-!
# C172: settings of a schema survive storage and later releases
-/

namespace Verif.Schemas.Codec

/-! ## Flags -/

theorem isEnabled_iff (v i : Nat) : isEnabled v i = v.testBit i := by
  unfold isEnabled
  rw [Nat.and_two_pow]
  have := (Nat.two_pow_pos i).ne
  cases v.testBit i <;> simp [this]

theorem testBit_set (v i j : Nat) : (set v i).testBit j = (v.testBit j || decide (i = j)) := by
  simp [set, Nat.testBit_two_pow]

theorem fold_testBit (l : List Nat) (v j : Nat) : (l.foldl set v).testBit j = (v.testBit j || decide (j ∈ l)) := by
  induction l generalizing v with
  | nil => simp
  | cons i l ih =>
    rw [List.foldl_cons, ih, testBit_set]
    by_cases e : i = j
    · simp [e]
    · have e' : ¬ j = i := fun h => e h.symm
      simp [e, e']

theorem bits_fold (l : List Setting) : bits (l.foldl Settings.set .none) = (l.map place).foldl set disabled := by
  suffices h : ∀ (l : List Setting) (s : Settings), bits (l.foldl Settings.set s) = (l.map place).foldl set (bits s) from h l .none
  intro l
  induction l with
  | nil => intro s; rfl
  | cons g l ih =>
    intro s
    rw [List.foldl_cons, ih, List.map_cons, List.foldl_cons]
    congr 1
    obtain ⟨a, b⟩ := s
    cases g <;> cases a <;> cases b <;> rfl

theorem bits_lt (s : Settings) : bits s < 2 ^ declared := by
  obtain ⟨a, b⟩ := s
  cases a <;> cases b <;> decide

theorem enabled_bits (s : Settings) : enabled declared (bits s) = s.toList.map place := by
  obtain ⟨a, b⟩ := s
  cases a <;> cases b <;> decide

/-! ## Theorems -/

/-- C172: a stored schema takes five bytes, and is read back as it was written. -/
theorem C172_read_back (n : Nat) (hn : n ≤ 16) (i : Stored) (hi : i.settings < 2 ^ n) (rest : Bytes) :
    (write i).length = 5 ∧ read n (write i ++ rest) = some (i, rest) := by
  obtain ⟨mt, loc, v, b⟩ := i
  have hv : v < 256 ^ 2 := lt_of_lt_of_le hi (by
    calc 2 ^ n ≤ 2 ^ 16 := Nat.pow_le_pow_right (by decide) hn
      _ = 256 ^ 2 := by decide)
  have hv' : v < 2 ^ n := hi
  refine ⟨by simp [write, writeSettings, Scale.u16, Scale.length_leBytes], ?_⟩
  have hs : ∀ r, readSettings n (Scale.u16 v ++ r) = some (v, r) := by
    intro r
    simp only [readSettings, Scale.u16, Scale.decLe_leBytes 2 v hv r, fromBits, hv', if_true, Option.bind_eq_bind, Option.bind_some]
  cases mt <;> cases loc <;> cases b <;>
    simp [write, read, modelByte, locationByte, readModel, readLocation, readBool, writeSettings, hs]

theorem readModel_some {bs : Bytes} {m : ModelType} {r : Bytes} (h : readModel bs = some (m, r)) : bs = modelByte m :: r := by
  cases bs with
  | nil => cases h
  | cons b bs =>
    simp only [readModel] at h
    split at h
    · cases h; subst b; rfl
    · split at h
      · cases h; subst b; rfl
      · cases h

theorem readLocation_some {bs : Bytes} {m : Location} {r : Bytes} (h : readLocation bs = some (m, r)) : bs = locationByte m :: r := by
  cases bs with
  | nil => cases h
  | cons b bs =>
    simp only [readLocation] at h
    split at h
    · cases h; subst b; rfl
    · split at h
      · cases h; subst b; rfl
      · split at h
        · cases h; subst b; rfl
        · split at h
          · cases h; subst b; rfl
          · cases h

theorem readBool_some {bs : Bytes} {m : Bool} {r : Bytes} (h : readBool bs = some (m, r)) : bs = (if m then 1 else 0) :: r := by
  cases bs with
  | nil => cases h
  | cons b bs =>
    simp only [readBool] at h
    split at h
    · cases h; subst b; rfl
    · split at h
      · cases h; subst b; rfl
      · cases h

theorem readSettings_some {n : Nat} {bs : Bytes} {v : Nat} {r : Bytes} (h : readSettings n bs = some (v, r)) :
    bs = Scale.u16 v ++ r ∧ v < 2 ^ n := by
  simp only [readSettings, Option.bind_eq_bind, Option.bind_eq_some_iff, Prod.exists, Option.some.injEq, Prod.mk.injEq] at h
  obtain ⟨w, r', h1, u, h2, rfl, rfl⟩ := h
  simp only [fromBits] at h2
  split at h2
  · rename_i hw
    cases h2
    refine ⟨?_, hw⟩
    simp only [Scale.decLe, Scale.takeExact] at h1
    split at h1
    · rename_i x rest hx
      split at hx
      · rename_i hl
        simp only [Option.some.injEq, Prod.mk.injEq] at hx h1
        obtain ⟨rfl, rfl⟩ := hx
        obtain ⟨rfl, rfl⟩ := h1
        have e : (bs.take 2).length = 2 := by rw [List.length_take]; omega
        have := Scale.leBytes_leVal (bs.take 2)
        rw [e] at this
        rw [Scale.u16, this, List.take_append_drop]
      · cases hx
    · cases h1
  · cases h2

/-- C172: only what some release has written is read; what is read was written so. -/
theorem C172_canonical (n : Nat) (bs : Bytes) (i : Stored) (rest : Bytes) (h : read n bs = some (i, rest)) :
    bs = write i ++ rest ∧ i.settings < 2 ^ n := by
  simp only [read, Option.bind_eq_bind, Option.bind_eq_some_iff, Prod.exists, Option.some.injEq, Prod.mk.injEq] at h
  obtain ⟨mt, b1, h1, loc, b2, h2, v, b3, h3, b, b4, h4, rfl, rfl⟩ := h
  have := readModel_some h1
  subst this
  have := readLocation_some h2
  subst this
  obtain ⟨this, hv⟩ := readSettings_some h3
  subst this
  have := readBool_some h4
  subst this
  exact ⟨by simp [write, writeSettings], hv⟩

/-- C172: schemas that differ are stored differently. -/
theorem C172_distinct (n : Nat) (hn : n ≤ 16) (i j : Stored) (hi : i.settings < 2 ^ n) (hj : j.settings < 2 ^ n)
    (h : write i = write j) : i = j := by
  have h1 := (C172_read_back n hn i hi []).2
  have h2 := (C172_read_back n hn j hj []).2
  rw [h, h2] at h1
  cases h1
  rfl

/-- C172: a later release, with more settings, reads what an earlier one has written as it was meant. An earlier one reads what a
later one has written as it was meant or not at all, and the latter only if a setting is enabled that it does not know: it never takes
a schema for one without this setting. -/
theorem C172_releases (n m : Nat) (hnm : n ≤ m) (hm : m ≤ 16) (bs : Bytes) :
    (∀ r, read n bs = some r → read m bs = some r) ∧
    (∀ i rest, read m bs = some (i, rest) → read n bs = some (i, rest) ∨
      (read n bs = none ∧ ∃ k, n ≤ k ∧ k < m ∧ isEnabled i.settings k = true)) := by
  constructor
  · rintro ⟨i, rest⟩ h
    obtain ⟨rfl, hi⟩ := C172_canonical n bs i rest h
    exact (C172_read_back m hm i (lt_of_lt_of_le hi (Nat.pow_le_pow_right (by decide) hnm)) rest).2
  · intro i rest h
    obtain ⟨rfl, hi⟩ := C172_canonical m bs i rest h
    by_cases hn : i.settings < 2 ^ n
    · exact .inl (C172_read_back n (hnm.trans hm) i hn rest).2
    · refine .inr ⟨?_, ?_⟩
      · cases hr : read n (write i ++ rest) with
        | none => rfl
        | some r =>
          obtain ⟨j, rest'⟩ := r
          obtain ⟨e, hj⟩ := C172_canonical n _ j rest' hr
          have e1 := (C172_read_back m hm j (lt_of_lt_of_le hj (Nat.pow_le_pow_right (by decide) hnm)) rest').2
          rw [← e, h] at e1
          cases e1
          exact absurd hj hn
      · by_contra hc
        refine hn (Nat.lt_pow_two_of_testBit _ fun k hk => ?_)
        by_cases hkm : k < m
        · by_contra hb
          exact hc ⟨k, hk, hkm, by rw [isEnabled_iff]; simpa using hb⟩
        · exact Nat.testBit_eq_false_of_lt (lt_of_lt_of_le hi (Nat.pow_le_pow_right (by decide) (by omega)))

/-- C172: with any number of settings, those are enabled that were asked for, in whatever order and however often. -/
theorem C172_enabled (n : Nat) (l : List Nat) (hl : ∀ i ∈ l, i < n) :
    l.foldl set disabled < 2 ^ n ∧ (∀ i, isEnabled (l.foldl set disabled) i = true ↔ i ∈ l) ∧
    enabled n (l.foldl set disabled) = (List.range n).filter (· ∈ l) := by
  have h : ∀ i, isEnabled (l.foldl set disabled) i = decide (i ∈ l) := by
    intro i; rw [isEnabled_iff, fold_testBit]; simp [disabled]
  refine ⟨Nat.lt_pow_two_of_testBit _ fun k hk => ?_, fun i => by rw [h]; simp, ?_⟩
  · rw [← isEnabled_iff, h]
    simp only [decide_eq_false_iff_not]
    intro hc; have := hl k hc; omega
  · unfold enabled
    exact List.filter_congr fun i _ => h i

/-- C172: a schema registered with some settings. Every release from this one on reads its stored bytes as the schema registered,
with exactly the settings asked for, whatever happened to the chain since. -/
theorem C172_registered (cfg : Config) (s s' : State) (hr : Reachable cfg s) (o : Origin) (c : Call) (model : Bytes)
    (mt : ModelType) (loc : Location) (settings : List Setting) (hc : registers c = some (model, mt, loc, settings))
    (h : dispatch cfg s o c = .ok s') (hist : List Step) (m : Nat) (hm : declared ≤ m) (hm' : m ≤ 16) :
    ∃ id info i, createdIds s' = createdIds s ++ [id] ∧ (run cfg s' hist).infos.get id = some info ∧
      read m (write (ofInfo info)) = some (i, []) ∧ i.modelType = mt ∧ i.location = loc ∧
      (∀ g, isEnabled i.settings (place g) = true ↔ g ∈ settings) ∧
      ∀ k ∈ enabled m i.settings, ∃ g ∈ settings, place g = k := by
  obtain ⟨id, r, h1, -, h3, -, -, h4, h5, h6⟩ := C39_as_registered cfg s s' hr o c model mt loc settings hc h
  have hr' : Reachable cfg s' := by
    obtain ⟨m0, h0, rfl⟩ := hr
    exact ⟨m0, h0 ++ [.call o c], by simp only [run, List.foldl_append, List.foldl_cons, List.foldl_nil]; simp only [run] at h; simp [apply, h]⟩
  have hq := C39_immutable cfg s' hr' hist id r h3
  obtain ⟨info, hinfo⟩ : ∃ info, (run cfg s' hist).infos.get id = some info := by
    unfold getSchemaById at hq
    cases hg : (run cfg s' hist).infos.get id with
    | none => rw [hg] at hq; simp at hq
    | some info => exact ⟨info, rfl⟩
  have hresp : r.modelType = info.modelType ∧ r.location = info.location ∧ r.settings = info.settings.toList := by
    unfold getSchemaById at hq
    rw [hinfo] at hq
    cases hp : (run cfg s' hist).payloads.get id with
    | none => rw [hp] at hq; simp at hq
    | some p => rw [hp] at hq; simp at hq; subst hq; exact ⟨rfl, rfl, rfl⟩
  have hb : bits info.settings < 2 ^ m := lt_of_lt_of_le (bits_lt _) (Nat.pow_le_pow_right (by decide) hm)
  have hrd := (C172_read_back m hm' (ofInfo info) hb []).2
  rw [List.append_nil] at hrd
  have hen : ∀ k, isEnabled (bits info.settings) k = true ↔ ∃ g ∈ info.settings.toList, place g = k := by
    intro k
    have : k ∈ enabled declared (bits info.settings) ↔ k ∈ info.settings.toList.map place := by rw [enabled_bits]
    rw [List.mem_map] at this
    rw [← this]
    unfold enabled
    rw [List.mem_filter, List.mem_range]
    refine ⟨fun hk => ⟨?_, hk⟩, fun hk => hk.2⟩
    by_contra hlt
    rw [isEnabled_iff, Nat.testBit_eq_false_of_lt (lt_of_lt_of_le (bits_lt _) (Nat.pow_le_pow_right (by decide) (by omega)))] at hk
    cases hk
  refine ⟨id, info, ofInfo info, h1, hinfo, hrd, by rw [← h4, hresp.1]; rfl, by rw [← h5, hresp.2.1]; rfl, fun g => ?_, fun k hk => ?_⟩
  · rw [← h6 g, hresp.2.2]
    refine (hen (place g)).trans ⟨?_, fun hg => ⟨g, hg, rfl⟩⟩
    rintro ⟨g', hg', e⟩
    have : g' = g := by cases g <;> cases g' <;> first | rfl | cases e
    exact this ▸ hg'
  · obtain ⟨-, hk⟩ := List.mem_filter.1 hk
    obtain ⟨g, hg, e⟩ := (hen k).1 hk
    exact ⟨g, (h6 g).1 (hresp.2.2 ▸ hg), e⟩

/-! ## Cases -/

/-- Hypotheses met: an itemized schema with a name that is append-only. -/
example : write ⟨.avroBinary, .itemized, 1, true⟩ = [0, 2, 1, 0, 1] ∧
    read declared [0, 2, 1, 0, 1] = some (⟨.avroBinary, .itemized, 1, true⟩, []) ∧
    enabled declared 3 = [0, 1] ∧ isEnabled 2 0 = false := by decide

/-- A release with three settings: this one does not read a schema with the third; other bytes are not read by any. -/
example : read declared [1, 3, 6, 0, 0] = none ∧ read 3 [1, 3, 6, 0, 0] = some (⟨.parquet, .paginated, 6, false⟩, []) ∧
    read 3 [1, 3, 2, 0, 0] = read declared [1, 3, 2, 0, 0] ∧ read 16 [1, 4, 2, 0, 0] = none ∧ read 16 [1, 3, 2, 0, 2] = none ∧
    read 16 [1, 3, 2, 0] = none := by decide

/-- Asked for twice, in another order than declared. -/
example : [1, 0, 1].foldl set disabled = 3 ∧ enabled 16 ([9, 1, 9].foldl set disabled) = [1, 9] := by decide

/-- A registration, and what is stored after the other steps of the history. -/
example : registers (.createSchemaV3 (ascii "{\"x\":12}") .avroBinary .itemized [.appendOnly] (some (ascii " Dsnp.Update"))) =
      some (ascii "{\"x\":12}", .avroBinary, .itemized, [.appendOnly]) ∧
    (dispatch exCfg (.init 1024) (.signed 7) (.createSchemaV3 (ascii "{\"x\":12}") .avroBinary .itemized [.appendOnly]
      (some (ascii " Dsnp.Update")))).isOk = true ∧
    (exState.infos.get 1).map (fun i => write (ofInfo i)) = some [0, 2, 1, 0, 1] ∧
    (exState.infos.get 3).map (fun i => write (ofInfo i)) = some [1, 1, 2, 0, 1] := by decide +kernel

end Verif.Schemas.Codec
