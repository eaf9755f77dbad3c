import Verif.Offchain.Model
import Verif.Msa.PropsKeys
/-!
# Lemmas about the off-chain worker
-/

namespace Verif.Offchain

open Msa (KeyEvent)

/-- The outcome that an event has on the pair (account, key): `some true` for present, `some false` for
absent, `none` when it does not concern the pair. -/
def verdict (m : MsaId) (k : AccountId) : KeyEvent → Option Bool
  | .created m' k' => if m' = m ∧ k' = k then some true else none
  | .added m' k' => if m' = m ∧ k' = k then some true else none
  | .deleted m' k' => if m' = m ∧ k' = k then some false else none

/-- The last verdict on the pair in a list of events. -/
def lastVerdict (m : MsaId) (k : AccountId) : List KeyEvent → Option Bool
  | [] => none
  | e :: es => match lastVerdict m k es with
    | some b => some b
    | none => verdict m k e

theorem lastVerdict_append (m : MsaId) (k : AccountId) (a b : List KeyEvent) :
    lastVerdict m k (a ++ b) = match lastVerdict m k b with
      | some x => some x
      | none => lastVerdict m k a := by
  induction a with
  | nil => simp only [List.nil_append, lastVerdict]; cases lastVerdict m k b <;> rfl
  | cons e a ih =>
    simp only [List.cons_append, lastVerdict, ih]
    cases lastVerdict m k b <;> rfl

theorem lastVerdict_filter (m : MsaId) (k : AccountId) (es : List KeyEvent) :
    lastVerdict m k (es.filter (fun e => msaOf e == m)) = lastVerdict m k es := by
  induction es with
  | nil => rfl
  | cons e es ih =>
    by_cases h : msaOf e = m
    · have hb : (msaOf e == m) = true := by simpa using h
      rw [List.filter_cons_of_pos (by simpa using h)]
      simp only [lastVerdict, ih]
    · rw [List.filter_cons_of_neg (by simpa using h), ih]
      simp only [lastVerdict]
      have : verdict m k e = none := by
        cases e <;> simp only [msaOf] at h <;> simp [verdict, h]
      rw [this]
      cases lastVerdict m k es <;> rfl

theorem processEvents_mem (m : MsaId) (k : AccountId) (es : List KeyEvent)
    (hm : ∀ e ∈ es, msaOf e = m) : ∀ keys : List AccountId,
    decide (k ∈ processEvents keys es) = (lastVerdict m k es).getD (decide (k ∈ keys)) := by
  induction es with
  | nil => intro keys; rfl
  | cons e es ih =>
    intro keys
    have ih := ih (fun x hx => hm x (List.mem_cons_of_mem _ hx)) (processOne keys e)
    have he := hm e (by simp)
    unfold processEvents at *
    rw [List.foldl_cons, ih]
    simp only [lastVerdict]
    cases lastVerdict m k es with
    | some b => rfl
    | none =>
      simp only [Option.getD_none]
      cases e with
      | created m' k' =>
        simp only [msaOf] at he
        subst he
        by_cases hk : k' = k
        · subst hk
          by_cases hc : k' ∈ keys <;> simp [processOne, verdict, hc]
        · by_cases hc : k' ∈ keys
          · simp [processOne, verdict, hc, hk]
          · have : ¬ k = k' := fun e => hk e.symm
            simp [processOne, verdict, hc, hk, this]
      | added m' k' =>
        simp only [msaOf] at he
        subst he
        by_cases hk : k' = k
        · subst hk
          by_cases hc : k' ∈ keys <;> simp [processOne, verdict, hc]
        · by_cases hc : k' ∈ keys
          · simp [processOne, verdict, hc, hk]
          · have : ¬ k = k' := fun e => hk e.symm
            simp [processOne, verdict, hc, hk, this]
      | deleted m' k' =>
        simp only [msaOf] at he
        subst he
        by_cases hk : k' = k
        · subst hk
          by_cases hc : k' ∈ keys <;> simp [processOne, verdict, hc]
        · have : ¬ k = k' := fun e => hk e.symm
          by_cases hc : k' ∈ keys <;> simp [processOne, verdict, hc, hk, this]

theorem processEvents_nodup (es : List KeyEvent) : ∀ keys : List AccountId, keys.Nodup →
    (processEvents keys es).Nodup := by
  induction es with
  | nil => intro keys h; exact h
  | cons e es ih =>
    intro keys h
    unfold processEvents at *
    rw [List.foldl_cons]
    apply ih
    cases e <;> simp only [processOne] <;> split
    · exact h
    · rename_i hc
      simp only [List.contains_eq_mem, decide_eq_true_eq] at hc
      exact List.nodup_append.2 ⟨h, by simp, by rintro a ha b hb; simp at hb; subst hb; rintro rfl; exact hc ha⟩
    · exact h
    · rename_i hc
      simp only [List.contains_eq_mem, decide_eq_true_eq] at hc
      exact List.nodup_append.2 ⟨h, by simp, by rintro a ha b hb; simp at hb; subst hb; rintro rfl; exact hc ha⟩
    · exact h.filter _
    · exact h

theorem mem_insertAsc (m x : Nat) (l : List Nat) : x ∈ insertAsc m l ↔ x = m ∨ x ∈ l := by
  induction l with
  | nil => simp [insertAsc]
  | cons a l ih =>
    unfold insertAsc
    split
    · simp
    · split
      · rename_i h; subst h; simp
      · simp only [List.mem_cons, ih]; constructor <;> rintro (h | h | h) <;> simp [h]

theorem mem_msas (es : List KeyEvent) (m : MsaId) : m ∈ msas es ↔ ∃ e ∈ es, msaOf e = m := by
  have key : ∀ (es : List KeyEvent) (acc : List Nat),
      m ∈ es.foldl (fun acc e => insertAsc (msaOf e) acc) acc ↔ m ∈ acc ∨ ∃ e ∈ es, msaOf e = m := by
    intro es
    induction es with
    | nil => intro acc; simp
    | cons e es ih =>
      intro acc
      rw [List.foldl_cons, ih]
      simp only [mem_insertAsc, List.mem_cons, exists_eq_or_imp]
      constructor
      · rintro ((h | h) | h)
        · exact Or.inr (Or.inl h.symm)
        · exact Or.inl h
        · exact Or.inr (Or.inr h)
      · rintro (h | h | h)
        · exact Or.inl (Or.inr h)
        · exact Or.inl (Or.inl h.symm)
        · exact Or.inr h
  simpa [msas] using key es []

theorem lastVerdict_none_of_not_mem {es : List KeyEvent} {m : MsaId} (k : AccountId)
    (h : m ∉ msas es) : lastVerdict m k es = none := by
  rw [mem_msas] at h
  rw [← lastVerdict_filter]
  have : es.filter (fun e => msaOf e == m) = [] := by
    rw [List.filter_eq_nil_iff]
    intro e he hb
    exact h ⟨e, he, by simpa using hb⟩
  rw [this]; rfl

/-- Membership in the index as a boolean. -/
def inIndex (db : Db) (m : MsaId) (k : AccountId) : Bool := decide (k ∈ db.keysOf m)

/-- Events of the blocks `b, b+1, ..., b+n-1` still stored. -/
def storedFrom (db : Db) (b n : Nat) : List KeyEvent := (List.range' b n).flatMap (readEvents db)

/-- The state the index is heading to: the stored events of the blocks after the last processed one
replayed on the present index. `n` blocks are pending. -/
def target (db : Db) (lp n : Nat) (m : MsaId) (k : AccountId) : Bool :=
  (lastVerdict m k (storedFrom db (lp + 1) n)).getD (inIndex db m k)

theorem storedFrom_succ (db : Db) (b n : Nat) :
    storedFrom db b (n + 1) = readEvents db b ++ storedFrom db (b + 1) n := by
  simp [storedFrom, List.range'_succ]

theorem storedFrom_snoc (db : Db) (b n : Nat) :
    storedFrom db b (n + 1) = storedFrom db b n ++ readEvents db (b + n) := by
  simp [storedFrom, List.range'_concat]

theorem storedFrom_congr {db db' : Db} {b n : Nat}
    (h : ∀ i, b ≤ i → i < b + n → readEvents db i = readEvents db' i) :
    storedFrom db b n = storedFrom db' b n := by
  unfold storedFrom
  apply List.flatMap_congr
  intro x hx
  rw [List.mem_range'_1] at hx
  exact h x hx.1 hx.2

theorem readEvents_congr {db db' : Db} (h1 : db.evt = db'.evt) (h2 : db.cnt = db'.cnt) (b : Nat) :
    readEvents db b = readEvents db' b := by simp [readEvents, h1, h2]

/-- Writing key lists for the accounts `ms` with a function of the account. -/
theorem writes_setKeys (f : MsaId → List AccountId) (ms : List MsaId) : ∀ db : Db,
    let db' := db.writes (ms.map (fun m => .setKeys m (f m)))
    db'.evt = db.evt ∧ db'.cnt = db.cnt ∧ db'.last = db.last ∧ db'.indexed = db.indexed ∧
      ∀ m, db'.keysOf m = if m ∈ ms then f m else db.keysOf m := by
  induction ms with
  | nil => intro db; simp [Db.writes]
  | cons a ms ih =>
    intro db
    have ih := ih (db.write (.setKeys a (f a)))
    simp only [List.map_cons, Db.writes, List.foldl_cons] at *
    obtain ⟨h1, h2, h3, h4, h5⟩ := ih
    refine ⟨h1, h2, h3, h4, fun m => ?_⟩
    rw [h5]
    by_cases hm : m ∈ ms
    · simp [hm]
    · by_cases ha : a = m
      · subst ha; simp [hm, Db.write, Db.keysOf]
      · have : ¬ m = a := fun e => ha e.symm
        simp [hm, this, Db.write, Db.keysOf, SMap.get_insert, ha]

/-- Clearing some events of block `b`. -/
theorem writes_clearEvt (b : Nat) (is : List Nat) : ∀ db : Db,
    let db' := db.writes (is.map (fun i => .clearEvt b i))
    db'.cnt = db.cnt ∧ db'.last = db.last ∧ db'.indexed = db.indexed ∧ db'.keys = db.keys ∧
      ∀ key, db'.evt.get key = if key.1 = b ∧ key.2 ∈ is then none else db.evt.get key := by
  induction is with
  | nil => intro db; simp [Db.writes]
  | cons a is ih =>
    intro db
    have ih := ih (db.write (.clearEvt b a))
    simp only [List.map_cons, Db.writes, List.foldl_cons] at *
    obtain ⟨h1, h2, h3, h4, h5⟩ := ih
    refine ⟨h1, h2, h3, h4, fun key => ?_⟩
    rw [h5]
    obtain ⟨x, y⟩ := key
    simp only [Db.write, SMap.get_erase, Prod.mk.injEq, List.mem_cons]
    by_cases hx : x = b
    · subst hx
      by_cases hy : y ∈ is
      · simp [hy]
      · by_cases hya : a = y
        · simp [hya]
        · have : ¬ y = a := fun e => hya e.symm
          simp [hy, this, hya]
    · have : ¬ b = x := fun e => hx e.symm
      simp [hx, this]

theorem readEvents_clear_prefix {db : Db} {b j : Nat} :
    let db' := db.writes ((List.range' 1 j).map (fun i => .clearEvt b i))
    (∀ b', b' ≠ b → readEvents db' b' = readEvents db b') ∧
    ∃ pre, readEvents db b = pre ++ readEvents db' b := by
  intro db'
  obtain ⟨h1, h2, h3, h4, h5⟩ := writes_clearEvt b (List.range' 1 j) db
  have h1 : db'.cnt = db.cnt := h1
  have h5 : ∀ key, db'.evt.get key = if key.1 = b ∧ key.2 ∈ List.range' 1 j then none
    else db.evt.get key := h5
  constructor
  · intro b' hb
    unfold readEvents
    rw [h1]
    apply List.filterMap_congr
    intro i _
    rw [h5]; simp [hb]
  · refine ⟨(List.range' 1 (min j ((db.cnt.get b).getD 0))).filterMap (fun i => db.evt.get (b, i)), ?_⟩
    unfold readEvents
    rw [h1]
    generalize (db.cnt.get b).getD 0 = c
    have hsplit : List.range' 1 c = List.range' 1 (min j c) ++ List.range' (1 + min j c) (c - min j c) := by
      have := List.range'_append_1 (s := 1) (m := min j c) (n := c - min j c)
      rw [this]; congr 1; omega
    rw [hsplit, List.filterMap_append, List.filterMap_append]
    have hnil : (List.range' 1 (min j c)).filterMap (fun i => db'.evt.get (b, i)) = [] := by
      rw [List.filterMap_eq_nil_iff]
      intro i hi
      rw [List.mem_range'_1] at hi
      rw [h5]
      have : i ∈ List.range' 1 j := by rw [List.mem_range'_1]; omega
      simp [this]
    rw [hnil, List.nil_append]
    congr 1
    apply List.filterMap_congr
    intro i hi
    rw [List.mem_range'_1] at hi
    rw [h5]
    have : i ∉ List.range' 1 j ∨ c ≤ j := by
      rw [List.mem_range'_1]
      omega
    rcases this with h | h
    · simp [h]
    · omega

/-- Replaying a list and then any part at its end again changes nothing. -/
theorem replay_suffix (m : MsaId) (k : AccountId) (pre suf rest : List KeyEvent) (x : Bool) :
    (lastVerdict m k (suf ++ rest)).getD ((lastVerdict m k (pre ++ suf)).getD x) =
      (lastVerdict m k ((pre ++ suf) ++ rest)).getD x := by
  rw [lastVerdict_append m k suf rest, lastVerdict_append m k (pre ++ suf) rest,
    lastVerdict_append m k pre suf]
  cases lastVerdict m k rest <;> cases lastVerdict m k suf <;> cases lastVerdict m k pre <;> rfl

theorem take_map_range' (f : Nat → Write) (c j : Nat) :
    ((List.range' 1 c).map f).take j = (List.range' 1 (min j c)).map f := by
  rw [← List.map_take]
  congr 1
  apply List.ext_getElem <;> simp

/-- The key point: any prefix of the writes made for the next block leaves the target unchanged; if all
writes were made then the block is no longer pending. -/
theorem blockWrites_prefix (db : Db) (lp n : Nat) (j : Nat) (hlast : db.last = some lp) :
    let db' := db.writes ((blockWrites db (lp + 1)).take j)
    (∀ b, b ≠ lp + 1 → readEvents db' b = readEvents db b) ∧ db'.indexed = db.indexed ∧
    ((db'.last = some lp ∧ ∀ m k, target db' lp (n + 1) m k = target db lp (n + 1) m k) ∨
     (db'.last = some (lp + 1) ∧ ∀ m k, target db' (lp + 1) n m k = target db lp (n + 1) m k)) := by
  intro db'
  let b := lp + 1
  let es := readEvents db b
  let f : MsaId → List AccountId := fun m =>
    processEvents (db.keysOf m) (es.filter (fun e => msaOf e == m))
  have hf : ∀ m k, decide (k ∈ f m) = (lastVerdict m k es).getD (inIndex db m k) := by
    intro m k
    have := processEvents_mem m k (es.filter (fun e => msaOf e == m))
      (by intro e he; simpa using (List.mem_filter.1 he).2) (db.keysOf m)
    rw [lastVerdict_filter] at this
    exact this
  have hkw : keyWrites db b = (msas es).map (fun m => .setKeys m (f m)) := rfl
  -- phase A: only key lists written
  have phaseA : ∀ i, let d := db.writes ((keyWrites db b).take i)
      d.evt = db.evt ∧ d.cnt = db.cnt ∧ d.last = db.last ∧ d.indexed = db.indexed ∧
      (∀ m k, inIndex d m k = inIndex db m k ∨
        inIndex d m k = (lastVerdict m k es).getD (inIndex db m k)) ∧
      ((msas es).length ≤ i → ∀ m k, inIndex d m k = (lastVerdict m k es).getD (inIndex db m k)) := by
    intro i d
    have hd : d = db.writes (((msas es).take i).map (fun m => .setKeys m (f m))) := by
      simp only [d, hkw, List.map_take]
    obtain ⟨h1, h2, h3, h4, h5⟩ := writes_setKeys f ((msas es).take i) db
    rw [← hd] at h1 h2 h3 h4 h5
    refine ⟨h1, h2, h3, h4, ?_, ?_⟩
    · intro m k
      unfold inIndex
      rw [h5]
      split
      · right; exact hf m k
      · left; rfl
    · intro hi m k
      unfold inIndex
      rw [h5, List.take_of_length_le hi]
      split
      · exact hf m k
      · rename_i hm
        rw [lastVerdict_none_of_not_mem k hm]; rfl
  have hstored : storedFrom db (lp + 1) (n + 1) = es ++ storedFrom db (lp + 1 + 1) n :=
    storedFrom_succ db (lp + 1) n
  -- all key lists written
  let dA := db.writes (keyWrites db b)
  have hA := phaseA (msas es).length
  have hAeq : (keyWrites db b).take (msas es).length = keyWrites db b := by
    rw [List.take_of_length_le]; simp [hkw]
  simp only [hAeq] at hA
  obtain ⟨a1, a2, a3, a4, _, a6⟩ := hA
  have a6 := a6 (le_refl _)
  -- writing lists only
  have hApre : ∀ i, let d := db.writes ((keyWrites db b).take i)
      (∀ b', readEvents d b' = readEvents db b') ∧ d.indexed = db.indexed ∧
      d.last = some lp ∧ ∀ m k, target d lp (n + 1) m k = target db lp (n + 1) m k := by
    intro i d
    obtain ⟨h1, h2, h3, h4, h5, _⟩ := phaseA i
    have hre : ∀ b', readEvents d b' = readEvents db b' := fun b' => readEvents_congr h1 h2 b'
    refine ⟨hre, h4, h3.trans hlast, fun m k => ?_⟩
    unfold target
    have hs : storedFrom d (lp + 1) (n + 1) = storedFrom db (lp + 1) (n + 1) :=
      storedFrom_congr (fun i _ _ => hre i)
    rw [hs, hstored]
    rcases h5 m k with h | h
    · show (lastVerdict m k _).getD (inIndex d m k) = _
      rw [h]
    · show (lastVerdict m k _).getD (inIndex d m k) = _
      rw [h]
      exact replay_suffix m k [] es _ _
  -- all key lists written, some events cleared: the readable events of the block are a suffix
  have hBgen : ∀ d : Db, d.last = some lp → d.indexed = db.indexed → d.keys = dA.keys →
      (∀ b', b' ≠ b → readEvents d b' = readEvents db b') →
      (∃ pre, es = pre ++ readEvents d b) →
      (∀ b', b' ≠ lp + 1 → readEvents d b' = readEvents db b') ∧ d.indexed = db.indexed ∧
      d.last = some lp ∧ ∀ m k, target d lp (n + 1) m k = target db lp (n + 1) m k := by
    intro d hl hi hk hre ⟨pre, hpre⟩
    refine ⟨hre, hi, hl, fun m k => ?_⟩
    unfold target
    have hidx : inIndex d m k = (lastVerdict m k es).getD (inIndex db m k) := by
      rw [← a6 m k]; unfold inIndex Db.keysOf; rw [hk]
    rw [storedFrom_succ, hstored, hidx]
    have hs : storedFrom d (lp + 1 + 1) n = storedFrom db (lp + 1 + 1) n :=
      storedFrom_congr (fun i hi _ => hre i (by simp only [b]; omega))
    rw [hs]
    conv_lhs => rw [hpre]
    conv_rhs => rw [hpre]
    exact replay_suffix m k pre (readEvents d b) _ _
  -- everything but the last processed block
  have hCset : ∀ d : Db, d.indexed = db.indexed → d.keys = dA.keys →
      (∀ b', b' ≠ b → readEvents d b' = readEvents db b') →
      (∀ b', b' ≠ lp + 1 → readEvents (d.write (.setLast b)) b' = readEvents db b') ∧
      (d.write (.setLast b)).indexed = db.indexed ∧ (d.write (.setLast b)).last = some (lp + 1) ∧
      ∀ m k, target (d.write (.setLast b)) (lp + 1) n m k = target db lp (n + 1) m k := by
    intro d hi hk hre
    refine ⟨hre, hi, rfl, fun m k => ?_⟩
    unfold target
    have hidx : inIndex (d.write (.setLast b)) m k = (lastVerdict m k es).getD (inIndex db m k) := by
      rw [← a6 m k]; unfold inIndex Db.keysOf
      show decide (k ∈ (d.keys.get m).getD []) = _
      rw [hk]
    rw [hstored, hidx]
    have hs : storedFrom (d.write (.setLast b)) (lp + 1 + 1) n = storedFrom db (lp + 1 + 1) n :=
      storedFrom_congr (fun i hi _ => hre i (by simp only [b]; omega))
    rw [hs]
    have := replay_suffix m k es [] (storedFrom db (lp + 1 + 1) n) (inIndex db m k)
    simpa using this
  have hdAre : ∀ b', readEvents dA b' = readEvents db b' := fun b' => readEvents_congr a1 a2 b'
  -- now the cases
  have hpack1 : ∀ d : Db, d = db' → ((∀ b', b' ≠ lp + 1 → readEvents d b' = readEvents db b') ∧
      d.indexed = db.indexed ∧ d.last = some lp ∧
      ∀ m k, target d lp (n + 1) m k = target db lp (n + 1) m k) →
      (∀ b, b ≠ lp + 1 → readEvents db' b = readEvents db b) ∧ db'.indexed = db.indexed ∧
      ((db'.last = some lp ∧ ∀ m k, target db' lp (n + 1) m k = target db lp (n + 1) m k) ∨
       (db'.last = some (lp + 1) ∧ ∀ m k, target db' (lp + 1) n m k = target db lp (n + 1) m k)) := by
    intro d hd ⟨x1, x2, x3, x4⟩
    subst hd
    exact ⟨x1, x2, Or.inl ⟨x3, x4⟩⟩
  have hpack2 : ∀ d : Db, d = db' → ((∀ b', b' ≠ lp + 1 → readEvents d b' = readEvents db b') ∧
      d.indexed = db.indexed ∧ d.last = some (lp + 1) ∧
      ∀ m k, target d (lp + 1) n m k = target db lp (n + 1) m k) →
      (∀ b, b ≠ lp + 1 → readEvents db' b = readEvents db b) ∧ db'.indexed = db.indexed ∧
      ((db'.last = some lp ∧ ∀ m k, target db' lp (n + 1) m k = target db lp (n + 1) m k) ∨
       (db'.last = some (lp + 1) ∧ ∀ m k, target db' (lp + 1) n m k = target db lp (n + 1) m k)) := by
    intro d hd ⟨x1, x2, x3, x4⟩
    subst hd
    exact ⟨x1, x2, Or.inr ⟨x3, x4⟩⟩
  by_cases hj : j ≤ (keyWrites db b).length
  · -- only key lists
    refine hpack1 (db.writes ((keyWrites db b).take j)) ?_ ?_
    · simp only [db', blockWrites, reverseMapWrites]
      rw [List.append_assoc, List.take_append_of_le_length hj]
    · obtain ⟨x1, x2, x3, x4⟩ := hApre j
      exact ⟨fun b' _ => x1 b', x2, x3, x4⟩
  · have hj : (keyWrites db b).length < j := by omega
    by_cases hes : readEvents db b = []
    · -- no events: the only further write is the last processed block
      refine hpack2 (dA.write (.setLast b)) ?_ ?_
      · simp only [db', blockWrites, reverseMapWrites]
        rw [show lp + 1 = b from rfl, if_pos hes, List.append_nil, List.take_of_length_le (by simp; omega)]
        simp [Db.writes, dA]
      · exact hCset dA a4 rfl (fun b' _ => hdAre b')
    · have htake : (blockWrites db (lp + 1)).take j = keyWrites db b ++
          ((cleanWrites db b ++ [Write.setLast b]).take (j - (keyWrites db b).length)) := by
        simp only [blockWrites, reverseMapWrites]
        rw [show lp + 1 = b from rfl, if_neg hes, List.append_assoc, List.take_append,
          List.take_of_length_le (by omega)]
      have hwr : db' = dA.writes ((cleanWrites db b ++ [Write.setLast b]).take
          (j - (keyWrites db b).length)) := by
        simp only [db', htake, Db.writes, List.foldl_append, dA]
      have hj2 : 0 < j - (keyWrites db b).length := by omega
      generalize j - (keyWrites db b).length = j2 at hwr hj2
      by_cases hcl : db.clears = true
      case neg =>
        -- nothing is cleared: the only further write is the last processed block
        refine hpack2 (dA.write (.setLast b)) ?_ (hCset dA a4 rfl (fun b' _ => hdAre b'))
        rw [hwr, cleanWrites, if_neg hcl, List.nil_append, List.take_of_length_le (by simp; omega)]
        simp [Db.writes]
      have hclean : cleanWrites db b =
          (List.range' 1 ((db.cnt.get b).getD 0)).map (fun i => .clearEvt b i) ++ [.clearCnt b] := by
        rw [cleanWrites, if_pos hcl]
      let c := (db.cnt.get b).getD 0
      have hc : (dA.cnt.get b).getD 0 = c := by show (dA.cnt.get b).getD 0 = _; rw [a2]
      by_cases hj2 : j2 ≤ c
      · -- part of the events cleared
        refine hpack1 (dA.writes ((List.range' 1 (min j2 c)).map (fun i => .clearEvt b i))) ?_ ?_
        · rw [hwr]
          simp only [hclean]
          rw [List.append_assoc, List.take_append_of_le_length (by simp; exact hj2), take_map_range']
        · obtain ⟨w1, w2, w3, w4, _⟩ := writes_clearEvt b (List.range' 1 (min j2 c)) dA
          obtain ⟨p1, pre, p2⟩ := readEvents_clear_prefix (db := dA) (b := b) (j := min j2 c)
          refine hBgen _ (w2.trans (a3.trans hlast)) (w3.trans a4) w4 ?_ ⟨pre, ?_⟩
          · intro b' hb'; rw [p1 b' hb', hdAre]
          · rw [← p2]; exact (hdAre b).symm
      · -- all events cleared, then the counter
        let dB := (dA.writes ((List.range' 1 c).map (fun i => .clearEvt b i))).write (.clearCnt b)
        obtain ⟨w1, w2, w3, w4, _⟩ := writes_clearEvt b (List.range' 1 c) dA
        obtain ⟨p1, _⟩ := readEvents_clear_prefix (db := dA) (b := b) (j := c)
        have hBre : ∀ b', b' ≠ b → readEvents dB b' = readEvents db b' := by
          intro b' hb'
          rw [← hdAre b', ← p1 b' hb']
          have : ¬ b = b' := fun e => hb' e.symm
          simp only [readEvents, dB, Db.write, SMap.get_erase, this, if_false]
        have hB0 : readEvents dB b = [] := by
          simp [readEvents, dB, Db.write]
        have hfull : (cleanWrites db b).foldl Db.write dA = dB := by
          simp only [hclean, List.foldl_append, List.foldl_cons, List.foldl_nil, dB, Db.writes, c]
        by_cases hj3 : j2 = c + 1
        · refine hpack1 dB ?_ ?_
          · rw [hwr, List.take_append_of_le_length (by simp [hclean]; omega),
              List.take_of_length_le (by simp [hclean]; omega)]
            exact hfull.symm
          · exact hBgen dB (w2.trans (a3.trans hlast)) (w3.trans a4) w4 hBre ⟨es, by rw [hB0]; simp⟩
        · refine hpack2 (dB.write (.setLast b)) ?_ ?_
          · rw [hwr, List.take_of_length_le (by simp [hclean]; omega)]
            simp only [Db.writes, List.foldl_append, List.foldl_cons, List.foldl_nil, hfull]
          · exact hCset dB (w3.trans a4) w4 hBre

end Verif.Offchain
