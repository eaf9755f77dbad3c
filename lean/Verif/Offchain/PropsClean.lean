import Verif.Offchain.Props
/-!
# What the worker removes, and what a repeated initial indexing finds
-/

namespace Verif.Offchain

open Msa (KeyEvent)

/-! ## Lemmas -/

theorem writes_append (db : Db) (a b : List Write) : db.writes (a ++ b) = (db.writes a).writes b := by
  simp [Db.writes]

/-- Writes that are no removal of an event keep the events. -/
theorem writes_evt (ws : List Write) : ∀ db : Db, (∀ w ∈ ws, ∀ b i, w ≠ .clearEvt b i) → (db.writes ws).evt = db.evt := by
  induction ws with
  | nil => intro db _; rfl
  | cons w ws ih =>
    intro db h
    show ((db.write w).writes ws).evt = _
    rw [ih _ (fun x hx => h x (List.mem_cons_of_mem _ hx))]
    have := h w (by simp)
    cases w with
    | clearEvt b i => exact absurd rfl (this b i)
    | _ => rfl

/-- An event that is absent stays absent. -/
theorem writes_none (ws : List Write) (x : Nat × Nat) : ∀ db : Db, db.evt.get x = none → (db.writes ws).evt.get x = none := by
  induction ws with
  | nil => intro db h; exact h
  | cons w ws ih =>
    intro db h
    refine ih (db.write w) ?_
    cases w with
    | clearEvt b i =>
      show (db.evt.erase (b, i)).get x = none
      rw [SMap.get_erase]
      split <;> [rfl; exact h]
    | _ => exact h

theorem writes_cleared (ws : List Write) (b i : Nat) (h : Write.clearEvt b i ∈ ws) :
    ∀ db : Db, (db.writes ws).evt.get (b, i) = none := by
  induction ws with
  | nil => cases h
  | cons w ws ih =>
    intro db
    rcases List.mem_cons.1 h with rfl | h
    · refine writes_none ws _ _ ?_
      show (db.evt.erase (b, i)).get (b, i) = none
      rw [SMap.get_erase, if_pos rfl]
    · exact ih h (db.write w)

theorem keyWrites_evt (db : Db) (b : Nat) : (db.writes (keyWrites db b)).evt = db.evt := by
  refine writes_evt _ _ ?_
  intro w hw b' i e
  subst e
  simp [keyWrites] at hw

theorem writes_clears (ws : List Write) : ∀ db : Db, (db.writes ws).clears = db.clears := by
  induction ws with
  | nil => intro db; rfl
  | cons w ws ih =>
    intro db
    show ((db.write w).writes ws).clears = _
    rw [ih]
    cases w <;> rfl

/-- After a block was handled none of its numbered events is stored. -/
theorem reverseMap_removes (db : Db) (hd : db.clears = true) (b i : Nat) (hi : 1 ≤ i) (hc : i ≤ (db.cnt.get b).getD 0) :
    (db.writes (reverseMapWrites db b)).evt.get (b, i) = none := by
  unfold reverseMapWrites
  split
  · rename_i h
    rw [List.append_nil, keyWrites_evt]
    unfold readEvents at h
    rw [List.filterMap_eq_nil_iff] at h
    exact h i (by rw [List.mem_range'_1]; omega)
  · refine writes_cleared _ b i ?_ db
    rw [cleanWrites, if_pos hd]
    refine List.mem_append_right _ (List.mem_append_left _ ?_)
    exact List.mem_map.2 ⟨i, by rw [List.mem_range'_1]; omega, rfl⟩

theorem reverseMap_no_clear (db : Db) (b b' : Nat) (hne : b ≠ b') :
    (db.writes (reverseMapWrites db b)).cnt.get b' = db.cnt.get b' := by
  refine writes_cnt_ne _ b' db ?_
  intro w hw
  exact blockWrites_no_clear db b b' hne w (List.mem_append_left _ hw)

theorem applyLoop_none (n b : Nat) (db : Db) (x : Nat × Nat) (h : db.evt.get x = none) :
    (applyLoop (fun _ => true) n b db).evt.get x = none := by
  induction n generalizing b db with
  | zero => exact h
  | succ n ih =>
    simp only [applyLoop]
    rw [if_neg (by simp)]
    refine ih _ _ ?_
    exact writes_none _ _ _ h

theorem applyLoop_removes (n : Nat) : ∀ (b : Nat) (db : Db) (b' i : Nat), db.clears = true → b ≤ b' → b' < b + n →
    1 ≤ i → i ≤ (db.cnt.get b').getD 0 → (applyLoop (fun _ => true) n b db).evt.get (b', i) = none := by
  induction n with
  | zero => intro b db b' i _ h1 h2; omega
  | succ n ih =>
    intro b db b' i hd h1 h2 h3 h4
    simp only [applyLoop]
    rw [if_neg (by simp)]
    by_cases hb : b = b'
    · subst hb
      exact applyLoop_none _ _ _ _ (reverseMap_removes db hd b i h3 h4)
    · refine ih (b + 1) _ b' i ((writes_clears _ db).trans hd) (by omega) (by omega) h3 ?_
      have := reverseMap_no_clear db b b' hb
      show i ≤ ((db.writes (reverseMapWrites db b)).cnt.get b').getD 0
      rw [this]
      exact h4

/-- Counters never exceed what they were. -/
theorem writes_cnt (ws : List Write) (b : Nat) : ∀ db : Db,
    (db.writes ws).cnt.get b = db.cnt.get b ∨ (db.writes ws).cnt.get b = none := by
  induction ws with
  | nil => intro db; exact .inl rfl
  | cons w ws ih =>
    intro db
    rcases ih (db.write w) with h | h
    · have h' : (db.writes (w :: ws)).cnt.get b = (db.write w).cnt.get b := h
      rw [h']
      cases w with
      | clearCnt b' =>
        show (db.cnt.erase b').get b = _ ∨ (db.cnt.erase b').get b = _
        rw [SMap.get_erase]
        split <;> [exact .inr rfl; exact .inl rfl]
      | _ => exact .inl rfl
    · exact .inr h

theorem applyLoop_cnt (n b b' : Nat) (db : Db) :
    (applyLoop (fun _ => true) n b db).cnt.get b' = db.cnt.get b' ∨
    (applyLoop (fun _ => true) n b db).cnt.get b' = none := by
  induction n generalizing b db with
  | zero => exact .inl rfl
  | succ n ih =>
    simp only [applyLoop]
    rw [if_neg (by simp)]
    rcases ih (b + 1) ((db.writes (reverseMapWrites db b)).write (.setLast b)) with h | h
    · rw [h]
      exact writes_cnt (reverseMapWrites db b) b' db
    · exact .inr h

/-! ## The initial flag -/

theorem writes_indexed (ws : List Write) : ∀ db : Db, (∀ w ∈ ws, w ≠ .setIndexed) → (db.writes ws).indexed = db.indexed := by
  induction ws with
  | nil => intro db _; rfl
  | cons w ws ih =>
    intro db h
    show ((db.write w).writes ws).indexed = _
    rw [ih _ (fun x hx => h x (List.mem_cons_of_mem _ hx))]
    have := h w (by simp)
    cases w with
    | setIndexed => exact absurd rfl this
    | _ => rfl

theorem reverseMap_indexed (db : Db) (b : Nat) : (db.writes (reverseMapWrites db b)).indexed = db.indexed := by
  refine writes_indexed _ _ ?_
  intro w hw e
  subst e
  simp only [reverseMapWrites, keyWrites, List.mem_append, List.mem_map, reduceCtorEq, and_false, exists_false,
    false_or] at hw
  split at hw
  · cases hw
  · unfold cleanWrites at hw
    split at hw <;> simp at hw

theorem applyLoop_indexed (extend : Nat → Bool) (n b : Nat) (db : Db) :
    (applyLoop extend n b db).indexed = db.indexed := by
  induction n generalizing b db with
  | zero => rfl
  | succ n ih =>
    simp only [applyLoop]
    split
    · exact reverseMap_indexed db b
    · rw [ih]
      exact reverseMap_indexed db b

theorem initialWrites_indexed (accounts : List (AccountId × MsaId)) (db : Db) :
    ∀ w ∈ initialWrites accounts db, w ≠ .setIndexed := by
  induction accounts generalizing db with
  | nil => intro w hw; cases hw
  | cons a rest ih =>
    intro w hw
    simp only [initialWrites] at hw
    rcases List.mem_cons.1 hw with rfl | hw
    · simp
    · exact ih _ w hw

/-- Interrupted runs of the worker, one after the other: each sees its own keys and finalized block and stops
after some number of keys. -/
def interrupted (db : Db) (runs : List (List (AccountId × MsaId) × Nat × Nat × (Nat → Bool))) : Db :=
  runs.foldl (fun d r => worker r.1 r.2.1 (some r.2.2.1) r.2.2.2 d) db

/-! ## C17, repeated initial indexing -/

/-- C17, the initial indexing: however often it was interrupted before, once it runs to the end every key that
the chain has for an account is listed for this account. (Keys that the chain has no longer may be listed too:
`C17_interrupted_initial_index_stale`.) -/
theorem C17_initial_index_complete_partial (runs : List (List (AccountId × MsaId) × Nat × Nat × (Nat → Bool)))
    (db : Db) (hi : db.indexed = false) (accounts : List (AccountId × MsaId)) (f : Nat) (k : AccountId) (m : MsaId)
    (hk : (k, m) ∈ accounts) :
    k ∈ (initialIndex accounts f none (interrupted db runs)).keysOf m := by
  have hflag : (interrupted db runs).indexed = false := by
    unfold interrupted
    induction runs generalizing db with
    | nil => exact hi
    | cons r rest ih =>
      rw [List.foldl_cons]
      refine ih _ ?_
      unfold worker applyOffchainEvents
      rw [applyLoop_indexed]
      unfold initialIndex
      rw [hi]
      simp only [Bool.false_eq_true, if_false]
      rw [writes_indexed _ _ (fun w hw => initialWrites_indexed _ _ w (List.mem_of_mem_take hw))]
      exact hi
  unfold initialIndex
  rw [hflag]
  simp only [Bool.false_eq_true, if_false]
  obtain ⟨_, _, _, h⟩ := initialWrites_spec accounts ((interrupted db runs).write (.setLast (f - 1)))
  have h' := h m k
  have hin : inIndex (((interrupted db runs).write (.setLast (f - 1))).writes
      (initialWrites accounts ((interrupted db runs).write (.setLast (f - 1))))) m k = true := by
    rw [h']
    simp [hk]
  unfold inIndex at hin
  exact of_decide_eq_true hin

example : (interrupted Db.init [([(200, 2), (100, 1)], 5, 1, fun _ => true)]).keysOf 1 = [] ∧
    100 ∈ (initialIndex [(201, 2), (100, 1)] 8 none
      (interrupted Db.init [([(200, 2), (100, 1)], 5, 1, fun _ => true)])).keysOf 1 := by decide

/-! ## C103 -/

/-- Is an event of this block in the database, under a number that its counter covers? -/
def Holds (db : Db) (b : Nat) : Prop := ∃ i, 1 ≤ i ∧ i ≤ (db.cnt.get b).getD 0 ∧ (db.evt.get (b, i)).isSome = true

/-- C103, the full statement: after the worker handled everything up to block `f` in a node that ran all its
histories, no event of a block up to `f` is stored. It is false, see `C103_full_false`. -/
def C103_full : Prop := ∀ (cfg : Msa.Config) (s : Sys), Reach cfg s → s.db.indexed = true → ∀ f lp, s.db.last = some lp →
  lp < f → f < s.now → ∀ b, b ≤ f → ¬ Holds (applyOffchainEvents (fun _ => true) s.db f) b

/-- C103: nothing is left of the blocks that were handled in this run, whatever the database held before, for
instance after an interruption at any write, if what the worker clears is cleared. Missing: blocks before the one the
initial indexing started from, and nodes that drop what the worker clears (`C103_kept_when_dropped`). -/
theorem C103_events_removed_partial (db : Db) (hd : db.clears = true) (f lp : Nat) (hl : db.last = some lp) (b : Nat) (hb : lp < b)
    (hf : b ≤ f) :
    ¬ Holds (applyOffchainEvents (fun _ => true) db f) b ∧
    readEvents (applyOffchainEvents (fun _ => true) db f) b = [] ∧
    ∀ i, 1 ≤ i → i ≤ (db.cnt.get b).getD 0 → (applyOffchainEvents (fun _ => true) db f).evt.get (b, i) = none := by
  have happ : applyOffchainEvents (fun _ => true) db f = applyLoop (fun _ => true) (f + 1 - (lp + 1)) (lp + 1) db := by
    unfold applyOffchainEvents
    rw [hl]
    rfl
  rw [happ]
  have h3 : ∀ i, 1 ≤ i → i ≤ (db.cnt.get b).getD 0 →
      (applyLoop (fun _ => true) (f + 1 - (lp + 1)) (lp + 1) db).evt.get (b, i) = none := by
    intro i h1 h2
    exact applyLoop_removes _ _ _ b i hd (by omega) (by omega) h1 h2
  have hcnt := applyLoop_cnt (f + 1 - (lp + 1)) (lp + 1) b db
  have h4 : ∀ i, 1 ≤ i → i ≤ ((applyLoop (fun _ => true) (f + 1 - (lp + 1)) (lp + 1) db).cnt.get b).getD 0 →
      (applyLoop (fun _ => true) (f + 1 - (lp + 1)) (lp + 1) db).evt.get (b, i) = none := by
    intro i h1 h2
    rcases hcnt with h | h
    · rw [h] at h2; exact h3 i h1 h2
    · rw [h] at h2; simp at h2; omega
  refine ⟨?_, ?_, h3⟩
  · rintro ⟨i, h1, h2, h5⟩
    rw [h4 i h1 h2] at h5
    cases h5
  · unfold readEvents
    rw [List.filterMap_eq_nil_iff]
    intro i hi
    rw [List.mem_range'_1] at hi
    exact h4 i (by omega) (by omega)

/-- The run meets the hypotheses and has something to remove. -/
example : exSys.db.clears = true ∧ exSys.db.last = some 0 ∧ Holds exSys.db 3 ∧
    readEvents exSys.db 3 = [.added 2 201, .deleted 2 200] ∧
    readEvents (applyOffchainEvents (fun _ => true) exSys.db 3) 3 = [] := by
  refine ⟨rfl, by decide, ⟨1, by decide⟩, by decide, by decide⟩

open Msa in
/-- Key 100 creates an account in block 1. The node starts its worker late: the initial indexing runs when block 3
is there and block 2 is final. -/
def exLate : Sys :=
  let s := (Sys.init.next.tx exCfg ⟨exEnv 1, .signed 100, .create⟩).next.next.next
  { s with db := initialIndex [(100, 1)] 2 none s.db, since := 3, clean := true }

theorem exLate_reach : Reach Msa.exCfg exLate := by
  unfold exLate
  refine .step (.step (.step (.step (.step (.step (.init true) (.next _)) (.tx _ _ ?_)) (.next _)) (.next _)) (.next _))
    (.initial _ _ 2 3 (by decide) (by decide) (by decide) ?_ (by decide) (by decide) rfl)
  · decide
  · intro k m
    have h : (((Sys.init.next.tx Msa.exCfg ⟨Msa.exEnv 1, .signed 100, .create⟩).next.next.next).chain).keyToMsa.entries =
        [(100, 1)] := by decide
    rw [← h]
    exact SMap.mem_entries_iff _ _ _

/-- C103 is false: the event of block 1 is in the index already when the worker starts, which then continues with
block 2, and is never removed. -/
theorem C103_full_false : ¬ C103_full := by
  intro h
  exact h Msa.exCfg exLate exLate_reach (by decide) 3 1 (by decide) (by decide) (by decide) 1 (by decide)
    ⟨1, by decide, by decide, by decide⟩

/-- A node that drops what the worker clears keeps every event for good: a run of the worker, stopped early or not,
removes none. -/
theorem C103_kept_when_dropped (db : Db) (hd : db.clears = false) (extend : Nat → Bool) (f b : Nat) :
    readEvents (applyOffchainEvents extend db f) b = readEvents db b ∧
    ∀ i, (applyOffchainEvents extend db f).evt.get (b, i) = db.evt.get (b, i) := by
  have loop : ∀ n c (d : Db), d.clears = false → (applyLoop extend n c d).evt = d.evt ∧
      (applyLoop extend n c d).cnt = d.cnt := by
    intro n
    induction n with
    | zero => intro c d _; exact ⟨rfl, rfl⟩
    | succ n ih =>
      intro c d h
      have hw : reverseMapWrites d c = keyWrites d c := by
        unfold reverseMapWrites cleanWrites
        rw [h]
        simp
      have he : (d.writes (reverseMapWrites d c)).evt = d.evt := by rw [hw]; exact keyWrites_evt d c
      have hc : (d.writes (reverseMapWrites d c)).cnt = d.cnt := by
        rw [hw]
        exact (writes_setKeys _ _ d).2.1
      simp only [applyLoop]
      split
      · exact ⟨he, hc⟩
      · obtain ⟨h1, h2⟩ := ih (c + 1) ((d.writes (reverseMapWrites d c)).write (.setLast c))
          ((writes_clears _ d).trans h)
        exact ⟨h1.trans he, h2.trans hc⟩
  obtain ⟨h1, h2⟩ := loop (f + 1 - (db.last.getD (f - 5) + 1)) (db.last.getD (f - 5) + 1) db hd
  exact ⟨readEvents_congr h1 h2 b, fun i => congrArg (fun m => m.get (b, i)) h1⟩

/-- The history of `exSys` on such a node: the index is the same, the events remain. -/
example : let db := { exSys.db with clears := false }
    (applyOffchainEvents (fun _ => true) db 3).keysOf 2 = [201] ∧
    readEvents (applyOffchainEvents (fun _ => true) db 3) 3 = [.added 2 201, .deleted 2 200] := by decide

end Verif.Offchain
