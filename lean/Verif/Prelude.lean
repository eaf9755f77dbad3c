import Mathlib.Tactic.Common
import Mathlib.Tactic.Linarith
import Mathlib.Data.List.Nodup
/-!
# Shared vocabulary of the model

Finite storage maps (FRAME `StorageMap`/`StorageDoubleMap`, Rust `BTreeMap`), the result
monad of dispatchables and the `ensure!` macro. These are not code of the repository but of
the FRAME libraries it builds on (`frame_support::storage`, `frame_support::ensure`).
-/

namespace Verif

/-- Bytes as they appear in payloads and storage keys. -/
abbrev Bytes := List UInt8

/-! The integer types of the code. They are natural numbers here; wherever the code checks for
overflow the model checks against the bound of the Rust type explicitly. -/

/-- `BlockNumber` (`u32`, common/primitives/src/node.rs). -/
macro "BlockNumber" : term => `(Nat)
/-- `MessageSourceId` (`u64`, common/primitives/src/msa.rs). -/
macro "MsaId" : term => `(Nat)
/-- `SchemaId` (`u16`, common/primitives/src/schema.rs). -/
macro "SchemaId" : term => `(Nat)
/-- `AccountId` (32 bytes), up to equality. -/
macro "AccountId" : term => `(Nat)
/-- `MultiSignature`, up to equality. -/
macro "Signature" : term => `(Nat)
/-- `Balance` (`u128`). -/
macro "Balance" : term => `(Nat)

/-- `frame_support::ensure!(cond, err)`: continue when the condition holds, otherwise
return the error. -/
def ensure {ε : Type _} (c : Prop) [Decidable c] (e : ε) : Except ε Unit :=
  if c then .ok () else .error e

/-- `Option::ok_or`. -/
def okOr {ε : Type _} {α : Type _} (o : Option α) (e : ε) : Except ε α :=
  match o with
  | some a => .ok a
  | none => .error e

section ResultLemmas
variable {ε : Type _} {α β : Type _}

theorem bind_eq_ok_iff {x : Except ε α} {f : α → Except ε β} {b : β} :
    (x >>= f) = .ok b ↔ ∃ a, x = .ok a ∧ f a = .ok b := by
  cases x with
  | error e => simp [bind, Except.bind]
  | ok a => simp [bind, Except.bind]

theorem bind_eq_error_iff {x : Except ε α} {f : α → Except ε β} {e : ε} :
    (x >>= f) = .error e ↔ x = .error e ∨ ∃ a, x = .ok a ∧ f a = .error e := by
  cases x with
  | error e => simp [bind, Except.bind]
  | ok a => simp [bind, Except.bind]

theorem ensure_eq_ok_iff {c : Prop} {_ : Decidable c} {e : ε} {u : Unit} :
    ensure c e = .ok u ↔ c := by
  unfold ensure; split <;> simp_all

theorem ensure_eq_error_iff {c : Prop} {_ : Decidable c} {e e' : ε} :
    ensure c e = .error e' ↔ ¬ c ∧ e = e' := by
  unfold ensure; split <;> simp_all

theorem okOr_eq_ok_iff {o : Option α} {e : ε} {a : α} : okOr o e = .ok a ↔ o = some a := by
  cases o <;> simp [okOr]

theorem okOr_eq_error_iff {o : Option α} {e e' : ε} :
    okOr o e = .error e' ↔ o = none ∧ e = e' := by
  cases o <;> simp [okOr]

theorem pure_eq_ok_iff {a b : α} : (pure a : Except ε α) = .ok b ↔ a = b := by
  simp [pure, Except.pure]

theorem pure_eq_error_iff {a : α} {e : ε} : (pure a : Except ε α) = .error e ↔ False := by
  simp [pure, Except.pure]

theorem throw_eq_ok_iff {e : ε} {b : α} : (throw e : Except ε α) = .ok b ↔ False := by
  simp [throw, throwThe, MonadExceptOf.throw]

end ResultLemmas

/-! ## Finite maps -/

/-- Look a key up in an association list. -/
def alookup {K V : Type _} [DecidableEq K] : List (K × V) → K → Option V
  | [], _ => none
  | (k, v) :: rest, k' => if k = k' then some v else alookup rest k'

/-- A finite map with pairwise distinct keys: a FRAME storage map. -/
structure SMap (K V : Type) [DecidableEq K] where
  entries : List (K × V)
  nodup : (entries.map Prod.fst).Nodup

namespace SMap
variable {K V : Type} [DecidableEq K]

/-- The empty map. -/
def empty : SMap K V := ⟨[], by simp⟩

instance : Inhabited (SMap K V) := ⟨empty⟩
instance : EmptyCollection (SMap K V) := ⟨empty⟩

/-- `StorageMap::get`. -/
def get (m : SMap K V) (k : K) : Option V := alookup m.entries k

/-- `StorageMap::contains_key`. -/
def contains (m : SMap K V) (k : K) : Bool := (m.get k).isSome

/-- `StorageMap::remove`. -/
def erase (m : SMap K V) (k : K) : SMap K V :=
  ⟨m.entries.filter (fun p => decide (p.1 ≠ k)), by
    have h := m.nodup
    have hs : (m.entries.filter (fun p => decide (p.1 ≠ k))).Sublist m.entries :=
      List.filter_sublist
    exact h.sublist (hs.map Prod.fst)⟩

/-- `StorageMap::insert`. -/
def insert (m : SMap K V) (k : K) (v : V) : SMap K V :=
  ⟨(k, v) :: (m.erase k).entries, by
    simp only [List.map_cons, List.nodup_cons]
    refine ⟨?_, (m.erase k).nodup⟩
    simp [erase]⟩

/-- `StorageMap::set` on an optional value: insert or remove. -/
def set (m : SMap K V) (k : K) (v : Option V) : SMap K V :=
  match v with
  | some v => m.insert k v
  | none => m.erase k

/-- Keys in storage order. -/
def keys (m : SMap K V) : List K := m.entries.map Prod.fst

/-- Number of entries. -/
def size (m : SMap K V) : Nat := m.entries.length

/-- Number of entries whose value satisfies `p`. -/
def countV (m : SMap K V) (p : V → Bool) : Nat := m.entries.countP (fun e => p e.2)

/-- `BTreeMap` with every value mapped. -/
def mapVals {W : Type} (m : SMap K V) (f : K → V → W) : SMap K W :=
  ⟨m.entries.map (fun p => (p.1, f p.1 p.2)), by
    have := m.nodup
    simpa [List.map_map, Function.comp_def] using this⟩

end SMap

/-! ## Lemmas about association lists and maps -/

section alookup
variable {K V : Type _} [DecidableEq K]

theorem alookup_none_iff {l : List (K × V)} {k : K} :
    alookup l k = none ↔ k ∉ l.map Prod.fst := by
  induction l with
  | nil => simp [alookup]
  | cons p rest ih =>
    obtain ⟨a, b⟩ := p
    simp only [alookup, List.map_cons, List.mem_cons, not_or]
    split
    · rename_i h; simp [h]
    · rename_i h; simp only [ih]; constructor
      · intro h'; exact ⟨fun e => h e.symm, h'⟩
      · intro h'; exact h'.2

theorem mem_of_alookup {l : List (K × V)} {k : K} {v : V} (h : alookup l k = some v) :
    (k, v) ∈ l := by
  induction l with
  | nil => simp [alookup] at h
  | cons p rest ih =>
    obtain ⟨a, b⟩ := p
    simp only [alookup] at h
    split at h
    · rename_i e; simp_all
    · exact List.mem_cons_of_mem _ (ih h)

theorem alookup_of_mem {l : List (K × V)} (hn : (l.map Prod.fst).Nodup) {k : K} {v : V}
    (h : (k, v) ∈ l) : alookup l k = some v := by
  induction l with
  | nil => simp at h
  | cons p rest ih =>
    obtain ⟨a, b⟩ := p
    simp only [List.map_cons, List.nodup_cons] at hn
    simp only [alookup]
    rcases List.mem_cons.1 h with h | h
    · cases h; simp
    · split
      · rename_i e
        subst e
        exact absurd (List.mem_map.2 ⟨_, h, rfl⟩) hn.1
      · exact ih hn.2 h

theorem alookup_filter_ne {l : List (K × V)} {k k' : K} :
    alookup (l.filter (fun p => decide (p.1 ≠ k))) k' = if k = k' then none else alookup l k' := by
  induction l with
  | nil => simp [alookup]
  | cons p rest ih =>
    obtain ⟨a, b⟩ := p
    simp only [List.filter_cons]
    by_cases ha : a = k
    · subst ha
      simp only [ne_eq, not_true_eq_false, decide_false, Bool.false_eq_true, ↓reduceIte, ih,
        alookup]
      split <;> simp_all
    · simp only [ne_eq, ha, not_false_eq_true, decide_true, ↓reduceIte, alookup, ih]
      by_cases h1 : a = k'
      · subst h1
        have : ¬ k = a := fun e => ha e.symm
        simp [this]
      · simp [h1]

end alookup

namespace SMap
variable {K V : Type} [DecidableEq K]

@[simp] theorem get_empty (k : K) : (∅ : SMap K V).get k = none := rfl
@[simp] theorem get_empty' (k : K) : (SMap.empty : SMap K V).get k = none := rfl

theorem get_erase (m : SMap K V) (k k' : K) :
    (m.erase k).get k' = if k = k' then none else m.get k' := by
  simp only [get, erase]; exact alookup_filter_ne

theorem get_insert (m : SMap K V) (k k' : K) (v : V) :
    (m.insert k v).get k' = if k = k' then some v else m.get k' := by
  have := get_erase m k k'
  simp only [get] at *
  simp only [insert, alookup, this]
  split <;> simp_all

@[simp] theorem get_insert_self (m : SMap K V) (k : K) (v : V) : (m.insert k v).get k = some v := by
  simp [get_insert]

theorem get_insert_ne (m : SMap K V) {k k' : K} (h : k ≠ k') (v : V) :
    (m.insert k v).get k' = m.get k' := by simp [get_insert, h]

@[simp] theorem get_erase_self (m : SMap K V) (k : K) : (m.erase k).get k = none := by
  simp [get_erase]

theorem get_erase_ne (m : SMap K V) {k k' : K} (h : k ≠ k') : (m.erase k).get k' = m.get k' := by
  simp [get_erase, h]

theorem get_set (m : SMap K V) (k k' : K) (v : Option V) :
    (m.set k v).get k' = if k = k' then v else m.get k' := by
  cases v
  · simp only [set, get_erase]
  · simp only [set, get_insert]

theorem mem_entries_iff (m : SMap K V) (k : K) (v : V) : (k, v) ∈ m.entries ↔ m.get k = some v :=
  ⟨fun h => alookup_of_mem m.nodup h, fun h => mem_of_alookup h⟩

theorem contains_iff (m : SMap K V) (k : K) : m.contains k = true ↔ ∃ v, m.get k = some v := by
  simp [contains, Option.isSome_iff_exists]

theorem mem_keys_iff (m : SMap K V) (k : K) : k ∈ m.keys ↔ m.contains k = true := by
  rw [contains_iff]
  simp only [keys, List.mem_map, Prod.exists, exists_and_right, exists_eq_right, mem_entries_iff]

theorem get_mapVals {W : Type} (m : SMap K V) (f : K → V → W) (k : K) :
    (m.mapVals f).get k = (m.get k).map (f k) := by
  obtain ⟨l, hl⟩ := m
  simp only [get, mapVals]
  clear hl
  induction l with
  | nil => rfl
  | cons p rest ih =>
    obtain ⟨a, b⟩ := p
    simp only [List.map_cons, alookup]
    split
    · rename_i h; subst h; rfl
    · exact ih

theorem filter_ne_of_notMem {l : List (K × V)} {k : K} (h : k ∉ l.map Prod.fst) :
    l.filter (fun p => decide (p.1 ≠ k)) = l := by
  apply List.filter_eq_self.2
  intro p hp
  simp only [decide_eq_true_eq]
  intro e
  exact h (List.mem_map.2 ⟨p, hp, e⟩)

theorem erase_eq_self (m : SMap K V) {k : K} (h : m.get k = none) : m.erase k = m := by
  have h' : k ∉ m.entries.map Prod.fst := alookup_none_iff.1 h
  obtain ⟨l, hl⟩ := m
  simp only [erase, SMap.mk.injEq]
  exact filter_ne_of_notMem h'

theorem size_erase_of_none (m : SMap K V) {k : K} (h : m.get k = none) :
    (m.erase k).size = m.size := by rw [erase_eq_self m h]

theorem size_insert_of_none (m : SMap K V) {k : K} (v : V) (h : m.get k = none) :
    (m.insert k v).size = m.size + 1 := by
  simp only [size, insert, List.length_cons]
  have := size_erase_of_none m h
  simp only [size] at this
  omega

/-- Splitting the erased entry out of a count. -/
theorem countP_filter_ne {l : List (K × V)} (hn : (l.map Prod.fst).Nodup) {k : K} {v : V}
    (h : (k, v) ∈ l) (p : K × V → Bool) :
    (l.filter (fun e => decide (e.1 ≠ k))).countP p + (if p (k, v) then 1 else 0) = l.countP p := by
  induction l with
  | nil => simp at h
  | cons e rest ih =>
    obtain ⟨a, b⟩ := e
    simp only [List.map_cons, List.nodup_cons] at hn
    rcases List.mem_cons.1 h with h | h
    · cases h
      rw [List.filter_cons_of_neg (by simp), filter_ne_of_notMem hn.1, List.countP_cons]
    · have hne : a ≠ k := by
        intro e; subst e
        exact hn.1 (List.mem_map.2 ⟨_, h, rfl⟩)
      rw [List.filter_cons_of_pos (by simp [hne]), List.countP_cons, List.countP_cons]
      have := ih hn.2 h
      omega

theorem countV_erase (m : SMap K V) {k : K} {v : V} (h : m.get k = some v) (p : V → Bool) :
    (m.erase k).countV p + (if p v then 1 else 0) = m.countV p :=
  countP_filter_ne m.nodup ((mem_entries_iff m k v).2 h) (fun e => p e.2)

theorem countV_insert_of_none (m : SMap K V) {k : K} (v : V) (h : m.get k = none) (p : V → Bool) :
    (m.insert k v).countV p = m.countV p + (if p v then 1 else 0) := by
  have he : (m.erase k).entries = m.entries := by rw [erase_eq_self m h]
  simp only [countV, insert, List.countP_cons, he]

theorem countP_true_eq_length {α : Type} (l : List α) : l.countP (fun _ => true) = l.length := by
  induction l with
  | nil => rfl
  | cons _ _ ih => simp

theorem size_insert_of_some (m : SMap K V) {k : K} {v : V} (w : V) (h : m.get k = some v) :
    (m.insert k w).size = m.size := by
  have := countV_erase m h (fun _ => true)
  simp only [countV, countP_true_eq_length, ↓reduceIte] at this
  simp only [size, insert, List.length_cons]
  exact this

theorem size_insert_le (m : SMap K V) (k : K) (v : V) : (m.insert k v).size ≤ m.size + 1 := by
  cases h : m.get k with
  | none => rw [size_insert_of_none m v h]
  | some w => rw [size_insert_of_some m v h]; omega

theorem size_erase_of_some (m : SMap K V) {k : K} {v : V} (h : m.get k = some v) :
    (m.erase k).size + 1 = m.size := by
  have := countV_erase m h (fun _ => true)
  simpa only [size, countV, countP_true_eq_length, ↓reduceIte] using this

/-- Number of entries satisfying a predicate is zero exactly when no key maps to such a value. -/
theorem countV_eq_zero_iff (m : SMap K V) (p : V → Bool) :
    m.countV p = 0 ↔ ∀ k v, m.get k = some v → p v = false := by
  simp only [countV, List.countP_eq_zero]
  constructor
  · intro h k v hk
    have := h (k, v) ((mem_entries_iff m k v).2 hk)
    simpa using this
  · intro h e he
    obtain ⟨k, v⟩ := e
    have := h k v ((mem_entries_iff m k v).1 he)
    simp [this]

/-- Sum of a function over the entries. -/
def sumV (m : SMap K V) (f : K → V → Nat) : Nat := (m.entries.map (fun e => f e.1 e.2)).sum

/-- What an optional value contributes to a sum. -/
def contrib (f : K → V → Nat) (k : K) : Option V → Nat
  | some v => f k v
  | none => 0

theorem sum_filter_ne {l : List (K × V)} (hn : (l.map Prod.fst).Nodup) (k : K) (f : K → V → Nat) :
    ((l.filter (fun e => decide (e.1 ≠ k))).map (fun e => f e.1 e.2)).sum + contrib f k (alookup l k) =
      (l.map (fun e => f e.1 e.2)).sum := by
  induction l with
  | nil => simp [alookup, contrib]
  | cons e rest ih =>
    obtain ⟨a, b⟩ := e
    simp only [List.map_cons, List.nodup_cons] at hn
    by_cases h : a = k
    · subst h
      rw [List.filter_cons_of_neg (by simp), filter_ne_of_notMem hn.1]
      simp [alookup, contrib, Nat.add_comm]
    · rw [List.filter_cons_of_pos (by simp [h])]
      simp only [List.map_cons, List.sum_cons, alookup, if_neg h]
      have := ih hn.2
      omega

theorem sumV_erase (m : SMap K V) (k : K) (f : K → V → Nat) :
    (m.erase k).sumV f + contrib f k (m.get k) = m.sumV f :=
  sum_filter_ne m.nodup k f

theorem sumV_insert (m : SMap K V) (k : K) (v : V) (f : K → V → Nat) :
    (m.insert k v).sumV f + contrib f k (m.get k) = m.sumV f + f k v := by
  have := sumV_erase m k f
  simp only [sumV, insert, List.map_cons, List.sum_cons] at *
  omega

theorem contrib_le_sumV (m : SMap K V) (k : K) (f : K → V → Nat) : contrib f k (m.get k) ≤ m.sumV f := by
  have := sumV_erase m k f
  omega

@[simp] theorem sumV_empty (f : K → V → Nat) : (∅ : SMap K V).sumV f = 0 := rfl

end SMap

end Verif
