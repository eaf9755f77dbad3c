import Verif.Offchain.Fork
/-!
# Lemmas on nodes that import forks
-/

namespace Verif.Offchain

open Msa (KeyEvent)

/-! ## The events of a chain of blocks -/

theorem has_body (cfg : Msa.Config) (m : MsaId) (k : AccountId) : ∀ (body : List Msa.Step) (s : Msa.State),
    has (body.foldl (Msa.applyTx cfg) s).keyToMsa.get m k =
      (lastVerdict m k (bodyEvents cfg s body)).getD (has s.keyToMsa.get m k) := by
  intro body
  induction body with
  | nil => intro s; rfl
  | cons st rest ih =>
    intro s
    rw [List.foldl_cons, ih, bodyEvents, lastVerdict_append, chain_events]
    cases lastVerdict m k (bodyEvents cfg (Msa.applyTx cfg s st) rest) <;> rfl

/-- Does key `k` belong to account `m` at the end of block `b`? -/
def owns (cfg : Msa.Config) (b : Block) (m : MsaId) (k : AccountId) : Bool := has (stateOf cfg b).keyToMsa.get m k

theorem owns_cons (cfg : Msa.Config) (body : List Msa.Step) (p : Block) (m : MsaId) (k : AccountId) :
    owns cfg (body :: p) m k = (lastVerdict m k (eventsOf cfg (body :: p))).getD (owns cfg p m k) :=
  has_body cfg m k body _

/-- Events of a block and its ancestors with numbers above `lo`. -/
def evsFrom (cfg : Msa.Config) (lo : Nat) : Block → List KeyEvent
  | [] => []
  | body :: p => if lo ≤ p.length then evsFrom cfg lo p ++ eventsOf cfg (body :: p) else []

theorem evsFrom_short (cfg : Msa.Config) {lo : Nat} {b : Block} (h : b.length ≤ lo) : evsFrom cfg lo b = [] := by
  cases b with
  | nil => rfl
  | cons body p =>
    simp only [List.length_cons] at h
    rw [evsFrom, if_neg (by omega)]

theorem suffix_cons {α : Type _} {c p : List α} {x : α} (h : c <:+ x :: p) : c = x :: p ∨ c <:+ p :=
  List.suffix_cons_iff.1 h

theorem evsFrom_split (cfg : Msa.Config) {lo : Nat} {c : Block} : ∀ {f : Block}, c <:+ f → lo ≤ c.length →
    evsFrom cfg lo f = evsFrom cfg lo c ++ evsFrom cfg c.length f := by
  intro f
  induction f with
  | nil => intro h _; rw [List.suffix_nil.1 h]; rfl
  | cons body p ih =>
    intro h hl
    rcases suffix_cons h with rfl | h
    · rw [evsFrom_short cfg (le_refl _), List.append_nil]
    · have := h.length_le
      rw [evsFrom, evsFrom, if_pos (by omega), if_pos this, ih h hl, List.append_assoc]

theorem owns_from (cfg : Msa.Config) (m : MsaId) (k : AccountId) {c : Block} : ∀ {f : Block}, c <:+ f →
    owns cfg f m k = (lastVerdict m k (evsFrom cfg c.length f)).getD (owns cfg c m k) := by
  intro f
  induction f with
  | nil => intro h; rw [List.suffix_nil.1 h]; rfl
  | cons body p ih =>
    intro h
    rcases suffix_cons h with rfl | h
    · rw [evsFrom_short cfg (le_refl _)]; rfl
    · rw [evsFrom, if_pos h.length_le, lastVerdict_append, owns_cons, ih h]
      cases lastVerdict m k (eventsOf cfg (body :: p)) <;> rfl

theorem ancestor_suffix (b : Block) (n : Nat) : ancestor b n <:+ b := List.drop_suffix _ _

theorem ancestor_length {b : Block} {n : Nat} (h : n ≤ b.length) : (ancestor b n).length = n := by
  rw [ancestor, List.length_drop]; omega

theorem suffix_eq_ancestor {b c : Block} (h : c <:+ b) : c = ancestor b c.length :=
  List.suffix_iff_eq_drop.1 h

theorem suffix_same {a b c : Block} (ha : a <:+ c) (hb : b <:+ c) (hl : a.length = b.length) : a = b := by
  rw [suffix_eq_ancestor ha, suffix_eq_ancestor hb, hl]

theorem suffix_chain {a b c : Block} (ha : a <:+ c) (hb : b <:+ c) (hl : a.length ≤ b.length) : a <:+ b :=
  List.suffix_of_suffix_length_le ha hb hl

/-- Replaying events that were already counted in does no harm. -/
theorem owns_again (cfg : Msa.Config) (m : MsaId) (k : AccountId) {c f : Block} {lo : Nat} (h : c <:+ f)
    (hl : lo ≤ c.length) : (lastVerdict m k (evsFrom cfg lo f)).getD (owns cfg c m k) = owns cfg f m k := by
  rw [evsFrom_split cfg h hl, lastVerdict_append, owns_from cfg m k h]
  cases lastVerdict m k (evsFrom cfg c.length f) with
  | some x => rfl
  | none =>
    have := owns_from cfg m k (ancestor_suffix c lo)
    rw [ancestor_length hl] at this
    simp only [Option.getD_none]
    rw [this]
    cases lastVerdict m k (evsFrom cfg lo c) <;> rfl

theorem storedFrom_eq (cfg : Msa.Config) (db : Db) (lo : Nat) : ∀ f : Block,
    (∀ h, lo < h → h ≤ f.length → readEvents db h = eventsOf cfg (ancestor f h)) →
    storedFrom db (lo + 1) (f.length - lo) = evsFrom cfg lo f := by
  intro f
  induction f with
  | nil => intro _; simp [storedFrom, evsFrom]
  | cons body p ih =>
    intro h
    by_cases hl : lo ≤ p.length
    · rw [evsFrom, if_pos hl, List.length_cons, show p.length + 1 - lo = (p.length - lo) + 1 by omega,
        storedFrom_snoc, ih ?_, show lo + 1 + (p.length - lo) = (body :: p).length by simp only [List.length_cons]; omega,
        h _ (by simp only [List.length_cons]; omega) (le_refl _)]
      · simp [ancestor]
      · intro i h1 h2
        rw [h i h1 (by simp only [List.length_cons]; omega)]
        simp only [ancestor, List.length_cons]
        rw [show p.length + 1 - i = (p.length - i) + 1 by omega, List.drop_succ_cons]
    · rw [evsFrom_short cfg (by simp only [List.length_cons]; omega), List.length_cons,
        show p.length + 1 - lo = 0 by omega]
      rfl

/-! ## Writing and reading events -/

theorem indexAll_rest (b : Nat) (es : List KeyEvent) : ∀ (db : Db) (c : Nat),
    let r := indexAll b es (db, c)
    (∀ b', b' ≠ b → readEvents r.1 b' = readEvents db b') ∧ (∀ b', b' ≠ b → r.1.cnt.get b' = db.cnt.get b') ∧
      r.1.keys = db.keys ∧ r.1.last = db.last ∧ r.1.indexed = db.indexed ∧ r.1.clears = db.clears := by
  induction es with
  | nil => intro db c; exact ⟨fun _ _ => rfl, fun _ _ => rfl, rfl, rfl, rfl, rfl⟩
  | cons e es ih =>
    intro db c
    simp only [indexAll]
    obtain ⟨h1, h2, h3, h4, h5, h6⟩ := ih (indexEvent db b c e).1 (indexEvent db b c e).2
    refine ⟨fun b' hb' => ?_, fun b' hb' => ?_, h3, h4, h5, h6⟩
    · rw [h1 b' hb']
      have hne : b ≠ b' := fun e => hb' e.symm
      simp only [indexEvent, readEvents, SMap.get_insert_ne _ hne _]
      apply List.filterMap_congr
      intro i _
      exact SMap.get_insert_ne _ (by intro he; simp only [Prod.mk.injEq] at he; exact hne he.1) _
    · rw [h2 b' hb']
      exact SMap.get_insert_ne _ (fun e => hb' e.symm) _

theorem indexAll_over (b : Nat) (e : KeyEvent) (es : List KeyEvent) (db : Db) (h : (e :: es).length ≤ 65535) :
    readEvents (indexAll b (e :: es) (db, 0)).1 b = e :: es := by
  have h1 := indexAll_spec b es (indexEvent db b 0 e).1 1 (by simp [indexEvent])
    (by simp only [List.length_cons] at h; omega)
  simp only [indexAll]
  rw [show (indexEvent db b 0 e) = ((indexEvent db b 0 e).1, 1) by simp [indexEvent]]
  rw [h1.1]
  simp [readEvents, indexEvent]

/-- Importing a block with events makes them what is read for its number. -/
theorem indexAll_fresh (b : Nat) (es : List KeyEvent) (db : Db) (h : es.length ≤ 65535) (hne : es ≠ []) :
    readEvents (indexAll b es (db, 0)).1 b = es := by
  cases es with
  | nil => exact absurd rfl hne
  | cons e es => exact indexAll_over b e es db h

/-! ## Finding the finalized block -/

theorem finalizedNumber_some {b fin : Block} {f : Nat} (h : finalizedNumber b fin = some f) :
    fin <:+ b ∧ f = fin.length ∧ 1 ≤ f ∧ f < b.length := by
  unfold finalizedNumber at h
  have hp := List.find?_some h
  have hm := List.mem_of_find?_eq_some h
  simp only [decide_eq_true_eq] at hp
  rw [List.mem_filter] at hm
  have h0 : 0 < f := by simpa using hm.2
  unfold blockHash at hp
  split at hp
  · rename_i hlt
    have e := Option.some.inj hp
    rw [← e, ancestor_length (by omega)]
    exact ⟨ancestor_suffix _ _, rfl, h0, hlt⟩
  · cases hp

theorem finalizedNumber_found {b fin : Block} (h : fin <:+ b) (h0 : fin ≠ []) (h1 : fin.length < b.length)
    (h2 : b.length < fin.length + 1000) : finalizedNumber b fin = some fin.length := by
  have hpos : 0 < fin.length := List.length_pos_iff.2 h0
  have hmem : fin.length ∈ ((List.range 1000).map (fun i => b.length - i)).filter (fun n => 0 < n) := by
    rw [List.mem_filter]
    refine ⟨List.mem_map.2 ⟨b.length - fin.length, List.mem_range.2 (by omega), by omega⟩, by simpa using hpos⟩
  have hx : blockHash b fin.length = some fin := by
    rw [blockHash, if_pos h1, ← suffix_eq_ancestor h]
  cases hf : finalizedNumber b fin with
  | some f => rw [(finalizedNumber_some hf).2.1]
  | none =>
    unfold finalizedNumber at hf
    rw [List.find?_eq_none] at hf
    have := hf _ hmem
    simp only [decide_eq_true_eq] at this
    exact absurd hx this

end Verif.Offchain
