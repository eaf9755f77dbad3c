import Verif.Offchain.ThreadsLemmas
/-!
# Property C142: runs of the off-chain worker that overlap
-/

namespace Verif.Offchain

open Msa (KeyEvent)

/-! ## Specification -/

/-- A lock has expired only when the run that took it is over; and the node is not stopped during the initial
indexing. -/
def Prompt (n : Net) : Act → Prop
  | .step i => ∀ t, n.threads[i]? = some t →
      (t.pc = .start → ∀ d, n.lock1 = some d → expired n.time t.block d = true → ∀ u ∈ n.threads, u.pc.inside1 = false) ∧
      (t.pc = .apply → ∀ d, n.lock2 = some d → expired n.time t.block d = true → ∀ u ∈ n.threads, u.pc.inside2 = false)
  | .restart => ∀ u ∈ n.threads, u.pc.indexing = false
  | _ => True

/-- This holds throughout a history. -/
def AllPrompt (cfg : Msa.Config) : Net → List Act → Prop
  | _, [] => True
  | n, a :: h => Prompt n a ∧ AllPrompt cfg (n.act cfg a) h

/-- The lists are those of the chain at the end of block `b`. -/
def Exact (n : Net) (b : Nat) : Prop := ∀ m k, k ∈ n.sys.db.keysOf m ↔ n.sys.hist b k = some m

/-! ## At most one run at a time -/

/-- At most one run is where `P` says, and while there is one the lock is taken and does not expire for `k` blocks. -/
def Alone (P : Pc → Bool) (k : Nat) (lock : Option Deadline) (ts : List Thread) : Prop :=
  ∀ (i : Nat) (t : Thread), ts[i]? = some t → P t.pc = true →
    (∃ d, lock = some d ∧ t.block + k ≤ d.block) ∧ ∀ (j : Nat) (u : Thread), ts[j]? = some u → P u.pc = true → j = i

theorem set_cases {ts : List Thread} {i : Nat} {t t' : Thread} (_ : ts[i]? = some t) {j : Nat} {u : Thread}
    (h : (ts.set i t')[j]? = some u) : (j = i ∧ u = t') ∨ (j ≠ i ∧ ts[j]? = some u) := by
  rw [List.getElem?_set] at h
  split at h
  · rename_i e
    split at h
    · exact .inl ⟨e.symm, (Option.some.inj h).symm⟩
    · simp at h
  · rename_i e
    exact .inr ⟨fun e' => e e'.symm, h⟩

theorem Alone.same {P : Pc → Bool} {k : Nat} {lock : Option Deadline} {ts : List Thread} (h : Alone P k lock ts) {i : Nat} {t : Thread}
    (hi : ts[i]? = some t) {p : Pc} (hp : P p = true → P t.pc = true) : Alone P k lock (ts.set i { t with pc := p }) := by
  intro j u hj hu
  rcases set_cases hi hj with ⟨rfl, rfl⟩ | ⟨hne, hj⟩
  · obtain ⟨h1, h2⟩ := h _ t hi (hp hu)
    refine ⟨h1, fun l v hl hv => ?_⟩
    rcases set_cases hi hl with ⟨rfl, -⟩ | ⟨-, hl⟩
    · rfl
    · exact h2 l v hl hv
  · obtain ⟨h1, h2⟩ := h j u hj hu
    refine ⟨h1, fun l v hl hv => ?_⟩
    rcases set_cases hi hl with ⟨rfl, rfl⟩ | ⟨-, hl⟩
    · exact h2 _ t hi (hp hv)
    · exact h2 l v hl hv

theorem Alone.take {P : Pc → Bool} {k : Nat} {ts : List Thread} (h : ∀ u ∈ ts, P u.pc = false) {i : Nat} {t : Thread}
    (hi : ts[i]? = some t) {d : Deadline} (hd : t.block + k ≤ d.block) (p : Pc) :
    Alone P k (some d) (ts.set i { t with pc := p }) := by
  intro j u hj hu
  rcases set_cases hi hj with ⟨rfl, rfl⟩ | ⟨hne, hj⟩
  · refine ⟨⟨d, rfl, hd⟩, fun l v hl hv => ?_⟩
    rcases set_cases hi hl with ⟨rfl, -⟩ | ⟨-, hl⟩
    · rfl
    · rw [h v (List.mem_of_getElem? hl)] at hv
      cases hv
  · rw [h u (List.mem_of_getElem? hj)] at hu
    cases hu

theorem Alone.extend {P : Pc → Bool} {k : Nat} {lock : Option Deadline} {ts : List Thread} (h : Alone P k lock ts) {i : Nat} {t : Thread}
    (hi : ts[i]? = some t) (ht : P t.pc = true) {d : Deadline} (hd : t.block + k ≤ d.block) (p : Pc) :
    Alone P k (some d) (ts.set i { t with pc := p }) := by
  intro j u hj hu
  rcases set_cases hi hj with ⟨rfl, rfl⟩ | ⟨hne, hj⟩
  · refine ⟨⟨d, rfl, hd⟩, fun l v hl hv => ?_⟩
    rcases set_cases hi hl with ⟨rfl, -⟩ | ⟨-, hl⟩
    · rfl
    · exact (h _ t hi ht).2 l v hl hv
  · exact absurd ((h i t hi ht).2 j u hj hu) hne

theorem Alone.release {P : Pc → Bool} {k : Nat} {lock : Option Deadline} {ts : List Thread} (h : Alone P k lock ts) {i : Nat}
    {t : Thread} (hi : ts[i]? = some t) (ht : P t.pc = true) {p : Pc} (hp : P p = false) :
    Alone P k none (ts.set i { t with pc := p }) := by
  intro j u hj hu
  rcases set_cases hi hj with ⟨rfl, rfl⟩ | ⟨hne, hj⟩
  · rw [hp] at hu
    cases hu
  · exact absurd ((h i t hi ht).2 j u hj hu) hne

/-! ## The invariant -/

/-- What a run knows about the chain. -/
def Knows (s : Sys) (t : Thread) : Prop :=
  1 ≤ t.fin ∧ t.fin ≤ t.block ∧ t.block < s.now ∧ ∀ k m, (k, m) ∈ t.accounts ↔ s.hist t.block k = some m

/-- The node behaves like one where runs do not overlap: the database is that of such a node between two blocks (`d`),
with the writes of at most one run since then (`done`). -/
structure NetInv (cfg : Msa.Config) (n : Net) (d : Db) (cl : Bool) (done : List Write) : Prop where
  reach : Reach cfg { n.sys with db := d, clean := cl }
  db : n.sys.db = d.writes done
  knows : ∀ t ∈ n.threads, Knows n.sys t
  good : ∀ t ∈ n.threads, Good d done t t.pc
  quiet : (∀ t ∈ n.threads, t.pc.busy = false) → done = []
  alone1 : Alone Pc.inside1 40 n.lock1 n.threads
  alone2 : Alone Pc.inside2 20 n.lock2 n.threads

theorem NetInv.others {cfg : Msa.Config} {n : Net} {d : Db} {cl : Bool} {done : List Write} (h : NetInv cfg n d cl done)
    {i j : Nat} {t u : Thread} (hi : n.threads[i]? = some t) (hb : t.pc.busy = true) (hj : n.threads[j]? = some u)
    (hne : j ≠ i) : u.pc.busy = false := by
  by_contra hu
  rw [Bool.not_eq_false] at hu
  have gt := h.good t (List.mem_of_getElem? hi)
  have gu := h.good u (List.mem_of_getElem? hj)
  simp only [Pc.busy, Bool.or_eq_true] at hb hu
  rcases hb with hb | hb <;> rcases hu with hu | hu
  · exact hne ((h.alone1 i t hi (indexing_inside1 hb)).2 j u hj (indexing_inside1 hu))
  · have := good_indexing gt hb
    rw [good_inside2 gu hu] at this
    cases this
  · have := good_indexing gu hu
    rw [good_inside2 gt hb] at this
    cases this
  · exact hne ((h.alone2 i t hi hb).2 j u hj hu)

/-- A step of run `i`. -/
theorem NetInv.move {cfg : Msa.Config} {n : Net} {d : Db} {cl : Bool} {done : List Write} (h : NetInv cfg n d cl done)
    {i : Nat} {t : Thread} (hi : n.threads[i]? = some t) {s' : Sys} {l1 l2 : Option Deadline} {p : Pc} {d' : Db} {cl' : Bool}
    {done' : List Write} (hs : s'.now = n.sys.now ∧ s'.hist = n.sys.hist)
    (reach : Reach cfg { s' with db := d', clean := cl' }) (db : s'.db = d'.writes done') (hnew : Good d' done' t p)
    (hold : ∀ j u, j ≠ i → n.threads[j]? = some u → Good d' done' u u.pc)
    (quiet : (∀ j u, j ≠ i → n.threads[j]? = some u → u.pc.busy = false) → p.busy = false → done' = [])
    (a1 : Alone Pc.inside1 40 l1 (n.threads.set i { t with pc := p }))
    (a2 : Alone Pc.inside2 20 l2 (n.threads.set i { t with pc := p })) :
    NetInv cfg ⟨s', l1, l2, n.time, n.threads.set i { t with pc := p }⟩ d' cl' done' := by
  have hlen : i < n.threads.length := (List.getElem?_eq_some_iff.1 hi).1
  refine ⟨reach, db, fun u hu => ?_, fun u hu => ?_, fun hq => quiet (fun j u hne hj => ?_) ?_, a1, a2⟩
  · obtain ⟨j, hj⟩ := List.mem_iff_getElem?.1 hu
    have k : Knows n.sys u := by
      rcases set_cases hi hj with ⟨rfl, rfl⟩ | ⟨-, hj⟩
      · exact h.knows t (List.mem_of_getElem? hi)
      · exact h.knows u (List.mem_of_getElem? hj)
    obtain ⟨k1, k2, k3, k4⟩ := k
    exact ⟨k1, k2, by rw [hs.1]; exact k3, by rw [hs.2]; exact k4⟩
  · obtain ⟨j, hj⟩ := List.mem_iff_getElem?.1 hu
    rcases set_cases hi hj with ⟨rfl, rfl⟩ | ⟨hne, hj⟩
    · cases p <;> exact hnew
    · exact hold j u hne hj
  · refine hq u (List.mem_of_getElem? (i := j) ?_)
    rw [List.getElem?_set_ne (fun e => hne e.symm)]
    exact hj
  · exact hq { t with pc := p } (List.mem_of_getElem? (i := i) (List.getElem?_set_self hlen))

/-- A step of a run that writes nothing and leaves the locks as they are. -/
theorem NetInv.silent {cfg : Msa.Config} {n : Net} {d : Db} {cl : Bool} {done : List Write} (h : NetInv cfg n d cl done)
    {i : Nat} {t : Thread} (hi : n.threads[i]? = some t) {p : Pc} (hnew : Good d done t p)
    (hb : t.pc.busy = true → p.busy = true ∨ done = [])
    (h1 : p.inside1 = true → t.pc.inside1 = true) (h2 : p.inside2 = true → t.pc.inside2 = true) :
    NetInv cfg { n with threads := n.threads.set i { t with pc := p } } d cl done := by
  refine h.move hi ⟨rfl, rfl⟩ h.reach h.db hnew (fun j u _ hj => h.good u (List.mem_of_getElem? hj)) (fun hq hp => ?_)
    (h.alone1.same hi h1) (h.alone2.same hi h2)
  cases htb : t.pc.busy
  · refine h.quiet (fun u hu => ?_)
    obtain ⟨j, hj⟩ := List.mem_iff_getElem?.1 hu
    by_cases e : j = i
    · subst e
      rw [hi] at hj
      rw [← Option.some.inj hj]
      exact htb
    · exact hq j u e hj
  · rcases hb htb with e | e
    · rw [hp] at e; cases e
    · exact e

/-- A step of a busy run that writes. -/
theorem NetInv.wrote {cfg : Msa.Config} {n : Net} {d : Db} {cl : Bool} {done : List Write} (h : NetInv cfg n d cl done)
    {i : Nat} {t : Thread} (hi : n.threads[i]? = some t) (hb : t.pc.busy = true) {w : Write} {p : Pc}
    (hnew : Good d (done ++ [w]) t p) (hp : p.busy = true)
    (h1 : p.inside1 = true → t.pc.inside1 = true) (h2 : p.inside2 = true → t.pc.inside2 = true) :
    NetInv cfg { n.write w with threads := n.threads.set i { t with pc := p } } d cl (done ++ [w]) := by
  refine h.move (s' := (n.write w).sys) (l1 := n.lock1) (l2 := n.lock2) hi ⟨rfl, rfl⟩ h.reach ?_ hnew
    (fun j u hne hj => good_idle (h.good u (List.mem_of_getElem? hj)) (h.others hi hb hj hne) (fun e => e))
    (fun _ e => by rw [hp] at e; cases e) (h.alone1.same hi h1) (h.alone2.same hi h2)
  show n.sys.db.write w = _
  rw [h.db, writes_one]

/-! ## Every step keeps it -/

theorem reach_fresh {cfg : Msa.Config} {s : Sys} (h : Reach cfg s) (hi : s.db.indexed = false) :
    s.db.last = none ∧ s.db.keys = ∅ := by
  induction h with
  | init clears => exact ⟨rfl, rfl⟩
  | @step s _ _ hs ih =>
    cases hs with
    | tx st hc =>
      obtain ⟨r1, r2, r3, -⟩ := indexAll_keeps_rest (b := s.now) (emitted s.chain (Msa.applyTx cfg s.chain st)) (s.db, s.count)
      obtain ⟨a, b⟩ := ih (r3.symm.trans hi)
      exact ⟨r2.trans a, r1.trans b⟩
    | next => exact ih hi
    | initial accounts f n hf hfn hn hacc hidx hl hk =>
      simp [initialIndex, hidx, Db.write] at hi
    | work lp j hidx hl hn =>
      have := writes_keep_indexed ((blockWrites s.db (lp + 1)).take j) _ hidx
      rw [this] at hi
      cases hi

theorem NetInv.quietAll {cfg : Msa.Config} {n : Net} {d : Db} {cl : Bool} {done : List Write} (h : NetInv cfg n d cl done)
    {i : Nat} {t : Thread} (hi : n.threads[i]? = some t) (ht : t.pc.busy = false)
    (hq : ∀ (j : Nat) (u : Thread), j ≠ i → n.threads[j]? = some u → u.pc.busy = false) : done = [] := by
  refine h.quiet (fun u hu => ?_)
  obtain ⟨j, hj⟩ := List.mem_iff_getElem?.1 hu
  by_cases e : j = i
  · subst e
    rw [hi] at hj
    rw [← Option.some.inj hj]
    exact ht
  · exact hq j u e hj

theorem NetInv.indexed {cfg : Msa.Config} {n : Net} {d : Db} {cl : Bool} {done : List Write} (h : NetInv cfg n d cl done) :
    n.sys.db.indexed = d.indexed := by
  rw [h.db]
  refine writes_indexed_iff _ _ (fun w hw => ?_)
  by_cases hq : ∀ t ∈ n.threads, t.pc.busy = false
  · rw [h.quiet hq] at hw
    simp at hw
  · push Not at hq
    obtain ⟨t, ht, hb⟩ := hq
    have hb : t.pc.busy = true := by simpa using hb
    exact (good_kind (h.good t ht) hb hw).1

theorem Alone.free {P : Pc → Bool} {k : Nat} {lock : Option Deadline} {ts : List Thread} (h : Alone P k lock ts) {time block : Nat}
    (hf : Offchain.free time block lock = true)
    (hp : ∀ d, lock = some d → expired time block d = true → ∀ u ∈ ts, P u.pc = false) : ∀ u ∈ ts, P u.pc = false := by
  cases lock with
  | some d => exact hp d rfl hf
  | none =>
    intro u hu
    by_contra hne
    rw [Bool.not_eq_false] at hne
    obtain ⟨j, hj⟩ := List.mem_iff_getElem?.1 hu
    obtain ⟨⟨d, hd, -⟩, -⟩ := h j u hj hne
    cases hd

theorem Alone.extendable {P : Pc → Bool} {k : Nat} {lock : Option Deadline} {ts : List Thread} (h : Alone P k lock ts) {i : Nat}
    {t : Thread} (hi : ts[i]? = some t) (ht : P t.pc = true) (time : Nat) :
    Offchain.extendable time t.block lock = true := by
  obtain ⟨⟨d, rfl, hd⟩, -⟩ := h i t hi ht
  simp [Offchain.extendable, expired]
  omega

theorem step_inv {cfg : Msa.Config} {n : Net} {d : Db} {cl : Bool} {done : List Write} (h : NetInv cfg n d cl done) (i : Nat)
    (hp : Prompt n (.step i)) :
    ∃ d' cl' done', NetInv cfg (n.act cfg (.step i)) d' cl' done' ∧ (cl = true → cl' = true) := by
  cases hi : n.threads[i]? with
  | none => simp only [Net.act, hi]; exact ⟨d, cl, done, h, fun e => e⟩
  | some t =>
  have hpt := hp t hi
  have g := h.good t (List.mem_of_getElem? hi)
  have kn := h.knows t (List.mem_of_getElem? hi)
  simp only [Net.act, hi]
  obtain ⟨blk, fin, acc, pc⟩ := t
  cases pc
  case start =>
    simp only [advance]
    split
    · rename_i hf
      have hnone := h.alone1.free hf (hpt.1 rfl)
      exact ⟨d, cl, done, h.move hi ⟨rfl, rfl⟩ h.reach h.db trivial (fun j u _ hj => h.good u (List.mem_of_getElem? hj))
        (fun hq _ => h.quietAll hi rfl hq) (.take hnone hi (by simp [deadline1]) _) (h.alone2.same hi (fun e => e)),
        fun e => e⟩
    · exact ⟨d, cl, done, h.silent hi trivial (fun e => by cases e) (fun e => by cases e) (fun e => by cases e), fun e => e⟩
  case flag =>
    simp only [advance]
    by_cases hx : n.sys.db.indexed = true
    · rw [if_pos hx]
      exact ⟨d, cl, done, h.silent hi (by show d.indexed = true; rw [← h.indexed]; exact hx) (fun e => by cases e)
        (fun _ => rfl) (fun e => by cases e), fun e => e⟩
    · rw [if_neg hx]
      have hd : d.indexed = false := by rw [← h.indexed]; simpa using hx
      have hdone : done = [] := by
        refine h.quietAll hi rfl (fun j u hne hj => ?_)
        by_contra hu
        rw [Bool.not_eq_false] at hu
        simp only [Pc.busy, Bool.or_eq_true] at hu
        rcases hu with hu | hu
        · exact hne ((h.alone1 i _ hi rfl).2 j u hj (indexing_inside1 hu))
        · rw [good_inside2 (h.good u (List.mem_of_getElem? hj)) hu] at hd
          cases hd
      exact ⟨d, cl, done, h.silent hi ⟨hd, hdone⟩ (fun e => by cases e) (fun _ => rfl) (fun e => by cases e), fun e => e⟩
  case initLast =>
    obtain ⟨g1, rfl⟩ := g
    simp only [advance]
    split
    · exact ⟨d, cl, _, h.wrote hi rfl (p := .initGet acc 0) ⟨g1, rfl⟩ rfl (fun _ => rfl) (fun e => by cases e), fun e => e⟩
    · exact ⟨d, cl, [], h.silent hi ⟨g1, rfl⟩ (fun _ => .inl rfl) (fun _ => rfl) (fun e => by cases e), fun e => e⟩
  case initGet rest c =>
    obtain ⟨g1, g2⟩ := g
    cases rest with
    | nil =>
      simp only [advance]
      exact ⟨d, cl, done, h.silent hi ⟨g1, by simpa [initialWrites] using g2⟩ (fun _ => .inl rfl) (fun _ => rfl)
        (fun e => by cases e), fun e => e⟩
    | cons x rest =>
      obtain ⟨k, m⟩ := x
      simp only [advance]
      refine ⟨d, cl, done, h.silent hi ⟨g1, ?_⟩ (fun _ => .inl rfl) (fun _ => rfl) (fun e => by cases e), fun e => e⟩
      rw [h.db]
      exact g2
  case initSet m ks rest c =>
    obtain ⟨g1, g2⟩ := g
    have g3 : indexWrites d ⟨blk, fin, acc, .initSet m ks rest c⟩ =
        (done ++ [.setKeys m ks]) ++ initialWrites rest (d.writes (done ++ [.setKeys m ks])) := by
      rw [g2, ← writes_one]
      simp
    simp only [advance]
    split
    · exact ⟨d, cl, _, h.wrote hi rfl (p := .initExtend rest (c + 1)) ⟨g1, g3⟩ rfl (fun _ => rfl) (fun e => by cases e),
        fun e => e⟩
    · exact ⟨d, cl, _, h.wrote hi rfl (p := .initGet rest (c + 1)) ⟨g1, g3⟩ rfl (fun _ => rfl) (fun e => by cases e),
        fun e => e⟩
  case initExtend rest c =>
    simp only [advance]
    rw [if_pos (h.alone1.extendable hi rfl n.time)]
    exact ⟨d, cl, done, h.move hi ⟨rfl, rfl⟩ h.reach h.db (p := .initGet rest c) g
      (fun j u _ hj => h.good u (List.mem_of_getElem? hj)) (fun _ e => by cases e)
      (h.alone1.extend hi rfl (by simp [deadline1]) _) (h.alone2.same hi (fun e => e)), fun e => e⟩
  case initDone =>
    obtain ⟨g1, g2⟩ := g
    obtain ⟨k1, k2, k3, k4⟩ := kn
    obtain ⟨f1, f2⟩ := reach_fresh h.reach g1
    simp only [advance]
    refine ⟨initialIndex acc fin none d, true, [], h.move hi ⟨rfl, rfl⟩
      (.step h.reach (.initial _ acc fin blk k1 k2 k3 k4 g1 f1 f2)) ?_ ?_
      (fun j u hne hj => good_idle (h.good u (List.mem_of_getElem? hj)) (h.others hi rfl hj hne)
        (fun e => by rw [g1] at e; cases e))
      (fun _ _ => rfl) (h.alone1.same hi (fun _ => rfl)) (h.alone2.same hi (fun e => by cases e)), fun _ => rfl⟩
    · show n.sys.db.write .setIndexed = initialIndex acc fin none d
      rw [h.db, ← g2]
      simp only [initialIndex, g1]
      rfl
    · show (initialIndex acc fin none d).indexed = true
      simp [initialIndex, g1, Db.write]
  case unlock1 =>
    simp only [advance]
    exact ⟨d, cl, done, h.move hi ⟨rfl, rfl⟩ h.reach h.db (p := .apply) g
      (fun j u _ hj => h.good u (List.mem_of_getElem? hj)) (fun hq _ => h.quietAll hi rfl hq) (h.alone1.release hi rfl rfl)
      (h.alone2.same hi (fun e => by cases e)), fun e => e⟩
  case apply =>
    simp only [advance]
    split
    · rename_i hf
      have hnone := h.alone2.free hf (hpt.2 rfl)
      have hdone : done = [] := by
        refine h.quietAll hi rfl (fun j u _ hj => ?_)
        by_contra hu
        rw [Bool.not_eq_false] at hu
        simp only [Pc.busy, Bool.or_eq_true] at hu
        rcases hu with hu | hu
        · have := good_indexing (h.good u (List.mem_of_getElem? hj)) hu
          rw [show d.indexed = true from g] at this
          cases this
        · rw [hnone u (List.mem_of_getElem? hj)] at hu
          cases hu
      exact ⟨d, cl, done, h.move hi ⟨rfl, rfl⟩ h.reach h.db (p := .readLast) ⟨g, hdone⟩
        (fun j u _ hj => h.good u (List.mem_of_getElem? hj)) (fun _ e => by cases e) (h.alone1.same hi (fun e => by cases e))
        (.take hnone hi (by simp [deadline2]) _), fun e => e⟩
    · exact ⟨d, cl, done, h.silent hi trivial (fun e => by cases e) (fun e => by cases e) (fun e => by cases e), fun e => e⟩
  case readLast =>
    obtain ⟨g1, rfl⟩ := g
    obtain ⟨lp, hl, -, -⟩ := (inv_reach h.reach).synced g1
    simp only [advance]
    refine ⟨d, cl, [], h.silent hi ⟨g1, rfl, lp, hl, ?_⟩ (fun _ => .inl rfl) (fun e => by cases e) (fun _ => rfl), fun e => e⟩
    rw [h.db]
    show d.last.getD _ + 1 = lp + 1
    rw [show d.last = some lp from hl]
    rfl
  case loop b =>
    obtain ⟨g1, rfl, g3⟩ := g
    simp only [advance]
    split
    · rename_i hb
      exact ⟨d, cl, [], h.silent hi ⟨⟨g1, hb, g3⟩, rfl⟩ (fun _ => .inl rfl) (fun e => by cases e) (fun _ => rfl), fun e => e⟩
    · rename_i hb
      obtain ⟨lp, hl, rfl⟩ := g3
      exact ⟨d, cl, [], h.silent hi ⟨g1, rfl, lp, hl, by show fin ≤ lp; have : ¬ lp + 1 ≤ fin := hb; omega⟩
        (fun _ => .inl rfl) (fun e => by cases e) (fun _ => rfl), fun e => e⟩
  case count b =>
    obtain ⟨g1, rfl⟩ := g
    simp only [advance]
    refine ⟨d, cl, [], h.silent hi ⟨g1, rfl, ?_, Nat.le_refl _, by omega, rfl⟩ (fun _ => .inl rfl) (fun e => by cases e)
      (fun _ => rfl), fun e => e⟩
    rw [h.db]
    rfl
  case event b i c read =>
    obtain ⟨g1, rfl, g3, g4, g5, g6⟩ := g
    simp only [advance]
    split
    · rename_i hic
      refine ⟨d, cl, [], h.silent hi ⟨g1, rfl, g3, by omega, by omega, ?_⟩ (fun _ => .inl rfl) (fun e => by cases e)
        (fun _ => rfl), fun e => e⟩
      rw [h.db, g6, show i + 1 - 1 = (i - 1) + 1 by omega, List.range'_concat, List.filterMap_append]
      congr 1
      rw [show 1 + 1 * (i - 1) = i by omega]
      show (d.evt.get (b, i)).toList = _
      cases hx : d.evt.get (b, i) <;> simp [hx]
    · rename_i hic
      have hr : read = readEvents d b := by
        rw [g6, show i - 1 = c by omega, g3]
        rfl
      exact ⟨d, cl, [], h.silent hi ⟨g1, hr, [], rfl, rfl⟩ (fun _ => .inl rfl) (fun e => by cases e) (fun _ => rfl),
        fun e => e⟩
  case keysGet b todo es =>
    obtain ⟨g1, g2, before, g3, g4⟩ := g
    cases todo with
    | nil =>
      have hall : done = keyWrites d b := by
        rw [keyWrites_eq, ← g2, g3, List.append_nil]
        exact g4
      simp only [advance]
      split
      · rename_i he
        refine ⟨d, cl, done, h.silent hi ⟨g1, ?_⟩ (fun _ => .inl rfl) (fun e => by cases e) (fun _ => rfl), fun e => e⟩
        unfold reverseMapWrites
        rw [if_pos (g2.symm.trans he), hall, List.append_nil]
      · rename_i he
        exact ⟨d, cl, done, h.silent hi ⟨g1, fun e => he (g2.trans e), hall⟩ (fun _ => .inl rfl) (fun e => by cases e)
          (fun _ => rfl), fun e => e⟩
    | cons m todo =>
      simp only [advance]
      refine ⟨d, cl, done, h.silent hi ⟨g1, g2, ⟨before, g3, g4⟩, ?_⟩ (fun _ => .inl rfl) (fun e => by cases e)
        (fun _ => rfl), fun e => e⟩
      unfold keyWrite
      have hm : m ∉ before := by
        have := msas_nodup es
        rw [g3, List.nodup_append] at this
        exact fun hm => this.2.2 m hm m (List.mem_cons_self ..) rfl
      rw [h.db, g4]
      rw [show (d.writes (before.map (keyWrite d es))).keysOf m = d.keysOf m from
        ((writes_setKeys _ before d).2.2.2.2 m).trans (if_neg hm)]
  case keysSet b m ks todo es =>
    obtain ⟨g1, g2, ⟨before, g3, g4⟩, g5⟩ := g
    simp only [advance]
    refine ⟨d, cl, _, h.wrote hi rfl (p := .keysGet b todo es) ⟨g1, g2, before ++ [m], ?_, ?_⟩ rfl (fun e => by cases e)
      (fun _ => rfl), fun e => e⟩
    · rw [g3]; simp
    · rw [g4, g5]; simp
  case cleanCount b =>
    obtain ⟨g1, g2, g3⟩ := g
    simp only [advance]
    refine ⟨d, cl, done, h.silent hi ⟨g1, g2, ?_, Nat.le_refl _, by omega, ?_⟩ (fun _ => .inl rfl) (fun e => by cases e)
      (fun _ => rfl), fun e => e⟩
    · rw [h.db, g3, keyWrites_eq]
      rw [show (d.writes ((msas (readEvents d b)).map (keyWrite d (readEvents d b)))).cnt = d.cnt from
        (writes_setKeys _ _ d).2.1]
    · rw [g3]
      simp [clearing]
  case cleanEvt b i c =>
    obtain ⟨g1, g2, g3, g4, g5, g6⟩ := g
    simp only [advance]
    have hcl : n.sys.db.clears = d.clears := by rw [h.db]; exact writes_clears _ _
    split
    · rename_i hic
      rw [hcl]
      split
      · rename_i hc
        refine ⟨d, cl, _, h.wrote hi rfl (p := .cleanEvt b (i + 1) c) ⟨g1, g2, g3, by omega, by omega, ?_⟩ rfl
          (fun e => by cases e) (fun _ => rfl), fun e => e⟩
        rw [g6, List.append_assoc]
        congr 1
        unfold clearing
        rw [if_pos hc, if_pos hc, show i + 1 - 1 = (i - 1) + 1 by omega, List.range'_concat, List.map_append,
          show 1 + 1 * (i - 1) = i by omega]
        rfl
      · rename_i hc
        refine ⟨d, cl, done, h.silent hi ⟨g1, g2, g3, by omega, by omega, ?_⟩ (fun _ => .inl rfl) (fun e => by cases e)
          (fun _ => rfl), fun e => e⟩
        rw [g6]
        unfold clearing
        rw [if_neg hc, if_neg hc]
    · rename_i hic
      refine ⟨d, cl, done, h.silent hi ⟨g1, g2, ?_⟩ (fun _ => .inl rfl) (fun e => by cases e) (fun _ => rfl), fun e => e⟩
      rw [g6, show i - 1 = c by omega, g3]
  case cleanCnt b =>
    obtain ⟨g1, g2, g3⟩ := g
    simp only [advance]
    have hcl : n.sys.db.clears = d.clears := by rw [h.db]; exact writes_clears _ _
    rw [hcl]
    split
    · rename_i hc
      refine ⟨d, cl, _, h.wrote hi rfl (p := .extend b) ⟨g1, ?_⟩ rfl (fun e => by cases e) (fun _ => rfl), fun e => e⟩
      rw [g3, readEvents_ne_clean g2, cleanWrites_eq, if_pos hc, List.append_assoc]
    · rename_i hc
      refine ⟨d, cl, done, h.silent hi ⟨g1, ?_⟩ (fun _ => .inl rfl) (fun e => by cases e) (fun _ => rfl), fun e => e⟩
      rw [g3, readEvents_ne_clean g2, cleanWrites_eq, if_neg hc, List.append_nil]
  case extend b =>
    simp only [advance]
    rw [if_pos (h.alone2.extendable hi rfl n.time)]
    exact ⟨d, cl, done, h.move hi ⟨rfl, rfl⟩ h.reach h.db (p := .setLast b) g
      (fun j u _ hj => h.good u (List.mem_of_getElem? hj)) (fun _ e => by cases e)
      (h.alone1.same hi (fun e => e)) (h.alone2.extend hi rfl (by simp [deadline2]) _), fun e => e⟩
  case setLast b =>
    obtain ⟨⟨g1, g2, lp, g3, rfl⟩, rfl⟩ := g
    obtain ⟨k1, k2, k3, k4⟩ := kn
    simp only [advance]
    have hw : d.writes ((blockWrites d (lp + 1)).take (blockWrites d (lp + 1)).length) =
        (d.writes (reverseMapWrites d (lp + 1))).write (.setLast (lp + 1)) := blockWrites_all d (lp + 1)
    refine ⟨d.writes ((blockWrites d (lp + 1)).take (blockWrites d (lp + 1)).length), _, [], h.move hi ⟨rfl, rfl⟩
      (.step h.reach (.work _ lp (blockWrites d (lp + 1)).length g1 g3 (by
        show lp + 1 < n.sys.now
        have : fin ≤ blk := k2
        have : blk < n.sys.now := k3
        have : lp + 1 ≤ fin := g2
        omega))) ?_ ?_
      (fun j u hne hj => good_idle (h.good u (List.mem_of_getElem? hj)) (h.others hi rfl hj hne) (fun _ => ?_))
      (fun _ _ => rfl) (h.alone1.same hi (fun e => by cases e)) (h.alone2.same hi (fun _ => rfl)), fun _ => ?_⟩
    · show n.sys.db.write (.setLast (lp + 1)) = _
      rw [h.db, hw]
      rfl
    · rw [hw]
      exact ⟨writes_keep_indexed _ _ g1, rfl, lp + 1, rfl, rfl⟩
    · rw [hw]
      exact writes_keep_indexed _ _ g1
    · show decide ((d.writes ((blockWrites d (lp + 1)).take (blockWrites d (lp + 1)).length)).last = _) = true
      rw [hw]
      simp [Db.write]
  case unlock2 =>
    obtain ⟨g1, rfl, -⟩ := g
    simp only [advance]
    exact ⟨d, cl, [], h.move hi ⟨rfl, rfl⟩ h.reach h.db (p := .done) trivial
      (fun j u _ hj => h.good u (List.mem_of_getElem? hj)) (fun _ _ => rfl) (h.alone1.same hi (fun e => by cases e))
      (h.alone2.release hi rfl rfl), fun e => e⟩
  case done =>
    simp only [advance]
    exact ⟨d, cl, done, h.silent hi trivial (fun e => by cases e) (fun e => by cases e) (fun e => by cases e), fun e => e⟩

theorem NetInv.apart {cfg : Msa.Config} {n : Net} {d : Db} {cl : Bool} {done : List Write} (h : NetInv cfg n d cl done) :
    ∀ w ∈ done, Apart n.sys.now w := by
  intro w hw
  by_cases hq : ∀ t ∈ n.threads, t.pc.busy = false
  · rw [h.quiet hq] at hw
    simp at hw
  · push Not at hq
    obtain ⟨t, ht, hb⟩ := hq
    have hb : t.pc.busy = true := by simpa using hb
    obtain ⟨-, k2, k3, -⟩ := h.knows t ht
    exact (good_kind (h.good t ht) hb hw).2 _ (by omega)

theorem act_inv {cfg : Msa.Config} {n : Net} {d : Db} {cl : Bool} {done : List Write} (h : NetInv cfg n d cl done) (a : Act)
    (hs : Possible cfg n a) (hp : Prompt n a) :
    ∃ d' cl' done', NetInv cfg (n.act cfg a) d' cl' done' ∧ (a ≠ .restart → cl = true → cl' = true) := by
  cases a with
  | step i =>
    obtain ⟨d', cl', done', h1, h2⟩ := step_inv h i hp
    exact ⟨d', cl', done', h1, fun _ => h2⟩
  | tick ms => exact ⟨d, cl, done, ⟨h.reach, h.db, h.knows, h.good, h.quiet, h.alone1, h.alone2⟩, fun _ e => e⟩
  | start block fin accounts =>
    refine ⟨d, cl, done, ⟨h.reach, h.db, fun t ht => ?_, fun t ht => ?_, fun hq => ?_, ?_, ?_⟩, fun _ e => e⟩
    · rcases List.mem_append.1 ht with ht | ht
      · exact h.knows t ht
      · rw [List.mem_singleton.1 ht]
        exact hs
    · rcases List.mem_append.1 ht with ht | ht
      · exact h.good t ht
      · rw [List.mem_singleton.1 ht]
        trivial
    · exact h.quiet (fun t ht => hq t (List.mem_append_left _ ht))
    all_goals
      have old : ∀ (P : Pc → Bool), P .start = false → ∀ (j : Nat) (u : Thread),
          (n.threads ++ [⟨block, fin, accounts, .start⟩])[j]? = some u → P u.pc = true → n.threads[j]? = some u := by
        intro P hP j u hj hu
        rw [List.getElem?_append] at hj
        split at hj
        · exact hj
        · exfalso
          have := List.mem_of_getElem? hj
          rw [List.mem_singleton.1 this] at hu
          rw [hP] at hu
          cases hu
      intro i t hi ht
    · obtain ⟨h1, h2⟩ := h.alone1 i t (old Pc.inside1 rfl i t hi ht) ht
      exact ⟨h1, fun j u hj hu => h2 j u (old Pc.inside1 rfl j u hj hu) hu⟩
    · obtain ⟨h1, h2⟩ := h.alone2 i t (old Pc.inside2 rfl i t hi ht) ht
      exact ⟨h1, fun j u hj hu => h2 j u (old Pc.inside2 rfl j u hj hu) hu⟩
  | next =>
    refine ⟨d, cl, done, ⟨?_, h.db, fun t ht => ?_, h.good, h.quiet, h.alone1, h.alone2⟩, fun _ e => e⟩
    · exact .step h.reach (.next _)
    · obtain ⟨k1, k2, k3, k4⟩ := h.knows t ht
      refine ⟨k1, k2, Nat.lt_succ_of_lt k3, fun k m => ?_⟩
      rw [k4 k m]
      show _ ↔ (if t.block = n.sys.now + 1 then n.sys.chain.keyToMsa.get else n.sys.hist t.block) k = _
      rw [if_neg (by omega)]
  | tx st =>
    have hap := h.apart
    have hix := indexAll_writes (b := n.sys.now) (emitted n.sys.chain (Msa.applyTx cfg n.sys.chain st)) done d n.sys.count hap
    refine ⟨(indexAll n.sys.now (emitted n.sys.chain (Msa.applyTx cfg n.sys.chain st)) (d, n.sys.count)).1, cl, done,
      ⟨?_, ?_, fun t ht => ?_, fun t ht => ?_, h.quiet, h.alone1, h.alone2⟩, fun _ e => e⟩
    · have e : { (n.sys.tx cfg st) with
          db := (indexAll n.sys.now (emitted n.sys.chain (Msa.applyTx cfg n.sys.chain st)) (d, n.sys.count)).1,
          clean := cl } = Sys.tx cfg { n.sys with db := d, clean := cl } st := by
        unfold Sys.tx Sys.becomes
        dsimp only
        rw [h.db, hix]
      show Reach cfg { (n.sys.tx cfg st) with db := _, clean := cl }
      rw [e]
      exact .step h.reach (.tx _ _ hs)
    · show (indexAll n.sys.now _ (n.sys.db, n.sys.count)).1 = _
      rw [h.db, hix]
    · obtain ⟨k1, k2, k3, k4⟩ := h.knows t ht
      refine ⟨k1, k2, k3, fun k m => ?_⟩
      rw [k4 k m]
      show _ ↔ (if t.block = n.sys.now then (Msa.applyTx cfg n.sys.chain st).keyToMsa.get else n.sys.hist t.block) k = _
      rw [if_neg (by omega)]
    · obtain ⟨-, k2, k3, -⟩ := h.knows t ht
      exact good_index (h.good t ht) (by omega) _
  | restart =>
    have nil : ∀ (P : Pc → Bool) (k : Nat) (l : Option Deadline), Alone P k l [] := by
      intro P k l i t hi _
      simp at hi
    by_cases hq : ∀ t ∈ n.threads, t.pc.busy = false
    · have e := h.quiet hq
      exact ⟨d, cl, done, ⟨h.reach, h.db, by simp [Net.act], by simp [Net.act], fun _ => e, nil _ _ _, nil _ _ _⟩,
        fun e => absurd rfl e⟩
    · push Not at hq
      obtain ⟨t, ht, hb⟩ := hq
      have hb : t.pc.busy = true := by simpa using hb
      have h2 : t.pc.inside2 = true := by simpa [Pc.busy, hp t ht] using hb
      rcases good_prefix (h.good t ht) h2 with e | ⟨b, ⟨g1, g2, lp, g3, rfl⟩, hpre⟩
      · exact ⟨d, cl, done, ⟨h.reach, h.db, by simp [Net.act], by simp [Net.act], fun _ => e, nil _ _ _, nil _ _ _⟩,
          fun e => absurd rfl e⟩
      · obtain ⟨-, k2, k3, -⟩ := h.knows t ht
        have hw : (blockWrites d (lp + 1)).take done.length = done := by
          obtain ⟨r, hr⟩ := hpre
          unfold blockWrites
          rw [← hr, List.append_assoc, List.take_left]
        refine ⟨d.writes done, decide ((d.writes done).last = some (lp + 1)), [], ⟨?_, ?_, by simp [Net.act],
          by simp [Net.act], fun _ => rfl, nil _ _ _, nil _ _ _⟩, fun e => absurd rfl e⟩
        · have := Reach.step h.reach (.work _ lp done.length g1 g3 (by show lp + 1 < n.sys.now; omega))
          dsimp only at this
          rw [hw] at this
          exact this
        · exact h.db

theorem init_inv (cfg : Msa.Config) (clears : Bool) : NetInv cfg (Net.init clears) (Db.init clears) true [] := by
  refine ⟨.init clears, rfl, by simp [Net.init], by simp [Net.init], fun _ => rfl, ?_, ?_⟩ <;>
  · intro i t hi
    simp [Net.init] at hi

theorem run_inv {cfg : Msa.Config} (h : List Act) : ∀ {n : Net} {d : Db} {cl : Bool} {done : List Write},
    NetInv cfg n d cl done → AllPossible cfg n h → AllPrompt cfg n h →
    ∃ d' cl' done', NetInv cfg (n.run cfg h) d' cl' done' ∧ ((∀ a ∈ h, a ≠ .restart) → cl = true → cl' = true) := by
  induction h with
  | nil => intro n d cl done hi _ _; exact ⟨d, cl, done, hi, fun _ e => e⟩
  | cons a h ih =>
    intro n d cl done hi hs hp
    obtain ⟨d1, cl1, done1, h1, h2⟩ := act_inv hi a hs.1 hp.1
    obtain ⟨d2, cl2, done2, h3, h4⟩ := ih h1 hs.2 hp.2
    exact ⟨d2, cl2, done2, h3, fun hr e => h4 (fun b hb => hr b (List.mem_cons_of_mem _ hb))
      (h2 (hr a (List.mem_cons_self ..)) e)⟩

/-- Between two blocks, if the last block was handled to the end, the lists are exact. -/
theorem exact_of {cfg : Msa.Config} {n : Net} {d : Db} {cl : Bool} (h : NetInv cfg n d cl []) (hc : cl = true)
    (hi : n.sys.db.indexed = true) {lp : Nat} (hl : n.sys.db.last = some lp) (hs : n.sys.since ≤ lp) : Exact n lp := by
  intro m k
  have hd : n.sys.db = d := h.db
  obtain ⟨lp', h1, h2, h3⟩ := (inv_reach h.reach).synced (by show d.indexed = true; rw [← hd]; exact hi)
  have e : lp' = lp := by
    have : d.last = some lp' := h1
    rw [← hd, hl] at this
    exact (Option.some.inj this).symm
  subst e
  have := h3 lp' hs (Nat.le_of_lt h2) (.inr ⟨rfl, hc⟩) m k
  simp only [Nat.sub_self] at this
  unfold target storedFrom at this
  simp only [List.range'_zero, List.flatMap_nil, lastVerdict, Option.getD_none] at this
  unfold inIndex has at this
  rw [decide_eq_decide] at this
  rw [hd]
  exact this

/-! ## C142 -/

/-- C142: on a node that was not stopped, whatever runs of the worker overlapped and however, when all runs are over
the lists are those of the chain at the end of the last processed block. -/
def C142_full : Prop := ∀ (cfg : Msa.Config) (clears : Bool) (h : List Act), AllPossible cfg (.init clears) h →
  (∀ a ∈ h, a ≠ .restart) →
  let n := (Net.init clears).run cfg h
  (∀ t ∈ n.threads, t.pc = .done) → n.sys.db.indexed = true → ∀ lp, n.sys.db.last = some lp → n.sys.since ≤ lp → Exact n lp

/-- C142, when no lock expires while the run that took it is still going on. Missing: runs that take longer than their
lock lasts (`C142_full_false`). -/
theorem C142_after_partial (cfg : Msa.Config) (clears : Bool) (h : List Act) (hs : AllPossible cfg (.init clears) h)
    (hp : AllPrompt cfg (.init clears) h) (hr : ∀ a ∈ h, a ≠ .restart) :
    let n := (Net.init clears).run cfg h
    (∀ t ∈ n.threads, t.pc = .done) → n.sys.db.indexed = true → ∀ lp, n.sys.db.last = some lp → n.sys.since ≤ lp →
    Exact n lp := by
  intro n hd hi lp hl hsl
  obtain ⟨d, cl, done, hinv, hcl⟩ := run_inv h (init_inv cfg clears) hs hp
  have e : done = [] := hinv.quiet (fun t ht => by rw [hd t ht]; rfl)
  subst e
  exact exact_of hinv (hcl hr rfl) hi hl hsl

/-- C142, also with other runs going on and after the node was stopped at any time but the initial indexing: whenever a
run has handled a block, that is, right after it notes it as the last processed, the lists are those of the chain at the
end of this block. Missing: as above. -/
theorem C142_during_partial (cfg : Msa.Config) (clears : Bool) (h : List Act) (hs : AllPossible cfg (.init clears) h)
    (hp : AllPrompt cfg (.init clears) h) (i : Nat) (t : Thread) (b : Nat)
    (ht : ((Net.init clears).run cfg h).threads[i]? = some t) (hb : t.pc = .setLast b)
    (hsl : ((Net.init clears).run cfg h).sys.since ≤ b) :
    Exact ((Net.init clears).run cfg (h ++ [.step i])) b := by
  obtain ⟨d, cl, done, hinv, -⟩ := run_inv h (init_inv cfg clears) hs hp
  have hg := hinv.good t (List.mem_of_getElem? ht)
  rw [hb] at hg
  obtain ⟨⟨g1, g2, lp, g3, rfl⟩, rfl⟩ := hg
  obtain ⟨-, k2, k3, -⟩ := hinv.knows t (List.mem_of_getElem? ht)
  have hw : d.writes ((blockWrites d (lp + 1)).take (blockWrites d (lp + 1)).length) =
      (d.writes (reverseMapWrites d (lp + 1))).write (.setLast (lp + 1)) := blockWrites_all d (lp + 1)
  have hr := Reach.step hinv.reach (.work _ lp (blockWrites d (lp + 1)).length g1 g3 (by
    show lp + 1 < ((Net.init clears).run cfg h).sys.now; omega))
  have hsys : ((Net.init clears).run cfg (h ++ [.step i])).sys =
      { ((Net.init clears).run cfg h).sys with db := (d.writes (reverseMapWrites d (lp + 1))).write (.setLast (lp + 1)) } := by
    rw [Net.run, List.foldl_append]
    show (Net.act cfg ((Net.init clears).run cfg h) (.step i)).sys = _
    simp only [Net.act, ht, advance, hb]
    unfold Net.write
    rw [hinv.db]
  have hclean : decide ((d.writes ((blockWrites d (lp + 1)).take (blockWrites d (lp + 1)).length)).last = some (lp + 1)) =
      true := by
    rw [hw]
    simp [Db.write]
  dsimp only at hr
  rw [hclean, hw] at hr
  have hfin : NetInv cfg ⟨{ ((Net.init clears).run cfg h).sys with
      db := (d.writes (reverseMapWrites d (lp + 1))).write (.setLast (lp + 1)) }, none, none, 0, []⟩
      ((d.writes (reverseMapWrites d (lp + 1))).write (.setLast (lp + 1))) true [] := by
    refine ⟨hr, rfl, by simp, by simp, fun _ => rfl, ?_, ?_⟩ <;>
    · intro i t hi
      simp at hi
  have := exact_of hfin rfl (writes_keep_indexed _ _ g1) rfl hsl
  intro m k
  rw [hsys]
  exact this m k

/-- C142: a run that has got the second lock ends only when all blocks up to the one finalized for it are handled.
Missing: as above. -/
theorem C142_ends_partial (cfg : Msa.Config) (clears : Bool) (h : List Act) (hs : AllPossible cfg (.init clears) h)
    (hp : AllPrompt cfg (.init clears) h) (t : Thread) (ht : t ∈ ((Net.init clears).run cfg h).threads)
    (hu : t.pc = .unlock2) : ∃ lp, ((Net.init clears).run cfg h).sys.db.last = some lp ∧ t.fin ≤ lp := by
  obtain ⟨d, cl, done, hinv, -⟩ := run_inv h (init_inv cfg clears) hs hp
  have hg := hinv.good t ht
  rw [hu] at hg
  obtain ⟨-, rfl, lp, h1, h2⟩ := hg
  exact ⟨lp, by rw [hinv.db]; exact h1, h2⟩

/-- No run is still going on when one of a block more than 20 later does something; and the node is not stopped during the
initial indexing. -/
def Close (n : Net) : Act → Prop
  | .step i => ∀ t, n.threads[i]? = some t → ∀ u ∈ n.threads, u.pc ≠ .done → t.block ≤ u.block + 20
  | .restart => ∀ u ∈ n.threads, u.pc.indexing = false
  | _ => True

/-- This holds throughout a history. -/
def AllClose (cfg : Msa.Config) : Net → List Act → Prop
  | _, [] => True
  | n, a :: h => Close n a ∧ AllClose cfg (n.act cfg a) h

theorem close_prompt {cfg : Msa.Config} {n : Net} {d : Db} {cl : Bool} {done : List Write} (h : NetInv cfg n d cl done)
    {a : Act} (hc : Close n a) : Prompt n a := by
  cases a with
  | step i =>
    intro t ht
    refine ⟨fun _ d hd he u hu => ?_, fun _ d hd he u hu => ?_⟩
    · by_contra hne
      rw [Bool.not_eq_false] at hne
      obtain ⟨j, hj⟩ := List.mem_iff_getElem?.1 hu
      obtain ⟨⟨d', hd', hb⟩, -⟩ := h.alone1 j u hj hne
      rw [hd] at hd'
      cases hd'
      have := hc t ht u hu (by intro e; rw [e] at hne; cases hne)
      simp only [expired, Bool.and_eq_true, decide_eq_true_iff] at he
      omega
    · by_contra hne
      rw [Bool.not_eq_false] at hne
      obtain ⟨j, hj⟩ := List.mem_iff_getElem?.1 hu
      obtain ⟨⟨d', hd', hb⟩, -⟩ := h.alone2 j u hj hne
      rw [hd] at hd'
      cases hd'
      have := hc t ht u hu (by intro e; rw [e] at hne; cases hne)
      simp only [expired, Bool.and_eq_true, decide_eq_true_iff] at he
      omega
  | restart => exact hc
  | _ => trivial

theorem allClose_prompt {cfg : Msa.Config} (h : List Act) : ∀ {n : Net} {d : Db} {cl : Bool} {done : List Write},
    NetInv cfg n d cl done → AllPossible cfg n h → AllClose cfg n h → AllPrompt cfg n h := by
  induction h with
  | nil => intro n d cl done _ _ _; exact trivial
  | cons a h ih =>
    intro n d cl done hi hs hc
    have hp := close_prompt hi hc.1
    obtain ⟨d1, cl1, done1, h1, -⟩ := act_inv hi a hs.1 hp
    exact ⟨hp, ih h1 hs.2 hc.2⟩

/-- C142, when no run goes on for more than 20 blocks, however long a block takes: the locks last that long. Missing: as
above. -/
theorem C142_blocks_partial (cfg : Msa.Config) (clears : Bool) (h : List Act) (hs : AllPossible cfg (.init clears) h)
    (hc : AllClose cfg (.init clears) h) (hr : ∀ a ∈ h, a ≠ .restart) :
    let n := (Net.init clears).run cfg h
    (∀ t ∈ n.threads, t.pc = .done) → n.sys.db.indexed = true → ∀ lp, n.sys.db.last = some lp → n.sys.since ≤ lp →
    Exact n lp :=
  C142_after_partial cfg clears h hs (allClose_prompt h (init_inv cfg clears) hs hc) hr

/-! ## Histories that can happen -/

theorem run_append (cfg : Msa.Config) (n : Net) (a b : List Act) : n.run cfg (a ++ b) = (n.run cfg a).run cfg b :=
  List.foldl_append ..

theorem possible_append {cfg : Msa.Config} : ∀ {a b : List Act} {n : Net}, AllPossible cfg n a →
    AllPossible cfg (n.run cfg a) b → AllPossible cfg n (a ++ b)
  | [], _, _, _, h => h
  | _ :: _, _, _, h1, h2 => ⟨h1.1, possible_append h1.2 h2⟩

/-- Neither a transaction nor the start of a run. -/
def Act.plain : Act → Bool
  | .tx _ | .start .. => false
  | _ => true

theorem possible_plain {cfg : Msa.Config} : ∀ {a : List Act} {n : Net}, a.all Act.plain = true → AllPossible cfg n a
  | [], _, _ => trivial
  | a :: h, n, e => by
    rw [List.all_cons, Bool.and_eq_true] at e
    refine ⟨?_, possible_plain e.2⟩
    cases a <;> first | trivial | cases e.1

theorem open_act {cfg : Msa.Config} {n : Net} (h : n.sys.hist n.sys.now = n.sys.chain.keyToMsa.get) (a : Act) :
    (n.act cfg a).sys.hist (n.act cfg a).sys.now = (n.act cfg a).sys.chain.keyToMsa.get := by
  cases a with
  | tx st =>
    show (if n.sys.now = n.sys.now then _ else _) = _
    rw [if_pos rfl]
    rfl
  | next =>
    show (if n.sys.now + 1 = n.sys.now + 1 then _ else _) = _
    rw [if_pos rfl]
    rfl
  | tick ms => exact h
  | start => exact h
  | restart => exact h
  | step i =>
    unfold Net.act
    dsimp only
    split
    · exact h
    · rename_i t _
      dsimp only
      unfold advance
      split <;> first | exact h | (split <;> first | exact h | (dsimp only; split <;> exact h))

theorem open_run {cfg : Msa.Config} : ∀ (h : List Act) {n : Net}, n.sys.hist n.sys.now = n.sys.chain.keyToMsa.get →
    (n.run cfg h).sys.hist (n.run cfg h).sys.now = (n.run cfg h).sys.chain.keyToMsa.get
  | [], _, e => e
  | a :: h, _, e => open_run h (open_act e a)

/-- A block is closed and its worker started. -/
theorem possible_start {cfg : Msa.Config} {clears : Bool} {h : List Act} {block fin : Nat}
    {accounts : List (AccountId × MsaId)} (hf : 1 ≤ fin) (hfb : fin ≤ block)
    (hb : ((Net.init clears).run cfg h).sys.now = block)
    (ha : ((Net.init clears).run cfg h).sys.chain.keyToMsa.entries = accounts) :
    AllPossible cfg ((Net.init clears).run cfg h) [.next, .start block fin accounts] := by
  refine ⟨trivial, ⟨hf, hfb, ?_, fun k m => ?_⟩, trivial⟩
  · show block < ((Net.init clears).run cfg h).sys.now + 1
    omega
  · show _ ↔ (if block = ((Net.init clears).run cfg h).sys.now + 1 then _ else ((Net.init clears).run cfg h).sys.hist block) k = some m
    rw [if_neg (by omega), ← ha, ← hb, open_run h rfl]
    exact SMap.mem_entries_iff _ _ _

/-- `Prompt`, computed. -/
def prompt (n : Net) : Act → Bool
  | .step i =>
    match n.threads[i]? with
    | none => true
    | some t =>
      match t.pc with
      | .start => !(match n.lock1 with | some d => expired n.time t.block d | none => false) ||
          n.threads.all (fun u => !u.pc.inside1)
      | .apply => !(match n.lock2 with | some d => expired n.time t.block d | none => false) ||
          n.threads.all (fun u => !u.pc.inside2)
      | _ => true
  | .restart => n.threads.all (fun u => !u.pc.indexing)
  | _ => true

/-- `AllPrompt`, computed. -/
def allPrompt (cfg : Msa.Config) : Net → List Act → Bool
  | _, [] => true
  | n, a :: h => prompt n a && allPrompt cfg (n.act cfg a) h

theorem prompt_prompt {n : Net} {a : Act} (h : prompt n a = true) : Prompt n a := by
  cases a with
  | step i =>
    intro t ht
    simp only [prompt, ht] at h
    refine ⟨fun e d hd he u hu => ?_, fun e d hd he u hu => ?_⟩ <;>
    · simp only [e, hd, he, Bool.not_true, Bool.false_or] at h
      simpa using List.all_eq_true.1 h u hu
  | restart =>
    intro u hu
    simpa using List.all_eq_true.1 h u hu
  | _ => trivial

theorem allPrompt_all {cfg : Msa.Config} : ∀ {h : List Act} {n : Net}, allPrompt cfg n h = true → AllPrompt cfg n h
  | [], _, _ => trivial
  | _ :: _, _, e => by
    rw [allPrompt, Bool.and_eq_true] at e
    exact ⟨prompt_prompt e.1, allPrompt_all e.2⟩

/-! ## Two runs, one of them slow -/

/-- Key 100 creates account 1 in block 0; blocks 1 and 2 are empty. -/
def ex0 : List Act := [.tx ⟨Msa.exEnv 0, .signed 100, .create⟩, .next, .next]
/-- The worker of block 2 indexes the accounts. In block 3 key 101 joins. -/
def ex1 : List Act := ex0 ++ [.next, .start 2 1 [(100, 1)]] ++ List.replicate 30 (.step 0) ++
  [.tx ⟨Msa.exEnv 3, .signed 100, .addPublicKeyToMsa 100 1 2 ⟨1, 50, 101⟩⟩, .next]
/-- The worker of block 4 handles blocks 1, 2 and reads the list of account 1 to add key 101. In block 5 key 102 joins. -/
def ex2 (steps : Nat) : List Act := ex1 ++ [.next, .start 4 3 [(101, 1), (100, 1)]] ++ List.replicate steps (.step 1) ++
  [.tx ⟨Msa.exEnv 5, .signed 100, .addPublicKeyToMsa 100 3 4 ⟨1, 50, 102⟩⟩]


/-- Time passes, and so do blocks; the worker of block 25 takes the expired lock and handles everything up to block 24;
then the worker of block 4 goes on. -/
def exSlow : List Act := ex2 15 ++ (.tick 6000 :: List.replicate 20 .next) ++
  [.next, .start 25 24 [(102, 1), (101, 1), (100, 1)]] ++ (List.replicate 140 (.step 2) ++ List.replicate 20 (.step 1))

/-- The worker of block 5 finds the lock taken and ends; the one of block 4 goes on; the one of block 6 does the rest. -/
def exQuick : List Act := ex2 15 ++ [.next, .start 5 4 [(102, 1), (101, 1), (100, 1)]] ++
  (List.replicate 10 (.step 2) ++ List.replicate 20 (.step 1)) ++
  [.next, .start 6 5 [(102, 1), (101, 1), (100, 1)]] ++ List.replicate 40 (.step 3)

theorem ex1_possible : AllPossible Msa.exCfg (.init true) ex1 := by
  unfold ex1
  refine possible_append (possible_append (possible_append ?_ ?_) (possible_plain (by decide))) ?_
  · exact ⟨by show _ ≤ _; decide +kernel, trivial, trivial, trivial⟩
  · exact possible_start (by decide) (by decide) (by decide +kernel) (by decide +kernel)
  · exact ⟨by show _ ≤ _; decide +kernel, trivial, trivial⟩

theorem ex2_possible : AllPossible Msa.exCfg (.init true) (ex2 15) := by
  unfold ex2
  refine possible_append (possible_append (possible_append ex1_possible ?_) (possible_plain (by decide))) ?_
  · exact possible_start (by decide) (by decide) (by decide +kernel) (by decide +kernel)
  · exact ⟨by show _ ≤ _; decide +kernel, trivial⟩

theorem exSlow_possible : AllPossible Msa.exCfg (.init true) exSlow := by
  unfold exSlow
  refine possible_append (possible_append (possible_append ex2_possible (possible_plain (by decide))) ?_)
    (possible_plain (by decide))
  exact possible_start (by decide) (by decide) (by decide +kernel) (by decide +kernel)

theorem exQuick_possible : AllPossible Msa.exCfg (.init true) exQuick := by
  unfold exQuick
  refine possible_append (possible_append (possible_append (possible_append ex2_possible ?_)
    (possible_plain (by decide))) ?_) (possible_plain (by decide))
  · exact possible_start (by decide) (by decide) (by decide +kernel) (by decide +kernel)
  · exact possible_start (by decide) (by decide) (by decide +kernel) (by decide +kernel)

/-- Is the run over? -/
def Pc.over : Pc → Bool
  | .done => true
  | _ => false

theorem over_done {ts : List Thread} (h : ts.all (fun t => t.pc.over) = true) : ∀ t ∈ ts, t.pc = .done := by
  intro t ht
  have := List.all_eq_true.1 h t ht
  cases hp : t.pc <;> rw [hp] at this <;> first | rfl | cases this

/-- Is it not the stop of the node? -/
def Act.goesOn : Act → Bool
  | .restart => false
  | _ => true

theorem goesOn_all {h : List Act} (e : h.all Act.goesOn = true) : ∀ a ∈ h, a ≠ .restart := by
  intro a ha hr
  have := List.all_eq_true.1 e a ha
  rw [hr] at this
  cases this

/-- C142 fails: after `exSlow` all runs are over and block 24 is the last processed; key 102 is on account 1 since
block 5, but not in its list: the worker of block 4 has overwritten the list with one it had computed before. -/
theorem C142_full_false : ¬ C142_full := by
  intro h
  have := h Msa.exCfg true exSlow exSlow_possible (goesOn_all (by decide))
    (over_done (by decide +kernel)) (by decide +kernel) 24 (by decide +kernel) (by decide +kernel)
  have h1 : ((Net.init true).run Msa.exCfg exSlow).sys.hist 24 102 = some 1 := by decide +kernel
  have h2 := (this 1 102).2 h1
  have h3 : ¬ 102 ∈ ((Net.init true).run Msa.exCfg exSlow).sys.db.keysOf 1 := by decide +kernel
  exact h3 h2

/-- The hypotheses of `C142_after_partial` hold for `exQuick`, in which three runs overlap or follow each other. -/
example : AllPossible Msa.exCfg (.init true) exQuick ∧ AllPrompt Msa.exCfg (.init true) exQuick ∧
    (∀ a ∈ exQuick, a ≠ .restart) ∧ (∀ t ∈ ((Net.init true).run Msa.exCfg exQuick).threads, t.pc = .done) ∧
    ((Net.init true).run Msa.exCfg exQuick).threads.length = 4 ∧
    ((Net.init true).run Msa.exCfg exQuick).sys.db.last = some 5 ∧
    ((Net.init true).run Msa.exCfg exQuick).sys.since = 2 ∧
    ((Net.init true).run Msa.exCfg exQuick).sys.db.keysOf 1 = [100, 101, 102] :=
  ⟨exQuick_possible, allPrompt_all (by decide +kernel), goesOn_all (by decide), over_done (by decide +kernel),
    by decide +kernel, by decide +kernel, by decide +kernel, by decide +kernel⟩

/-- `Close`, computed. -/
def close (n : Net) : Act → Bool
  | .step i =>
    match n.threads[i]? with
    | none => true
    | some t => n.threads.all (fun u => u.pc.over || decide (t.block ≤ u.block + 20))
  | .restart => n.threads.all (fun u => !u.pc.indexing)
  | _ => true

/-- `AllClose`, computed. -/
def allClose (cfg : Msa.Config) : Net → List Act → Bool
  | _, [] => true
  | n, a :: h => close n a && allClose cfg (n.act cfg a) h

theorem close_close {n : Net} {a : Act} (h : close n a = true) : Close n a := by
  cases a with
  | step i =>
    intro t ht u hu hd
    simp only [close, ht] at h
    have := List.all_eq_true.1 h u hu
    simp only [Bool.or_eq_true, decide_eq_true_iff] at this
    rcases this with e | e
    · exact absurd (over_done (ts := [u]) (by simpa using e) u (by simp)) hd
    · exact e
  | restart =>
    intro u hu
    simpa using List.all_eq_true.1 h u hu
  | _ => trivial

theorem allClose_all {cfg : Msa.Config} : ∀ {h : List Act} {n : Net}, allClose cfg n h = true → AllClose cfg n h
  | [], _, _ => trivial
  | _ :: _, _, e => by
    rw [allClose, Bool.and_eq_true] at e
    exact ⟨close_close e.1, allClose_all e.2⟩

/-- `exQuick` meets the hypothesis of `C142_blocks_partial`, also if an hour passes in the middle of it; `exSlow` does
not. -/
example : AllClose Msa.exCfg (.init true) exQuick ∧ AllClose Msa.exCfg (.init true) (ex2 15 ++ [.tick 3600000, .next,
      .start 5 4 [(102, 1), (101, 1), (100, 1)]] ++ List.replicate 10 (.step 2) ++ List.replicate 20 (.step 1)) ∧
    allClose Msa.exCfg (.init true) exSlow = false :=
  ⟨allClose_all (by decide +kernel), allClose_all (by decide +kernel), by decide +kernel⟩

/-- The block a run is about to note as the last processed, if it is. -/
def Pc.noting : Pc → Option Nat
  | .setLast b => some b
  | _ => none

/-- The hypotheses of `C142_during_partial` and `C142_ends_partial` are met on the way: the worker of block 4 is about to
note block 3 after 22 steps, and about to release its lock after 24. -/
example : ((Net.init true).run Msa.exCfg (ex2 22)).threads.map (fun t => t.pc.noting) = [none, some 3] ∧
    ((Net.init true).run Msa.exCfg (ex2 22)).sys.since ≤ 3 ∧
    ((Net.init true).run Msa.exCfg (ex2 24)).threads.map (fun t => (t.pc.inside2, t.pc.over)) =
      [(false, true), (true, false)] ∧
    ((Net.init true).run Msa.exCfg (ex2 25)).threads.map (fun t => (t.pc.inside2, t.pc.over)) =
      [(false, true), (false, true)] ∧
    allPrompt Msa.exCfg (.init true) (ex2 25) = true := by decide +kernel

end Verif.Offchain
