import Verif.Offchain.Threads
/-!
# Lemmas for overlapping runs
-/

namespace Verif.Offchain

open Msa (KeyEvent)

/-! ## Writes of the worker and of transactions do not disturb each other -/

theorem erase_insert {K V : Type} [DecidableEq K] (m : SMap K V) {k k' : K} (v : V) (h : k ≠ k') :
    (m.insert k v).erase k' = (m.erase k').insert k v := by
  simp only [SMap.insert, SMap.erase, SMap.mk.injEq, List.filter_cons, decide_eq_true_eq]
  rw [if_pos h]
  simp only [List.filter_filter, Bool.and_comm]

/-- Writes that do not concern the events of block `b`. -/
def Apart (b : Nat) : Write → Prop
  | .clearEvt b' _ => b' ≠ b
  | .clearCnt b' => b' ≠ b
  | _ => True

theorem indexEvent_write {db : Db} {b c : Nat} {e : KeyEvent} {w : Write} (h : Apart b w) :
    indexEvent (db.write w) b c e = ((indexEvent db b c e).1.write w, (indexEvent db b c e).2) := by
  cases w with
  | setKeys m ks => rfl
  | clearEvt b' i =>
    simp only [indexEvent, Db.write]
    rw [erase_insert _ _ (fun e => h (Prod.mk.inj e).1.symm)]
  | clearCnt b' =>
    simp only [indexEvent, Db.write]
    rw [erase_insert _ _ (fun e => h e.symm)]
  | setLast b' => rfl
  | setIndexed => rfl

theorem indexAll_write {b : Nat} {w : Write} (h : Apart b w) (es : List KeyEvent) : ∀ (db : Db) (c : Nat),
    indexAll b es (db.write w, c) = ((indexAll b es (db, c)).1.write w, (indexAll b es (db, c)).2) := by
  induction es with
  | nil => intro db c; rfl
  | cons e es ih =>
    intro db c
    simp only [indexAll]
    rw [indexEvent_write h]
    exact ih _ _

theorem indexAll_writes {b : Nat} (es : List KeyEvent) (ws : List Write) : ∀ (db : Db) (c : Nat),
    (∀ w ∈ ws, Apart b w) →
    indexAll b es (db.writes ws, c) = ((indexAll b es (db, c)).1.writes ws, (indexAll b es (db, c)).2) := by
  induction ws with
  | nil => intro db c _; rfl
  | cons w ws ih =>
    intro db c h
    have := ih (db.write w) c (fun x hx => h x (List.mem_cons_of_mem _ hx))
    simp only [Db.writes, List.foldl_cons] at *
    rw [this, indexAll_write (h w (List.mem_cons_self ..))]

theorem indexAll_evt {b : Nat} (es : List KeyEvent) : ∀ (x : Db × Nat) (b' i : Nat), b' ≠ b →
    (indexAll b es x).1.evt.get (b', i) = x.1.evt.get (b', i) ∧ (indexAll b es x).1.cnt.get b' = x.1.cnt.get b' := by
  induction es with
  | nil => intro x b' i _; exact ⟨rfl, rfl⟩
  | cons e es ih =>
    intro x b' i h
    simp only [indexAll]
    obtain ⟨h1, h2⟩ := ih (indexEvent x.1 b x.2 e) b' i h
    rw [h1, h2]
    simp only [indexEvent]
    exact ⟨SMap.get_insert_ne _ (fun e => h (Prod.mk.inj e).1.symm) _, SMap.get_insert_ne _ (fun e => h e.symm) _⟩

theorem indexAll_keeps_rest {b : Nat} (es : List KeyEvent) : ∀ (x : Db × Nat),
    (indexAll b es x).1.keys = x.1.keys ∧ (indexAll b es x).1.last = x.1.last ∧
    (indexAll b es x).1.indexed = x.1.indexed ∧ (indexAll b es x).1.clears = x.1.clears := by
  induction es with
  | nil => intro x; exact ⟨rfl, rfl, rfl, rfl⟩
  | cons e es ih =>
    intro x
    obtain ⟨h1, h2, h3, h4⟩ := ih (indexEvent x.1 b x.2 e)
    exact ⟨h1, h2, h3, h4⟩

theorem writes_append (d : Db) (a b : List Write) : d.writes (a ++ b) = (d.writes a).writes b := by
  simp [Db.writes]

theorem writes_one (d : Db) (a : List Write) (w : Write) : (d.writes a).write w = d.writes (a ++ [w]) := by
  simp [Db.writes]

theorem writes_clears (ws : List Write) : ∀ d : Db, (d.writes ws).clears = d.clears := by
  induction ws with
  | nil => intro d; rfl
  | cons w ws ih =>
    intro d
    show ((d.write w).writes ws).clears = _
    rw [ih]
    cases w <;> rfl

theorem writes_keep_indexed (ws : List Write) : ∀ d : Db, d.indexed = true → (d.writes ws).indexed = true := by
  induction ws with
  | nil => intro d h; exact h
  | cons w ws ih =>
    intro d h
    refine ih _ ?_
    cases w <;> simp [Db.write, h]

theorem writes_indexed_iff (ws : List Write) : ∀ d : Db, (∀ w ∈ ws, w ≠ .setIndexed) →
    (d.writes ws).indexed = d.indexed := by
  induction ws with
  | nil => intro d _; rfl
  | cons w ws ih =>
    intro d h
    show ((d.write w).writes ws).indexed = _
    rw [ih _ (fun x hx => h x (List.mem_cons_of_mem _ hx))]
    have := h w (List.mem_cons_self ..)
    cases w <;> first | rfl | exact absurd rfl this

/-! ## The accounts of a list of events -/

theorem insertAsc_sorted (m : Nat) (l : List Nat) (h : l.Pairwise (· < ·)) : (insertAsc m l).Pairwise (· < ·) := by
  induction l with
  | nil => simp [insertAsc]
  | cons a l ih =>
    unfold insertAsc
    rw [List.pairwise_cons] at h
    split
    · rename_i hm
      refine List.pairwise_cons.2 ⟨fun x hx => ?_, List.pairwise_cons.2 h⟩
      rcases List.mem_cons.1 hx with rfl | hx
      · exact hm
      · exact Nat.lt_trans hm (h.1 x hx)
    · split
      · exact List.pairwise_cons.2 h
      · rename_i h1 h2
        refine List.pairwise_cons.2 ⟨fun x hx => ?_, ih h.2⟩
        rcases (mem_insertAsc m x l).1 hx with rfl | hx
        · omega
        · exact h.1 x hx

theorem msas_nodup (es : List KeyEvent) : (msas es).Nodup := by
  have key : ∀ (es : List KeyEvent) (acc : List Nat), acc.Pairwise (· < ·) →
      (es.foldl (fun acc e => insertAsc (msaOf e) acc) acc).Pairwise (· < ·) := by
    intro es
    induction es with
    | nil => intro acc h; exact h
    | cons e es ih => intro acc h; exact ih _ (insertAsc_sorted _ _ h)
  exact (key es [] List.Pairwise.nil).imp (fun h => Nat.ne_of_lt h)

/-! ## What a run has done, by where it is -/

/-- The write for one account of a block with events `es`. -/
def keyWrite (d : Db) (es : List KeyEvent) (m : MsaId) : Write :=
  .setKeys m (processEvents (d.keysOf m) (es.filter (fun e => msaOf e == m)))

theorem keyWrites_eq (d : Db) (b : Nat) : keyWrites d b = (msas (readEvents d b)).map (keyWrite d (readEvents d b)) := rfl

/-- Writes of the initial indexing without the flag. -/
def indexWrites (d : Db) (t : Thread) : List Write :=
  .setLast (t.fin - 1) :: initialWrites t.accounts (d.write (.setLast (t.fin - 1)))

/-- Writes that clear the first `j` events. -/
def clearing (d : Db) (b j : Nat) : List Write :=
  if d.clears then (List.range' 1 j).map (fun i => .clearEvt b i) else []

/-- The block being handled is the one after the last processed. -/
def Working (d : Db) (t : Thread) (b : Nat) : Prop :=
  d.indexed = true ∧ b ≤ t.fin ∧ ∃ lp, d.last = some lp ∧ b = lp + 1

/-- What a run has written so far (`done`) since the database was `d`, the last state between two blocks. -/
def Good (d : Db) (done : List Write) (t : Thread) : Pc → Prop
  | .start | .flag | .done => True
  | .initLast => d.indexed = false ∧ done = []
  | .initGet rest _ | .initExtend rest _ => d.indexed = false ∧ indexWrites d t = done ++ initialWrites rest (d.writes done)
  | .initSet m ks rest _ => d.indexed = false ∧
    indexWrites d t = done ++ .setKeys m ks :: initialWrites rest ((d.writes done).write (.setKeys m ks))
  | .initDone => d.indexed = false ∧ indexWrites d t = done
  | .unlock1 | .apply => d.indexed = true
  | .readLast => d.indexed = true ∧ done = []
  | .unlock2 => d.indexed = true ∧ done = [] ∧ ∃ lp, d.last = some lp ∧ t.fin ≤ lp
  | .loop b => d.indexed = true ∧ done = [] ∧ ∃ lp, d.last = some lp ∧ b = lp + 1
  | .count b => Working d t b ∧ done = []
  | .event b i c read => Working d t b ∧ done = [] ∧ c = (d.cnt.get b).getD 0 ∧ 1 ≤ i ∧ i ≤ c + 1 ∧
    read = (List.range' 1 (i - 1)).filterMap (fun i => d.evt.get (b, i))
  | .keysGet b todo es => Working d t b ∧ es = readEvents d b ∧
    ∃ before, msas es = before ++ todo ∧ done = before.map (keyWrite d es)
  | .keysSet b m ks todo es => Working d t b ∧ es = readEvents d b ∧
    (∃ before, msas es = before ++ m :: todo ∧ done = before.map (keyWrite d es)) ∧ .setKeys m ks = keyWrite d es m
  | .cleanCount b => Working d t b ∧ readEvents d b ≠ [] ∧ done = keyWrites d b
  | .cleanEvt b i c => Working d t b ∧ readEvents d b ≠ [] ∧ c = (d.cnt.get b).getD 0 ∧ 1 ≤ i ∧ i ≤ c + 1 ∧
    done = keyWrites d b ++ clearing d b (i - 1)
  | .cleanCnt b => Working d t b ∧ readEvents d b ≠ [] ∧ done = keyWrites d b ++ clearing d b ((d.cnt.get b).getD 0)
  | .extend b | .setLast b => Working d t b ∧ done = reverseMapWrites d b

/-- Is a run where others must not be? -/
def Pc.busy (p : Pc) : Bool := p.indexing || p.inside2

theorem good_indexing {d : Db} {done : List Write} {t : Thread} {p : Pc} (h : Good d done t p) (hp : p.indexing = true) :
    d.indexed = false := by
  cases p <;> simp only [Pc.indexing, Bool.false_eq_true] at hp <;> exact h.1

theorem good_inside2 {d : Db} {done : List Write} {t : Thread} {p : Pc} (h : Good d done t p) (hp : p.inside2 = true) :
    d.indexed = true := by
  cases p <;> simp only [Pc.inside2, Bool.false_eq_true] at hp <;> first | exact h.1 | exact h.1.1

theorem indexing_inside1 {p : Pc} (h : p.indexing = true) : p.inside1 = true := by
  cases p <;> simp only [Pc.indexing, Bool.false_eq_true] at h <;> rfl

theorem good_idle {d d' : Db} {done done' : List Write} {t : Thread} {p : Pc} (h : Good d done t p) (hb : p.busy = false)
    (hd : d.indexed = true → d'.indexed = true) : Good d' done' t p := by
  cases p <;> simp only [Pc.busy, Pc.indexing, Pc.inside2, Bool.or_false, Bool.false_or, Bool.or_true, Bool.true_or,
    Bool.true_eq_false] at hb <;> first | exact trivial | exact hd h

theorem readEvents_ne_clean {d : Db} {b : Nat} (h : readEvents d b ≠ []) :
    reverseMapWrites d b = keyWrites d b ++ cleanWrites d b := by
  unfold reverseMapWrites
  rw [if_neg h]

theorem cleanWrites_eq (d : Db) (b : Nat) : cleanWrites d b =
    clearing d b ((d.cnt.get b).getD 0) ++ if d.clears then [.clearCnt b] else [] := by
  unfold cleanWrites clearing
  split <;> simp

theorem take_range' (j c : Nat) (h : j ≤ c) : List.range' 1 j <+: List.range' 1 c := by
  refine ⟨List.range' (1 + j) (c - j), ?_⟩
  have := List.range'_append_1 (s := 1) (m := j) (n := c - j)
  rw [this]
  congr 1
  omega

theorem clearing_prefix (d : Db) (b j : Nat) (h : j ≤ (d.cnt.get b).getD 0) : clearing d b j <+: cleanWrites d b := by
  rw [cleanWrites_eq]
  refine List.IsPrefix.trans ?_ (List.prefix_append _ _)
  unfold clearing
  split
  · exact (take_range' j _ h).map _
  · exact List.prefix_refl _

/-- What was written is the beginning of what is written for the block. -/
theorem good_prefix {d : Db} {done : List Write} {t : Thread} {p : Pc} (h : Good d done t p) (hp : p.inside2 = true) :
    done = [] ∨ ∃ b, Working d t b ∧ done <+: reverseMapWrites d b := by
  have key : ∀ b, readEvents d b ≠ [] → keyWrites d b ++ cleanWrites d b = reverseMapWrites d b :=
    fun b hb => (readEvents_ne_clean hb).symm
  cases p <;> simp only [Pc.inside2, Bool.false_eq_true] at hp
  case readLast => exact .inl h.2
  case unlock2 => exact .inl h.2.1
  case loop b => exact .inl h.2.1
  case count b => exact .inl h.2
  case event b i c read => exact .inl h.2.1
  case keysGet b todo es =>
    obtain ⟨hw, rfl, before, h1, rfl⟩ := h
    refine .inr ⟨b, hw, List.IsPrefix.trans ?_ (List.prefix_append _ _)⟩
    rw [keyWrites_eq, h1, List.map_append]
    exact List.prefix_append _ _
  case keysSet b m ks todo es =>
    obtain ⟨hw, rfl, ⟨before, h1, rfl⟩, -⟩ := h
    refine .inr ⟨b, hw, List.IsPrefix.trans ?_ (List.prefix_append _ _)⟩
    rw [keyWrites_eq, h1, List.map_append]
    exact List.prefix_append _ _
  case cleanCount b =>
    obtain ⟨hw, -, rfl⟩ := h
    exact .inr ⟨b, hw, List.prefix_append _ _⟩
  case cleanEvt b i c =>
    obtain ⟨hw, hne, rfl, h1, h2, rfl⟩ := h
    refine .inr ⟨b, hw, ?_⟩
    rw [← key b hne]
    exact List.prefix_append_right_inj _ |>.2 (clearing_prefix d b _ (by omega))
  case cleanCnt b =>
    obtain ⟨hw, hne, rfl⟩ := h
    refine .inr ⟨b, hw, ?_⟩
    rw [← key b hne]
    exact List.prefix_append_right_inj _ |>.2 (clearing_prefix d b _ (Nat.le_refl _))
  case extend b =>
    obtain ⟨hw, rfl⟩ := h
    exact .inr ⟨b, hw, List.prefix_refl _⟩
  case setLast b =>
    obtain ⟨hw, rfl⟩ := h
    exact .inr ⟨b, hw, List.prefix_refl _⟩

theorem initialWrites_kind (accounts : List (AccountId × MsaId)) : ∀ db : Db, ∀ w ∈ initialWrites accounts db,
    ∃ m ks, w = .setKeys m ks := by
  induction accounts with
  | nil => intro db w h; simp [initialWrites] at h
  | cons x rest ih =>
    obtain ⟨k, m⟩ := x
    intro db w h
    simp only [initialWrites, List.mem_cons] at h
    rcases h with rfl | h
    · exact ⟨_, _, rfl⟩
    · exact ih _ _ h

theorem reverseMap_kind {d : Db} {b : Nat} {w : Write} (h : w ∈ reverseMapWrites d b) :
    (∃ m ks, w = .setKeys m ks) ∨ (∃ i, w = .clearEvt b i) ∨ w = .clearCnt b := by
  unfold reverseMapWrites keyWrites at h
  rw [List.mem_append, List.mem_map] at h
  rcases h with ⟨m, -, rfl⟩ | h
  · exact .inl ⟨_, _, rfl⟩
  · split at h
    · simp at h
    · unfold cleanWrites at h
      split at h
      · rw [List.mem_append, List.mem_map, List.mem_singleton] at h
        rcases h with ⟨i, -, rfl⟩ | rfl
        · exact .inr (.inl ⟨_, rfl⟩)
        · exact .inr (.inr rfl)
      · simp at h

/-- Kinds of the writes of a run in the middle of something. -/
theorem good_kind {d : Db} {done : List Write} {t : Thread} {p : Pc} (h : Good d done t p) (hb : p.busy = true)
    {w : Write} (hw : w ∈ done) :
    w ≠ .setIndexed ∧ ∀ b, t.fin < b → Apart b w := by
  cases h2 : p.inside2
  · have h1 : p.indexing = true := by simpa [Pc.busy, h2] using hb
    have hsub : ∀ w ∈ done, w ∈ indexWrites d t := by
      intro w hw
      cases p <;> simp only [Pc.indexing, Bool.false_eq_true] at h1
      case initLast => rw [h.2] at hw; simp at hw
      case initGet => rw [h.2]; exact List.mem_append_left _ hw
      case initExtend => rw [h.2]; exact List.mem_append_left _ hw
      case initSet => rw [h.2]; exact List.mem_append_left _ hw
      case initDone => rw [h.2]; exact hw
    have := hsub w hw
    unfold indexWrites at this
    rcases List.mem_cons.1 this with rfl | h3
    · exact ⟨by simp, fun b _ => trivial⟩
    · obtain ⟨m, ks, rfl⟩ := initialWrites_kind _ _ _ h3
      exact ⟨by simp, fun b _ => trivial⟩
  · rcases good_prefix h h2 with rfl | ⟨b, hwk, hpre⟩
    · simp at hw
    · rcases reverseMap_kind (hpre.subset hw) with ⟨m, ks, rfl⟩ | ⟨i, rfl⟩ | rfl
      · exact ⟨by simp, fun b _ => trivial⟩
      · refine ⟨by simp, fun b' hb' => ?_⟩
        have := hwk.2.1
        show b ≠ b'
        omega
      · refine ⟨by simp, fun b' hb' => ?_⟩
        have := hwk.2.1
        show b ≠ b'
        omega

/-- Transactions of a later block do not matter for where a run is. -/
theorem good_index {d : Db} {done : List Write} {t : Thread} {p : Pc} (h : Good d done t p) {b c : Nat}
    (hb : t.fin < b) (es : List KeyEvent) : Good (indexAll b es (d, c)).1 done t p := by
  obtain ⟨r1, r2, r3, r4⟩ := indexAll_keeps_rest (b := b) es (d, c)
  have hk : ∀ m, (indexAll b es (d, c)).1.keysOf m = d.keysOf m := by intro m; unfold Db.keysOf; rw [r1]
  have hre : ∀ b', b' ≤ t.fin → readEvents (indexAll b es (d, c)).1 b' = readEvents d b' := by
    intro b' hb'
    unfold readEvents
    rw [(indexAll_evt es (d, c) b' 0 (by omega)).2]
    refine List.filterMap_congr (fun i _ => ?_)
    exact (indexAll_evt es (d, c) b' i (by omega)).1
  have hkw : ∀ b', b' ≤ t.fin → keyWrites (indexAll b es (d, c)).1 b' = keyWrites d b' := by
    intro b' hb'
    unfold keyWrites
    rw [hre b' hb']
    simp only [hk]
  have hcnt : ∀ b', b' ≤ t.fin → (indexAll b es (d, c)).1.cnt.get b' = d.cnt.get b' :=
    fun b' hb' => (indexAll_evt es (d, c) b' 0 (by omega)).2
  have hrm : ∀ b', b' ≤ t.fin → reverseMapWrites (indexAll b es (d, c)).1 b' = reverseMapWrites d b' := by
    intro b' hb'
    unfold reverseMapWrites cleanWrites
    rw [hkw b' hb', hre b' hb', r4, hcnt b' hb']
  have hcl : ∀ b' j, clearing (indexAll b es (d, c)).1 b' j = clearing d b' j := by
    intro b' j
    unfold clearing
    rw [r4]
  have hW : ∀ b', Working d t b' → Working (indexAll b es (d, c)).1 t b' := by
    rintro b' ⟨h1, h2, h3⟩
    exact ⟨r3.trans h1, h2, by rw [r2]; exact h3⟩
  have hkey : ∀ es' m, keyWrite (indexAll b es (d, c)).1 es' m = keyWrite d es' m := by
    intro es' m
    unfold keyWrite
    rw [hk]
  have hiw : ∀ (acc : List (AccountId × MsaId)) (d1 d2 : Db), (∀ m, d1.keysOf m = d2.keysOf m) →
      initialWrites acc d1 = initialWrites acc d2 := by
    intro acc
    induction acc with
    | nil => intro d1 d2 _; rfl
    | cons x rest ih =>
      obtain ⟨k, m⟩ := x
      intro d1 d2 e
      simp only [initialWrites, e m]
      congr 1
      refine ih _ _ (fun m' => ?_)
      simp only [Db.write, Db.keysOf, SMap.get_insert]
      split
      · rfl
      · exact e m'
  have hws : ∀ (ws : List Write) (d1 d2 : Db), (∀ m, d1.keysOf m = d2.keysOf m) →
      ∀ m, (d1.writes ws).keysOf m = (d2.writes ws).keysOf m := by
    intro ws
    induction ws with
    | nil => intro d1 d2 e; exact e
    | cons w ws ih =>
      intro d1 d2 e
      refine ih _ _ (fun m' => ?_)
      cases w with
      | setKeys m ks =>
        simp only [Db.write, Db.keysOf, SMap.get_insert]
        split
        · rfl
        · exact e m'
      | _ => exact e m'
  have hidx : indexWrites (indexAll b es (d, c)).1 t = indexWrites d t := by
    unfold indexWrites
    congr 1
    exact hiw _ _ _ (fun m => hk m)
  cases p
  case start => trivial
  case flag => trivial
  case done => trivial
  case initLast => exact ⟨r3.trans h.1, h.2⟩
  case initGet => exact ⟨r3.trans h.1, by rw [hidx, h.2]; congr 1; exact hiw _ _ _ (fun m => (hws done _ _ hk m).symm)⟩
  case initExtend => exact ⟨r3.trans h.1, by rw [hidx, h.2]; congr 1; exact hiw _ _ _ (fun m => (hws done _ _ hk m).symm)⟩
  case initSet m ks rest cc =>
    refine ⟨r3.trans h.1, ?_⟩
    rw [hidx, h.2, writes_one, writes_one]
    congr 2
    exact hiw _ _ _ (fun m => (hws _ _ _ hk m).symm)
  case initDone => exact ⟨r3.trans h.1, by rw [hidx]; exact h.2⟩
  case unlock1 => exact r3.trans h
  case apply => exact r3.trans h
  case readLast => exact ⟨r3.trans h.1, h.2⟩
  case unlock2 => exact ⟨r3.trans h.1, h.2.1, by rw [r2]; exact h.2.2⟩
  case loop b' => exact ⟨r3.trans h.1, h.2.1, by rw [r2]; exact h.2.2⟩
  case count b' => exact ⟨hW _ h.1, h.2⟩
  case event b' i c' read =>
    obtain ⟨h1, h2, h3, h4, h5, h6⟩ := h
    have hb' := h1.2.1
    refine ⟨hW _ h1, h2, by rw [hcnt b' hb']; exact h3, h4, h5, ?_⟩
    rw [h6]
    refine List.filterMap_congr (fun i _ => ?_)
    exact (indexAll_evt es (d, c) b' i (by omega)).1.symm
  case keysGet b' todo es' =>
    obtain ⟨h1, h2, before, h3, h4⟩ := h
    refine ⟨hW _ h1, by rw [hre _ h1.2.1]; exact h2, before, h3, ?_⟩
    rw [h4]
    exact List.map_congr_left (fun m _ => (hkey _ _).symm)
  case keysSet b' m ks todo es' =>
    obtain ⟨h1, h2, ⟨before, h3, h4⟩, h5⟩ := h
    refine ⟨hW _ h1, by rw [hre _ h1.2.1]; exact h2, ⟨before, h3, ?_⟩, by rw [hkey]; exact h5⟩
    rw [h4]
    exact List.map_congr_left (fun m _ => (hkey _ _).symm)
  case cleanCount b' =>
    obtain ⟨h1, h2, h3⟩ := h
    exact ⟨hW _ h1, by rw [hre _ h1.2.1]; exact h2, by rw [hkw _ h1.2.1]; exact h3⟩
  case cleanEvt b' i c' =>
    obtain ⟨h1, h2, h3, h4, h5, h6⟩ := h
    exact ⟨hW _ h1, by rw [hre _ h1.2.1]; exact h2, by rw [hcnt _ h1.2.1]; exact h3, h4, h5,
      by rw [hkw _ h1.2.1, hcl]; exact h6⟩
  case cleanCnt b' =>
    obtain ⟨h1, h2, h3⟩ := h
    exact ⟨hW _ h1, by rw [hre _ h1.2.1]; exact h2, by rw [hkw _ h1.2.1, hcl, hcnt _ h1.2.1]; exact h3⟩
  case extend b' => exact ⟨hW _ h.1, by rw [hrm _ h.1.2.1]; exact h.2⟩
  case setLast b' => exact ⟨hW _ h.1, by rw [hrm _ h.1.2.1]; exact h.2⟩

end Verif.Offchain
