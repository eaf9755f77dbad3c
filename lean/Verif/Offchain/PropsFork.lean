import Verif.Offchain.ForkLemmas
/-!
# C140: the off-chain key index and forks
-/

namespace Verif.Offchain

open Msa (KeyEvent)

/-! ## Specification -/

/-- Among the blocks with number `h` and with key events, the one that the node imported last. -/
def lastWith (cfg : Msa.Config) (imported : List Block) (h : Nat) : Option Block :=
  imported.find? (fun b => b.length == h && !(eventsOf cfg b).isEmpty)

/-- The node was not misled by forks on the way to block `f`: for every number, the block with key events that it
imported last is `f` or an ancestor of `f`, and the block whose keys were read for the initial index has no key events that
`f` does not have. -/
def Unmisled (cfg : Msa.Config) (n : Node) (f : Block) : Prop :=
  (∀ h, h ≤ f.length → ∀ b, lastWith cfg n.imported h = some b → b <:+ f) ∧
  (∀ b, b <:+ n.read → eventsOf cfg b ≠ [] → b <:+ f)

/-! ## Invariant -/

/-- What is true of every node. -/
structure NodeInv (cfg : Msa.Config) (n : Node) : Prop where
  root : [] ∈ n.imported
  closed : ∀ body p, body :: p ∈ n.imported → p ∈ n.imported
  fin_mem : n.fin ∈ n.imported
  read_mem : n.read ∈ n.imported
  quiet : ∀ h, lastWith cfg n.imported h = none → n.db.cnt.get h = none
  fresh : n.db.indexed = false → n.read = [] ∧ ∀ f ∈ n.imported, Unmisled cfg n f → ∀ h, 0 < h → h ≤ f.length →
    readEvents n.db h = eventsOf cfg (ancestor f h)
  synced : n.db.indexed = true → ∃ lp, n.db.last = some lp ∧ lp ≤ n.fin.length ∧
    (n.clean = false → lp < n.fin.length) ∧
    ∀ f ∈ n.imported, n.fin <:+ f → Unmisled cfg n f → (lp < f.length ∨ n.clean = true) → ∀ m k,
      target n.db lp (f.length - lp) m k = owns cfg f m k

theorem mem_suffix {cfg : Msa.Config} {n : Node} (hi : NodeInv cfg n) : ∀ {f c : Block}, f ∈ n.imported → c <:+ f →
    c ∈ n.imported := by
  intro f
  induction f with
  | nil => intro c _ h; rw [List.suffix_nil.1 h]; exact hi.root
  | cons body p ih =>
    intro c hf h
    rcases suffix_cons h with rfl | h
    · exact hf
    · exact ih (hi.closed body p hf) h

theorem lastWith_some {cfg : Msa.Config} {bs : List Block} {h : Nat} {b : Block} (e : lastWith cfg bs h = some b) :
    b ∈ bs ∧ b.length = h ∧ eventsOf cfg b ≠ [] := by
  have hp := List.find?_some e
  simp only [Bool.and_eq_true, beq_iff_eq, Bool.not_eq_true', List.isEmpty_eq_false_iff] at hp
  exact ⟨List.mem_of_find?_eq_some e, hp.1, hp.2⟩

theorem lastWith_cons (cfg : Msa.Config) (bs : List Block) (b : Block) (h : Nat) :
    lastWith cfg (b :: bs) h = if b.length = h ∧ eventsOf cfg b ≠ [] then some b else lastWith cfg bs h := by
  unfold lastWith
  rw [List.find?_cons]
  by_cases hc : b.length = h ∧ eventsOf cfg b ≠ []
  · rw [if_pos hc]
    have : (b.length == h && !(eventsOf cfg b).isEmpty) = true := by
      simp only [Bool.and_eq_true, beq_iff_eq, Bool.not_eq_true', List.isEmpty_eq_false_iff]; exact hc
    rw [this]
  · rw [if_neg hc]
    have : (b.length == h && !(eventsOf cfg b).isEmpty) = false := by
      rw [Bool.eq_false_iff]
      intro hx
      simp only [Bool.and_eq_true, beq_iff_eq, Bool.not_eq_true', List.isEmpty_eq_false_iff] at hx
      exact hc hx
    rw [this]

/-- A block on the way to `f` that the node has. -/
theorem lastWith_of_mem {cfg : Msa.Config} {bs : List Block} {b : Block} (hb : b ∈ bs) (he : eventsOf cfg b ≠ []) :
    ∃ b', lastWith cfg bs b.length = some b' := by
  cases h : lastWith cfg bs b.length with
  | some b' => exact ⟨b', rfl⟩
  | none =>
    unfold lastWith at h
    rw [List.find?_eq_none] at h
    have := h b hb
    simp only [beq_self_eq_true, Bool.true_and, Bool.not_eq_true', Bool.not_eq_false,
      List.isEmpty_iff] at this
    exact absurd this he

theorem ninv_init (cfg : Msa.Config) (clears : Bool) : NodeInv cfg (Node.init clears) := by
  refine ⟨List.mem_singleton.2 rfl, ?_, List.mem_singleton.2 rfl, List.mem_singleton.2 rfl, fun _ _ => rfl, ?_, ?_⟩
  · intro body p h; exact absurd (List.mem_singleton.1 h) (by simp)
  · intro _
    refine ⟨rfl, fun f hf _ h h0 hl => ?_⟩
    rw [List.mem_singleton.1 hf] at hl
    simp only [List.length_nil] at hl
    omega
  · intro h; simp [Node.init, Db.init] at h

theorem unmisled_old {cfg : Msa.Config} {n : Node} (hi : NodeInv cfg n) {b f : Block} (hnew : b ∉ n.imported)
    (hf : f ∈ n.imported) (h : Unmisled cfg (n.importBlock cfg b) f) :
    Unmisled cfg n f ∧ ¬ (b.length ≤ f.length ∧ eventsOf cfg b ≠ []) := by
  have hno : ¬ (b.length ≤ f.length ∧ eventsOf cfg b ≠ []) := by
    rintro ⟨hl, he⟩
    have := h.1 b.length hl b (by
      show lastWith cfg (b :: n.imported) b.length = some b
      rw [lastWith_cons, if_pos ⟨rfl, he⟩])
    exact hnew (mem_suffix hi hf this)
  refine ⟨⟨fun i hl b' hb' => h.1 i hl b' ?_, h.2⟩, hno⟩
  show lastWith cfg (b :: n.imported) i = some b'
  rw [lastWith_cons, if_neg]
  · exact hb'
  · rintro ⟨rfl, he⟩; exact hno ⟨hl, he⟩

theorem unmisled_parent {cfg : Msa.Config} {n : Node} {body : List Msa.Step} {p : Block} (hi : NodeInv cfg n)
    (hnew : body :: p ∉ n.imported) (h : Unmisled cfg (n.importBlock cfg (body :: p)) (body :: p)) :
    Unmisled cfg n p ∧
      (eventsOf cfg (body :: p) = [] → lastWith cfg n.imported (body :: p).length = none) := by
  have hlow : ∀ i, i ≤ p.length → lastWith cfg ((body :: p) :: n.imported) i = lastWith cfg n.imported i := by
    intro i hl
    rw [lastWith_cons, if_neg]
    rintro ⟨h1, _⟩
    simp only [List.length_cons] at h1
    omega
  refine ⟨⟨fun i hl b' hb' => ?_, fun b' hb' he => ?_⟩, fun he => ?_⟩
  · have := h.1 i (by simp only [List.length_cons]; omega) b' ((hlow i hl).trans hb')
    rcases suffix_cons this with e | h'
    · have := (lastWith_some hb').2.1
      rw [e] at this
      simp only [List.length_cons] at this
      omega
    · exact h'
  · rcases suffix_cons (h.2 b' hb' he) with e | h'
    · rw [e] at hb'
      exact absurd (mem_suffix hi hi.read_mem hb') hnew
    · exact h'
  · cases hx : lastWith cfg n.imported (body :: p).length with
    | none => rfl
    | some b' =>
      have h1 := h.1 _ (le_refl _) b' (by
        show lastWith cfg ((body :: p) :: n.imported) _ = _
        rw [lastWith_cons, if_neg (fun hc => hc.2 he)]
        exact hx)
      obtain ⟨_, h2, h3⟩ := lastWith_some hx
      have := suffix_same h1 (List.suffix_refl _) h2
      rw [this] at h3
      exact absurd he h3

theorem ninv_import {cfg : Msa.Config} {n : Node} (hi : NodeInv cfg n) {p : Block} {body : List Msa.Step}
    (hp : p ∈ n.imported) (hnew : body :: p ∉ n.imported) (he : (eventsOf cfg (body :: p)).length ≤ 65535) :
    NodeInv cfg (n.importBlock cfg (body :: p)) := by
  obtain ⟨r1, r2, r3, r4, r5, _⟩ := indexAll_rest (body :: p).length (eventsOf cfg (body :: p)) n.db 0
  have hread : ∀ i, (i ≠ (body :: p).length ∨ eventsOf cfg (body :: p) = []) →
      readEvents (n.importBlock cfg (body :: p)).db i = readEvents n.db i := by
    rintro i (h | h)
    · exact r1 i h
    · show readEvents (indexAll _ (eventsOf cfg (body :: p)) _).1 i = _
      rw [h]; rfl
  have hown : Unmisled cfg (n.importBlock cfg (body :: p)) (body :: p) →
      readEvents (n.importBlock cfg (body :: p)).db (body :: p).length = eventsOf cfg (body :: p) := by
    intro hu
    by_cases hemp : eventsOf cfg (body :: p) = []
    · rw [hread _ (Or.inr hemp), hemp]
      exact cnt_none_readEvents (hi.quiet _ ((unmisled_parent hi hnew hu).2 hemp))
    · exact indexAll_fresh _ _ _ he hemp
  refine ⟨List.mem_cons_of_mem _ hi.root, ?_, List.mem_cons_of_mem _ hi.fin_mem, List.mem_cons_of_mem _ hi.read_mem,
    ?_, ?_, ?_⟩
  · intro body' p' h
    rcases List.mem_cons.1 h with e | h
    · cases e; exact List.mem_cons_of_mem _ hp
    · exact List.mem_cons_of_mem _ (hi.closed _ _ h)
  · intro i h
    have h : lastWith cfg ((body :: p) :: n.imported) i = none := h
    rw [lastWith_cons] at h
    split at h
    · cases h
    · rename_i hc
      have hold := hi.quiet i h
      by_cases hl : (body :: p).length = i
      · have hemp : eventsOf cfg (body :: p) = [] := by
          by_contra hne; exact hc ⟨hl, hne⟩
        show (indexAll _ (eventsOf cfg (body :: p)) _).1.cnt.get i = none
        rw [hemp]; exact hold
      · exact (r2 i (fun e => hl e.symm)).trans hold
  · intro hx
    have hx' : n.db.indexed = false := r5.symm.trans hx
    obtain ⟨hr, hst⟩ := hi.fresh hx'
    refine ⟨hr, fun f hf hu i h0 hl => ?_⟩
    rcases List.mem_cons.1 hf with rfl | hf
    · by_cases hil : i = (body :: p).length
      · subst hil
        rw [hown hu]
        simp [ancestor]
      · have hil' : i ≤ p.length := by simp only [List.length_cons] at hl hil; omega
        rw [hread i (Or.inl hil), hst p hp (unmisled_parent hi hnew hu).1 i h0 hil']
        simp only [ancestor, List.length_cons]
        rw [show p.length + 1 - i = (p.length - i) + 1 by omega, List.drop_succ_cons]
    · obtain ⟨hu', hno⟩ := unmisled_old hi hnew hf hu
      rw [hread i ?_]
      · exact hst f hf hu' i h0 hl
      · by_cases hil : i = (body :: p).length
        · right
          by_contra hne
          exact hno ⟨by omega, hne⟩
        · exact Or.inl hil
  · intro hx
    have hx' : n.db.indexed = true := r5.symm.trans hx
    obtain ⟨lp, hl, hle, hcl, ht⟩ := hi.synced hx'
    refine ⟨lp, r4.trans hl, hle, hcl, fun f hf hfin hu hor m k => ?_⟩
    have hin : inIndex (n.importBlock cfg (body :: p)).db m k = inIndex n.db m k := by
      unfold inIndex Db.keysOf
      show decide (k ∈ ((indexAll _ (eventsOf cfg (body :: p)) _).1.keys.get m).getD []) = _
      rw [r3]
    rcases List.mem_cons.1 hf with rfl | hf
    · have hfp : n.fin <:+ p := by
        rcases suffix_cons hfin with e | h
        · exact absurd (show body :: p ∈ n.imported from e ▸ hi.fin_mem) hnew
        · exact h
      have hfl := hfp.length_le
      have hor' : lp < p.length ∨ n.clean = true := by
        by_cases hc : n.clean = true
        · exact Or.inr hc
        · exact Or.inl (by have := hcl (by simpa using hc); omega)
      have hold := ht p hp hfp (unmisled_parent hi hnew hu).1 hor' m k
      unfold target at hold ⊢
      rw [hin, owns_cons, ← hold]
      rw [show (body :: p).length - lp = (p.length - lp) + 1 by simp only [List.length_cons]; omega, storedFrom_snoc,
        show lp + 1 + (p.length - lp) = (body :: p).length by simp only [List.length_cons]; omega, hown hu,
        lastVerdict_append]
      rw [storedFrom_congr (fun i _ h2 => hread i (Or.inl (by simp only [List.length_cons]; omega)))]
      cases lastVerdict m k (eventsOf cfg (body :: p)) <;> rfl
    · obtain ⟨hu', hno⟩ := unmisled_old hi hnew hf hu
      have hfl := hfin.length_le
      have := ht f hf hfin hu' hor m k
      unfold target at this ⊢
      rw [hin]
      rw [storedFrom_congr (fun i h1 h2 => hread i ?_)]
      · exact this
      · by_cases hil : i = (body :: p).length
        · right
          by_contra hne
          exact hno ⟨by omega, hne⟩
        · exact Or.inl hil

theorem ninv_finalize {cfg : Msa.Config} {n : Node} (hi : NodeInv cfg n) {b : Block} (hb : b ∈ n.imported)
    (hf : n.fin <:+ b) : NodeInv cfg { n with fin := b } := by
  have hle := hf.length_le
  refine ⟨hi.root, hi.closed, hb, hi.read_mem, hi.quiet, hi.fresh, fun hx => ?_⟩
  obtain ⟨lp, hl, h1, h2, ht⟩ := hi.synced hx
  refine ⟨lp, hl, by show lp ≤ b.length; omega, fun hc => ?_, fun f hm hs hu hor m k => ?_⟩
  · have := h2 hc; show lp < b.length; omega
  · exact ht f hm (hf.trans hs) hu hor m k

theorem owns_read {cfg : Msa.Config} {fin f : Block} (hf : fin <:+ f) (m : MsaId) (k : AccountId) : ∀ {b : Block},
    fin <:+ b → (∀ c, c <:+ b → eventsOf cfg c ≠ [] → c <:+ f) →
    (lastVerdict m k (evsFrom cfg (fin.length - 1) f)).getD (owns cfg b m k) = owns cfg f m k := by
  intro b
  induction b with
  | nil =>
    intro h _
    rw [List.suffix_nil.1 h] at hf ⊢
    exact owns_again cfg m k hf (by simp)
  | cons body p ih =>
    intro h hc
    rcases suffix_cons h with e | h'
    · rw [← e]
      exact owns_again cfg m k hf (by omega)
    · by_cases he : eventsOf cfg (body :: p) = []
      · rw [owns_cons, he]
        exact ih h' (fun c hs => hc c (hs.trans (List.suffix_cons _ _)))
      · have := h.length_le
        exact owns_again cfg m k (hc _ (List.suffix_refl _) he) (by omega)

theorem ninv_initial {cfg : Msa.Config} {n : Node} (hi : NodeInv cfg n) {b : Block}
    {accounts : List (AccountId × MsaId)} {f : Nat} (hb : b ∈ n.imported) (hf : finalizedNumber b n.fin = some f)
    (ha : Lists cfg b accounts) (hidx : n.db.indexed = false) (hk : n.db.keys = ∅) :
    NodeInv cfg { n with db := initialIndex accounts f none n.db, read := b, clean := true } := by
  obtain ⟨hfb, hfl, hf1, hflt⟩ := finalizedNumber_some hf
  obtain ⟨h1, h2, h3, h4⟩ := initialWrites_spec accounts (n.db.write (.setLast (f - 1)))
  let d := initialIndex accounts f none n.db
  have hd : d = ((n.db.write (.setLast (f - 1))).writes
      (initialWrites accounts (n.db.write (.setLast (f - 1))))).write .setIndexed := by
    simp [d, initialIndex, hidx]
  have hevt : d.evt = n.db.evt := by rw [hd]; exact h1
  have hcnt : d.cnt = n.db.cnt := by rw [hd]; exact h2
  have hlast : d.last = some (f - 1) := by rw [hd]; exact h3
  have hin : ∀ m k, inIndex d m k = owns cfg b m k := by
    intro m k
    have : inIndex d m k = inIndex ((n.db.write (.setLast (f - 1))).writes
      (initialWrites accounts (n.db.write (.setLast (f - 1))))) m k := by rw [hd]; rfl
    rw [this, h4]
    have : inIndex (n.db.write (.setLast (f - 1))) m k = false := by
      simp [inIndex, Db.keysOf, Db.write, hk]
    rw [this]
    simp only [Bool.false_or, owns, has, decide_eq_decide]
    exact ha k m
  obtain ⟨hr, hst⟩ := hi.fresh hidx
  refine ⟨hi.root, hi.closed, hi.fin_mem, hb, ?_, ?_, ?_⟩
  · intro h hq
    show d.cnt.get h = none
    rw [hcnt]; exact hi.quiet h hq
  · intro hx
    have hx : d.indexed = false := hx
    rw [hd] at hx
    simp [Db.write] at hx
  · intro _
    refine ⟨f - 1, hlast, by show f - 1 ≤ n.fin.length; omega, fun h => (by cases h), fun g hg hfin hu _ m k => ?_⟩
    have hfin : n.fin <:+ g := hfin
    have hu' : Unmisled cfg n g := by
      refine ⟨hu.1, fun c hc he => ?_⟩
      rw [hr] at hc
      rw [List.suffix_nil.1 hc]
      exact List.nil_suffix
    show target d (f - 1) (g.length - (f - 1)) m k = owns cfg g m k
    unfold target
    rw [hin, storedFrom_eq cfg d (f - 1) g, hfl]
    · exact owns_read hfin m k hfb hu.2
    · intro h hlo hle
      rw [readEvents_congr hevt hcnt]
      exact hst g hg hu' h (by omega) hle

theorem ninv_work {cfg : Msa.Config} {n : Node} (hi : NodeInv cfg n) {b : Block} {f lp j : Nat}
    (hf : finalizedNumber b n.fin = some f) (hidx : n.db.indexed = true) (hl : n.db.last = some lp)
    (hn : lp + 1 ≤ f) :
    NodeInv cfg { n with
      db := n.db.writes ((blockWrites n.db (lp + 1)).take j)
      clean := decide ((n.db.writes ((blockWrites n.db (lp + 1)).take j)).last = some (lp + 1)) } := by
  obtain ⟨_, hfl, _, _⟩ := finalizedNumber_some hf
  obtain ⟨lp', hl', hle, hcl, ht⟩ := hi.synced hidx
  rw [hl] at hl'
  simp only [Option.some.injEq] at hl'
  subst hl'
  let d := n.db.writes ((blockWrites n.db (lp + 1)).take j)
  have hbp := fun i => blockWrites_prefix n.db lp i j hl
  have hidx' : d.indexed = true := (hbp 0).2.1.trans hidx
  refine ⟨hi.root, hi.closed, hi.fin_mem, hi.read_mem, ?_, ?_, ?_⟩
  · intro h hq
    show d.cnt.get h = none
    have hold := hi.quiet h hq
    have : ∀ (ws : List Write) (db : Db), db.cnt.get h = none → (db.writes ws).cnt.get h = none := by
      intro ws
      induction ws with
      | nil => intro db e; exact e
      | cons w ws ih =>
        intro db e
        simp only [Db.writes, List.foldl_cons]
        apply ih
        cases w with
        | clearCnt b' =>
          show (db.cnt.erase b').get h = none
          rw [SMap.get_erase]; split
          · rfl
          · exact e
        | _ => exact e
    exact this _ _ hold
  · intro hx
    have hx : d.indexed = false := hx
    rw [hidx'] at hx; cases hx
  · intro _
    by_cases hdl : d.last = some (lp + 1)
    · refine ⟨lp + 1, hdl, by show lp + 1 ≤ n.fin.length; omega, fun hc => ?_, fun g hg hfin hu hor m k => ?_⟩
      · have hc : decide (d.last = some (lp + 1)) = false := hc
        simp [hdl] at hc
      · have hfin : n.fin <:+ g := hfin
        have hgl := hfin.length_le
        rcases (hbp (g.length - (lp + 1))).2.2 with ⟨hx, _⟩ | ⟨_, hx⟩
        · exfalso
          have hx : d.last = some lp := hx
          rw [hdl] at hx; simp at hx
        · show target d (lp + 1) (g.length - (lp + 1)) m k = owns cfg g m k
          have := hx m k
          rw [show g.length - (lp + 1) + 1 = g.length - lp by omega] at this
          exact this.trans (ht g hg hfin hu (Or.inl (by omega)) m k)
    · have hdl' : d.last = some lp := by
        rcases (hbp 0).2.2 with ⟨hx, _⟩ | ⟨hx, _⟩
        · exact hx
        · exact absurd hx hdl
      refine ⟨lp, hdl', hle, fun _ => by show lp < n.fin.length; omega, fun g hg hfin hu hor m k => ?_⟩
      have hfin : n.fin <:+ g := hfin
      have hgl := hfin.length_le
      rcases (hbp (g.length - (lp + 1))).2.2 with ⟨_, hx⟩ | ⟨hx, _⟩
      · show target d lp (g.length - lp) m k = owns cfg g m k
        have := hx m k
        rw [show g.length - (lp + 1) + 1 = g.length - lp by omega] at this
        exact this.trans (ht g hg hfin hu (Or.inl (by omega)) m k)
      · exact absurd hx hdl

theorem ninv_reach {cfg : Msa.Config} {n : Node} (h : NodeReach cfg n) : NodeInv cfg n := by
  induction h with
  | init clears => exact ninv_init cfg clears
  | step _ hs ih =>
    cases hs with
    | imports p body hp hnew he hb => exact ninv_import ih hp hnew he
    | finalize b hb hf => exact ninv_finalize ih hb hf
    | initial b accounts f hb hf ha hidx hl hk => exact ninv_initial ih hb hf ha hidx hk
    | work b f lp j hb hf hidx hl hn => exact ninv_work ih hf hidx hl hn

theorem node_loop (cfg : Msa.Config) (b : Block) (f : Nat) : ∀ (i lp : Nat) (n : Node), NodeReach cfg n →
    b ∈ n.imported → finalizedNumber b n.fin = some f → n.db.indexed = true → n.db.last = some lp → lp + i = f →
    ∃ cl, NodeReach cfg { n with db := applyLoop (fun _ => true) i (lp + 1) n.db, clean := cl } ∧
      (applyLoop (fun _ => true) i (lp + 1) n.db).last = some f ∧
      (applyLoop (fun _ => true) i (lp + 1) n.db).indexed = true := by
  intro i
  induction i with
  | zero => intro lp n hr _ _ hi hl he; exact ⟨n.clean, hr, by rw [applyLoop, hl, ← he]; rfl, hi⟩
  | succ i ih =>
    intro lp n hr hb hf hi hl he
    have hidx : ((n.db.writes (reverseMapWrites n.db (lp + 1))).write (.setLast (lp + 1))).indexed = true := by
      rw [← blockWrites_all]
      exact (blockWrites_prefix n.db lp 0 _ hl).2.1.trans hi
    have hfull : NodeReach cfg { n with
        db := (n.db.writes (reverseMapWrites n.db (lp + 1))).write (.setLast (lp + 1)), clean := true } := by
      have := NodeReach.step hr (.work n b f lp (blockWrites n.db (lp + 1)).length hb hf hi hl (by omega))
      rw [blockWrites_all] at this
      simpa [Db.write] using this
    simp only [applyLoop]
    rw [if_neg (by simp)]
    exact ih (lp + 1) _ hfull hb hf hidx rfl (by omega)

/-! ## C140 -/

/-- C140: once the worker has run to the end, with a block finalized that is not older than the one whose keys were read
at the start, the key lists are those of the finalized block, whatever blocks the node imported, in whatever order, and
wherever runs of the worker stopped before. (The worker of a block finds the finalized block if it is one of the last 999
ancestors.) -/
def C140_full : Prop :=
  ∀ (cfg : Msa.Config) (n : Node), NodeReach cfg n → n.db.indexed = true → n.read.length ≤ n.fin.length →
    ∀ b ∈ n.imported, n.fin <:+ b → n.fin ≠ [] → n.fin.length < b.length → b.length < n.fin.length + 1000 →
    ∀ accounts, Lists cfg b accounts → ∀ m k,
      k ∈ (n.runWorker b accounts).keysOf m ↔ (stateOf cfg n.fin).keyToMsa.get k = some m

/-- C140 for nodes that were not misled: for every number, the block with key events that was imported last is on the
finalized chain, and so are the blocks with key events that the initial index was read from. Missing: nodes that import a
block with key events after the finalized one with the same number, or do the initial indexing on a fork. -/
theorem C140_follows_partial (cfg : Msa.Config) (n : Node) (hr : NodeReach cfg n) (hi : n.db.indexed = true)
    (hu : Unmisled cfg n n.fin) (b : Block) (hb : b ∈ n.imported) (hs : n.fin <:+ b) (h0 : n.fin ≠ [])
    (h1 : n.fin.length < b.length) (h2 : b.length < n.fin.length + 1000) (accounts : List (AccountId × MsaId))
    (m : MsaId) (k : AccountId) :
    k ∈ (n.runWorker b accounts).keysOf m ↔ (stateOf cfg n.fin).keyToMsa.get k = some m := by
  have hf := finalizedNumber_found hs h0 h1 h2
  obtain ⟨lp, hl, hle, _, _⟩ := (ninv_reach hr).synced hi
  obtain ⟨cl, hr', hlast, hidx⟩ := node_loop cfg b n.fin.length (n.fin.length - lp) lp n hr hb hf hi hl (by omega)
  have hrun : n.runWorker b accounts = applyLoop (fun _ => true) (n.fin.length - lp) (lp + 1) n.db := by
    unfold Node.runWorker
    rw [hf]
    show worker accounts n.fin.length none (fun _ => true) n.db = _
    unfold worker initialIndex
    rw [if_pos hi]
    unfold applyOffchainEvents
    rw [hl]
    simp only [Option.getD_some]
    rw [show n.fin.length + 1 - (lp + 1) = n.fin.length - lp by omega]
  rw [hrun]
  obtain ⟨lp', hl', _, hcl, ht⟩ := (ninv_reach hr').synced hidx
  have e : lp' = n.fin.length := by
    have hl' : (applyLoop (fun _ => true) (n.fin.length - lp) (lp + 1) n.db).last = some lp' := hl'
    rw [hlast] at hl'
    exact (Option.some.inj hl').symm
  have hc : cl = true := by
    by_contra hne
    have : lp' < n.fin.length := hcl (by simpa using hne)
    omega
  have := ht n.fin (ninv_reach hr).fin_mem (List.suffix_refl _) hu (Or.inr hc) m k
  rw [e, Nat.sub_self] at this
  unfold target storedFrom at this
  simp only [List.range'_zero, List.flatMap_nil, lastVerdict, Option.getD_none] at this
  unfold inIndex owns has at this
  rw [decide_eq_decide] at this
  exact this

/-- C140 for nodes that see no forks with key events: every block with key events up to the number of the finalized block
is on the finalized chain. Missing: see `C140_follows_partial`, which allows some forks. -/
theorem C140_without_forks_partial (cfg : Msa.Config) (n : Node) (hr : NodeReach cfg n) (hi : n.db.indexed = true)
    (hread : n.read.length ≤ n.fin.length)
    (hc : ∀ c ∈ n.imported, c.length ≤ n.fin.length → eventsOf cfg c ≠ [] → c <:+ n.fin)
    (b : Block) (hb : b ∈ n.imported) (hs : n.fin <:+ b) (h0 : n.fin ≠ [])
    (h1 : n.fin.length < b.length) (h2 : b.length < n.fin.length + 1000) (accounts : List (AccountId × MsaId))
    (m : MsaId) (k : AccountId) :
    k ∈ (n.runWorker b accounts).keysOf m ↔ (stateOf cfg n.fin).keyToMsa.get k = some m := by
  have hinv := ninv_reach hr
  refine C140_follows_partial cfg n hr hi ⟨fun h hl c e => ?_, fun c hcs he => ?_⟩ b hb hs h0 h1 h2 accounts m k
  · obtain ⟨a1, a2, a3⟩ := lastWith_some e
    exact hc c a1 (by omega) a3
  · have := hcs.length_le
    exact hc c (mem_suffix hinv hinv.read_mem hcs) (by omega) he

/-- C140: the worker of a block that does not descend from the finalized block, or that is 1000 or more blocks ahead of
it, changes nothing; the events wait. -/
theorem C140_waits (n : Node) (b : Block) (accounts : List (AccountId × MsaId))
    (h : ¬ n.fin <:+ b ∨ n.fin.length + 1000 ≤ b.length) : n.runWorker b accounts = n.db := by
  unfold Node.runWorker
  cases hf : finalizedNumber b n.fin with
  | none => rfl
  | some f =>
    exfalso
    obtain ⟨h1, h2, h3, h4⟩ := finalizedNumber_some hf
    rcases h with h | h
    · exact h h1
    · unfold finalizedNumber at hf
      have hm := List.mem_of_find?_eq_some hf
      rw [List.mem_filter, List.mem_map] at hm
      obtain ⟨⟨i, hi, e⟩, _⟩ := hm
      rw [List.mem_range] at hi
      omega

/-! ## Forks that mislead -/

open Msa in
/-- Block 1: key 100 creates account 1. -/
def forkA1 : Block := [[⟨exEnv 1, .signed 100, .create⟩]]

/-- Block 2 is empty. -/
def forkA2 : Block := [] :: forkA1

open Msa in
/-- Block 3: key 200 creates account 2. -/
def forkA3 : Block := [⟨exEnv 3, .signed 200, .create⟩] :: forkA2

open Msa in
/-- Another block 3: key 300 creates account 2. -/
def forkB3 : Block := [⟨exEnv 3, .signed 300, .create⟩] :: forkA2

/-- Block 4 on the first block 3 is empty. -/
def forkA4 : Block := [] :: forkA3

/-- A node with blocks 1 and 2, block 1 finalized, that has done the initial indexing in the worker of block 2. -/
def exNode : Node :=
  let n := ((Node.init.importBlock Msa.exCfg forkA1).importBlock Msa.exCfg forkA2)
  { n with fin := forkA1, db := initialIndex [(100, 1)] 1 none n.db, read := forkA2, clean := true }

theorem exNode_reach : NodeReach Msa.exCfg exNode := by
  have h1 : NodeReach Msa.exCfg (Node.init.importBlock Msa.exCfg forkA1) :=
    .step (.init true) (.imports _ [] [⟨Msa.exEnv 1, .signed 100, .create⟩] (List.mem_singleton.2 rfl)
      (by intro h; exact absurd (List.mem_singleton.1 h) (by simp)) (by decide) (by decide))
  have h2 : NodeReach Msa.exCfg ((Node.init.importBlock Msa.exCfg forkA1).importBlock Msa.exCfg forkA2) :=
    .step h1 (.imports _ forkA1 [] (List.mem_cons_self ..)
      (by intro h; simp [Node.importBlock, Node.init, forkA1] at h) (by decide) (by decide))
  have h3 := NodeReach.step h2 (.finalize _ forkA1 (List.mem_cons_of_mem _ (List.mem_cons_self ..)) List.nil_suffix)
  refine .step h3 (.initial _ forkA2 [(100, 1)] 1 (List.mem_cons_self ..) ?_ ?_ rfl rfl rfl)
  · exact finalizedNumber_found (List.suffix_cons _ _) (by simp [forkA1]) (by decide) (by decide)
  · intro k m
    have h : (stateOf Msa.exCfg forkA2).keyToMsa.entries = [(100, 1)] := by decide
    rw [← h]
    exact SMap.mem_entries_iff _ _ _

/-- The node imports both blocks 3, in the given order, then block 4, and the first block 3 is finalized. -/
def exForked (first second : Block) : Node :=
  { ((exNode.importBlock Msa.exCfg first).importBlock Msa.exCfg second).importBlock Msa.exCfg forkA4 with fin := forkA3 }

theorem exNode_mem {b : Block} (h : b ∈ exNode.imported) : b = forkA2 ∨ b = forkA1 ∨ b = [] := by
  have h : b ∈ [forkA2, forkA1, []] := h
  simpa using h

theorem fork3_ne : forkA3 ≠ forkB3 := by
  intro h
  have := congrArg (fun b : Block => (stateOf Msa.exCfg b).keyToMsa.get 200) h
  revert this
  decide

theorem fork3_new {b : Block} (hl : b.length = 3) : b ∉ exNode.imported := by
  intro h
  rcases exNode_mem h with rfl | rfl | rfl <;> revert hl <;> decide

theorem exForked_reach (swap : Bool) :
    NodeReach Msa.exCfg (if swap then exForked forkB3 forkA3 else exForked forkA3 forkB3) := by
  have step3 : ∀ {x y : Block} (n : Node), NodeReach Msa.exCfg n → forkA2 ∈ n.imported → x ∉ n.imported →
      (x = forkA3 ∨ x = forkB3) → NodeReach Msa.exCfg (n.importBlock Msa.exCfg x) := by
    rintro x _ n hr hm hnew (rfl | rfl)
    · exact .step hr (.imports _ forkA2 _ hm hnew (by decide) (by decide))
    · exact .step hr (.imports _ forkA2 _ hm hnew (by decide) (by decide))
  have hm : forkA2 ∈ exNode.imported := List.mem_cons_self ..
  have hboth : ∀ x y : Block, (x = forkA3 ∧ y = forkB3) ∨ (x = forkB3 ∧ y = forkA3) →
      NodeReach Msa.exCfg (exForked x y) := by
    intro x y hxy
    have hx : x = forkA3 ∨ x = forkB3 := by rcases hxy with h | h <;> simp [h.1]
    have hy : y = forkA3 ∨ y = forkB3 := by rcases hxy with h | h <;> simp [h.2]
    have hlx : x.length = 3 := by rcases hx with rfl | rfl <;> rfl
    have hly : y.length = 3 := by rcases hy with rfl | rfl <;> rfl
    have hne : y ≠ x := by
      rcases hxy with ⟨rfl, rfl⟩ | ⟨rfl, rfl⟩
      · exact fun e => fork3_ne e.symm
      · exact fork3_ne
    have r1 := step3 (y := []) exNode exNode_reach hm (fork3_new hlx) hx
    have r2 := step3 (y := []) _ r1 (List.mem_cons_of_mem _ hm) (by
      intro h
      rcases List.mem_cons.1 h with e | h
      · exact hne e
      · exact fork3_new hly h) hy
    have hA3 : forkA3 ∈ ((exNode.importBlock Msa.exCfg x).importBlock Msa.exCfg y).imported := by
      rcases hxy with ⟨rfl, rfl⟩ | ⟨rfl, rfl⟩
      · exact List.mem_cons_of_mem _ (List.mem_cons_self ..)
      · exact List.mem_cons_self ..
    have r3 := NodeReach.step r2 (.imports _ forkA3 [] hA3 (by
      intro h
      have hall : ∀ c ∈ ((exNode.importBlock Msa.exCfg x).importBlock Msa.exCfg y).imported, c.length ≤ 3 := by
        intro c hc
        rcases List.mem_cons.1 hc with rfl | hc
        · omega
        rcases List.mem_cons.1 hc with rfl | hc
        · omega
        rcases exNode_mem hc with rfl | rfl | rfl <;> decide
      exact absurd (hall _ h) (by decide)) (by decide) (by decide))
    refine .step r3 (.finalize _ forkA3 (List.mem_cons_of_mem _ hA3) ?_)
    exact (List.suffix_cons _ _).trans (List.suffix_cons _ _)
  cases swap with
  | true => exact hboth _ _ (Or.inr ⟨rfl, rfl⟩)
  | false => exact hboth _ _ (Or.inl ⟨rfl, rfl⟩)

theorem exForked_run (x y : Block) (accounts : List (AccountId × MsaId)) :
    (exForked x y).runWorker forkA4 accounts = worker accounts 3 none (fun _ => true) (exForked x y).db := by
  unfold Node.runWorker
  rw [show finalizedNumber forkA4 (exForked x y).fin = some 3 from
    finalizedNumber_found (b := forkA4) (fin := forkA3) (List.suffix_cons _ _) (by simp [forkA3]) (by decide) (by decide)]

/-- C140 is false of the code. The node imports the block 3 in which key 200 creates account 2, then a competing block 3
in which key 300 creates account 2. The first becomes final. The worker reads the events of the other: the list of account 2
has key 300, which has no account, and not key 200. -/
theorem C140_full_false : ¬ C140_full := by
  intro h
  have := h Msa.exCfg (exForked forkA3 forkB3) (exForked_reach false) (by decide) (by decide) forkA4
    (List.mem_cons_self ..) (List.suffix_cons _ _) (by simp [exForked, forkA3]) (by decide) (by decide)
    (stateOf Msa.exCfg forkA4).keyToMsa.entries (fun k m => SMap.mem_entries_iff _ _ _) 2 300
  rw [exForked_run] at this
  revert this
  decide

/-- A node that does the initial indexing in the worker of the competing block 3, with block 1 finalized, and imports the
other block 3, which becomes final, and block 4 afterwards. -/
def exReadFork : Node :=
  let n := ((Node.init.importBlock Msa.exCfg forkA1).importBlock Msa.exCfg forkA2).importBlock Msa.exCfg forkB3
  let n := { n with fin := forkA1, db := initialIndex [(300, 2), (100, 1)] 1 none n.db, read := forkB3, clean := true }
  { (n.importBlock Msa.exCfg forkA3).importBlock Msa.exCfg forkA4 with fin := forkA3 }

theorem exReadFork_reach : NodeReach Msa.exCfg exReadFork := by
  have h1 : NodeReach Msa.exCfg (Node.init.importBlock Msa.exCfg forkA1) :=
    .step (.init true) (.imports _ [] [⟨Msa.exEnv 1, .signed 100, .create⟩] (List.mem_singleton.2 rfl)
      (by intro h; exact absurd (List.mem_singleton.1 h) (by simp)) (by decide) (by decide))
  have h2 : NodeReach Msa.exCfg ((Node.init.importBlock Msa.exCfg forkA1).importBlock Msa.exCfg forkA2) :=
    .step h1 (.imports _ forkA1 [] (List.mem_cons_self ..)
      (by intro h; simp [Node.importBlock, Node.init, forkA1] at h) (by decide) (by decide))
  have short : ∀ {c b : Block} {bs : List Block}, (∀ x ∈ bs, x.length < c.length) → b = c → b ∉ bs := by
    rintro c b bs h rfl hb
    exact absurd (h _ hb) (by omega)
  have h3 := NodeReach.step h2 (.imports _ forkA2 [⟨Msa.exEnv 3, .signed 300, .create⟩] (List.mem_cons_self ..)
    (short (c := forkB3) (by
      intro x hx
      have hx : x ∈ [forkA2, forkA1, []] := hx
      simp only [List.mem_cons, List.not_mem_nil, or_false] at hx
      rcases hx with rfl | rfl | rfl <;> decide) rfl) (by decide) (by decide))
  have h4 := NodeReach.step h3 (.finalize _ forkA1
    (List.mem_cons_of_mem _ (List.mem_cons_of_mem _ (List.mem_cons_self ..))) List.nil_suffix)
  have h5 := NodeReach.step h4 (.initial _ forkB3 [(300, 2), (100, 1)] 1 (List.mem_cons_self ..)
    (finalizedNumber_found (b := forkB3) (fin := forkA1) ((List.suffix_cons _ _).trans (List.suffix_cons _ _))
      (by simp [forkA1]) (by decide) (by decide))
    (by
      intro k m
      have h : (stateOf Msa.exCfg forkB3).keyToMsa.entries = [(300, 2), (100, 1)] := by decide
      rw [← h]
      exact SMap.mem_entries_iff _ _ _) rfl rfl rfl)
  have h6 := NodeReach.step h5 (.imports _ forkA2 [⟨Msa.exEnv 3, .signed 200, .create⟩]
    (List.mem_cons_of_mem _ (List.mem_cons_self ..)) (by
      intro hx
      have hx : forkA3 ∈ [forkB3, forkA2, forkA1, []] := hx
      rcases List.mem_cons.1 hx with e | hx
      · exact fork3_ne e
      · exact fork3_new rfl hx) (by decide) (by decide))
  have h7 := NodeReach.step h6 (.imports _ forkA3 [] (List.mem_cons_self ..)
    (short (c := forkA4) (by
      intro x hx
      have hx : x ∈ [forkA3, forkB3, forkA2, forkA1, []] := hx
      simp only [List.mem_cons, List.not_mem_nil, or_false] at hx
      rcases hx with rfl | rfl | rfl | rfl | rfl <;> decide) rfl) (by decide) (by decide))
  exact .step h7 (.finalize _ forkA3 (List.mem_cons_of_mem _ (List.mem_cons_self ..))
    ((List.suffix_cons _ _).trans (List.suffix_cons _ _)))

/-- The other way to be misled: the initial index is read from a block that does not become final. For every number the block
with key events imported last is final, but key 300, which has no account, stays in the list of account 2. -/
theorem C140_read_from_fork (accounts : List (AccountId × MsaId)) :
    NodeReach Msa.exCfg exReadFork ∧ exReadFork.read.length ≤ exReadFork.fin.length ∧
    lastWith Msa.exCfg exReadFork.imported 1 = some forkA1 ∧ lastWith Msa.exCfg exReadFork.imported 2 = none ∧
    lastWith Msa.exCfg exReadFork.imported 3 = some exReadFork.fin ∧
    (exReadFork.runWorker forkA4 accounts).keysOf 2 = [300, 200] ∧
    (stateOf Msa.exCfg exReadFork.fin).keyToMsa.get 300 = none := by
  refine ⟨exReadFork_reach, by decide, rfl, rfl, rfl, ?_, by decide⟩
  unfold Node.runWorker
  rw [show finalizedNumber forkA4 exReadFork.fin = some 3 from
    finalizedNumber_found (b := forkA4) (fin := forkA3) (List.suffix_cons _ _) (by simp [forkA3]) (by decide) (by decide)]
  show (worker accounts 3 none (fun _ => true) exReadFork.db).keysOf 2 = [300, 200]
  unfold worker
  rw [show initialIndex accounts 3 none exReadFork.db = exReadFork.db from if_pos rfl]
  decide

/-- The competing block is imported first: the hypotheses of `C140_follows_partial` hold. -/
example : Unmisled Msa.exCfg (exForked forkB3 forkA3) (exForked forkB3 forkA3).fin ∧
    (exForked forkB3 forkA3).db.indexed = true := by
  refine ⟨⟨fun h hl b hb => ?_, fun b hb _ => ?_⟩, by decide⟩
  · have hl : h ≤ 3 := hl
    have hb : lastWith Msa.exCfg [forkA4, forkA3, forkB3, forkA2, forkA1, []] h = some b := hb
    have : h = 0 ∨ h = 1 ∨ h = 2 ∨ h = 3 := by omega
    rcases this with rfl | rfl | rfl | rfl
    · rw [show lastWith Msa.exCfg [forkA4, forkA3, forkB3, forkA2, forkA1, []] 0 = none from rfl] at hb; cases hb
    · rw [show lastWith Msa.exCfg [forkA4, forkA3, forkB3, forkA2, forkA1, []] 1 = some forkA1 from rfl] at hb
      rw [← Option.some.inj hb]; exact (List.suffix_cons _ _).trans (List.suffix_cons _ _)
    · rw [show lastWith Msa.exCfg [forkA4, forkA3, forkB3, forkA2, forkA1, []] 2 = none from rfl] at hb; cases hb
    · rw [show lastWith Msa.exCfg [forkA4, forkA3, forkB3, forkA2, forkA1, []] 3 = some forkA3 from rfl] at hb
      rw [← Option.some.inj hb]; exact List.suffix_refl _
  · have hb : b <:+ forkA2 := hb
    exact hb.trans (List.suffix_cons _ _)

/-- In this order the lists are right. -/
example : ((exForked forkB3 forkA3).runWorker forkA4 []).keysOf 2 = [200] ∧
    ((exForked forkB3 forkA3).runWorker forkA4 []).keysOf 1 = [100] := by
  rw [exForked_run]; decide

/-- In the other order they are not. -/
example : ((exForked forkA3 forkB3).runWorker forkA4 []).keysOf 2 = [300] := by
  rw [exForked_run]; decide

/-- A node without forks: `C140_without_forks_partial` applies to `exNode` with block 1 finalized, after block 2 was
finalized. -/
example : ({ exNode with fin := forkA2 } : Node).read.length ≤ ({ exNode with fin := forkA2 } : Node).fin.length ∧
    ∀ c ∈ exNode.imported, c.length ≤ forkA2.length → eventsOf Msa.exCfg c ≠ [] → c <:+ forkA2 := by
  refine ⟨by decide, fun c hc _ _ => ?_⟩
  rcases exNode_mem hc with rfl | rfl | rfl
  · exact List.suffix_refl _
  · exact List.suffix_cons _ _
  · exact List.nil_suffix

end Verif.Offchain
