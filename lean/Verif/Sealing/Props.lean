import Verif.Sealing.Model
import Verif.Pool.Lemmas
import Mathlib.Data.List.Induction
/-!
# Properties of development nodes
-/

namespace Verif.Sealing

open Verif.Pool

/-! ## Specification -/

/-- Blocks are made of ready transactions, and of some ready transactions one at least is put in or found to be invalid:
the first one that is valid fits in a block of its own. -/
structure Works (propose : List Tx → Proposal) : Prop where
  ready : ∀ r, ∀ t ∈ (propose r).included, t ∈ r
  some : ∀ r, r ≠ [] → ∃ t ∈ r, t ∈ (propose r).included ∨ t ∈ (propose r).invalid

/-- A command for a new block. -/
def isCommand : Event → Bool
  | .command _ _ => true
  | _ => false

/-- The answer that there is a new block. -/
def isCreated : Answer → Bool
  | .created _ => true
  | _ => false

/-- What the documentation of the modes promises, node/cli-opt/src/lib.rs 6-13 and node/cli/src/cli.rs 92-107. -/
structure AsPromised (mode : Mode) (propose : List Tx → Proposal) (es : List Event) : Prop where
  /-- instant: when all notifications are handled no transaction is left -/
  instant : mode = .instant → (run mode propose .new es).notes = 0 → (run mode propose .new es).pool.ready = []
  /-- interval: after some ticks, as many as there are transactions, none is left, and all blocks are final -/
  interval : ∀ e, mode = .interval e → ∀ k, (run mode propose .new es).pool.ready.length ≤ k →
    (run mode propose .new (es ++ List.replicate k .tick)).pool.ready = []
  /-- interval: no empty blocks if nobody asked for one -/
  noEmpty : mode = .interval false → (∀ f, .command true f ∉ es) → ∀ b ∈ (run mode propose .new es).blocks, b ≠ []
  /-- interval with empty blocks: a final block with every tick -/
  everyTick : mode = .interval true → (run mode propose .new (es ++ [.tick])).blocks.length =
    (run mode propose .new es).blocks.length + 1 ∧
    (run mode propose .new (es ++ [.tick])).finalized = (run mode propose .new es).blocks.length + 1
  /-- manual: blocks only on command, each reported to the sender -/
  manual : mode = .manual → (run mode propose .new es).blocks.length = ((run mode propose .new es).answers.filter isCreated).length
  /-- every command is answered -/
  answered : (run mode propose .new es).answers.length = (es.filter isCommand).length ∧
    .dropped ∉ (run mode propose .new es).answers
  /-- what is in blocks was submitted -/
  submitted : ∀ b ∈ (run mode propose .new es).blocks, ∀ t ∈ b, .submit t ∈ es

/-- C149 in full. -/
def C149_full : Prop := ∀ mode propose es, Works propose → AsPromised mode propose es

/-! ## Lemmas -/

theorem run_append (mode : Mode) (propose : List Tx → Proposal) (n : Node) (l l' : List Event) :
    run mode propose n (l ++ l') = run mode propose (run mode propose n l) l' := List.foldl_append ..

/-- What sealing a block can do. -/
inductive Sealed (propose : List Tx → Proposal) (createEmpty finalize : Bool) (n : Node) : Node × Answer → Prop
  | dropped : createEmpty = false → n.pool.ready = [] → Sealed propose createEmpty finalize n (n, .dropped)
  | invalid (pool : Pool) : createEmpty = false → (propose n.pool.ready).included = [] →
      pool = n.pool.leave (fun t => !(propose n.pool.ready).included.contains t && !(propose n.pool.ready).invalid.contains t) →
      Sealed propose createEmpty finalize n ({ n with pool := pool }, .emptyPool)
  | created (pool : Pool) : (createEmpty = false → (propose n.pool.ready).included ≠ []) →
      pool = n.pool.leave (fun t => !(propose n.pool.ready).included.contains t && !(propose n.pool.ready).invalid.contains t) →
      Sealed propose createEmpty finalize n
        (⟨pool, n.notes, n.blocks ++ [(propose n.pool.ready).included],
          if finalize then n.blocks.length + 1 else n.finalized, n.answers⟩, .created n.blocks.length)

theorem sealed (propose : List Tx → Proposal) (createEmpty finalize : Bool) (n : Node) :
    Sealed propose createEmpty finalize n (sealNew propose createEmpty finalize n) := by
  unfold sealNew
  split
  · rename_i h
    unfold sealBlock
    split
    · rename_i h'
      exfalso
      rcases h with h | h
      · rw [h] at h'
        exact absurd h'.2 (by decide)
      · omega
    · dsimp only
      split
      · rename_i h2
        exact .invalid _ h2.2 (List.length_eq_zero_iff.1 h2.1) rfl
      · rename_i h2
        exact .created _ (fun e h3 => h2 ⟨by rw [h3]; rfl, e⟩) rfl
  · rename_i h
    refine .dropped ?_ ?_
    · cases createEmpty
      · rfl
      · exact absurd (.inl rfl) h
    · by_contra hne
      exact h (.inr (List.length_pos_iff.2 hne))

/-- The ready transactions after a block, or after an attempt at one. -/
theorem sealed_ready {propose : List Tx → Proposal} {createEmpty finalize : Bool} {n : Node} {r : Node × Answer}
    (h : Sealed propose createEmpty finalize n r) : r.1.pool.ready = [] ∧ n.pool.ready = [] ∨ r.1.pool.ready =
      n.pool.ready.filter (fun t => !(propose n.pool.ready).included.contains t && !(propose n.pool.ready).invalid.contains t) := by
  cases h with
  | dropped _ h => exact .inl ⟨h, h⟩
  | invalid pool _ _ h => subst h; exact .inr rfl
  | created pool _ h => subst h; exact .inr rfl

/-- Every attempt makes some progress. -/
theorem sealed_fewer {propose : List Tx → Proposal} (hw : Works propose) {createEmpty finalize : Bool} {n : Node}
    {r : Node × Answer} (h : Sealed propose createEmpty finalize n r) :
    r.1.pool.ready.length ≤ n.pool.ready.length - 1 := by
  rcases sealed_ready h with ⟨h, _⟩ | h
  · rw [h]
    exact Nat.zero_le _
  · rw [h]
    by_cases e : n.pool.ready = []
    · rw [e]
      exact Nat.le_refl 0
    · obtain ⟨t, ht, hor⟩ := hw.some _ e
      refine Nat.le_sub_one_of_lt (List.length_filter_lt_length_iff_exists.2 ⟨t, ht, ?_⟩)
      rcases hor with h | h <;> simp [h]

theorem sealed_answers {propose : List Tx → Proposal} {createEmpty finalize : Bool} {n : Node} {r : Node × Answer}
    (h : Sealed propose createEmpty finalize n r) : r.1.answers = n.answers ∧ r.1.notes = n.notes := by
  cases h <;> exact ⟨rfl, rfl⟩

/-! ## C149 -/

/-- C149, interval sealing: in whatever state the node is, as many ticks as there are ready transactions are enough. -/
theorem C149_interval (propose : List Tx → Proposal) (hw : Works propose) (e : Bool) (n : Node) :
    ∀ k, n.pool.ready.length ≤ k → (run (.interval e) propose n (List.replicate k .tick)).pool.ready = [] := by
  intro k
  induction k generalizing n with
  | zero => intro h; exact List.length_eq_zero_iff.1 (Nat.le_zero.1 h)
  | succ k ih =>
    intro h
    refine ih (step (.interval e) propose n .tick) ?_
    have := sealed_fewer hw (sealed propose e true n)
    show (sealNew propose e true n).1.pool.ready.length ≤ k
    omega

/-- The answers, the blocks and what is in them, after an event. -/
theorem step_blocks (mode : Mode) (propose : List Tx → Proposal) (n : Node) (x : Event) :
    (step mode propose n x).blocks = n.blocks ∨
    (step mode propose n x).blocks = n.blocks ++ [(propose n.pool.ready).included] := by
  have hs : ∀ c f, (sealNew propose c f n).1.blocks = n.blocks ∨
      (sealNew propose c f n).1.blocks = n.blocks ++ [(propose n.pool.ready).included] := by
    intro c f
    have := sealed propose c f n
    revert this
    generalize sealNew propose c f n = r
    intro h
    cases h
    · exact .inl rfl
    · exact .inl rfl
    · exact .inr rfl
  cases x with
  | submit t => exact .inl rfl
  | noted =>
    match mode, h : n.notes with
    | .manual, _ => exact .inl rfl
    | .interval _, _ => exact .inl rfl
    | .instant, 0 =>
      left
      simp only [step, h]
    | .instant, k + 1 =>
      have := sealed propose true true { n with notes := k }
      revert this
      simp only [step, h]
      generalize sealNew propose true true { n with notes := k } = r
      intro h
      cases h
      · exact .inl rfl
      · exact .inl rfl
      · exact .inr rfl
  | tick =>
    match mode with
    | .manual => exact .inl rfl
    | .instant => exact .inl rfl
    | .interval e => exact hs e true
  | command c f => exact hs c f
  | finalize b =>
    left
    simp only [step]
    split <;> rfl

/-- Ready and waiting transactions were submitted. -/
theorem run_pool (mode : Mode) (propose : List Tx → Proposal) (es : List Event) (t : Tx) :
    t ∈ (run mode propose .new es).pool.ready ∨ t ∈ (run mode propose .new es).pool.future → .submit t ∈ es := by
  induction es using List.reverseRecOn with
  | nil => rintro (h | h) <;> cases h
  | append_singleton es x ih =>
    rw [run_append]
    generalize run mode propose .new es = n at *
    have hs : ∀ c f m, m.pool = n.pool → t ∈ (sealNew propose c f m).1.pool.ready ∨ t ∈ (sealNew propose c f m).1.pool.future →
        t ∈ n.pool.ready ∨ t ∈ n.pool.future := by
      intro c f m hm
      rw [← hm]
      have := sealed propose c f m
      revert this
      generalize sealNew propose c f m = r
      intro h
      cases h with
      | dropped => exact id
      | invalid pool _ _ h => subst h; exact Or.imp (fun h => (List.mem_filter.1 h).1) (fun h => (List.mem_filter.1 h).1)
      | created pool _ h => subst h; exact Or.imp (fun h => (List.mem_filter.1 h).1) (fun h => (List.mem_filter.1 h).1)
    have old : (t ∈ n.pool.ready ∨ t ∈ n.pool.future) → .submit t ∈ es ++ [x] := fun h => List.mem_append_left _ (ih h)
    show t ∈ (step mode propose n x).pool.ready ∨ t ∈ (step mode propose n x).pool.future → _
    cases x with
    | submit u =>
      intro h
      rcases h with h | h
      · rcases (add_mem n.pool u t).1 h with h | h | rfl
        · exact old (.inl h)
        · exact old (.inr h)
        · simp
      · rcases (add_mem n.pool u t).2 h with h | rfl
        · exact old (.inr h)
        · simp
    | noted =>
      match mode, h : n.notes with
      | .manual, _ => exact old
      | .interval _, _ => exact old
      | .instant, 0 => simp only [step, h]; exact old
      | .instant, k + 1 => simp only [step, h]; exact fun h => old (hs true true { n with notes := k } rfl h)
    | tick =>
      match mode with
      | .manual => exact old
      | .instant => exact old
      | .interval e => exact fun h => old (hs e true n rfl h)
    | command c f => exact fun h => old (hs c f n rfl h)
    | finalize b =>
      simp only [step]
      split <;> exact old

/-- C149: blocks contain only what was submitted. -/
theorem C149_submitted (mode : Mode) (propose : List Tx → Proposal) (hw : Works propose) (es : List Event) :
    ∀ b ∈ (run mode propose .new es).blocks, ∀ t ∈ b, .submit t ∈ es := by
  induction es using List.reverseRecOn with
  | nil => intro b hb; cases hb
  | append_singleton es x ih =>
    rw [run_append]
    intro b hb t ht
    rcases step_blocks mode propose (run mode propose .new es) x with h | h
    · rw [show run mode propose (run mode propose .new es) [x] = step mode propose (run mode propose .new es) x from rfl, h] at hb
      exact List.mem_append_left _ (ih b hb t ht)
    · rw [show run mode propose (run mode propose .new es) [x] = step mode propose (run mode propose .new es) x from rfl, h] at hb
      rcases List.mem_append.1 hb with hb | hb
      · exact List.mem_append_left _ (ih b hb t ht)
      · rw [List.mem_singleton.1 hb] at ht
        exact List.mem_append_left _ (run_pool mode propose es t (.inl (hw.ready _ t ht)))

theorem sealNew_final (propose : List Tx → Proposal) (c f : Bool) (n : Node) (h : n.finalized ≤ n.blocks.length) :
    n.finalized ≤ (sealNew propose c f n).1.finalized ∧
    (sealNew propose c f n).1.finalized ≤ (sealNew propose c f n).1.blocks.length := by
  unfold sealNew sealBlock
  split
  · split
    · exact ⟨Nat.le_refl _, h⟩
    · dsimp only
      split
      · exact ⟨Nat.le_refl _, h⟩
      · cases f
        · exact ⟨Nat.le_refl _, by rw [List.length_append]; exact Nat.le_trans h (Nat.le_add_right _ _)⟩
        · exact ⟨Nat.le_trans h (Nat.le_succ _), by rw [List.length_append]; exact Nat.le_refl _⟩
  · exact ⟨Nat.le_refl _, h⟩

theorem step_final (mode : Mode) (propose : List Tx → Proposal) (n : Node) (x : Event)
    (h : n.finalized ≤ n.blocks.length) :
    n.finalized ≤ (step mode propose n x).finalized ∧
    (step mode propose n x).finalized ≤ (step mode propose n x).blocks.length := by
  have same : n.finalized ≤ n.finalized ∧ n.finalized ≤ n.blocks.length := ⟨Nat.le_refl _, h⟩
  cases x with
  | submit t => exact same
  | noted =>
    match mode, hn : n.notes with
    | .manual, _ => exact same
    | .interval _, _ => exact same
    | .instant, 0 => simp only [step, hn]; exact same
    | .instant, k + 1 => simp only [step, hn]; exact sealNew_final propose true true { n with notes := k } h
  | tick =>
    match mode with
    | .manual => exact same
    | .instant => exact same
    | .interval e => exact sealNew_final propose e true n h
  | command c f => exact sealNew_final propose c f n h
  | finalize b =>
    simp only [step]
    split
    · rename_i hb
      exact ⟨Nat.le_max_left _ _, Nat.max_le.2 ⟨h, hb⟩⟩
    · exact same

/-- C149: what is final stays final, and only blocks that exist are final. -/
theorem C149_final (mode : Mode) (propose : List Tx → Proposal) (es es' : List Event) :
    (run mode propose .new es).finalized ≤ (run mode propose .new (es ++ es')).finalized ∧
    (run mode propose .new (es ++ es')).finalized ≤ (run mode propose .new (es ++ es')).blocks.length := by
  have hgen : ∀ (l : List Event) (n : Node), n.finalized ≤ n.blocks.length →
      n.finalized ≤ (run mode propose n l).finalized ∧
      (run mode propose n l).finalized ≤ (run mode propose n l).blocks.length := by
    intro l
    induction l with
    | nil => exact fun n h => ⟨Nat.le_refl _, h⟩
    | cons x l ih =>
      intro n h
      obtain ⟨h1, h2⟩ := step_final mode propose n x h
      obtain ⟨h3, h4⟩ := ih (step mode propose n x) h2
      exact ⟨Nat.le_trans h1 h3, h4⟩
  rw [run_append]
  exact hgen es' _ (hgen es .new (Nat.le_refl _)).2

/-- C149: no empty blocks in the interval mode if nobody wants them. -/
theorem C149_no_empty (propose : List Tx → Proposal) (es : List Event) (hc : ∀ f, .command true f ∉ es) :
    ∀ b ∈ (run (.interval false) propose .new es).blocks, b ≠ [] := by
  induction es using List.reverseRecOn with
  | nil => intro b hb; cases hb
  | append_singleton es x ih =>
    rw [run_append]
    have ih := ih (fun f h => hc f (List.mem_append_left _ h))
    generalize run (.interval false) propose .new es = n at *
    have hs : ∀ f, ∀ b ∈ (sealNew propose false f n).1.blocks, b ≠ [] := by
      intro f
      have := sealed propose false f n
      revert this
      generalize sealNew propose false f n = r
      intro h
      cases h with
      | dropped => exact ih
      | invalid => exact ih
      | created pool h _ =>
        intro b hb
        rcases List.mem_append.1 hb with hb | hb
        · exact ih b hb
        · rw [List.mem_singleton.1 hb]
          exact h rfl
    show ∀ b ∈ (step (.interval false) propose n x).blocks, b ≠ []
    cases x with
    | submit t => exact ih
    | noted => exact ih
    | tick => exact hs true
    | command c f =>
      cases c
      · exact hs f
      · exact absurd (List.mem_append_right _ (List.mem_singleton.2 rfl)) (hc f)
    | finalize b =>
      simp only [step]
      split <;> exact ih

/-- C149: with empty blocks wanted, every tick makes a block, and it is final. -/
theorem C149_every_tick (propose : List Tx → Proposal) (n : Node) :
    (run (.interval true) propose n [.tick]).blocks.length = n.blocks.length + 1 ∧
    (run (.interval true) propose n [.tick]).finalized = n.blocks.length + 1 := by
  have := sealed propose true true n
  show (sealNew propose true true n).1.blocks.length = _ ∧ (sealNew propose true true n).1.finalized = _
  revert this
  generalize sealNew propose true true n = r
  intro h
  cases h with
  | dropped h => cases h
  | invalid _ h => cases h
  | created => exact ⟨by simp, rfl⟩

theorem step_answers (mode : Mode) (propose : List Tx → Proposal) (n : Node) (x : Event) :
    (step mode propose n x).answers.length = n.answers.length + ([x].filter isCommand).length := by
  cases x with
  | submit t => rfl
  | noted =>
    match mode, h : n.notes with
    | .manual, _ => rfl
    | .interval _, _ => rfl
    | .instant, 0 => simp only [step, h]; rfl
    | .instant, k + 1 =>
      simp only [step, h]
      rw [(sealed_answers (sealed propose true true _)).1]
      rfl
  | tick =>
    match mode with
    | .manual => rfl
    | .instant => rfl
    | .interval e =>
      show (sealNew propose e true n).1.answers.length = _
      rw [(sealed_answers (sealed propose e true n)).1]
      rfl
  | command c f =>
    show ((sealNew propose c f n).1.answers ++ [_]).length = _
    rw [(sealed_answers (sealed propose c f n)).1, List.length_append]
    rfl
  | finalize b =>
    simp only [step]
    split <;> rfl

/-- C149: with manual sealing there are just the blocks that were reported to the senders of commands. -/
theorem C149_manual (propose : List Tx → Proposal) (es : List Event) :
    (run .manual propose .new es).blocks.length = ((run .manual propose .new es).answers.filter isCreated).length := by
  induction es using List.reverseRecOn with
  | nil => rfl
  | append_singleton es x ih =>
    rw [run_append]
    generalize run .manual propose .new es = n at *
    show (step .manual propose n x).blocks.length = ((step .manual propose n x).answers.filter isCreated).length
    cases x with
    | submit t => exact ih
    | noted => exact ih
    | tick => exact ih
    | command c f =>
      have := sealed propose c f n
      show (sealNew propose c f n).1.blocks.length =
        (((sealNew propose c f n).1.answers ++ [(sealNew propose c f n).2]).filter isCreated).length
      revert this
      generalize sealNew propose c f n = r
      intro h
      cases h with
      | dropped => simp [isCreated, ih]
      | invalid => simp [isCreated, ih]
      | created =>
        simp [ih]
        rfl
    | finalize b =>
      simp only [step]
      split <;> exact ih

/-- C149: every command has one answer, which tells of a block or that there are no transactions, if it asks for an empty
block or there are ready transactions. Missing: other commands (`C149_full_false`). -/
theorem C149_answered_partial (mode : Mode) (propose : List Tx → Proposal) (es : List Event)
    (h : ∀ l f r, es = l ++ .command false f :: r → (run mode propose .new l).pool.ready ≠ []) :
    (run mode propose .new es).answers.length = (es.filter isCommand).length ∧
    .dropped ∉ (run mode propose .new es).answers := by
  induction es using List.reverseRecOn with
  | nil => exact ⟨rfl, by intro h; cases h⟩
  | append_singleton es x ih =>
    obtain ⟨i1, i2⟩ := ih (fun l f r e => h l f (r ++ [x]) (by rw [e]; simp))
    rw [run_append]
    have h := fun f => h es f []
    generalize run mode propose .new es = n at *
    refine ⟨?_, ?_⟩
    · rw [List.filter_append, List.length_append, ← i1]
      exact step_answers mode propose n x
    · show Answer.dropped ∉ (step mode propose n x).answers
      cases x with
      | submit t => exact i2
      | noted =>
        match mode, h : n.notes with
        | .manual, _ => exact i2
        | .interval _, _ => exact i2
        | .instant, 0 => simp only [step, h]; exact i2
        | .instant, k + 1 =>
          simp only [step, h]
          rw [(sealed_answers (sealed propose true true _)).1]
          exact i2
      | tick =>
        match mode with
        | .manual => exact i2
        | .instant => exact i2
        | .interval e =>
          show Answer.dropped ∉ (sealNew propose e true n).1.answers
          rw [(sealed_answers (sealed propose e true n)).1]
          exact i2
      | command c f =>
        have hs := sealed propose c f n
        show Answer.dropped ∉ (sealNew propose c f n).1.answers ++ [(sealNew propose c f n).2]
        rw [(sealed_answers hs).1, List.mem_append, List.mem_singleton]
        rintro (h' | h')
        · exact i2 h'
        · revert hs h'
          generalize sealNew propose c f n = r
          intro hs h'
          cases hs with
          | dropped e1 e2 =>
            subst e1
            exact h f rfl e2
          | invalid => cases h'
          | created => cases h'
      | finalize b =>
        simp only [step]
        split <;> exact i2

/-- A transaction that comes either adds nothing to the ready ones or is ready itself. -/
theorem add_ready (p : Pool) (t : Tx) : (∀ u ∈ (p.add t).ready, u ∈ p.ready) ∨
    (t ∉ p.ready ∧ t ∉ p.future ∧ t ∈ (p.add t).ready) := by
  unfold Pool.add
  split
  · exact .inl fun _ h => h
  rename_i hnew
  split
  · split
    · exact .inl fun _ h => h
    · dsimp only
      split
      · rename_i h
        exact .inr ⟨fun h => hnew (.inl h), fun h => hnew (.inr h), h⟩
      · refine .inl fun u hu => ?_
        have := (List.mem_filter.1 ((dropTree_sublist _ _ _ _).subset hu)).2
        exact of_decide_eq_true this
  · exact .inl fun _ h => h

/-- C149, instant sealing, if a block takes all ready transactions. Missing: blocks that have no room for all
(`C149_full_false`). -/
theorem C149_instant_room_partial (propose : List Tx → Proposal)
    (hall : ∀ r, ∀ t ∈ r, t ∈ (propose r).included ∨ t ∈ (propose r).invalid) (es : List Event)
    (h0 : (run .instant propose .new es).notes = 0) : (run .instant propose .new es).pool.ready = [] := by
  have empty : ∀ c f n r, Sealed propose c f n r → r.1.pool.ready = [] := by
    intro c f n r h
    rcases sealed_ready h with ⟨h, _⟩ | h
    · exact h
    · rw [h, List.filter_eq_nil_iff]
      intro t ht
      rcases hall _ t ht with h | h <;> simp [h]
  have inv : (run .instant propose .new es).pool.ready = [] ∨ 0 < (run .instant propose .new es).notes := by
    clear h0
    induction es using List.reverseRecOn with
    | nil => exact .inl rfl
    | append_singleton es x ih =>
      rw [run_append]
      generalize run .instant propose .new es = n at *
      show (step .instant propose n x).pool.ready = [] ∨ 0 < (step .instant propose n x).notes
      cases x with
      | submit t =>
        simp only [step, submit]
        rcases add_ready n.pool t with h | h
        · rcases ih with ih | ih
          · refine .inl (List.eq_nil_iff_forall_not_mem.2 fun u hu => ?_)
            have := h u hu
            rw [ih] at this
            cases this
          · right
            split <;> omega
        · right
          by_cases hf : n.notes < places
          · rw [if_pos ⟨trivial, decide_eq_true h, hf⟩]
            omega
          · rw [if_neg (fun h => hf h.2.2)]
            unfold places at hf
            omega
      | noted =>
        match hk : n.notes with
        | 0 =>
          simp only [step, hk]
          simp only [hk, Nat.lt_irrefl, or_false] at ih
          exact .inl ih
        | k + 1 =>
          simp only [step, hk]
          exact .inl (empty _ _ _ _ (sealed propose true true _))
      | tick => exact ih
      | command c f => exact .inl (empty _ _ _ _ (sealed propose c f n))
      | finalize b =>
        simp only [step]
        split <;> exact ih
  rcases inv with h | h
  · exact h
  · omega

theorem promote_nil : ∀ (k : Nat) (r : List Tx), promote k ⟨r, []⟩ = ⟨r, []⟩
  | 0, _ => rfl
  | _ + 1, _ => rfl

theorem addReady_length {r r' : List Tx} {t : Tx} (h : addReady r t = some r') : r'.length ≤ r.length + 1 ∧ t ∈ r' := by
  unfold addReady at h
  dsimp only at h
  split at h
  · rw [← Option.some.inj h]
    simp
  · split at h
    · rw [← Option.some.inj h]
      refine ⟨?_, by simp⟩
      rw [List.length_append, List.length_singleton]
      exact Nat.succ_le_succ (((dropTree_sublist _ _ _ _).length_le).trans (List.length_filter_le _ _))
    · cases h

/-- C149, instant sealing, however little room blocks have, if no transaction comes before those that it requires and
there are never too many notifications. Missing: transactions that wait for others (`C149_full_false`). -/
theorem C149_instant_order_partial (propose : List Tx → Proposal) (hw : Works propose) (es : List Event)
    (ho : ∀ l t r, es = l ++ .submit t :: r → satisfied (run .instant propose .new l).pool.ready t = true ∧
      (run .instant propose .new l).notes < 1024)
    (h0 : (run .instant propose .new es).notes = 0) : (run .instant propose .new es).pool.ready = [] := by
  have inv : (run .instant propose .new es).pool.future = [] ∧
      (run .instant propose .new es).pool.ready.length ≤ (run .instant propose .new es).notes := by
    clear h0
    induction es using List.reverseRecOn with
    | nil => exact ⟨rfl, Nat.le_refl 0⟩
    | append_singleton es x ih =>
      have ih := ih (fun l t r e => ho l t (r ++ [x]) (by rw [e]; simp))
      have ho := fun t e => ho es t [] e
      rw [run_append]
      generalize run .instant propose .new es = n at *
      obtain ⟨i1, i2⟩ := ih
      have fut : ∀ c f m r, m.pool = n.pool → Sealed propose c f m r → r.1.pool.future = [] := by
        intro c f m r hm h
        rw [← hm] at i1
        cases h with
        | dropped => exact i1
        | invalid pool _ _ h => subst h; simp [Pool.leave, i1]
        | created pool _ h => subst h; simp [Pool.leave, i1]
      show (step .instant propose n x).pool.future = [] ∧
        (step .instant propose n x).pool.ready.length ≤ (step .instant propose n x).notes
      cases x with
      | submit t =>
        obtain ⟨hs, hlt⟩ := ho t rfl
        show (n.pool.add t).future = [] ∧ (n.pool.add t).ready.length ≤ (submit .instant n t).notes
        have hle : n.notes ≤ (submit .instant n t).notes := by
          simp only [submit]
          split <;> omega
        by_cases hnew : t ∈ n.pool.ready ∨ t ∈ n.pool.future
        · have e : n.pool.add t = n.pool := by simp [Pool.add, hnew]
          rw [e]
          exact ⟨i1, by omega⟩
        · cases ha : addReady n.pool.ready t with
          | none =>
            have e : n.pool.add t = n.pool := by simp [Pool.add, hnew, hs, ha]
            rw [e]
            exact ⟨i1, by omega⟩
          | some r =>
            obtain ⟨l1, l2⟩ := addReady_length ha
            have e : n.pool.add t = ⟨r, []⟩ := by
              simp only [Pool.add, if_neg hnew, hs, ha, if_true]
              rw [i1, promote_nil, if_pos l2]
            have hn : (submit .instant n t).notes = n.notes + 1 := by
              simp only [submit]
              refine if_pos ⟨trivial, decide_eq_true ⟨fun h => hnew (.inl h), fun h => hnew (.inr h), ?_⟩, hlt⟩
              rw [e]
              exact l2
            rw [e, hn]
            exact ⟨rfl, by show r.length ≤ _; omega⟩
      | noted =>
        match hk : n.notes with
        | 0 =>
          simp only [step, hk]
          exact ⟨i1, by omega⟩
        | k + 1 =>
          have hsl := sealed propose true true { n with notes := k }
          have h1 := sealed_fewer hw hsl
          have h2 := (sealed_answers hsl).2
          simp only [step, hk]
          refine ⟨fut _ _ { n with notes := k } _ rfl hsl, ?_⟩
          rw [h2]
          dsimp only at h1 ⊢
          omega
      | tick => exact ⟨i1, i2⟩
      | command c f =>
        have hsl := sealed propose c f n
        have h1 := sealed_fewer hw hsl
        have h2 := (sealed_answers hsl).2
        refine ⟨fut _ _ _ _ rfl hsl, ?_⟩
        show (sealNew propose c f n).1.pool.ready.length ≤ (sealNew propose c f n).1.notes
        rw [h2]
        omega
      | finalize b =>
        simp only [step]
        split <;> exact ⟨i1, i2⟩
  rw [h0] at inv
  exact List.length_eq_zero_iff.1 (Nat.le_zero.1 inv.2)

/-! ## Concrete cases -/

/-- A transaction of key 10, which requires the one before. -/
def exTx (n : Nat) : Tx := ⟨n, 10, n, if n = 0 then [] else [.number 10 (n - 1)], [.number 10 n], 0⟩

/-- Blocks with room for `k` transactions. -/
def exPropose (k : Nat) (r : List Tx) : Proposal := ⟨r.take (k + 1), []⟩

theorem exWorks (k : Nat) : Works (exPropose k) := by
  refine ⟨fun r t ht => List.mem_of_mem_take ht, fun r hr => ?_⟩
  match r, hr with
  | t :: r, _ => exact ⟨t, by simp, .inl (by simp [exPropose])⟩

/-- C149 fails: transaction 1 of an account comes before its transaction 0, and they do not fit in a block together, being
large. The only notification is that of transaction 0. -/
theorem C149_full_false : ¬ C149_full := by
  intro h
  have := (h .instant (exPropose 0) [.submit (exTx 1), .submit (exTx 0), .noted] (exWorks 0)).instant rfl (by decide +kernel)
  revert this
  decide +kernel

/-- And it fails because `engine_createBlock` without empty blocks gets no answer if there are no transactions, in all modes. -/
theorem C149_unanswered (mode : Mode) (propose : List Tx → Proposal) (f : Bool) :
    (run mode propose .new [.command false f]).answers = [.dropped] := rfl

/-- Hypotheses of `C149_instant_order_partial` met: two transactions in their order, two blocks with one each. -/
example : let es := [Event.submit (exTx 0), .submit (exTx 1), .noted, .noted]
    (run .instant (exPropose 0) .new es).blocks = [[exTx 0], [exTx 1]] ∧ (run .instant (exPropose 0) .new es).notes = 0 ∧
    satisfied (run .instant (exPropose 0) .new [.submit (exTx 0)]).pool.ready (exTx 1) = true := by decide +kernel

/-- Interval sealing: two transactions, two ticks with blocks, then nothing to put in one. -/
example : (run (.interval false) (exPropose 0) .new [.submit (exTx 1), .tick, .submit (exTx 0), .tick, .tick, .tick]).blocks =
    [[exTx 0], [exTx 1]] := by decide +kernel

/-- Manual sealing: commands with and without empty blocks. -/
example : let n := run .manual (exPropose 3) .new [.command true false, .submit (exTx 0), .tick, .command false true, .command false true]
    n.answers = [.created 0, .created 1, .dropped] ∧ n.blocks = [[], [exTx 0]] ∧ n.finalized = 2 := by decide +kernel

/-- Finality: the second block is finalized by a command, an attempt to finalize the first one afterwards changes nothing, and
a block that does not exist cannot be finalized. -/
example : let n := run .manual (exPropose 3) .new [.command true false, .command true false, .command true false, .finalize 1]
    n.finalized = 2 ∧ (run .manual (exPropose 3) n [.finalize 0]).finalized = 2 ∧
    (run .manual (exPropose 3) n [.finalize 7]).finalized = 2 := by decide +kernel

end Verif.Sealing
