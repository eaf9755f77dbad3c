import Verif.Messages.Props
/-!
# Property C48: message pagination
-/

namespace Verif.Messages

variable {α : Type}

/-- What a request asks for: the messages of the blocks of the range, those of the first block from the index
on. -/
def wanted (chain : BlockNumber → List α) (r : Request) : List α :=
  (List.range' r.fromBlock (r.toBlock - r.fromBlock)).flatMap
    (fun b => if b = r.fromBlock then (chain b).drop r.fromIndex else chain b)

/-- A client that follows the continuations until there is no next page gets these pages. -/
inductive Follow (chain : BlockNumber → List α) : Request → List (Page α) → Prop
  | last {r p} : getPage chain r = some p → p.hasNext = false → Follow chain r [p]
  | more {r p b i ps} : getPage chain r = some p → p.hasNext = true → p.next = some (b, i) →
      Follow chain { r with fromBlock := b, fromIndex := i } ps → Follow chain r (p :: ps)

/-- The same as `wanted`, by recursion over the blocks. -/
def rest (chain : BlockNumber → List α) : Nat → BlockNumber → Nat → List α
  | 0, _, _ => []
  | n + 1, b, i => (chain b).drop i ++ rest chain n (b + 1) 0

theorem rest_zero (chain : BlockNumber → List α) (n : Nat) : ∀ b, rest chain n b 0 = (List.range' b n).flatMap chain := by
  induction n with
  | zero => intro b; rfl
  | succ n ih => intro b; simp [rest, ih, List.range'_succ]

theorem wanted_eq (chain : BlockNumber → List α) (r : Request) :
    wanted chain r = rest chain (r.toBlock - r.fromBlock) r.fromBlock r.fromIndex := by
  unfold wanted
  cases r.toBlock - r.fromBlock with
  | zero => rfl
  | succ n =>
    rw [rest, List.range'_succ, List.flatMap_cons, if_pos rfl, rest_zero]
    congr 1
    apply List.flatMap_congr
    intro b hb
    rw [List.mem_range'_1] at hb
    rw [if_neg (by omega)]

theorem inner_spec (r : Request) (block size : Nat) (todo : List α) : ∀ (i : Nat) (acc : List α),
    acc.length < r.pageSize → (todo ≠ [] → i + todo.length = size) →
    (inner r block size todo i acc = .inr (acc ++ todo) ∧ (acc ++ todo).length < r.pageSize) ∨
    (∃ pre post, todo = pre ++ post ∧ pre ≠ [] ∧ (acc ++ pre).length = r.pageSize ∧
      inner r block size todo i acc =
        .inl (let next := if post = [] then (block + 1, 0) else (block, i + pre.length)
              if next.1 < r.toBlock then ⟨acc ++ pre, true, some next⟩ else ⟨acc ++ pre, false, none⟩)) := by
  induction todo with
  | nil => intro i acc h _; left; simpa [inner] using h
  | cons m todo ih =>
    intro i acc h hs
    have hs' := hs (by simp)
    rw [List.length_cons] at hs'
    unfold inner checkEnd
    by_cases hc : (acc ++ [m]).length = r.pageSize
    · right
      refine ⟨[m], todo, rfl, by simp, hc, ?_⟩
      rw [if_pos hc]
      have : (i + 1 = size) ↔ todo = [] := by
        rw [← List.length_eq_zero_iff]; omega
      by_cases ht : todo = []
      · rw [if_pos (this.2 ht), if_pos ht]
        by_cases hb : block + 1 < r.toBlock
        · simp only [if_pos hb]
        · simp only [if_neg hb]
      · rw [if_neg (fun e => ht (this.1 e)), if_neg ht]
        by_cases hb : block < r.toBlock
        · simp only [if_pos hb, List.length_singleton]
        · simp only [if_neg hb]
    · rw [if_neg hc]
      dsimp only
      have hl : (acc ++ [m]).length < r.pageSize := by
        rw [List.length_append, List.length_singleton] at hc ⊢; omega
      rcases ih (i + 1) (acc ++ [m]) hl (fun _ => by omega) with ⟨h1, h2⟩ | ⟨pre, post, h1, h2, h3, h4⟩
      · left
        rw [h1]
        simpa using h2
      · right
        refine ⟨m :: pre, post, by rw [h1]; rfl, by simp, by simpa using h3, ?_⟩
        rw [h4]
        simp only [List.append_assoc, List.singleton_append, List.length_cons]
        have : i + 1 + pre.length = i + (pre.length + 1) := by omega
        rw [this]

theorem outer_spec (r : Request) (chain : BlockNumber → List α) (count : Nat) : ∀ (block i : Nat) (acc : List α),
    acc.length < r.pageSize → block + count = r.toBlock →
    let p := outer r chain count block i acc
    (p.hasNext = false ∧ p.content = acc ++ rest chain count block i ∧ p.content.length ≤ r.pageSize) ∨
    (∃ b j, p.hasNext = true ∧ p.next = some (b, j) ∧ block ≤ b ∧ b < r.toBlock ∧ p.content.length = r.pageSize ∧
      acc ++ rest chain count block i = p.content ++ rest chain (r.toBlock - b) b j) := by
  induction count with
  | zero =>
    intro block i acc h _
    left
    exact ⟨rfl, by simp [outer, rest], Nat.le_of_lt h⟩
  | succ n ih =>
    intro block i acc h hb
    have hlen : (chain block).drop i ≠ [] → i + ((chain block).drop i).length = (chain block).length := by
      intro hne
      have : 0 < ((chain block).drop i).length := List.length_pos_iff.2 hne
      rw [List.length_drop] at this ⊢
      omega
    rw [outer]
    rcases inner_spec r block (chain block).length ((chain block).drop i) i acc h hlen with
      ⟨h1, h2⟩ | ⟨pre, post, h1, h2, h3, h4⟩
    · rw [h1]
      dsimp only
      rcases ih (block + 1) 0 (acc ++ (chain block).drop i) h2 (by omega) with ⟨g1, g2, g3⟩ | ⟨b, j, g1, g2, g3, g4, g5, g6⟩
      · left
        exact ⟨g1, by rw [g2, rest, List.append_assoc], g3⟩
      · right
        exact ⟨b, j, g1, g2, by omega, g4, g5, by rw [← g6, rest, List.append_assoc]⟩
    · rw [h4]
      dsimp only
      have hr : acc ++ rest chain (n + 1) block i = acc ++ pre ++ (post ++ rest chain n (block + 1) 0) := by
        rw [rest, h1]; simp
      by_cases hp : post = []
      · rw [if_pos hp]
        by_cases ht : block + 1 < r.toBlock
        · rw [if_pos ht]
          right
          refine ⟨block + 1, 0, rfl, rfl, by omega, ht, h3, ?_⟩
          rw [hr, hp]
          have : r.toBlock - (block + 1) = n := by omega
          rw [this, List.nil_append]
        · rw [if_neg ht]
          left
          refine ⟨rfl, ?_, Nat.le_of_eq h3⟩
          have : n = 0 := by omega
          rw [hr, hp, this]
          simp [rest]
      · rw [if_neg hp, if_pos (by omega)]
        right
        refine ⟨block, i + pre.length, rfl, rfl, Nat.le_refl _, by omega, h3, ?_⟩
        rw [hr]
        have h5 : r.toBlock - block = n + 1 := by omega
        rw [h5, rest]
        have h6 : (chain block).drop (i + pre.length) = post := by
          rw [← List.drop_drop, h1, List.drop_left]
        rw [h6]

/-- One page of a valid request: either the last one with everything that was left, or a full one with a
valid continuation for the remainder. -/
theorem page_spec (chain : BlockNumber → List α) (r : Request) (hr : r.valid = true) :
    ∃ p, getPage chain r = some p ∧
      ((p.hasNext = false ∧ p.content = wanted chain r ∧ p.content.length ≤ r.pageSize) ∨
       (∃ b i, p.hasNext = true ∧ p.next = some (b, i) ∧ p.content.length = r.pageSize ∧
          ({ r with fromBlock := b, fromIndex := i } : Request).valid = true ∧
          wanted chain r = p.content ++ wanted chain { r with fromBlock := b, fromIndex := i })) := by
  have hv := hr
  simp only [Request.valid, decide_eq_true_eq] at hv
  refine ⟨_, if_pos hr, ?_⟩
  rcases outer_spec r chain (r.toBlock - r.fromBlock) r.fromBlock r.fromIndex [] hv.1 (by omega) with
    ⟨h1, h2, h3⟩ | ⟨b, i, h1, h2, h3, h4, h5, h6⟩
  · left
    exact ⟨h1, by rw [h2, wanted_eq, List.nil_append], h3⟩
  · right
    refine ⟨b, i, h1, h2, h5, ?_, ?_⟩
    · simp only [Request.valid, decide_eq_true_eq]
      omega
    · rw [wanted_eq, wanted_eq]
      simpa using h6

/-- C48, which requests are valid: the first page is answered exactly for between one and 10000 messages a page and
between one and 50000 blocks. -/
theorem C48_answered_iff (chain : BlockNumber → List α) (r : Request) :
    (getPage chain r).isSome = true ↔ 1 ≤ r.pageSize ∧ r.pageSize ≤ 10000 ∧ r.fromBlock + 1 ≤ r.toBlock ∧
      r.toBlock ≤ r.fromBlock + 50000 := by
  have h : (getPage chain r).isSome = true ↔ r.valid = true := by
    unfold getPage
    split <;> simp_all
  rw [h, Request.valid, decide_eq_true_eq]
  omega

/-- C48: for every chain content and every valid request, following the continuations comes to an end; and
whenever a client has followed them to the end, the pages together are exactly the messages asked for, in
order and each once, no page is larger than the page size, and only the last can be smaller. -/
theorem C48_pages (chain : BlockNumber → List α) (r : Request) (hr : r.valid = true) :
    (∃ ps, Follow chain r ps) ∧
    ∀ ps, Follow chain r ps →
      (ps.map Page.content).flatten = wanted chain r ∧ (∀ p ∈ ps, p.content.length ≤ r.pageSize) ∧
      (∀ p ∈ ps, p.hasNext = true → p.content.length = r.pageSize) := by
  constructor
  · generalize hn : (wanted chain r).length = n
    induction n using Nat.strong_induction_on generalizing r with
    | _ n ih =>
      obtain ⟨p, hp, ⟨h1, _⟩ | ⟨b, i, h1, h2, h3, h4, h5⟩⟩ := page_spec chain r hr
      · exact ⟨[p], .last hp h1⟩
      · have hpos : 0 < r.pageSize := by
          simp only [Request.valid, decide_eq_true_eq] at hr; omega
        have hl := congrArg List.length h5
        rw [List.length_append] at hl
        obtain ⟨ps, hps⟩ := ih _ (by omega) { r with fromBlock := b, fromIndex := i } h4 rfl
        exact ⟨p :: ps, .more hp h1 h2 hps⟩
  · intro ps hf
    induction hf with
    | @last r p hp hn =>
      obtain ⟨p', hp', h⟩ := page_spec chain r hr
      rw [hp] at hp'
      cases hp'
      rcases h with ⟨_, h2, h3⟩ | ⟨_, _, h1, _⟩
      · refine ⟨by simp [h2], by simpa using h3, ?_⟩
        intro q hq hq'
        rw [List.mem_singleton] at hq
        rw [hq, hn] at hq'
        cases hq'
      · rw [hn] at h1; cases h1
    | @more r p b i ps hp hn hnext _ ih =>
      obtain ⟨p', hp', h⟩ := page_spec chain r hr
      rw [hp] at hp'
      cases hp'
      rcases h with ⟨h1, _⟩ | ⟨b', i', h1, h2, h3, h4, h5⟩
      · rw [hn] at h1; cases h1
      · rw [hnext] at h2
        cases h2
        obtain ⟨g1, g2, g3⟩ := ih h4
        refine ⟨by rw [List.map_cons, List.flatten_cons, g1, h5], ?_, ?_⟩
        · intro q hq
          rcases List.mem_cons.1 hq with rfl | hq
          · exact Nat.le_of_eq h3
          · exact g2 q hq
        · intro q hq hq'
          rcases List.mem_cons.1 hq with rfl | hq
          · exact h3
          · exact g3 q hq hq'

/-- Blocks 1 to 4 with three, none, two and one messages. -/
def exChain (b : BlockNumber) : List Nat :=
  if b = 1 then [10, 11, 12] else if b = 3 then [30, 31] else if b = 4 then [40] else []

/-- Hypotheses met: from index 1 of block 1 in pages of two, the second page ending at the end of a block. -/
example : getPage exChain ⟨1, 1, 5, 2⟩ = some ⟨[11, 12], true, some (2, 0)⟩ ∧
    getPage exChain ⟨2, 0, 5, 2⟩ = some ⟨[30, 31], true, some (4, 0)⟩ ∧
    getPage exChain ⟨4, 0, 5, 2⟩ = some ⟨[40], false, none⟩ ∧
    wanted exChain ⟨1, 1, 5, 2⟩ = [11, 12, 30, 31, 40] := by decide +kernel

end Verif.Messages
