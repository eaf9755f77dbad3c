import Verif.Messages.Props
/-!
# C170: where a message stands in its block changes only its number
-/

namespace Verif.Messages

open Verif.Schemas (Location)

/-! ## Specification -/

/-- A signed call, with the other pallets in some state. -/
structure Item where
  env : Env
  key : AccountId
  call : Call

/-- As a step. -/
def Item.step (x : Item) : Step := .call x.env x.key x.call

/-- The schema it is for. -/
def Item.schema (x : Item) : SchemaId :=
  match x.call with
  | .ipfs schema _ _ => schema
  | .onchain _ schema _ => schema

/-- Whether it is accepted. -/
def takes (cfg : Config) (s : State) (x : Item) : Bool := (dispatch cfg x.env s x.key x.call).isOk

/-- A message in an answer, without its number. -/
def plain (r : Response) : Response := { r with index := 0 }

/-! ## Acceptance depends on the block only -/

theorem takes_congr {cfg : Config} {s t : State} (h : s.block = t.block) (x : Item) : takes cfg s x = takes cfg t x := by
  have key : ∀ {s t : State}, s.block = t.block → takes cfg s x = true → takes cfg t x = true := by
    intro s t h hs
    obtain ⟨env, key, c⟩ := x
    unfold takes at *
    simp only at *
    cases hd : dispatch cfg env s key c with
    | error e => rw [hd] at hs; cases hs
    | ok s' =>
      cases c with
      | onchain o schema payload =>
        simp only [dispatch, addOnchain, bind_eq_ok_iff, ensure_eq_ok_iff, okOr_eq_ok_iff, pure_eq_ok_iff] at hd
        obtain ⟨_, h1, loc, h2, _, h3, p, h4, a, h5, h6⟩ := hd
        have h5' : authorOf env t p schema o = .ok a := by
          rw [← h5]; cases o <;> simp [authorOf, h]
        have : dispatch cfg env t key (.onchain o schema payload) = .ok (addMessage t p (some a) payload schema) := by
          simp only [dispatch, addOnchain, bind_eq_ok_iff, ensure_eq_ok_iff, okOr_eq_ok_iff, pure_eq_ok_iff]
          exact ⟨(), h1, loc, h2, (), h3, p, h4, a, h5', rfl⟩
        rw [this]; rfl
      | ipfs schema cid len =>
        simp only [dispatch, addIpfs, bind_eq_ok_iff, ensure_eq_ok_iff, okOr_eq_ok_iff, pure_eq_ok_iff] at hd
        obtain ⟨b, h1, _, h2, loc, h3, _, h4, p, h5, h6⟩ := hd
        have : dispatch cfg env t key (.ipfs schema cid len) = .ok (addMessage t p none (encodeOffchain b len) schema) := by
          simp only [dispatch, addIpfs, bind_eq_ok_iff, ensure_eq_ok_iff, okOr_eq_ok_iff, pure_eq_ok_iff]
          exact ⟨b, h1, (), h2, loc, h3, (), h4, p, h5, rfl⟩
        rw [this]; rfl
  exact Bool.eq_iff_iff.2 ⟨key h, key h.symm⟩

theorem accepted1_congr {cfg : Config} {s t : State} (h : s.block = t.block) (x : Step) : accepted1 cfg s x = accepted1 cfg t x := by
  cases x with
  | newBlock => rfl
  | call env key c =>
    have := takes_congr (cfg := cfg) h ⟨env, key, c⟩
    simp only [takes] at this
    simp only [accepted1, this, h]

theorem apply_block {cfg : Config} {s t : State} (h : s.block = t.block) (x : Step) : (apply cfg s x).block = (apply cfg t x).block := by
  cases x with
  | newBlock => simp [apply, onInitialize, h]
  | call env key c =>
    have : ∀ s : State, (apply cfg s (.call env key c)).block = s.block := by
      intro s
      rcases apply_cases cfg s (.call env key c) with ⟨h, _⟩ | ⟨h, _⟩ | ⟨_, _, _, _, _, _, _, h⟩
      · cases h
      · rw [h]
      · rw [h]; rfl
    rw [this, this, h]

theorem accepted_congr {cfg : Config} (l : List Step) : ∀ {s t : State}, s.block = t.block → accepted cfg s l = accepted cfg t l := by
  induction l with
  | nil => intro s t _; rfl
  | cons x l ih => intro s t h; rw [accepted, accepted, accepted1_congr h x, ih (apply_block h x)]

theorem item_block {cfg : Config} {s : State} (x : Item) : (apply cfg s x.step).block = s.block := by
  rcases apply_cases cfg s x.step with ⟨h, _⟩ | ⟨h, _⟩ | ⟨_, _, _, _, _, _, _, h⟩
  · cases h
  · rw [h]
  · rw [h]; rfl

theorem items_block {cfg : Config} (h : List Item) : ∀ s : State, (run cfg s (h.map Item.step)).block = s.block := by
  induction h with
  | nil => intro s; rfl
  | cons x h ih => intro s; exact (ih (apply cfg s x.step)).trans (item_block x)

theorem accepted_items {cfg : Config} (h : List Item) : ∀ s : State,
    accepted cfg s (h.map Item.step) = h.flatMap (fun x => accepted1 cfg s x.step) := by
  induction h with
  | nil => intro s; rfl
  | cons x h ih =>
    intro s
    rw [List.map_cons, accepted, ih, List.flatMap_cons]
    congr 1
    exact List.flatMap_congr (fun y _ => accepted1_congr (item_block x) y.step)

theorem accepted1_schema {cfg : Config} {s : State} {x : Item} {r : Rec} (h : r ∈ accepted1 cfg s x.step) : r.schema = x.schema := by
  obtain ⟨env, key, c⟩ := x
  simp only [Item.step, accepted1] at h
  split at h
  · rw [List.mem_singleton] at h
    subst h
    cases c <;> rfl
  · cases h

theorem items_schema {cfg : Config} (s : State) (k : SchemaId) (h : List Item) :
    (h.flatMap (fun x => accepted1 cfg s x.step)).filter (fun r => r.schema = k) =
      (h.filter (fun x => x.schema = k)).flatMap (fun x => accepted1 cfg s x.step) := by
  induction h with
  | nil => rfl
  | cons x h ih =>
    rw [List.flatMap_cons, List.filter_append, ih, List.filter_cons]
    by_cases hx : x.schema = k
    · rw [if_pos (by simpa using hx), List.flatMap_cons]
      congr 1
      rw [List.filter_eq_self]
      intro r hr
      simpa using (accepted1_schema hr).trans hx
    · rw [if_neg (by simpa using hx)]
      have : (accepted1 cfg s x.step).filter (fun r => r.schema = k) = [] := by
        rw [List.filter_eq_nil_iff]
        intro r hr e
        exact hx ((accepted1_schema hr).symm.trans (by simpa using e))
      rw [this, List.nil_append]

/-! ## Answers -/

theorem plain_response (r : Rec) (i : Nat) : plain (r.response i) = r.response 0 := by
  unfold plain Rec.response; cases r.content <;> rfl

theorem plain_expected (acc : List Rec) (k : SchemaId) (b : BlockNumber) :
    (expected acc k b).map plain = ((inBlock acc b).filter (fun r => r.schema = k)).map (fun r => r.response 0) := by
  unfold expected
  rw [List.map_map]
  have h1 : (plain ∘ fun e : Rec × Nat => e.1.response e.2) = (fun r : Rec => r.response 0) ∘ Prod.fst := by
    funext e; exact plain_response e.1 e.2
  rw [h1, ← List.map_map]
  congr 1
  generalize inBlock acc b = l
  generalize 0 = i
  induction l generalizing i with
  | nil => rfl
  | cons r l ih =>
    rw [List.zipIdx_cons, List.filter_cons, List.filter_cons]
    by_cases h : r.schema = k
    · simp [h, ih]
    · simp [h, ih]

/-! ## Theorems -/

/-- C170: whether a message is accepted does not depend on the messages before it in its block. -/
theorem C170_alone (cfg : Config) (s : State) (h : List Item) (x : Item) :
    takes cfg (run cfg s (h.map Item.step)) x = takes cfg s x :=
  takes_congr (items_block h s) x

/-- C170: calls of a block in another order, after any history and followed by any other. Every block announces the same, and
the answers for every schema and block have the same messages, up to their order and number; for schemas whose messages keep
their order, they have them in the same order; for other blocks, with the same numbers. Missing: blocks with more than 65536
messages, which the weight limit of blocks excludes (C141). -/
theorem C170_order_partial (cfg : Config) (hcfg : cfg.maxPayload < 2 ^ 32) (loc : SchemaId → Location) (hist more : List Step)
    (h h' : List Item) (hp : h.Perm h')
    (hloc : ∀ env key c, .call env key c ∈ hist ++ h.map Item.step ++ more → ∀ sch l, env.location sch = some l → l = loc sch)
    (hdec : ∀ env key c, .call env key c ∈ hist ++ h.map Item.step ++ more → c.Decodable)
    (hfew : ∀ b, (inBlock (accepted cfg .init (hist ++ h.map Item.step ++ more)) b).length ≤ 65536) :
    let t := run cfg .init (hist ++ h.map Item.step ++ more)
    let t' := run cfg .init (hist ++ h'.map Item.step ++ more)
    (∀ b, t.events.count b = t'.events.count b) ∧
    ∀ k, (loc k = .onChain ∨ loc k = .ipfs) → ∀ b,
      ((getMessages t k (loc k) b).map plain).Perm ((getMessages t' k (loc k) b).map plain) ∧
      (h.filter (fun x => x.schema = k) = h'.filter (fun x => x.schema = k) →
        (getMessages t k (loc k) b).map plain = (getMessages t' k (loc k) b).map plain) ∧
      (b ≠ (run cfg .init hist).block → getMessages t k (loc k) b = getMessages t' k (loc k) b) := by
  intro t t'
  have hmem : ∀ env key c, Step.call env key c ∈ hist ++ h'.map Item.step ++ more →
      Step.call env key c ∈ hist ++ h.map Item.step ++ more := by
    intro env key c
    simp only [List.mem_append]
    rintro ((h1 | h1) | h1)
    · exact .inl (.inl h1)
    · exact .inl (.inr ((hp.map Item.step).mem_iff.2 h1))
    · exact .inr h1
  have hb : (run cfg .init (hist ++ h.map Item.step)).block = (run cfg .init (hist ++ h'.map Item.step)).block := by
    unfold run
    rw [List.foldl_append, List.foldl_append]
    exact (items_block h _).trans (items_block h' _).symm
  have e : ∀ g : List Item, accepted cfg .init (hist ++ g.map Item.step ++ more) = accepted cfg .init hist ++
      g.flatMap (fun x => accepted1 cfg (run cfg .init hist) x.step) ++ accepted cfg (run cfg .init (hist ++ g.map Item.step)) more := by
    intro g; rw [accepted_append, accepted_append, accepted_items]
  have hpa : (accepted cfg .init (hist ++ h.map Item.step ++ more)).Perm (accepted cfg .init (hist ++ h'.map Item.step ++ more)) := by
    rw [e, e, accepted_congr more hb]
    exact ((hp.flatMap_right _).append_left _).append_right _
  have hfew' : ∀ b, (inBlock (accepted cfg .init (hist ++ h'.map Item.step ++ more)) b).length ≤ 65536 := by
    intro b
    have := hfew b
    unfold inBlock at *
    rwa [← (hpa.filter _).length_eq]
  refine ⟨fun b => ?_, fun k hk b => ?_⟩
  · have h1 := (invE_run (cfg := cfg) (hist ++ h.map Item.step ++ more) invE_init).events b
    have h2 := (invE_run (cfg := cfg) (hist ++ h'.map Item.step ++ more) invE_init).events b
    rw [List.nil_append] at h1 h2
    rw [h1, h2]
    have : inBlock (accepted cfg .init (hist ++ h.map Item.step ++ more)) b = [] ↔
        inBlock (accepted cfg .init (hist ++ h'.map Item.step ++ more)) b = [] := by
      rw [← List.length_eq_zero_iff, ← List.length_eq_zero_iff, inBlock, inBlock, (hpa.filter _).length_eq]
    simp only [this]
  · have h1 : getMessages t k (loc k) b = _ := C46_retrievable_partial cfg hcfg loc _ hloc hdec hfew k b hk
    have h2 : getMessages t' k (loc k) b = _ := C46_retrievable_partial cfg hcfg loc _
      (fun env key c hc => hloc env key c (hmem env key c hc)) (fun env key c hc => hdec env key c (hmem env key c hc)) hfew' k b hk
    rw [h1, h2, plain_expected, plain_expected]
    refine ⟨((hpa.filter _).filter _).map _, fun hf => ?_, fun hn => ?_⟩
    · have key : ∀ g : List Item, (inBlock (accepted cfg .init (hist ++ g.map Item.step ++ more)) b).filter (fun r => r.schema = k) =
          (inBlock (accepted cfg .init hist) b).filter (fun r => r.schema = k) ++
          ((g.filter (fun x => x.schema = k)).flatMap (fun x => accepted1 cfg (run cfg .init hist) x.step)).filter (fun r => r.block = b) ++
          (inBlock (accepted cfg (run cfg .init (hist ++ g.map Item.step)) more) b).filter (fun r => r.schema = k) := by
        intro g
        rw [e, inBlock_append, inBlock_append, List.filter_append, List.filter_append, ← items_schema]
        congr 2
        unfold inBlock
        exact List.filter_comm _ _ _
      rw [key, key, hf, accepted_congr more hb]
    · have key : ∀ g : List Item, inBlock (accepted cfg .init (hist ++ g.map Item.step ++ more)) b =
          inBlock (accepted cfg .init hist) b ++ inBlock (accepted cfg (run cfg .init (hist ++ g.map Item.step)) more) b := by
        intro g
        rw [e, inBlock_append, inBlock_append]
        have : inBlock (g.flatMap (fun x => accepted1 cfg (run cfg .init hist) x.step)) b = [] := by
          unfold inBlock
          rw [List.filter_eq_nil_iff]
          intro r hr
          obtain ⟨x, _, hx⟩ := List.mem_flatMap.1 hr
          obtain ⟨env, key, c⟩ := x
          simp only [Item.step, accepted1] at hx
          split at hx
          · rw [List.mem_singleton] at hx
            subst hx
            have : b ≠ (run cfg .init hist).block := hn
            cases c <;> exact fun e => this (of_decide_eq_true e).symm
          · cases hx
        rw [this, List.append_nil]
      unfold expected
      rw [key, key, accepted_congr more hb]

/-- C170 in full: for any number of messages. -/
def C170_full : Prop :=
  ∀ (cfg : Config), cfg.maxPayload < 2 ^ 32 → ∀ (loc : SchemaId → Location) (hist : List Step) (h h' : List Item), h.Perm h' →
    (∀ env key c, .call env key c ∈ hist ++ h.map Item.step → ∀ sch l, env.location sch = some l → l = loc sch) →
    (∀ env key c, .call env key c ∈ hist ++ h.map Item.step → c.Decodable) →
    ∀ k, (loc k = .onChain ∨ loc k = .ipfs) → ∀ b,
      ((getMessages (run cfg .init (hist ++ h.map Item.step)) k (loc k) b).map plain).Perm
        ((getMessages (run cfg .init (hist ++ h'.map Item.step)) k (loc k) b).map plain)

theorem mem_messages {s : State} {b : BlockNumber} {k : SchemaId} {p : Bytes} :
    (∃ r ∈ (getMessages s k .onChain b).map plain, r.payload = some p) ↔ ∃ i m, s.msgs.get (b, k, i) = some m ∧ m.payload = p := by
  constructor
  · rintro ⟨r, hr, hp⟩
    obtain ⟨q, hq, rfl⟩ := List.mem_map.1 hr
    simp only [getMessages, List.mem_mergeSort, List.mem_map, List.mem_filter, decide_eq_true_eq] at hq
    obtain ⟨⟨⟨b', k', i⟩, m⟩, ⟨hm, hb⟩, rfl⟩ := hq
    obtain ⟨rfl, rfl⟩ : b' = b ∧ k' = k := hb
    exact ⟨i, m, (SMap.mem_entries_iff _ _ _).1 hm, by simpa [plain, toResponse] using hp⟩
  · rintro ⟨i, m, hm, rfl⟩
    refine ⟨plain (toResponse m b .onChain i), List.mem_map_of_mem ?_, rfl⟩
    simp only [getMessages, List.mem_mergeSort, List.mem_map, List.mem_filter, decide_eq_true_eq]
    exact ⟨((b, k, i), m), ⟨(SMap.mem_entries_iff _ _ _).2 hm, rfl, rfl⟩, rfl⟩

/-- An ordinary message with one byte. -/
def byte (x : UInt8) : Item := ⟨exEnv, 5, .onchain none 1 [x]⟩

theorem apply_byte (s : State) (x : UInt8) : apply exCfg s (byte x).step = addMessage s 5 (some 5) [x] 1 := by
  have : dispatch exCfg exEnv s 5 (.onchain none 1 [x]) = .ok (addMessage s 5 (some 5) [x] 1) := by
    simp [dispatch, addOnchain, authorOf, exCfg, exEnv, ensure, okOr, bind, Except.bind, pure, Except.pure]
  simp [Item.step, byte, apply, this]

theorem fill_bytes (n : Nat) (hn : n ≤ 65535) :
    let s := run exCfg (onInitialize .init) (List.replicate n (byte 7).step)
    s.block = 1 ∧ s.index = n ∧ ∀ b k i m, s.msgs.get (b, k, i) = some m → m.payload = [7] := by
  induction n with
  | zero => exact ⟨rfl, rfl, fun b k i m h => by cases h⟩
  | succ n ih =>
    obtain ⟨h1, h2, h3⟩ := ih (by omega)
    simp only [List.replicate_succ']
    have hrun : ∀ (s : State) (l : List Step) (x : Step), run exCfg s (l ++ [x]) = apply exCfg (run exCfg s l) x := by
      intro s l x; simp [run]
    rw [hrun, apply_byte]
    generalize run exCfg (onInitialize .init) (List.replicate n (byte 7).step) = s at *
    refine ⟨h1, ?_, fun b k i m h => ?_⟩
    · show min (s.index + 1) 65535 = n + 1
      omega
    · replace h : (s.msgs.insert (s.block, 1, s.index) ⟨[7], 5, some 5⟩).get (b, k, i) = some m := h
      rw [SMap.get_insert] at h
      split at h
      · cases h; rfl
      · exact h3 b k i m h

theorem full_block (s : State) (hb : s.block = 1) (hi : s.index = 65535)
    (hm : ∀ b k i m, s.msgs.get (b, k, i) = some m → m.payload = [7]) (x y : UInt8) (hxy : x ≠ y) (hx : x ≠ 7) :
    let t := run exCfg s ([byte x, byte y].map Item.step)
    (¬ ∃ i m, t.msgs.get (1, 1, i) = some m ∧ m.payload = [x]) ∧ ∃ i m, t.msgs.get (1, 1, i) = some m ∧ m.payload = [y] := by
  intro t
  have ht : t.msgs = (s.msgs.insert (1, 1, 65535) ⟨[x], 5, some 5⟩).insert (1, 1, 65535) ⟨[y], 5, some 5⟩ := by
    show (apply exCfg (apply exCfg s (byte x).step) (byte y).step).msgs = _
    rw [apply_byte, apply_byte]
    simp [addMessage, hb, hi]
  rw [ht]
  constructor
  · rintro ⟨i, m, h, hp⟩
    rw [SMap.get_insert, SMap.get_insert] at h
    split at h
    · cases h; exact hxy (by simpa using hp.symm)
    · have := hm _ _ _ _ h
      rw [this] at hp
      exact hx (by simpa using hp.symm)
  · exact ⟨65535, _, SMap.get_insert_self .., rfl⟩

/-- False of the pallet alone: in a block with 65535 messages, the next two have the same number, and the last one stays. The
weight limit of blocks excludes this (C141). -/
theorem C170_full_false : ¬ C170_full := by
  intro hf
  have hl : ∀ (hist : List Step), (∀ x ∈ hist, x = .newBlock ∨ ∃ v, x = (byte v).step) →
      (∀ env key c, .call env key c ∈ hist → ∀ sch l, env.location sch = some l → l = exLoc sch) ∧
      ∀ env key c, .call env key c ∈ hist → c.Decodable := by
    intro hist hx
    refine ⟨fun env key c hc sch l h => ?_, fun env key c hc => ?_⟩
    · rcases hx _ hc with h' | ⟨v, h'⟩
      · cases h'
      · cases h'
        replace h : (if sch = 1 then some Location.onChain else if sch = 2 then some .ipfs else if sch = 3 then some .itemized
          else none) = some l := h
        unfold exLoc
        split at h
        · simp_all
        · split at h
          · simp_all
          · split at h <;> simp_all
    · rcases hx _ hc with h' | ⟨v, h'⟩
      · cases h'
      · cases h'; trivial
  obtain ⟨l, hm, h1, h2, h3⟩ : ∃ l : List Step, (∀ x ∈ l, x = (byte 7).step) ∧ (run exCfg (onInitialize .init) l).block = 1 ∧
      (run exCfg (onInitialize .init) l).index = 65535 ∧
      ∀ b k i m, (run exCfg (onInitialize .init) l).msgs.get (b, k, i) = some m → m.payload = [7] :=
    ⟨_, fun x hx => (List.mem_replicate.1 hx).2, fill_bytes 65535 (Nat.le_refl _)⟩
  have hs : ∀ h : List Item, run exCfg .init ((.newBlock :: l) ++ h.map Item.step) =
      run exCfg (run exCfg (onInitialize .init) l) (h.map Item.step) := by
    intro h
    show run exCfg (onInitialize .init) (l ++ h.map Item.step) = _
    unfold run
    rw [List.foldl_append]
  obtain ⟨g1, g2⟩ := hl ((.newBlock :: l) ++ [byte 8, byte 9].map Item.step) (by
    intro x hx
    rcases List.mem_append.1 hx with hx | hx
    · rcases List.mem_cons.1 hx with hx | hx
      · exact .inl hx
      · exact .inr ⟨7, hm x hx⟩
    · simp only [List.map_cons, List.map_nil, List.mem_cons, List.not_mem_nil, or_false] at hx
      rcases hx with hx | hx
      · exact .inr ⟨8, hx⟩
      · exact .inr ⟨9, hx⟩)
  have hp := hf exCfg (by decide) exLoc (.newBlock :: l) [byte 8, byte 9] [byte 9, byte 8]
    (List.Perm.swap _ _ _) g1 g2 1 (.inl rfl) 1
  have e1 : exLoc 1 = .onChain := rfl
  rw [hs, hs, e1] at hp
  generalize run exCfg (onInitialize .init) l = s at *
  have a := (full_block s h1 h2 h3 8 9 (by decide) (by decide)).1
  have b := (full_block s h1 h2 h3 9 8 (by decide) (by decide)).2
  rw [← mem_messages] at a b
  obtain ⟨r, hr, hr'⟩ := b
  exact a ⟨r, hp.mem_iff.2 hr, hr'⟩

/-- Messages under two schemas, one of them refused, in two orders: under schema 2 nothing but the number changes, under schema 1
also the order. -/
def exItems : List Item :=
  [⟨exEnv, 5, .onchain none 1 [1, 2]⟩, ⟨exEnv, 7, .ipfs 2 (Base32.encode [9, 8, 7]) 70000⟩, ⟨exEnv, 5, .onchain (some 6) 1 [3]⟩,
   ⟨exEnv, 5, .onchain (some 7) 1 [4]⟩]

/-- Case for `C170_order_partial`: the messages accepted, and that these are few. -/
example : exItems.map (takes exCfg (onInitialize .init)) = [true, true, true, false] ∧
    (accepted exCfg .init ([.newBlock] ++ exItems.map Item.step ++ [])).map (fun r => r.schema) = [1, 2, 1] ∧
    (accepted exCfg .init ([.newBlock] ++ exItems.reverse.map Item.step ++ [])).map (fun r => r.schema) = [1, 2, 1] ∧
    exItems.filter (fun x => x.schema = 2) = exItems.reverse.filter (fun x => x.schema = 2) ∧
    (run exCfg .init ([.newBlock] ++ exItems.reverse.map Item.step ++ [])).msgs.get (1, 1, 0) = some ⟨[3], 5, some 6⟩ := by
  refine ⟨by decide +kernel, by decide +kernel, by decide +kernel, by simp [exItems, Item.schema], by decide +kernel⟩

end Verif.Messages
