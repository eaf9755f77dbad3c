import Verif.Messages.Lemmas
/-!
# Properties of the messages pallet and of message pagination
-/

namespace Verif.Messages

open Verif.Schemas (Location)

/-! ## Concrete history for the examples -/

/-- Limit of the runtime; identifiers are lower-case base 32, any bytes are an identifier. -/
def exCfg : Config := ⟨3072, Base32.decode, fun _ => true⟩

/-- Schema 1 is on chain, schema 2 on IPFS, schema 3 itemized; key number is account number below 10;
account 5 has a grant from account 6 for schema 1 until block 1. -/
def exEnv : Env :=
  ⟨fun k => if k < 10 then some k else none,
   fun p d s b => p == 5 && d == 6 && s == 1 && decide (b ≤ 1),
   fun s => if s = 1 then some .onChain else if s = 2 then some .ipfs else if s = 3 then some .itemized else none⟩

/-- Location of the schemas. -/
def exLoc (s : SchemaId) : Location := if s = 1 then .onChain else if s = 2 then .ipfs else .itemized

/-- Two blocks with messages under two schemas; three calls fail. -/
def exHist : List Step :=
  [.newBlock,
   .call exEnv 5 (.onchain none 1 [1, 2]),
   .call exEnv 7 (.ipfs 2 (Base32.encode [9, 8, 7]) 70000),
   .call exEnv 5 (.onchain (some 6) 1 [3]),
   .call exEnv 5 (.onchain (some 7) 1 [4]),
   .call exEnv 5 (.onchain none 3 [4]),
   .newBlock,
   .call exEnv 5 (.onchain (some 6) 1 [5]),
   .call exEnv 8 (.onchain none 1 [6])]

/-- State after it. -/
def exState : State := run exCfg .init exHist

/-! ## C46 -/

/-- The messages that should be listed for a schema in a block: those accepted in the block, numbered in
order, as far as they belong to the schema. -/
def expected (acc : List Rec) (schema : SchemaId) (b : BlockNumber) : List Response :=
  ((inBlock acc b).zipIdx.filter (fun e => e.1.schema = schema)).map (fun e => e.1.response e.2)

theorem expected_sorted (acc : List Rec) (schema : SchemaId) (b : BlockNumber) :
    (expected acc schema b).Pairwise (fun x y => x.index < y.index) := by
  unfold expected
  rw [List.pairwise_map]
  refine List.Pairwise.imp (R := fun x y => x.2 < y.2) ?_ (List.Pairwise.filter _ ?_)
  · intro x y h
    have : ∀ (r : Rec) i, (r.response i).index = i := by
      intro r i; unfold Rec.response; cases r.content <;> rfl
    rw [this, this]
    exact h
  · rw [List.pairwise_iff_getElem]
    intro i j hi hj hij
    simp only [List.getElem_zipIdx]
    omega

/-- C46, partial: in every history with at most 65536 accepted messages in each block, the query for a
schema and a block lists exactly the messages accepted there, in order, as submitted, each with its position
in the block as index. Missing: blocks with more messages, see `C46_full_block_loses_messages`; the weight
limit of blocks excludes them (`Verif/Weights`, C141). -/
theorem C46_retrievable_partial (cfg : Config) (hcfg : cfg.maxPayload < 2 ^ 32) (loc : SchemaId → Location)
    (hist : List Step)
    (hloc : ∀ env key c, .call env key c ∈ hist → ∀ sch l, env.location sch = some l → l = loc sch)
    (hdec : ∀ env key c, .call env key c ∈ hist → c.Decodable)
    (hfew : ∀ b, (inBlock (accepted cfg .init hist) b).length ≤ 65536)
    (schema : SchemaId) (b : BlockNumber) (hl : loc schema = .onChain ∨ loc schema = .ipfs) :
    getMessages (run cfg .init hist) schema (loc schema) b = expected (accepted cfg .init hist) schema b := by
  have hS : InvS (run cfg .init hist) (accepted cfg .init hist) := by
    have := invS_run (cfg := cfg) hist invE_init invS_init (by simpa using hfew)
    simpa using this
  have hfacts := accepted_facts (cfg := cfg) loc hist (s := .init) hloc
  have hlen := accepted_len (cfg := cfg) hist (s := .init) hdec
  generalize accepted cfg .init hist = acc at *
  generalize run cfg .init hist = s at *
  have hget : getMessages s schema (loc schema) b =
      ((s.msgs.entries.filter (fun e => e.1.1 = b ∧ e.1.2.1 = schema)).map
        (fun e => toResponse e.2 b (loc schema) e.1.2.2)).mergeSort (fun a b => decide (a.index ≤ b.index)) := by
    unfold getMessages
    rcases hl with hl | hl <;> rw [hl]
  rw [hget]
  have hsortedM := List.pairwise_mergeSort (le := fun a b : Response => decide (a.index ≤ b.index))
    (by intro a b c; simp; omega) (by intro a b; simp; omega)
    ((s.msgs.entries.filter (fun e => e.1.1 = b ∧ e.1.2.1 = schema)).map
        (fun e => toResponse e.2 b (loc schema) e.1.2.2))
  refine sorted_eq ?_ (hsortedM.imp (by simp)) (expected_sorted acc schema b)
  refine (List.mergeSort_perm _ _).trans ?_
  have hidx : ∀ m i, (toResponse m b (loc schema) i).index = i := by
    intro m i
    rcases hl with hl | hl <;> rw [hl] <;> rfl
  rw [List.perm_ext_iff_of_nodup]
  · intro x
    simp only [expected, List.mem_map, List.mem_filter, decide_eq_true_eq, Prod.exists]
    constructor
    · rintro ⟨b', sch, i, m, ⟨hm, rfl, rfl⟩, rfl⟩
      rw [SMap.mem_entries_iff, hS] at hm
      simp only [Option.bind_eq_some_iff] at hm
      obtain ⟨r, hr, hm⟩ := hm
      split at hm
      · rename_i hsch
        cases hm
        have hin : r ∈ inBlock acc b' := List.mem_of_getElem? hr
        simp only [inBlock, List.mem_filter, decide_eq_true_eq] at hin
        obtain ⟨hacc, hrb⟩ := hin
        refine ⟨r, i, ⟨?_, hsch⟩, ?_⟩
        · rw [List.mem_zipIdx_iff_getElem?]
          exact hr
        · have hf := hfacts r hacc
          subst hrb
          subst hsch
          show r.response i = toResponse r.msg r.block (loc r.schema) i
          rw [← hf.2]
          exact (toResponse_msg r i (by omega) (hlen r hacc)).symm
      · cases hm
    · rintro ⟨r, i, ⟨hz, hsch⟩, rfl⟩
      rw [List.mem_zipIdx_iff_getElem?] at hz
      have hz' : (inBlock acc b)[i]? = some r := hz
      have hin : r ∈ inBlock acc b := List.mem_of_getElem? hz'
      simp only [inBlock, List.mem_filter, decide_eq_true_eq] at hin
      obtain ⟨hacc, hrb⟩ := hin
      refine ⟨b, schema, i, r.msg, ⟨?_, rfl, rfl⟩, ?_⟩
      · rw [SMap.mem_entries_iff, hS, hz']
        simp [hsch]
      · have hf := hfacts r hacc
        subst hrb
        subst hsch
        show toResponse r.msg r.block (loc r.schema) i = r.response i
        rw [← hf.2]
        exact toResponse_msg r i (by omega) (hlen r hacc)
  · refine List.Nodup.map_on ?_ ?_
    · rintro ⟨⟨b1, s1, i1⟩, m1⟩ h1 ⟨⟨b2, s2, i2⟩, m2⟩ h2 e
      simp only [List.mem_filter, decide_eq_true_eq] at h1 h2
      obtain ⟨h1, rfl, rfl⟩ := h1
      obtain ⟨h2, rfl, rfl⟩ := h2
      have hi := congrArg Response.index e
      simp only [hidx] at hi
      subst hi
      rw [SMap.mem_entries_iff] at h1 h2
      rw [h1] at h2
      cases h2
      rfl
    · exact (List.Nodup.of_map _ s.msgs.nodup).filter _
  · exact (expected_sorted acc schema b).imp (by rintro a b h rfl; omega)

theorem accepted_append (cfg : Config) (hist more : List Step) : ∀ s : State,
    accepted cfg s (hist ++ more) = accepted cfg s hist ++ accepted cfg (run cfg s hist) more := by
  induction hist with
  | nil => intro s; simp [accepted, run]
  | cons x rest ih =>
    intro s
    have hrun : run cfg s (x :: rest) = run cfg (apply cfg s x) rest := rfl
    simp only [List.cons_append, accepted, hrun, ih, List.append_assoc]

theorem block_le (cfg : Config) (s : State) (x : Step) :
    s.block ≤ (apply cfg s x).block ∧ ∀ r ∈ accepted1 cfg s x, r.block = s.block := by
  rcases apply_cases cfg s x with ⟨_, h1, h2⟩ | ⟨h1, h2⟩ | ⟨env, key, c, r, rfl, ha, h2, h1⟩
  · rw [h1, h2]; simp [onInitialize]
  · rw [h1, h2]; simp
  · rw [h1, h2]
    refine ⟨Nat.le_refl _, ?_⟩
    intro r' hr
    rw [List.mem_singleton] at hr
    subst hr
    exact ha.block

theorem accepted_block (cfg : Config) (hist : List Step) : ∀ s : State, ∀ r ∈ accepted cfg s hist, s.block ≤ r.block := by
  induction hist with
  | nil => intro s r hr; simp [accepted] at hr
  | cons x rest ih =>
    intro s r hr
    have := block_le cfg s x
    rw [accepted, List.mem_append] at hr
    rcases hr with hr | hr
    · exact Nat.le_of_eq (this.2 r hr).symm
    · exact Nat.le_trans this.1 (ih _ r hr)

/-- C46: what is listed for a block does not change any more once the block is over, whatever happens, even
in blocks with very many messages. -/
theorem C46_past_blocks_fixed (cfg : Config) (hist more : List Step) (b : BlockNumber) (schema : SchemaId)
    (loc : Location) (hb : b < (run cfg .init hist).block) :
    getMessages (run cfg .init (hist ++ more)) schema loc b = getMessages (run cfg .init hist) schema loc b := by
  have hrun : run cfg .init (hist ++ more) = run cfg (run cfg .init hist) more := by simp [run]
  rw [hrun]
  clear hrun
  generalize run cfg .init hist = s at *
  induction more generalizing s with
  | nil => rfl
  | cons x rest ih =>
    have hrun : run cfg s (x :: rest) = run cfg (apply cfg s x) rest := rfl
    have hb' := (block_le cfg s x).1
    rw [hrun, ih _ (by omega)]
    rcases apply_cases cfg s x with ⟨_, h1, _⟩ | ⟨h1, _⟩ | ⟨env, key, c, r, rfl, ha, _, h1⟩
    · rw [h1]; rfl
    · rw [h1]
    · rw [h1]
      have hf : (addMessage s r.provider r.msg.author r.msg.payload r.schema).msgs.entries.filter
            (fun e => e.1.1 = b ∧ e.1.2.1 = schema) =
          s.msgs.entries.filter (fun e => e.1.1 = b ∧ e.1.2.1 = schema) := by
        simp only [addMessage, SMap.insert, SMap.erase]
        rw [List.filter_cons, if_neg (by simp; intro h; omega), List.filter_filter]
        apply List.filter_congr
        intro e _
        have : e.1.1 = b → e.1 ≠ (s.block, r.schema, s.index) := by
          intro h h2
          rw [h2] at h
          simp at h
          omega
        by_cases h : e.1.1 = b
        · simp [h, this h]
        · simp [h]
      unfold getMessages
      rw [hf]

theorem exHist_loc : ∀ env key c, .call env key c ∈ exHist → ∀ sch l, env.location sch = some l → l = exLoc sch := by
  intro env key c h sch l
  simp only [exHist, List.mem_cons, List.not_mem_nil, or_false, reduceCtorEq, Step.call.injEq, false_or] at h
  have : env = exEnv := by rcases h with h | h | h | h | h | h | h <;> exact h.1
  subst this
  simp only [exEnv, exLoc]
  split
  · rintro ⟨⟩; rfl
  · split
    · rintro ⟨⟩; rfl
    · split
      · rintro ⟨⟩; rfl
      · rintro ⟨⟩

theorem exState_get (sch : SchemaId) (b : BlockNumber) (h : exLoc sch = .onChain ∨ exLoc sch = .ipfs) :
    getMessages exState sch (exLoc sch) b = expected (accepted exCfg .init exHist) sch b := by
  refine C46_retrievable_partial exCfg (by decide) exLoc exHist exHist_loc ?_ ?_ sch b h
  · intro env key c h
    simp only [exHist, List.mem_cons, List.not_mem_nil, or_false, reduceCtorEq, Step.call.injEq, false_or] at h
    rcases h with h | h | h | h | h | h | h <;> obtain ⟨-, -, rfl⟩ := h <;> simp [Call.Decodable]
  · intro b
    refine Nat.le_trans (List.length_filter_le _ _) ?_
    have : (accepted exCfg .init exHist).length = 4 := by decide +kernel
    omega

/-- Hypotheses met: what is listed for the example. -/
example : getMessages exState 1 .onChain 1 =
      [⟨5, 0, 1, some 5, some [1, 2], none, none⟩, ⟨5, 2, 1, some 6, some [3], none, none⟩] :=
  (exState_get 1 1 (by decide)).trans (by decide +kernel)

example : getMessages exState 2 .ipfs 1 = [⟨7, 1, 1, none, none, some (Base32.encode [9, 8, 7]), some 70000⟩] :=
  (exState_get 2 1 (by decide)).trans (by decide +kernel)

example : getMessages exState 1 .onChain 2 = [⟨8, 0, 2, some 8, some [6], none, none⟩] :=
  (exState_get 1 2 (by decide)).trans (by decide +kernel)

theorem fill (n : Nat) (m : Call) (hm : m = .onchain none 1 [7]) :
    let s := run exCfg (onInitialize .init) (List.replicate n (.call exEnv 5 m))
    s.block = 1 ∧ (∀ b sch i msg, s.msgs.get (b, sch, i) = some msg → i ≤ 65535) ∧ s.index ≤ 65535 ∧
    (accepted exCfg (onInitialize .init) (List.replicate n (.call exEnv 5 m))).length = n := by
  induction n with
  | zero =>
    refine ⟨rfl, ?_, Nat.zero_le _, rfl⟩
    intro b sch i msg h
    cases h
  | succ n ih =>
    have hrun : ∀ (s : State) (l : List Step) (x : Step), run exCfg s (l ++ [x]) = apply exCfg (run exCfg s l) x := by
      intro s l x; simp [run]
    simp only at ih ⊢
    rw [List.replicate_succ', hrun, accepted_append]
    generalize run exCfg (onInitialize .init) (List.replicate n (.call exEnv 5 m)) = s at ih ⊢
    obtain ⟨h1, h2, h3, h4⟩ := ih
    have hd : dispatch exCfg exEnv s 5 m = .ok (addMessage s 5 (some 5) [7] 1) := by
      subst hm
      simp [dispatch, addOnchain, authorOf, exCfg, exEnv, ensure, okOr, bind, Except.bind, pure, Except.pure]
    have ha : apply exCfg s (.call exEnv 5 m) = addMessage s 5 (some 5) [7] 1 := by simp [apply, hd]
    rw [ha]
    refine ⟨h1, ?_, ?_, ?_⟩
    · intro b sch i msg h
      replace h : (s.msgs.insert (s.block, 1, s.index) ⟨[7], 5, some 5⟩).get (b, sch, i) = some msg := h
      rw [SMap.get_insert] at h
      split at h
      · rename_i e
        simp only [Prod.mk.injEq] at e
        omega
      · exact h2 b sch i msg h
    · show min (s.index + 1) 65535 ≤ 65535
      omega
    · rw [List.length_append, h4]
      simp [accepted, accepted1, hd, Except.isOk, Except.toBool]

theorem fill_block (n : Nat) (hist : List Step)
    (hh : hist = .newBlock :: List.replicate n (.call exEnv 5 (.onchain none 1 [7]))) :
    (inBlock (accepted exCfg .init hist) 1).length = n ∧
    (getMessages (run exCfg .init hist) 1 .onChain 1).length ≤ 65536 := by
  obtain ⟨h1, h2, h3, h4⟩ := fill n _ rfl
  have hrun : run exCfg .init hist = run exCfg (onInitialize .init)
      (List.replicate n (.call exEnv 5 (.onchain none 1 [7]))) := by rw [hh]; rfl
  have hacc : accepted exCfg .init hist = accepted exCfg (onInitialize .init)
      (List.replicate n (.call exEnv 5 (.onchain none 1 [7]))) := by rw [hh]; rfl
  rw [hrun, hacc]
  have hE := invE_run (cfg := exCfg) (List.replicate n (.call exEnv 5 (.onchain none 1 [7])))
    (s := onInitialize .init) (acc := []) (invE_step (cfg := exCfg) invE_init .newBlock)
  have hlow := accepted_block exCfg (List.replicate n (.call exEnv 5 (.onchain none 1 [7]))) (onInitialize .init)
  rw [List.nil_append] at hE
  have hpast := hE.past
  rw [h1] at hpast
  clear hE hrun hacc
  constructor
  · have : inBlock (accepted exCfg (onInitialize .init) (List.replicate n (.call exEnv 5 (.onchain none 1 [7])))) 1 =
        accepted exCfg (onInitialize .init) (List.replicate n (.call exEnv 5 (.onchain none 1 [7]))) := by
      simp only [inBlock, List.filter_eq_self, decide_eq_true_eq]
      intro r hr
      have h5 := hpast r hr
      have h6 : 1 ≤ r.block := hlow r hr
      omega
    rw [this]
    exact h4
  · clear h4 hlow hpast
    generalize run exCfg (onInitialize .init) (List.replicate n (.call exEnv 5 (.onchain none 1 [7]))) = s at *
    simp only [getMessages, List.length_mergeSort, List.length_map]
    have hnd : ((s.msgs.entries.filter (fun e => e.1.1 = 1 ∧ e.1.2.1 = 1)).map (fun e => e.1.2.2)).Nodup := by
      refine List.Nodup.map_on ?_ ((List.Nodup.of_map _ s.msgs.nodup).filter _)
      rintro ⟨⟨b1, s1, i1⟩, m1⟩ g1 ⟨⟨b2, s2, i2⟩, m2⟩ g2 e
      simp only [List.mem_filter, decide_eq_true_eq] at g1 g2
      obtain ⟨g1, rfl, rfl⟩ := g1
      obtain ⟨g2, rfl, rfl⟩ := g2
      simp only at e
      subst e
      rw [SMap.mem_entries_iff] at g1 g2
      rw [g1] at g2
      cases g2
      rfl
    have hsub : ((s.msgs.entries.filter (fun e => e.1.1 = 1 ∧ e.1.2.1 = 1)).map (fun e => e.1.2.2)) ⊆ List.range 65536 := by
      intro i hi
      simp only [List.mem_map, List.mem_filter, Prod.exists] at hi
      obtain ⟨b, sch, j, m, ⟨hm, _⟩, rfl⟩ := hi
      rw [SMap.mem_entries_iff] at hm
      have := h2 b sch j m hm
      rw [List.mem_range]
      show j < 65536
      omega
    have := (List.subperm_of_subset hnd hsub).length_le
    rw [List.length_range, List.length_map] at this
    exact this

/-- C46 is false of the code without a limit on the number of messages: the index of the 65537th message of
a block is again 65535, and it replaces the 65536th. Here 65537 messages are accepted in block 1, and at most
65536 of them can be retrieved. -/
theorem C46_full_block_loses_messages :
    let hist := .newBlock :: List.replicate 65537 (.call exEnv 5 (.onchain none 1 [7]))
    (inBlock (accepted exCfg .init hist) 1).length = 65537 ∧
    (getMessages (run exCfg .init hist) 1 .onChain 1).length ≤ 65536 := by
  intro hist
  exact fill_block 65537 hist rfl

/-! ## C47 -/

/-- C47: in every history, a block has emitted the event once if a message was accepted in it, and never
otherwise. -/
theorem C47_announced_once (cfg : Config) (hist : List Step) (b : BlockNumber) :
    (run cfg .init hist).events.count b = if (∃ r ∈ accepted cfg .init hist, r.block = b) then 1 else 0 := by
  have h := invE_run (cfg := cfg) hist invE_init
  rw [List.nil_append] at h
  rw [h.events b]
  have : inBlock (accepted cfg .init hist) b = [] ↔ ¬ ∃ r ∈ accepted cfg .init hist, r.block = b := by
    simp [inBlock, List.filter_eq_nil_iff]
  by_cases hc : ∃ r ∈ accepted cfg .init hist, r.block = b
  · rw [if_pos hc, if_neg (fun e => this.1 e hc)]
  · rw [if_neg hc, if_pos (this.2 hc)]

example : exState.events = [1, 2] ∧ (run exCfg .init (exHist ++ [.newBlock, .call exEnv 11 (.onchain none 1 [7])])).events = [1, 2] := by
  decide +kernel

/-! ## C49 -/

/-- C49: a step that stores or replaces a message stores one of the current block under a schema registered
with the matching location, sent by the account of the caller, within the size limit; and if it is an
on-chain message by another author, that author has an active grant to the sender for the schema in this
block. -/
theorem C49_authorised (cfg : Config) (s : State) (x : Step) (b : BlockNumber) (schema : SchemaId) (i : Nat) (m : Msg)
    (h : (apply cfg s x).msgs.get (b, schema, i) = some m) (hnew : s.msgs.get (b, schema, i) ≠ some m) :
    ∃ env key c, x = .call env key c ∧ b = s.block ∧ env.msaOf key = some m.provider ∧
      m.payload.length ≤ cfg.maxPayload ∧
      ((env.location schema = some .onChain ∧ ∃ a, m.author = some a ∧
          (a ≠ m.provider → env.grant m.provider a schema s.block = true) ∧
          ∃ o, c = .onchain o schema m.payload ∧ o.getD m.provider = a) ∨
       (env.location schema = some .ipfs ∧ m.author = none ∧ ∃ cid len bin, c = .ipfs schema cid len ∧
          cfg.multibase cid = some bin ∧ cfg.cidOk bin = true ∧ m.payload = encodeOffchain bin len)) := by
  rcases apply_cases cfg s x with ⟨_, h1, _⟩ | ⟨h1, _⟩ | ⟨env, key, c, r, rfl, ha, _, h1⟩
  · rw [h1] at h; exact absurd h hnew
  · rw [h1] at h; exact absurd h hnew
  · rw [h1] at h
    have hmsg : (⟨r.msg.payload, r.provider, r.msg.author⟩ : Msg) = r.msg := by
      unfold Rec.msg
      cases r.content <;> rfl
    replace h : (s.msgs.insert (s.block, r.schema, s.index) ⟨r.msg.payload, r.provider, r.msg.author⟩).get
      (b, schema, i) = some m := h
    rw [hmsg, SMap.get_insert] at h
    split at h
    · rename_i e
      simp only [Prod.mk.injEq] at e
      obtain ⟨rfl, rfl, rfl⟩ := e
      cases h
      have hp : r.msg.provider = r.provider := by unfold Rec.msg; cases r.content <;> rfl
      refine ⟨env, key, c, rfl, rfl, by rw [hp]; exact ha.provider, ha.size, ?_⟩
      have hloc := ha.location
      have hcall := ha.call
      unfold Rec.location at hloc
      cases c with
      | onchain o sch p =>
        obtain ⟨rfl, a, h3, h4⟩ := hcall
        rw [h3] at hloc
        refine .inl ⟨hloc, a, by simp [Rec.msg, h3], ?_, o, by simp [Rec.msg, h3], ?_⟩
        · intro hne
          rw [hp] at hne ⊢
          rcases h4 with ⟨_, rfl⟩ | ⟨_, h4⟩
          · exact absurd rfl hne
          · exact h4
        · rw [hp]
          rcases h4 with ⟨rfl, rfl⟩ | ⟨rfl, _⟩ <;> rfl
      | ipfs sch cid len =>
        obtain ⟨rfl, bin, h3, h4, h5, _⟩ := hcall
        rw [h3] at hloc
        exact .inr ⟨hloc, by simp [Rec.msg, h3], cid, len, bin, rfl, h4, h5, by simp [Rec.msg, h3]⟩
    · exact absurd h hnew

/-- Hypotheses met; refused calls: no grant, expired grant, wrong location, no account, payload too long,
version 0 identifier. -/
example : exState.msgs.get (1, 1, 2) = some ⟨[3], 5, some 6⟩ ∧
    ∀ kc ∈ [(5, Call.onchain (some 7) 1 [1]), (5, .onchain (some 6) 1 [1]), (5, .onchain none 2 [1]),
      (11, .onchain none 1 [1]), (5, .onchain none 4 [1]), (5, .onchain none 1 (List.replicate 3073 0)),
      (5, .ipfs 1 (Base32.encode [1, 2]) 3), (5, .ipfs 2 ("QmYwAPJzv5".toList.map (fun c => UInt8.ofNat c.toNat)) 3)],
    (dispatch exCfg exEnv exState kc.1 kc.2).isOk = false := by decide +kernel

/-! ## C50 -/

/-- C50: when an off-chain message is accepted, reading it back gives the length, and a text that decodes to
the bytes of the submitted identifier. -/
theorem C50_reference_survives (cfg : Config) (hcfg : cfg.maxPayload < 2 ^ 32) (env : Env) (s s' : State)
    (key : AccountId) (schema : SchemaId) (cid : Bytes) (len : Nat) (hlen : len < 2 ^ 32)
    (h : dispatch cfg env s key (.ipfs schema cid len) = .ok s') :
    ∃ bin text m, cfg.multibase cid = some bin ∧ s'.msgs.get (s.block, schema, s.index) = some m ∧
      toResponse m s.block .ipfs s.index = ⟨m.provider, s.index, s.block, none, none, some text, some len⟩ ∧
      Base32.decode text = some bin ∧ env.msaOf key = some m.provider := by
  obtain ⟨ha, rfl⟩ := dispatch_ok h
  obtain ⟨_, bin, h1, h2, _⟩ := ha.call
  have hmsg := toResponse_msg (recordOf cfg env s.block key (.ipfs schema cid len)) s.index
    (by have := ha.size; omega) (by intro c l hc; rw [h1] at hc; cases hc; exact hlen)
  have hp := ha.provider
  simp only [recordOf, Rec.msg, Rec.location, Rec.response] at hmsg hp ⊢
  rw [h2] at hmsg ⊢
  exact ⟨bin, Base32.encode bin, _, rfl, SMap.get_insert_self _ _ _, hmsg, Base32.decode_encode bin, hp⟩

/-- Hypotheses met with a length that needs all four bytes and an identifier that needs a two-byte prefix. -/
example : (dispatch exCfg exEnv exState 5 (.ipfs 2 (Base32.encode (List.replicate 100 200)) 4294967295)).isOk = true := by
  decide +kernel

end Verif.Messages
