import Verif.Messages.Model
import Mathlib.Data.List.Sort
/-!
# Accepted messages, invariants and pagination
-/

namespace Verif.Messages

open Verif.Schemas (Location)

/-! ## What was accepted -/

/-- Content of a message as submitted. -/
inductive Content where
  | onchain (author : MsaId) (payload : Bytes)
  | ipfs (cid : Bytes) (len : Nat)
  deriving DecidableEq, Repr

/-- An accepted message. -/
structure Rec where
  block : BlockNumber
  schema : SchemaId
  provider : MsaId
  content : Content
  deriving DecidableEq, Repr

/-- The message that a call submits: the sender is the provider, and the author unless another is named;
the content identifier is the decoded one. -/
def recordOf (cfg : Config) (env : Env) (block : BlockNumber) (key : AccountId) : Call → Rec
  | .onchain o schema payload =>
    let provider := (env.msaOf key).getD 0
    ⟨block, schema, provider, .onchain (o.getD provider) payload⟩
  | .ipfs schema cid len => ⟨block, schema, (env.msaOf key).getD 0, .ipfs ((cfg.multibase cid).getD []) len⟩

/-- The messages accepted by a step. -/
def accepted1 (cfg : Config) (s : State) : Step → List Rec
  | .newBlock => []
  | .call env key c => if (dispatch cfg env s key c).isOk then [recordOf cfg env s.block key c] else []

/-- The messages accepted in a history, in order. -/
def accepted (cfg : Config) (s : State) : List Step → List Rec
  | [] => []
  | x :: rest => accepted1 cfg s x ++ accepted cfg (apply cfg s x) rest

/-- Those of a block. -/
def inBlock (l : List Rec) (b : BlockNumber) : List Rec := l.filter (fun r => r.block = b)

/-- How a message is stored. -/
def Rec.msg (r : Rec) : Msg :=
  match r.content with
  | .onchain author payload => ⟨payload, r.provider, some author⟩
  | .ipfs cid len => ⟨encodeOffchain cid len, r.provider, none⟩

/-- Location of a schema for such content. -/
def Rec.location (r : Rec) : Location :=
  match r.content with
  | .onchain _ _ => .onChain
  | .ipfs _ _ => .ipfs

/-- The response in which a message should appear. -/
def Rec.response (r : Rec) (index : Nat) : Response :=
  match r.content with
  | .onchain author payload => ⟨r.provider, index, r.block, some author, some payload, none, none⟩
  | .ipfs cid len => ⟨r.provider, index, r.block, none, none, some (Base32.encode cid), some len⟩

/-- Conditions under which a message is accepted. -/
structure Accepted (cfg : Config) (env : Env) (s : State) (key : AccountId) (c : Call) (r : Rec) : Prop where
  block : r.block = s.block
  provider : env.msaOf key = some r.provider
  location : env.location r.schema = some r.location
  size : r.msg.payload.length ≤ cfg.maxPayload
  call : match c with
    | .onchain o schema payload => schema = r.schema ∧
        ∃ a, r.content = .onchain a payload ∧ (o = none ∧ a = r.provider ∨
          o = some a ∧ env.grant r.provider a schema s.block = true)
    | .ipfs schema cid len => schema = r.schema ∧
        ∃ bin, r.content = .ipfs bin len ∧ cfg.multibase cid = some bin ∧ cfg.cidOk bin = true ∧
          utf8Decode cid ≠ none ∧ 2 < cid.length ∧ cid.take 2 ≠ [81, 109]

theorem dispatch_ok {cfg env s key c s'} (h : dispatch cfg env s key c = .ok s') :
    let r := recordOf cfg env s.block key c
    Accepted cfg env s key c r ∧ s' = addMessage s r.provider r.msg.author r.msg.payload r.schema := by
  cases c with
  | onchain o schema payload =>
    simp only [dispatch, addOnchain, bind_eq_ok_iff, ensure_eq_ok_iff, okOr_eq_ok_iff, pure_eq_ok_iff] at h
    obtain ⟨_, h1, loc, h2, _, h3, p, h4, a, h5, rfl⟩ := h
    subst h3
    have ha : a = o.getD p ∧ (o = none ∧ a = p ∨ o = some a ∧ env.grant p a schema s.block = true) := by
      cases o with
      | none => cases h5; exact ⟨rfl, .inl ⟨rfl, rfl⟩⟩
      | some d =>
        simp only [authorOf, bind_eq_ok_iff, ensure_eq_ok_iff, pure_eq_ok_iff] at h5
        obtain ⟨_, h6, rfl⟩ := h5
        exact ⟨rfl, .inr ⟨rfl, h6⟩⟩
    simp only [recordOf, h4, Option.getD_some]
    rw [← ha.1]
    exact ⟨⟨rfl, h4, h2, h1, rfl, a, rfl, ha.2⟩, rfl⟩
  | ipfs schema cid len =>
    simp only [dispatch, addIpfs, validateCid, bind_eq_ok_iff, ensure_eq_ok_iff, okOr_eq_ok_iff, pure_eq_ok_iff] at h
    obtain ⟨bin, ⟨str, h1, _, h2, _, h3, b, h4, _, h5, rfl⟩, _, h6, loc, h7, _, h8, p, h9, rfl⟩ := h
    subst h8
    simp only [recordOf, h9, h4, Option.getD_some]
    exact ⟨⟨rfl, h9, h7, h6, rfl, b, rfl, h4, h5, by rw [h1]; simp, h2, h3⟩, rfl⟩

theorem apply_cases (cfg : Config) (s : State) (x : Step) :
    (x = .newBlock ∧ apply cfg s x = onInitialize s ∧ accepted1 cfg s x = []) ∨
    (apply cfg s x = s ∧ accepted1 cfg s x = []) ∨
    ∃ env key c r, x = .call env key c ∧ Accepted cfg env s key c r ∧ accepted1 cfg s x = [r] ∧
      apply cfg s x = addMessage s r.provider r.msg.author r.msg.payload r.schema := by
  cases x with
  | newBlock => exact .inl ⟨rfl, rfl, rfl⟩
  | call env key c =>
    right
    cases hd : dispatch cfg env s key c with
    | error e => left; simp [apply, accepted1, hd, Except.isOk, Except.toBool]
    | ok s' =>
      right
      obtain ⟨h1, h2⟩ := dispatch_ok hd
      refine ⟨env, key, c, _, rfl, h1, ?_, ?_⟩
      · simp [accepted1, hd, Except.isOk, Except.toBool]
      · simp [apply, hd, h2]

/-! ## Index and events -/

/-- Index and events, for any number of messages in a block. -/
structure InvE (s : State) (acc : List Rec) : Prop where
  past : ∀ r ∈ acc, r.block ≤ s.block
  index : s.index = min (inBlock acc s.block).length 65535
  events : ∀ b, s.events.count b = if inBlock acc b = [] then 0 else 1

theorem inBlock_append (l l' : List Rec) (b : BlockNumber) : inBlock (l ++ l') b = inBlock l b ++ inBlock l' b := by
  simp [inBlock]

theorem invE_step {cfg s acc} (h : InvE s acc) (x : Step) :
    InvE (apply cfg s x) (acc ++ accepted1 cfg s x) := by
  rcases apply_cases cfg s x with ⟨_, h1, h2⟩ | ⟨h1, h2⟩ | ⟨env, key, c, r, rfl, ha, h2, h1⟩
  · rw [h1, h2, List.append_nil]
    refine ⟨?_, ?_, h.events⟩
    · intro r hr
      have := h.past r hr
      simp [onInitialize]
      omega
    · have : inBlock acc (s.block + 1) = [] := by
        simp only [inBlock, List.filter_eq_nil_iff, decide_eq_true_eq]
        intro r hr e
        have := h.past r hr
        omega
      simp [onInitialize, this]
  · rw [h1, h2, List.append_nil]
    exact h
  · rw [h1, h2]
    have hb := ha.block
    refine ⟨?_, ?_, ?_⟩
    · intro r' hr
      rw [List.mem_append, List.mem_singleton] at hr
      rcases hr with hr | rfl
      · exact h.past r' hr
      · exact Nat.le_of_eq hb
    · show min (s.index + 1) 65535 = min (inBlock _ s.block).length 65535
      rw [inBlock_append, h.index]
      have : inBlock [r] s.block = [r] := by simp [inBlock, hb]
      rw [this, List.length_append, List.length_singleton]
      omega
    · intro b
      show (if s.index = 0 then s.events ++ [s.block] else s.events).count b = _
      rw [inBlock_append]
      have hz : s.index = 0 ↔ inBlock acc s.block = [] := by
        rw [h.index, ← List.length_eq_zero_iff]
        omega
      have hev := h.events b
      by_cases e : b = s.block
      · subst e
        have : inBlock [r] s.block = [r] := by simp [inBlock, hb]
        rw [this]
        by_cases hi : s.index = 0
        · rw [if_pos hi, List.count_append, hev, if_pos (hz.1 hi)]
          simp
        · rw [if_neg hi, hev, if_neg (fun e => hi (hz.2 e))]
          simp
      · have : inBlock [r] b = [] := by simp [inBlock, hb, Ne.symm e]
        rw [this, List.append_nil, ← hev]
        split
        · rw [List.count_append]
          simp [List.count_cons, Ne.symm e]
        · rfl

theorem invE_run {cfg} (hist : List Step) : ∀ {s acc}, InvE s acc →
    InvE (run cfg s hist) (acc ++ accepted cfg s hist) := by
  induction hist with
  | nil => intro s acc h; simpa [run, accepted] using h
  | cons x rest ih =>
    intro s acc h
    have hrun : run cfg s (x :: rest) = run cfg (apply cfg s x) rest := rfl
    rw [hrun, accepted, ← List.append_assoc]
    exact ih (invE_step h x)

theorem invE_init : InvE .init [] := ⟨by simp, rfl, fun b => rfl⟩

/-! ## Storage -/

/-- The storage holds exactly the accepted messages, each under its position in the block. -/
def InvS (s : State) (acc : List Rec) : Prop :=
  ∀ b sch i, s.msgs.get (b, sch, i) =
    ((inBlock acc b)[i]?).bind (fun r => if r.schema = sch then some r.msg else none)

theorem invS_step {cfg s acc} (he : InvE s acc) (h : InvS s acc) (x : Step)
    (hb : ∀ b, (inBlock (acc ++ accepted1 cfg s x) b).length ≤ 65536) :
    InvS (apply cfg s x) (acc ++ accepted1 cfg s x) := by
  rcases apply_cases cfg s x with ⟨_, h1, h2⟩ | ⟨h1, h2⟩ | ⟨env, key, c, r, rfl, ha, h2, h1⟩
  · rw [h1, h2, List.append_nil]
    exact h
  · rw [h1, h2, List.append_nil]
    exact h
  · rw [h1]
    rw [h2] at hb ⊢
    intro b sch i
    have hrb := ha.block
    have hbs := hb s.block
    have hidx := he.index
    rw [inBlock_append] at hbs ⊢
    have hone : inBlock [r] s.block = [r] := by simp [inBlock, hrb]
    rw [hone, List.length_append, List.length_singleton] at hbs
    have hidx' : s.index = (inBlock acc s.block).length := by omega
    show (s.msgs.insert (s.block, r.schema, s.index) ⟨r.msg.payload, r.provider, r.msg.author⟩).get (b, sch, i) = _
    have hmsg : (⟨r.msg.payload, r.provider, r.msg.author⟩ : Msg) = r.msg := by
      unfold Rec.msg
      cases r.content <;> rfl
    rw [hmsg, SMap.get_insert, h]
    by_cases e : s.block = b
    · subst e
      rw [hone]
      by_cases ei : i = (inBlock acc s.block).length
      · subst ei
        rw [hidx', List.getElem?_concat_length]
        by_cases es : r.schema = sch
        · subst es
          simp
        · rw [if_neg (by simp [es])]
          simp [es]
      · rw [if_neg (by rw [hidx']; simp; intro _ e2; exact ei e2.symm)]
        by_cases hlt : i < (inBlock acc s.block).length
        · rw [List.getElem?_append_left hlt]
        · rw [List.getElem?_eq_none (by omega), List.getElem?_eq_none (by simp; omega)]
    · have : inBlock [r] b = [] := by simp [inBlock, hrb, e]
      rw [this, List.append_nil, if_neg (by simp [e])]

theorem invS_run {cfg} (hist : List Step) : ∀ {s acc}, InvE s acc → InvS s acc →
    (∀ b, (inBlock (acc ++ accepted cfg s hist) b).length ≤ 65536) →
    InvS (run cfg s hist) (acc ++ accepted cfg s hist) := by
  induction hist with
  | nil => intro s acc _ h _; simpa [run, accepted] using h
  | cons x rest ih =>
    intro s acc he h hb
    have hrun : run cfg s (x :: rest) = run cfg (apply cfg s x) rest := rfl
    rw [accepted, ← List.append_assoc] at hb ⊢
    rw [hrun]
    refine ih (invE_step he x) (invS_step he h x ?_) hb
    intro b
    have := hb b
    rw [inBlock_append] at this
    rw [List.length_append] at this
    omega

theorem invS_init : InvS .init [] := by intro b sch i; simp [inBlock]; rfl

/-- Accepted messages are within the size limit and were accepted under a schema of their location. -/
theorem accepted_facts {cfg} (loc : SchemaId → Location) (hist : List Step) : ∀ {s},
    (∀ env key c, .call env key c ∈ hist → ∀ sch l, env.location sch = some l → l = loc sch) →
    ∀ r ∈ accepted cfg s hist, r.msg.payload.length ≤ cfg.maxPayload ∧ r.location = loc r.schema := by
  induction hist with
  | nil => intro s _ r hr; simp [accepted] at hr
  | cons x rest ih =>
    intro s hl r hr
    rw [accepted, List.mem_append] at hr
    rcases hr with hr | hr
    · rcases apply_cases cfg s x with ⟨_, _, h2⟩ | ⟨_, h2⟩ | ⟨env, key, c, r', rfl, ha, h2, _⟩
      · rw [h2] at hr; simp at hr
      · rw [h2] at hr; simp at hr
      · rw [h2, List.mem_singleton] at hr
        subst hr
        exact ⟨ha.size, hl env key c (by simp) _ _ ha.location⟩
    · exact ih (fun env key c hm => hl env key c (by simp [hm])) r hr

theorem decodeOffchain_encode (cid : Bytes) (len : Nat) (hc : cid.length < 2 ^ 32) (hl : len < 2 ^ 32) :
    decodeOffchain (encodeOffchain cid len) = (cid, len) := by
  unfold decodeOffchain encodeOffchain
  rw [Scale.decVecU8_vecU8 cid hc]
  simp only
  have := Scale.decLe_leBytes 4 len (by omega) []
  rw [List.append_nil] at this
  simp only [Scale.u32, this]

/-- Lengths given with off-chain messages are 32-bit numbers. -/
def Call.Decodable : Call → Prop
  | .ipfs _ _ len => len < 2 ^ 32
  | .onchain _ _ _ => True

theorem accepted_len {cfg} (hist : List Step) : ∀ {s},
    (∀ env key c, .call env key c ∈ hist → c.Decodable) →
    ∀ r ∈ accepted cfg s hist, ∀ cid len, r.content = .ipfs cid len → len < 2 ^ 32 := by
  induction hist with
  | nil => intro s _ r hr; simp [accepted] at hr
  | cons x rest ih =>
    intro s hl r hr
    rw [accepted, List.mem_append] at hr
    rcases hr with hr | hr
    · rcases apply_cases cfg s x with ⟨_, _, h2⟩ | ⟨_, h2⟩ | ⟨env, key, c, r', rfl, ha, h2, _⟩
      · rw [h2] at hr; simp at hr
      · rw [h2] at hr; simp at hr
      · rw [h2, List.mem_singleton] at hr
        subst hr
        intro cid len hc
        have hdec := hl env key c (by simp)
        have hcall := ha.call
        cases c with
        | onchain o sch p =>
          obtain ⟨_, a, h3, _⟩ := hcall
          rw [h3] at hc
          cases hc
        | ipfs sch ci le =>
          obtain ⟨_, bin, h3, _⟩ := hcall
          rw [h3] at hc
          cases hc
          exact hdec
    · exact ih (fun env key c hm => hl env key c (by simp [hm])) r hr

theorem length_vecU8 (b : Bytes) : b.length ≤ (Scale.vecU8 b).length := by
  simp [Scale.vecU8]

/-- The stored form of a message is presented as it was submitted. -/
theorem toResponse_msg (r : Rec) (i : Nat) (hsize : r.msg.payload.length < 2 ^ 32)
    (hlen : ∀ cid len, r.content = .ipfs cid len → len < 2 ^ 32) :
    toResponse r.msg r.block r.location i = r.response i := by
  unfold Rec.msg Rec.location Rec.response at *
  cases hc : r.content with
  | onchain a p => rfl
  | ipfs cid len =>
    rw [hc] at hsize
    simp only [toResponse]
    have h1 : cid.length < 2 ^ 32 := by
      have := length_vecU8 cid
      simp only [encodeOffchain, List.length_append] at hsize
      omega
    rw [decodeOffchain_encode cid len h1 (hlen cid len hc)]

/-! ## Order of the query -/

theorem sorted_eq {l l' : List Response} (hp : l.Perm l') (h : l.Pairwise (fun a b => a.index ≤ b.index))
    (h' : l'.Pairwise (fun a b => a.index < b.index)) : l = l' := by
  have hinj : ∀ a ∈ l', ∀ b ∈ l', a.index = b.index → a = b := by
    intro a ha b hb e
    by_contra hne
    rcases List.mem_iff_getElem.1 ha with ⟨i, hi, rfl⟩
    rcases List.mem_iff_getElem.1 hb with ⟨j, hj, rfl⟩
    rw [List.pairwise_iff_getElem] at h'
    rcases Nat.lt_trichotomy i j with hij | rfl | hij
    · have := h' i j hi hj hij; omega
    · exact hne rfl
    · have := h' j i hj hi hij; omega
  refine List.Perm.eq_of_pairwise (le := fun a b => a.index ≤ b.index) ?_ h (h'.imp (fun {a b} h => Nat.le_of_lt h)) hp
  intro a b ha hb h1 h2
  exact hinj a (hp.subset ha) b hb (by omega)

end Verif.Messages
