import Verif.Weights.Lemmas
import Verif.Messages.Props
import Verif.Chain.PropsRefs
import Verif.Wrapped.Props
import Verif.Wallet.Props
/-!
# The messages of a chain, and what was sent
-/

namespace Verif.Weights

open Verif.Wrapped (Call World Filter)
open Verif.Messages (Rec)

/-- A call of the messages pallet that was executed, with the block and the account for which it was. -/
structure Sent where
  block : BlockNumber
  who : AccountId
  call : Messages.Call

/-- The schema of a message. -/
def schemaOf : Messages.Call → SchemaId
  | .onchain _ k _ => k
  | .ipfs k _ _ => k

/-- The location of its schema. -/
def kindOf : Messages.Call → Schemas.Location
  | .onchain .. => .onChain
  | .ipfs .. => .ipfs

/-- The chain was, in this block, in a state in which the key belonged to the account. -/
def Held (cfg : Chain.Config) (n : Nat) (s : Chain.State) (who : AccountId) (b : BlockNumber) (m : MsaId) : Prop :=
  ∃ q q', s = Chain.run cfg (.init n) (q ++ q') ∧ (Chain.run cfg (.init n) q).block = b ∧
    Chain.msaOf (Chain.run cfg (.init n) q) who = some m

/-- The record of a message that was sent. -/
structure Recorded (cfg : Chain.Config) (n : Nat) (s : Chain.State) (x : Sent) (r : Rec) : Prop where
  block : r.block = x.block
  schema : r.schema = schemaOf x.call
  kind : Chain.HasSchema s r.schema (kindOf x.call)
  held : Held cfg n s x.who x.block r.provider
  content : match x.call with
    | .onchain o _ payload => r.content = .onchain (o.getD r.provider) payload
    | .ipfs _ cid len => ∃ bin, cfg.messages.multibase cid = some bin ∧ r.content = .ipfs bin len

/-- The messages of the chain are those sent. -/
def Kept (cfg : Chain.Config) (n : Nat) (s : Chain.State) (l : List Sent) : Prop :=
  ∃ q hist, s = Chain.run cfg (.init n) q ∧ s.messages = Messages.run cfg.messages .init hist ∧
    List.Forall₂ (Recorded cfg n s) l (Messages.accepted cfg.messages .init hist) ∧
    ∀ env key c, .call env key c ∈ hist → (∃ x ∈ l, x.call = c) ∧
      ∀ k loc, env.location k = some loc → Chain.HasSchema s k loc

theorem Recorded.mono {cfg : Chain.Config} {n : Nat} {q : List Chain.Step} {y : Chain.Step} {x : Sent} {r : Rec}
    (h : Recorded cfg n (Chain.run cfg (.init n) q) x r) : Recorded cfg n (Chain.run cfg (.init n) (q ++ [y])) x r := by
  obtain ⟨h1, h2, h3, ⟨q1, q2, h4, h5, h6⟩, h7⟩ := h
  refine ⟨h1, h2, Chain.schema_mono cfg n q [y] _ _ h3, ⟨q1, q2 ++ [y], ?_, h5, h6⟩, h7⟩
  rw [Chain.run_snoc, h4, ← Chain.run_snoc, List.append_assoc]

theorem kept_init (cfg : Chain.Config) (n : Nat) : Kept cfg n (.init n) [] :=
  ⟨[], [], rfl, rfl, .nil, by simp⟩

/-- A step that leaves the messages alone. -/
theorem Kept.other {cfg : Chain.Config} {n : Nat} {s : Chain.State} {l : List Sent} (h : Kept cfg n s l) (y : Chain.Step)
    (he : (Chain.apply cfg s y).messages = s.messages) : Kept cfg n (Chain.apply cfg s y) l := by
  obtain ⟨q, hist, rfl, h2, h3, h4⟩ := h
  have e : Chain.apply cfg (Chain.run cfg (.init n) q) y = Chain.run cfg (.init n) (q ++ [y]) := (Chain.run_snoc ..).symm
  refine ⟨q ++ [y], hist, e, by rw [he, h2], ?_, ?_⟩
  · rw [e]
    exact h3.imp (fun _ _ h => h.mono)
  · intro env key c hm
    refine ⟨(h4 env key c hm).1, fun k loc hk => ?_⟩
    rw [e]
    exact Chain.schema_mono cfg n q [y] _ _ ((h4 env key c hm).2 k loc hk)

theorem Kept.newBlock {cfg : Chain.Config} {n : Nat} {s : Chain.State} {l : List Sent} (h : Kept cfg n s l) :
    Kept cfg n (Chain.apply cfg s .newBlock) l := by
  obtain ⟨q, hist, rfl, h2, h3, h4⟩ := h
  have e : Chain.apply cfg (Chain.run cfg (.init n) q) .newBlock = Chain.run cfg (.init n) (q ++ [.newBlock]) :=
    (Chain.run_snoc ..).symm
  refine ⟨q ++ [.newBlock], hist ++ [.newBlock], e, ?_, ?_, ?_⟩
  · show Messages.onInitialize (Chain.run cfg (.init n) q).messages = _
    rw [h2]
    simp [Messages.run, List.foldl_append, Messages.apply]
  · rw [e, Messages.accepted_append]
    simpa [Messages.accepted, Messages.accepted1] using h3.imp (fun _ _ h => h.mono)
  · intro env key c hm
    simp only [List.mem_append, List.mem_singleton, reduceCtorEq, or_false] at hm
    refine ⟨(h4 env key c hm).1, fun k loc hk => ?_⟩
    rw [e]
    exact Chain.schema_mono cfg n q _ _ _ ((h4 env key c hm).2 k loc hk)

/-- A message. -/
theorem Kept.send {cfg : Chain.Config} {n : Nat} {s : Chain.State} {l : List Sent} (h : Kept cfg n s l)
    {bal : AccountId → Balance} {who : AccountId} {c : Messages.Call} {s' : Chain.State}
    (hd : Chain.dispatch cfg bal s (.signed who) (.messages c) = some s') :
    Kept cfg n s' (l ++ [⟨s.block, who, c⟩]) := by
  obtain ⟨q, hist, rfl, h2, h3, h4⟩ := h
  have e : s' = Chain.run cfg (.init n) (q ++ [.call bal (.signed who) (.messages c)]) := by
    rw [Chain.run_snoc]
    simp [Chain.apply, hd]
  have hb := Chain.messages_block cfg n q
  cases Chain.dispatch_called hd with
  | @messages _ key t ho ht =>
    cases ho
    obtain ⟨ha, ht'⟩ := Messages.dispatch_ok ht
    have hloc : ∀ k loc, (Chain.messagesEnv cfg (Chain.run cfg (.init n) q)).location k = some loc →
        Chain.HasSchema (Chain.run cfg (.init n) (q ++ [.call bal (.signed who) (.messages c)])) k loc := by
      intro k loc hk
      obtain ⟨i, hi, rfl⟩ := Option.map_eq_some_iff.1 hk
      exact Chain.schema_mono cfg n q _ _ _ (Chain.hasSchema_of_info hi)
    rw [e]
    refine ⟨_, hist ++ [.call (Chain.messagesEnv cfg (Chain.run cfg (.init n) q)) who c], rfl, ?_, ?_, ?_⟩
    · rw [← e]
      rw [h2] at ht
      simp [Messages.run, List.foldl_append, Messages.apply] at ht ⊢
      rw [ht]
    · rw [Messages.accepted_append]
      refine List.rel_append (h3.imp (fun _ _ h => h.mono)) ?_
      have hok : (Messages.dispatch cfg.messages (Chain.messagesEnv cfg (Chain.run cfg (.init n) q))
          (Messages.run cfg.messages .init hist) who c).isOk = true := by
        rw [← h2, ht]; rfl
      simp only [Messages.accepted, Messages.accepted1, hok, if_true, List.append_nil]
      refine .cons ?_ .nil
      rw [← h2]
      refine ⟨ha.block.trans hb, ?_, ?_, ⟨q, [.call bal (.signed who) (.messages c)], rfl, rfl, ha.provider⟩, ?_⟩
      · cases c <;> rfl
      · refine hloc _ _ ?_
        rw [ha.location]
        cases c <;> rfl
      · cases c with
        | onchain o k p => rfl
        | ipfs k cid len =>
          obtain ⟨-, bin, h5, h6, -⟩ := ha.call
          exact ⟨bin, h6, h5⟩
    · intro env key c' hm
      rcases List.mem_append.1 hm with hm | hm
      · obtain ⟨⟨x, hx, hc⟩, h5⟩ := h4 env key c' hm
        exact ⟨⟨x, by simp [hx], hc⟩, fun k loc hk => Chain.schema_mono cfg n q _ _ _ (h5 k loc hk)⟩
      · rw [List.mem_singleton] at hm
        cases hm
        exact ⟨⟨_, List.mem_append_right _ (List.mem_singleton.2 rfl), rfl⟩, hloc⟩

/-- Calls of other pallets leave the messages alone. -/
theorem dispatch_messages {cfg : Chain.Config} {bal : AccountId → Balance} {s s' : Chain.State} {o : Chain.Origin}
    {c : Chain.Call} (hd : Chain.dispatch cfg bal s o c = some s') (hc : ∀ m, c ≠ .messages m) :
    s'.messages = s.messages := by
  cases Chain.dispatch_called hd with
  | messages => exact absurd rfl (hc _)
  | _ => rfl

/-- The messages sent by calls executed in a block. -/
def sentOf (b : BlockNumber) (l : List (AccountId × Call)) : List Sent := (posts l).map (fun e => ⟨b, e.1, e.2⟩)

theorem sentOf_append (b : BlockNumber) (l l' : List (AccountId × Call)) : sentOf b (l ++ l') = sentOf b l ++ sentOf b l' := by
  simp [sentOf, posts_append]

/-- The log of a world goes with its messages, from another world on. -/
def Goes (cfg : Wrapped.Config) (n : Nat) (base : List Sent) (w0 w : World) : Prop :=
  w.chain.block = w0.chain.block ∧ ∃ l, w.log = w0.log ++ l ∧ Kept cfg.chain n w.chain (base ++ sentOf w0.chain.block l)

theorem step_goes {cfg : Wrapped.Config} {env : TimeRelease.Env} {n : Nat} {base : List Sent} {w0 w w' : World}
    {who : AccountId} {c : Call} (hi : Goes cfg n base w0 w) (h : Wrapped.step cfg env who w c = some w') :
    Goes cfg n base w0 (w'.done who c) := by
  obtain ⟨hb, l, hl, hk⟩ := hi
  have hblock : w'.chain.block = w.chain.block := Wrapped.step_block h
  refine ⟨hblock.trans hb, l ++ [(who, c)], by simp [World.done, (Wrapped.step_log h).1, hl], ?_⟩
  rw [sentOf_append, ← List.append_assoc]
  show Kept cfg.chain n w'.chain _
  have same : posts [(who, c)] = [] → w'.chain = w.chain → Kept cfg.chain n w'.chain (base ++ sentOf w0.chain.block l ++
      sentOf w0.chain.block [(who, c)]) := by
    intro h1 h2
    rw [h2]
    simpa [sentOf, h1] using hk
  have other : (∀ c', c ≠ .leaf c') → w'.chain = w.chain := by
    intro hc
    have := Wrapped.step_tokens h
    have hq : (Tokens.run cfg.wallet.tokens w.tokens (Wrapped.deed env (who, c)).toList).chain = w.tokens.chain := by
      match c with
      | .leaf c => exact absurd rfl (hc c)
      | .release _ => rfl
      | .transfer .. => exact Wrapped.transfer_chain
      | .transferAll .. => exact Wrapped.transfer_chain
      | .other .. | .addProxy .. | .removeProxy .. | .removeProxies | .createPure ..
      | .killPure .. | .announce .. | .removeAnnouncement .. | .rejectAnnouncement .. | .approveMulti .. | .cancelMulti ..
      | .proxy .. | .proxyAnnounced .. | .batch .. | .asDerivative .. | .payWithCapacity .. | .payWithCapacityBatchAll ..
      | .multiThreshold1 .. | .multi .. => rfl
    show w'.tokens.chain = w.tokens.chain
    rw [this, hq]
  by_cases hleaf : ∃ c', c = .leaf c'
  · obtain ⟨c, rfl⟩ := hleaf
    simp only [Wrapped.step, Option.map_eq_some_iff] at h
    obtain ⟨s, hs, rfl⟩ := h
    show Kept cfg.chain n s _
    by_cases hm : ∃ m, c = .messages m
    · obtain ⟨m, rfl⟩ := hm
      have := hk.send hs
      rw [hb] at this
      simpa [sentOf, posts] using this
    · have hm' : ∀ m, c ≠ .messages m := fun m e => hm ⟨m, e⟩
      have e : s = Chain.apply cfg.chain w.chain (.call (Tokens.bal w.tokens) (.signed who) c) := by
        simp [Chain.apply, hs]
      have hp : posts [(who, .leaf c)] = [] := by
        cases c <;> first | rfl | exact absurd rfl (hm' _)
      have := hk.other (.call (Tokens.bal w.tokens) (.signed who) c) (by rw [← e]; exact dispatch_messages hs hm')
      rw [← e] at this
      simpa [sentOf, hp] using this
  · have hn : ∀ c', c ≠ .leaf c' := fun c' e => hleaf ⟨c', e⟩
    refine same ?_ (other hn)
    cases c <;> first | rfl | exact absurd rfl (hn _)

theorem goes_guarded (cfg : Wrapped.Config) (env : TimeRelease.Env) (n : Nat) (base : List Sent) (w0 : World) :
    Wrapped.Guarded cfg env (Goes cfg n base w0) (fun _ _ _ => True) where
  step := fun _ _ hi h => step_goes hi h
  proxy := by intros; trivial
  announced := by
    rintro w w' delegate real force c d hi - he
    rw [(Wrapped.editAnns_some he).2]
    exact ⟨hi, trivial⟩
  batch := by intros; trivial
  derive := by intros; trivial
  pay := by intros; trivial
  payAll := by intros; trivial
  multi1 := by intros; trivial
  multi := by
    rintro flt who threshold others c w w' id now - ⟨hb, l, hl, hk⟩ ho
    obtain ⟨h1, -, -, h2, -⟩ := Wrapped.operate_frame ho
    refine ⟨⟨?_, l, by rw [h2, hl], ?_⟩, fun _ => trivial⟩
    · show w'.tokens.chain.block = _
      rw [h1]; exact hb
    · show Kept cfg.chain n w'.tokens.chain _
      rw [h1]; exact hk

end Verif.Weights
