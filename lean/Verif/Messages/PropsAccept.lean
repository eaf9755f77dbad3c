import Verif.Messages.Props
/-!
# When a message is accepted, and exactly what then changes
-/

namespace Verif.Messages

open Verif.Schemas (Location)

/-! ## Specification -/

/-- Bytes that the length of a list of `n` bytes takes in front of it. -/
def prefixSize (n : Nat) : Nat := if n < 64 then 1 else if n < 16384 then 2 else if n < 1073741824 then 4 else 5

/-- An on-chain message is admissible: small enough, the schema says on chain, the key belongs to an account,
and the account named as author, if any, has an active grant to the sender for the schema. -/
def OnchainOk (cfg : Config) (env : Env) (block : BlockNumber) (key : AccountId) (onBehalfOf : Option MsaId)
    (schema : SchemaId) (payload : Bytes) : Prop :=
  payload.length ≤ cfg.maxPayload ∧ env.location schema = some .onChain ∧
  ∃ sender, env.msaOf key = some sender ∧ ∀ d, onBehalfOf = some d → env.grant sender d schema block = true

/-- An IPFS message is admissible: the identifier is text of more than two characters, not of version 0
(which starts with `Qm`), and decodes to `bin`; its bytes, their length and four bytes of content length fit;
the schema says IPFS; and the key belongs to an account. -/
def IpfsOk (cfg : Config) (env : Env) (key : AccountId) (schema : SchemaId) (cid : Bytes) : Prop :=
  utf8Decode cid ≠ none ∧ 2 < cid.length ∧ cid.take 2 ≠ [81, 109] ∧
  (∃ bin, cfg.multibase cid = some bin ∧ cfg.cidOk bin = true ∧
    prefixSize bin.length + bin.length + 4 ≤ cfg.maxPayload) ∧
  env.location schema = some .ipfs ∧ ∃ sender, env.msaOf key = some sender

theorem length_compact (n : Nat) : (Scale.compact n).length = prefixSize n := by
  unfold Scale.compact prefixSize
  split
  · rw [Scale.length_leBytes, if_pos (by omega)]
  · split
    · rw [Scale.length_leBytes, if_neg (by omega), if_pos (by omega)]
    · split
      · rw [Scale.length_leBytes, if_neg (by omega), if_neg (by omega), if_pos (by omega)]
      · rw [List.length_cons, Scale.length_leBytes, if_neg (by omega), if_neg (by omega), if_neg (by omega)]

theorem length_encodeOffchain (cid : Bytes) (len : Nat) :
    (encodeOffchain cid len).length = prefixSize cid.length + cid.length + 4 := by
  simp only [encodeOffchain, Scale.vecU8, Scale.u32, Scale.length_leBytes, length_compact, List.length_append]

theorem authorOf_iff {env : Env} {s : State} {p : MsaId} {schema : SchemaId} {o : Option MsaId} {a : MsaId} :
    authorOf env s p schema o = .ok a ↔
      a = o.getD p ∧ ∀ d, o = some d → env.grant p d schema s.block = true := by
  cases o with
  | none =>
    constructor
    · rintro ⟨⟩; exact ⟨rfl, by simp⟩
    · rintro ⟨rfl, -⟩; rfl
  | some d =>
    simp only [authorOf, bind_eq_ok_iff, ensure_eq_ok_iff, pure_eq_ok_iff, Option.getD_some, Option.some.injEq,
      forall_eq']
    constructor
    · rintro ⟨_, h, rfl⟩; exact ⟨rfl, h⟩
    · rintro ⟨rfl, h⟩; exact ⟨(), h, rfl⟩

/-! ## C84 -/

/-- C84: an on-chain message call succeeds exactly if it is admissible. -/
theorem C84_onchain_accepted_iff (cfg : Config) (env : Env) (s : State) (key : AccountId)
    (onBehalfOf : Option MsaId) (schema : SchemaId) (payload : Bytes) :
    (∃ s', dispatch cfg env s key (.onchain onBehalfOf schema payload) = .ok s') ↔
      OnchainOk cfg env s.block key onBehalfOf schema payload := by
  simp only [dispatch, addOnchain, bind_eq_ok_iff, ensure_eq_ok_iff, okOr_eq_ok_iff, pure_eq_ok_iff,
    authorOf_iff, OnchainOk]
  constructor
  · rintro ⟨_, _, h1, _, h2, _, rfl, p, h4, _, ⟨_, h5⟩, _⟩
    exact ⟨h1, h2, p, h4, h5⟩
  · rintro ⟨h1, h2, p, h4, h5⟩
    exact ⟨_, (), h1, _, h2, (), rfl, p, h4, _, ⟨rfl, h5⟩, rfl⟩

/-- C84: an IPFS message call succeeds exactly if it is admissible. -/
theorem C84_ipfs_accepted_iff (cfg : Config) (env : Env) (s : State) (key : AccountId) (schema : SchemaId)
    (cid : Bytes) (len : Nat) :
    (∃ s', dispatch cfg env s key (.ipfs schema cid len) = .ok s') ↔ IpfsOk cfg env key schema cid := by
  simp only [dispatch, addIpfs, validateCid, bind_eq_ok_iff, ensure_eq_ok_iff, okOr_eq_ok_iff, pure_eq_ok_iff,
    length_encodeOffchain, IpfsOk]
  constructor
  · rintro ⟨_, bin, ⟨str, h1, _, h2, _, h3, b, h4, _, h5, rfl⟩, _, h6, _, h7, _, rfl, p, h9, _⟩
    exact ⟨by rw [h1]; simp, h2, h3, ⟨b, h4, h5, h6⟩, h7, p, h9⟩
  · rintro ⟨h1, h2, h3, ⟨b, h4, h5, h6⟩, h7, p, h9⟩
    obtain ⟨str, h1⟩ := Option.ne_none_iff_exists'.1 h1
    exact ⟨_, b, ⟨str, h1, (), h2, (), h3, b, h4, (), h5, rfl⟩, (), h6, _, h7, (), rfl, p, h9, rfl⟩

/-- C84: an accepted on-chain message is stored under its block, schema and the next free number of the
block, as submitted, and nothing else changes. -/
theorem C84_onchain_effect (cfg : Config) (env : Env) (s s' : State) (key : AccountId)
    (onBehalfOf : Option MsaId) (schema : SchemaId) (payload : Bytes) (sender : MsaId)
    (hk : env.msaOf key = some sender)
    (h : dispatch cfg env s key (.onchain onBehalfOf schema payload) = .ok s') :
    s'.block = s.block ∧ ∀ k, s'.msgs.get k =
      if k = (s.block, schema, s.index) then some ⟨payload, sender, some (onBehalfOf.getD sender)⟩
      else s.msgs.get k := by
  obtain ⟨-, rfl⟩ := dispatch_ok h
  refine ⟨rfl, fun k => ?_⟩
  simp only [addMessage, recordOf, Rec.msg, hk, Option.getD_some, SMap.get_insert, eq_comm (b := k)]

/-- C84: an accepted IPFS message is stored likewise, as decoded identifier and content length without
author, and nothing else changes. -/
theorem C84_ipfs_effect (cfg : Config) (env : Env) (s s' : State) (key : AccountId)
    (schema : SchemaId) (cid bin : Bytes) (len : Nat) (sender : MsaId)
    (hk : env.msaOf key = some sender) (hc : cfg.multibase cid = some bin)
    (h : dispatch cfg env s key (.ipfs schema cid len) = .ok s') :
    s'.block = s.block ∧ ∀ k, s'.msgs.get k =
      if k = (s.block, schema, s.index) then
        some ⟨Scale.vecU8 bin ++ Scale.u32 len, sender, none⟩
      else s.msgs.get k := by
  obtain ⟨-, rfl⟩ := dispatch_ok h
  refine ⟨rfl, fun k => ?_⟩
  simp only [addMessage, recordOf, Rec.msg, hk, hc, Option.getD_some, SMap.get_insert, eq_comm (b := k)]
  rfl

/-- C84: a message that is refused changes nothing, and the start of a block keeps every message. -/
theorem C84_nothing_else (cfg : Config) (s : State) :
    (∀ env key c, (¬ ∃ s', dispatch cfg env s key c = .ok s') → apply cfg s (.call env key c) = s) ∧
    (apply cfg s .newBlock).msgs = s.msgs := by
  refine ⟨fun env key c h => ?_, rfl⟩
  cases hd : dispatch cfg env s key c with
  | error e => simp only [apply, hd]
  | ok s' => exact absurd ⟨s', hd⟩ h

example : OnchainOk exCfg exEnv 1 5 (some 6) 1 [3] ∧ ¬ OnchainOk exCfg exEnv 2 5 (some 6) 1 [3] ∧
    OnchainOk exCfg exEnv 2 5 none 1 [3] ∧ ¬ OnchainOk exCfg exEnv 2 5 none 2 [3] := by
  refine ⟨⟨by decide, rfl, 5, rfl, ?_⟩, ?_, ⟨by decide, rfl, 5, rfl, by simp⟩, ?_⟩
  · rintro d ⟨⟩; rfl
  · rintro ⟨-, -, p, h, h'⟩
    cases h
    exact absurd (h' 6 rfl) (by decide)
  · rintro ⟨-, h, -⟩
    exact absurd h (by decide)

example : IpfsOk exCfg exEnv 7 2 (Base32.encode [9, 8, 7]) := by
  refine ⟨by decide +kernel, by decide +kernel, by decide +kernel, ⟨[9, 8, 7], ?_, rfl, by decide⟩, rfl, 7, rfl⟩
  simp only [exCfg, Base32.decode_encode]

end Verif.Messages
