import Verif.Network.Props
import Verif.Chain.PropsSigned
/-!
# C160: requests for others to submit are no transactions
-/

namespace Verif.Network

open Verif.Chain (Request)

/-! ## Specification -/

/-- The number of a pallet in `construct_runtime!`, runtime/frequency/src/lib.rs 1166-1223. -/
def palletNumber : Runtime.Pallet → Nat
  | .system => 0 | .parachainSystem => 1 | .timestamp => 2 | .sudo => 4 | .preimage => 5 | .democracy => 6
  | .scheduler => 8 | .utility => 9 | .balances => 10 | .council => 12 | .technicalCommittee => 13 | .treasury => 14
  | .collatorSelection => 21 | .session => 22 | .multisig => 30 | .timeRelease => 40 | .proxy => 43 | .msa => 60
  | .messages => 61 | .schemas => 62 | .statefulStorage => 63 | .capacity => 64 | .handles => 66 | .passkey => 67

/-- That of the pallet of a call; `frequency-tx-payment` has the number 65. -/
def pallet : Runtime.Call → Nat
  | .msa _ => 60
  | .fn f _ => palletNumber f.pallet
  | .batch .. | .asDerivative .. => 9
  | .payWithCapacity _ | .payWithCapacityBatchAll _ => 65
  | .proxy .. => 43
  | .multiThreshold1 .. => 30

/-- Calls are encoded as the number of the pallet, that of the call in the pallet, and arguments; the last call of the pallet
of accounts has the number 12 (pallets/msa/src/lib.rs 893). -/
def Indexed (cfg : Config) : Prop :=
  ∀ c, ∃ (i : UInt8) (args : Bytes), cfg.callBytes c = UInt8.ofNat (pallet c.view) :: i :: args ∧
    (pallet c.view = 60 → i.toNat ≤ 12)

/-- The text `<Bytes>`, something, and the text `</Bytes>`. -/
def Text (b : Bytes) : Prop := ∃ p, b = "<Bytes>".toUTF8.toList ++ p ++ "</Bytes>".toUTF8.toList

/-- No hash reads like this. -/
def NoText (cfg : Config) : Prop := ∀ b, ¬ Text (cfg.hash b)

/-- All signatures are checked in the same way (`MultiSignature::verify`). -/
structure Checked (cfg : Config) (verify : Signature → AccountId → Bytes → Bool) : Prop where
  transactions : cfg.whole.verify = verify
  msa : cfg.whole.wrapped.chain.msa.verify = verify
  handles : cfg.whole.wrapped.chain.handles.verify = verify
  storage : cfg.whole.wrapped.chain.storage.verify = verify

/-- The signatures that a call carries, the accounts they are said to be of, and what for. -/
def carried : Chain.Call → List (Signature × AccountId × Request)
  | .msa (.createSponsoredAccountWithDelegation k sig p) => [(sig, k, .delegation p)]
  | .msa (.grantDelegation k sig p) => [(sig, k, .delegation p)]
  | .msa (.addPublicKeyToMsa k sig sig' p) => [(sig, k, .key p), (sig', p.newPublicKey, .key p)]
  | .handles (.claim k sig p) => [(sig, k, .handle p)]
  | .handles (.change k sig p) => [(sig, k, .handle p)]
  | .storage (.applyItemActionsWithSignature k sig p) => [(sig, k, .items p)]
  | .storage (.upsertPageWithSignature k sig p) => [(sig, k, .upsert p)]
  | .storage (.deletePageWithSignature k sig p) => [(sig, k, .delete p)]
  | _ => []

/-! ## Bytes -/

theorem request_text (r : Request) : Text r.bytes := by
  have h1 : "<Bytes>".toUTF8.toList = [60, 66, 121, 116, 101, 115, 62] := by decide +kernel
  have h2 : "</Bytes>".toUTF8.toList = [60, 47, 66, 121, 116, 101, 115, 62] := by decide +kernel
  unfold Text
  rw [h1, h2]
  cases r <;> exact ⟨_, by simp only [Request.bytes, Msa.wrap, Handles.wrap, Stateful.wrap, List.append_assoc]; rfl⟩

theorem pallet_lt (c : Runtime.Call) : pallet c < 256 := by
  have : ∀ p, palletNumber p < 256 := by intro p; cases p <;> decide
  cases c <;> simp only [pallet] <;> first | omega | exact this _

theorem text_head {b : Bytes} (h : Text b) : ∃ rest, b = 60 :: 66 :: rest := by
  obtain ⟨p, rfl⟩ := h
  have h1 : "<Bytes>".toUTF8.toList = [60, 66, 121, 116, 101, 115, 62] := by decide +kernel
  rw [h1]
  exact ⟨_, rfl⟩

/-- **C160.** What is signed for a transaction of at most 256 bytes is never what is signed for a request: the text `<Bytes>` would
be the call number 66 of the pallet number 60, which has no such call. For a longer one it would have to be the hash. -/
theorem C160_bytes (cfg : Config) (hc : Indexed cfg) (s : Sent) (a : Bytes) (r : Request) :
    (s.chosen cfg ++ a).length ≤ 256 ∧ digest cfg (s.chosen cfg ++ a) ≠ r.bytes ∨
    256 < (s.chosen cfg ++ a).length ∧ digest cfg (s.chosen cfg ++ a) = cfg.hash (s.chosen cfg ++ a) := by
  unfold digest
  by_cases hl : 256 < (s.chosen cfg ++ a).length
  · rw [if_pos hl]
    exact Or.inr ⟨hl, rfl⟩
  · rw [if_neg hl]
    refine Or.inl ⟨by omega, ?_⟩
    intro e
    obtain ⟨rest, hr⟩ := text_head (request_text r)
    obtain ⟨i, args, hb, hi⟩ := hc s.tx.call
    rw [hr] at e
    unfold Sent.chosen at e
    rw [hb] at e
    simp only [List.cons_append, List.cons.injEq] at e
    obtain ⟨e1, e2, -⟩ := e
    have hp : pallet s.tx.call.view = 60 := by
      have := congrArg UInt8.toNat e1
      rw [UInt8.toNat_ofNat', Nat.mod_eq_of_lt (pallet_lt _)] at this
      exact this
    have := hi hp
    rw [e2] at this
    exact absurd this (by decide)

theorem apart (cfg : Config) (hc : Indexed cfg) (hh : NoText cfg) (s : Sent) (a : Bytes) (r : Request) :
    digest cfg (s.chosen cfg ++ a) ≠ r.bytes := by
  rcases C160_bytes cfg hc s a r with h | h
  · exact h.2
  · rw [h.2]
    intro e
    exact hh _ (e ▸ request_text r)

/-- **C160.** Hashes have 32 bytes; so additions of keys and proofs of passkeys, delegations of other than two schemas and claims
of names of other than twelve bytes are no hashes either. -/
theorem C160_short (cfg : Config) (hc : Indexed cfg) (h32 : ∀ b, (cfg.hash b).length = 32) (s : Sent) (a : Bytes) (r : Request)
    (hr : r.WT) (hk : match r with
      | .key _ | .passkey _ => True
      | .delegation p => p.schemaIds.length ≠ 2
      | .handle p => p.baseHandle.length ≠ 12
      | _ => False) : digest cfg (s.chosen cfg ++ a) ≠ r.bytes := by
  rcases C160_bytes cfg hc s a r with h | h
  · exact h.2
  · rw [h.2]
    intro e
    have hl := h32 (s.chosen cfg ++ a)
    rw [e] at hl
    have hcompact : ∀ n, n < 64 → (Scale.compact n).length = 1 := by
      intro n hn
      unfold Scale.compact
      rw [if_pos (by omega)]
      rfl
    have hpos : ∀ n, 1 ≤ (Scale.compact n).length := by
      intro n
      unfold Scale.compact
      split
      · simp [Scale.length_leBytes]
      · split
        · simp [Scale.length_leBytes]
        · split <;> simp [Scale.length_leBytes]
    cases r with
    | key p =>
      simp [Request.bytes, Msa.wrap, Msa.AddKeyData.encode, Scale.u64, Scale.u32, Scale.length_leBytes] at hl
    | passkey k =>
      have : k.length = 33 := hr
      simp [Request.bytes, Msa.wrap] at hl
      omega
    | delegation p =>
      have h1 := hpos p.schemaIds.length
      have h2 := hcompact p.schemaIds.length
      have h3 : (p.schemaIds.map Scale.u16).flatten.length = 2 * p.schemaIds.length := by
        generalize p.schemaIds = l
        induction l with
        | nil => rfl
        | cons x l ih => simp only [List.map_cons, List.flatten_cons, List.length_append, ih, Scale.u16, Scale.length_leBytes, List.length_cons]; omega
      simp only [Request.bytes, Msa.wrap, Msa.AddProvider.encode, Scale.u64, Scale.u32, Scale.vecOf, List.length_append, h3,
        Scale.length_leBytes, List.length_cons, List.length_nil] at hl
      dsimp only at hk
      omega
    | handle p =>
      have hw : p.baseHandle.length ≤ 32 := hr.1
      have := hcompact p.baseHandle.length (by omega)
      simp [Request.bytes, Handles.wrap, Handles.Payload.encode, Scale.u32, Scale.vecU8, Scale.length_leBytes, this] at hl
      dsimp only at hk
      omega
    | items p => exact hk
    | upsert p => exact hk
    | delete p => exact hk

/-! ## Effects -/

theorem dispatch_verified {cfg : Config} {verify : Signature → AccountId → Bytes → Bool} (hv : Checked cfg verify)
    {bal : AccountId → Balance} {s s' : Chain.State} {o : Chain.Origin} {c : Chain.Call}
    (h : Chain.dispatch cfg.whole.wrapped.chain bal s o c = some s') :
    ∀ x ∈ carried c, verify x.1 x.2.1 x.2.2.bytes = true := by
  intro x hx
  cases c with
  | msa c =>
    rw [← hv.msa]
    simp only [Chain.dispatch, Option.map_eq_some_iff] at h
    obtain ⟨t, ht, -⟩ := h
    have ht : Msa.dispatch cfg.whole.wrapped.chain.msa (Chain.msaEnv cfg.whole.wrapped.chain s) s.msa o.msa c = .ok t := by
      generalize Msa.dispatch cfg.whole.wrapped.chain.msa (Chain.msaEnv cfg.whole.wrapped.chain s) s.msa o.msa c = r at ht
      cases r with
      | error e => cases ht
      | ok t' => cases ht; rfl
    cases c with
    | createSponsoredAccountWithDelegation k sig p =>
      simp only [carried, List.mem_singleton] at hx
      subst hx
      simp only [Msa.dispatch, bind_eq_ok_iff] at ht
      obtain ⟨w, -, ht⟩ := ht
      simp only [Msa.createSponsored, bind_eq_ok_iff] at ht
      obtain ⟨_, h1, -⟩ := ht
      exact Msa.verifySignature_ok h1
    | grantDelegation k sig p =>
      simp only [carried, List.mem_singleton] at hx
      subst hx
      simp only [Msa.dispatch, bind_eq_ok_iff] at ht
      obtain ⟨w, -, ht⟩ := ht
      simp only [Msa.grantDelegation, bind_eq_ok_iff] at ht
      obtain ⟨_, h1, -⟩ := ht
      exact Msa.verifySignature_ok h1
    | addPublicKeyToMsa k sig sig' p =>
      simp only [carried, List.mem_cons, List.not_mem_nil, or_false] at hx
      simp only [Msa.dispatch, bind_eq_ok_iff] at ht
      obtain ⟨w, -, ht⟩ := ht
      simp only [Msa.addPublicKeyToMsa, bind_eq_ok_iff] at ht
      obtain ⟨_, h1, _, h2, -⟩ := ht
      rcases hx with rfl | rfl
      · exact Msa.verifySignature_ok h1
      · exact Msa.verifySignature_ok h2
    | _ => exact absurd hx (List.not_mem_nil)
  | handles c =>
    rw [← hv.handles]
    simp only [Chain.dispatch, Option.bind_eq_bind, Option.bind_eq_some_iff] at h
    obtain ⟨key, -, t, ht, -⟩ := h
    cases c with
    | claim k sig p =>
      simp only [carried, List.mem_singleton] at hx
      subst hx
      have ht : Handles.claim cfg.whole.wrapped.chain.handles (Chain.handlesEnv cfg.whole.wrapped.chain s) s.handles k sig p = .ok t := by
        simp only [Chain.HandleCall.op, Handles.dispatch] at ht
        generalize Handles.claim cfg.whole.wrapped.chain.handles (Chain.handlesEnv cfg.whole.wrapped.chain s) s.handles k sig p = r at ht
        cases r with
        | error e => cases ht
        | ok t' => cases ht; rfl
      simp only [Handles.claim, Handles.verifySigned, bind_eq_ok_iff, ensure_eq_ok_iff] at ht
      obtain ⟨_, -, _, -, _, -, _, h1, -⟩ := ht
      exact h1
    | change k sig p =>
      simp only [carried, List.mem_singleton] at hx
      subst hx
      have ht : Handles.change cfg.whole.wrapped.chain.handles (Chain.handlesEnv cfg.whole.wrapped.chain s) s.handles k sig p = .ok t := by
        simp only [Chain.HandleCall.op, Handles.dispatch] at ht
        generalize Handles.change cfg.whole.wrapped.chain.handles (Chain.handlesEnv cfg.whole.wrapped.chain s) s.handles k sig p = r at ht
        cases r with
        | error e => cases ht
        | ok t' => cases ht; rfl
      simp only [Handles.change, Handles.verifySigned, bind_eq_ok_iff, ensure_eq_ok_iff] at ht
      obtain ⟨_, -, _, -, _, -, _, h1, -⟩ := ht
      exact h1
    | _ => exact absurd hx (List.not_mem_nil)
  | storage c =>
    rw [← hv.storage]
    simp only [Chain.dispatch, Option.bind_eq_bind, Option.bind_eq_some_iff] at h
    obtain ⟨t, ht, -⟩ := h
    have ht : Stateful.dispatch cfg.whole.wrapped.chain.storage (Chain.storageEnv cfg.whole.wrapped.chain s) s.storage o.signer c = .ok t := by
      generalize Stateful.dispatch cfg.whole.wrapped.chain.storage (Chain.storageEnv cfg.whole.wrapped.chain s) s.storage o.signer c = r at ht
      cases r with
      | error e => cases ht
      | ok t' => cases ht; rfl
    cases c with
    | applyItemActionsWithSignature k sig p =>
      simp only [carried, List.mem_singleton] at hx
      subst hx
      simp only [Stateful.dispatch, Stateful.checkSignature, bind_eq_ok_iff, ensure_eq_ok_iff] at ht
      obtain ⟨_, -, _, -, _, -, _, h1, -⟩ := ht
      exact h1
    | upsertPageWithSignature k sig p =>
      simp only [carried, List.mem_singleton] at hx
      subst hx
      simp only [Stateful.dispatch, Stateful.checkSignature, bind_eq_ok_iff, ensure_eq_ok_iff] at ht
      obtain ⟨_, -, _, -, _, -, _, -, _, h1, -⟩ := ht
      exact h1
    | deletePageWithSignature k sig p =>
      simp only [carried, List.mem_singleton] at hx
      subst hx
      simp only [Stateful.dispatch, Stateful.checkSignature, bind_eq_ok_iff, ensure_eq_ok_iff] at ht
      obtain ⟨_, -, _, -, _, -, _, h1, -⟩ := ht
      exact h1
    | _ => exact absurd hx (List.not_mem_nil)
  | _ => exact absurd hx (List.not_mem_nil)

/-- **C160.** Nobody can send a transaction of an account with a signature that it gave for a request, on any network. -/
theorem C160_no_transaction (cfg : Config) (verify : Signature → AccountId → Bytes → Bool) (hv : Checked cfg verify)
    (hc : Indexed cfg) (hh : NoText cfg) (n : Net) (s : Sent) (r : Request) (ho : OneMessage verify s.sig s.tx.who)
    (hr : verify s.sig s.tx.who r.bytes = true) : accepts cfg n s = false ∧ apply cfg n (.sent s) = n := by
  have hf : accepts cfg n s = false := by
    rw [← Bool.not_eq_true]
    intro ha
    obtain ⟨a, -, h⟩ := accepts_some ha
    rw [hv.transactions] at h
    exact apart cfg hc hh s a r (ho _ _ h hr)
  refine ⟨hf, ?_⟩
  show (if accepts cfg n s then _ else n) = n
  rw [hf]
  rfl

/-- **C160.** Nobody can use the signature of a transaction for a request of the account: no call that carries it succeeds, in any
state and whoever sends it, and no passkey is taken for it. -/
theorem C160_no_request (cfg : Config) (verify : Signature → AccountId → Bytes → Bool) (hv : Checked cfg verify)
    (hc : Indexed cfg) (hh : NoText cfg) (n : Net) (s : Sent) (ho : OneMessage verify s.sig s.tx.who)
    (ha : accepts cfg n s = true) :
    (∀ bal st o c r, (s.sig, s.tx.who, r) ∈ carried c → Chain.dispatch cfg.whole.wrapped.chain bal st o c = none) ∧
    (∀ m env fee (p : Whole.Payload), p.proof = s.sig → p.account = s.tx.who →
      apply cfg m (.passkey env fee p) = m) := by
  obtain ⟨a, -, h⟩ := accepts_some ha
  rw [hv.transactions] at h
  have hr : ∀ r : Request, verify s.sig s.tx.who r.bytes = false := by
    intro r
    rw [← Bool.not_eq_true]
    intro h'
    exact apart cfg hc hh s a r (ho _ _ h h')
  refine ⟨?_, ?_⟩
  · intro bal st o c r hm
    cases hd : Chain.dispatch cfg.whole.wrapped.chain bal st o c with
    | none => rfl
    | some st' =>
      have := dispatch_verified hv hd _ hm
      rw [hr r] at this
      cases this
  · intro m env fee p hp hw
    have hn : Whole.preDispatch cfg.whole m.chain fee p = none := by
      unfold Whole.preDispatch
      have : cfg.whole.verify p.proof p.account (Msa.wrap p.publicKey) = false := by
        rw [hv.transactions, hp, hw]
        exact hr (.passkey p.publicKey)
      rw [this]
      split
      · rfl
      · split <;> rfl
    show m.onChain cfg (.passkey env fee p) = m
    unfold Net.onChain
    simp only [Whole.apply, Whole.passkey, hn]

/-- A configuration that meets the hypotheses. -/
def exIndexed : Config :=
  { exCfg with
    whole := ⟨{ Wrapped.exCfg with wallet.tokens.chain.msa.verify := exVerify, wallet.tokens.chain.handles.verify := exVerify, wallet.tokens.chain.storage.verify := exVerify },
      exVerify, fun p => decide (p.nonce = 0)⟩
    callBytes := fun c => [UInt8.ofNat (pallet c.view), 0]
    hash := fun b => 0 :: Scale.leBytes 31 (Scale.leVal (b ++ [1])) }

theorem exIndexed_checked : Checked exIndexed exVerify := ⟨rfl, rfl, rfl, rfl⟩

theorem exIndexed_indexed : Indexed exIndexed := fun _ => ⟨0, [], rfl, fun _ => Nat.zero_le _⟩

theorem exIndexed_noText : NoText exIndexed := by
  intro b h
  obtain ⟨rest, hr⟩ := text_head h
  simp [exIndexed] at hr

/-- Key 20 sends a call of the pallet of accounts, whose number is that of the character `<`. -/
def exStart : Sent := signed exIndexed (exNet 1) ⟨20, 0, .leaf (.msa .create), 100, 6, 2, Wallet.exEnv⟩ .immortal 0

/-- The transaction is accepted, and its signature is no delegation. -/
example : accepts exIndexed (exNet 1) exStart = true ∧
    ∀ bal st o p, Chain.dispatch exIndexed.whole.wrapped.chain bal st o (.msa (.grantDelegation 20 exStart.sig p)) = none :=
  have h : accepts exIndexed (exNet 1) exStart = true := by decide +kernel
  ⟨h, fun bal st o p => (C160_no_request exIndexed exVerify exIndexed_checked exIndexed_indexed exIndexed_noText (exNet 1) exStart
    (exVerify_one _ _) h).1 bal st o _ (.delegation p) (List.mem_singleton_self _)⟩

/-- A delegation to provider 2; with the signature for it a transaction is refused. -/
example : exVerify (Scale.leVal ((Request.delegation ⟨2, [], 50⟩).bytes ++ [1])) 20 (Request.delegation ⟨2, [], 50⟩).bytes = true ∧
    accepts exIndexed (exNet 1) { exStart with sig := Scale.leVal ((Request.delegation ⟨2, [], 50⟩).bytes ++ [1]) } = false := by
  decide +kernel

end Verif.Network
