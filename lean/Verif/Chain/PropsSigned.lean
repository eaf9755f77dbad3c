import Verif.Chain.Props
import Verif.Msa.PropsReplay
import Verif.Passkey.Props
import Verif.Hash.XxHash64
/-!
# One signature, several pallets (C104)

Five payloads of three pallets and the proof of a passkey are signed by users as `<Bytes>` data `</Bytes>`, none with
a tag that says what it is: pallets/msa/src/lib.rs 1108, pallets/handles/src/lib.rs 290,
pallets/stateful-storage/src/lib.rs 692, pallets/passkey/src/lib.rs 224. C69 and C70 are about the kinds of one
pallet; this file is about different pallets.
-/

namespace Verif.Chain

/-! ## Specification -/

/-- What a user can sign for others to submit. -/
inductive Request where
  | delegation (p : Msa.AddProvider)
  | key (p : Msa.AddKeyData)
  | handle (p : Handles.Payload)
  | items (p : Stateful.ItemizedPayload)
  | upsert (p : Stateful.UpsertPayload)
  | delete (p : Stateful.DeletePayload)
  /-- ownership of a passkey, by its public key -/
  | passkey (publicKey : Bytes)

/-- The bytes whose signature the pallet of the request accepts. -/
def Request.bytes : Request → Bytes
  | .delegation p => Msa.wrap p.encode
  | .key p => Msa.wrap p.encode
  | .handle p => Handles.wrap p.encode
  | .items p => Stateful.wrap p.encode
  | .upsert p => Stateful.wrap p.encode
  | .delete p => Stateful.wrap p.encode
  | .passkey k => Msa.wrap k

/-- The pallets. -/
inductive Pallet where
  | msa | handles | storage | passkey
  deriving DecidableEq

/-- The pallet of a request. -/
def Request.pallet : Request → Pallet
  | .delegation _ | .key _ => .msa
  | .handle _ => .handles
  | .items _ | .upsert _ | .delete _ => .storage
  | .passkey _ => .passkey

/-- The account id of a storage payload, if any, and its schema fit their types. -/
def StorageIds (m : Option MsaId) (k : SchemaId) : Prop := (∀ x, m = some x → x < 2 ^ 64) ∧ k < 2 ^ 16

/-- The fields have the values their types allow; the pallet of handles refuses names of more than 32 bytes,
and a public key has 33. -/
def Request.WT : Request → Prop
  | .delegation p => p.WT
  | .key p => p.WT
  | .handle p => p.baseHandle.length ≤ 32 ∧ p.expiration < 2 ^ 32
  | .items p => StorageIds p.msaId p.schemaId ∧ p.targetHash < 2 ^ 32 ∧ p.expiration < 2 ^ 32
  | .upsert p => StorageIds p.msaId p.schemaId ∧ p.pageId < 2 ^ 16 ∧ p.targetHash < 2 ^ 32 ∧ p.expiration < 2 ^ 32
  | .delete p => StorageIds p.msaId p.schemaId ∧ p.pageId < 2 ^ 16 ∧ p.targetHash < 2 ^ 32 ∧ p.expiration < 2 ^ 32
  | .passkey k => k.length = 33

/-- C104 as stated: what is signed for one pallet is nothing that another pallet accepts. -/
def C104_full : Prop :=
  ∀ a b : Request, a.WT → b.WT → a.pallet ≠ b.pallet → a.bytes ≠ b.bytes

/-! ## A claim of a handle that deletes a page -/

/-- The upper half of XxHash64 with seed 0. -/
def realHash (b : Bytes) : Nat := XxHash64.hash 0 b / 2 ^ 32

/-- The claim that the user signs: the handle `tzwam`. -/
def exClaim : Handles.Payload := Handles.pl "tzwam" 50

/-- Page 29 of schema 5 with the given hash. -/
def exDelete : Stateful.DeletePayload := ⟨none, 5, 29, 458776030, 50⟩

/-- The only valid signature is number 77, made with key 20 for the claim. Pages may have 16 bytes and ids up to
32, and their hash is the real one. -/
def signedClaim : Signature → AccountId → Bytes → Bool := fun sig key msg =>
  decide (sig = 77 ∧ key = 20 ∧ msg = Handles.wrap exClaim.encode)

/-- Configuration with it. -/
def exCfgSigned : Config :=
  { exCfg with
    msa := { Msa.exCfg with verify := signedClaim }
    handles := { Handles.exCfg with verify := signedClaim }
    storage := { Stateful.exCfg with
      verify := signedClaim, hash := realHash, maxPageId := 32, maxPaginatedPage := 16 } }

/-- Key 20 creates account 1, key 10 account 2; governance registers five schemas, the last one for pages;
account 1 writes `note 81925` to its page 29. Then key 10 submits the signed claim, and the same signature once
more as a request to delete that page. -/
def exSignedHist : List Step :=
  [.newBlock,
   .submit exBal 20 (.msa .create),
   .submit exBal 10 (.msa .create)] ++
  List.replicate 5 (.call exBal .council
    (.schemas (.createViaGovernance 10 (123 :: List.replicate 10 0) .parquet .paginated []))) ++
  [.submit exBal 20 (.storage (.upsertPage 1 5 29 0 [110, 111, 116, 101, 32, 56, 49, 57, 50, 53])),
   .submit exBal 10 (.handles (.claim 20 77 exClaim)),
   .submit exBal 10 (.storage (.deletePageWithSignature 20 77 exDelete))]

/-- The page of account 1 as the pallet reads it after the first steps. -/
def exPageAfter (n : Nat) : Except Stateful.Err (Option Stateful.Page) :=
  Stateful.getPaginatedPage exCfgSigned.storage (run exCfgSigned (.init 1024) (exSignedHist.take n)).storage 1 5 29

/-- C104 is false of the code, and not only of the bytes: with one signature of the user, made for the claim of
a handle, somebody else claims the handle and then deletes a page of the user. -/
theorem C104_claim_deletes_page :
    (Handles.handleForMsa exCfgSigned.handles
      (run exCfgSigned (.init 1024) (exSignedHist.take 10)).handles 1).isSome = true ∧
    exPageAfter 10 = .ok (some ⟨1, [110, 111, 116, 101, 32, 56, 49, 57, 50, 53]⟩) ∧
    exPageAfter 11 = .ok none := by
  decide +kernel

theorem C104_full_false : ¬ C104_full := fun h =>
  h (.handle exClaim) (.delete exDelete) ⟨by decide, by decide⟩ ⟨⟨by simp [exDelete], by decide⟩, by decide, by decide, by decide⟩
    (by decide) (by decide +kernel)

/-! ## A delegation that is the proof of a passkey -/

/-- The length of an encoded delegation. -/
theorem length_delegation (p : Msa.AddProvider) (h : p.schemaIds.length < 64) :
    p.encode.length = 13 + 2 * p.schemaIds.length := by
  simp only [Msa.AddProvider.encode, Scale.u64, Scale.u32, Scale.vecOf, List.length_append, Scale.length_leBytes]
  rw [show Scale.u16 = Scale.leBytes 2 from rfl, Msa.length_flatten_leBytes]
  unfold Scale.compact
  rw [if_pos (show _ < 2 ^ 6 by omega)]
  simp only [Scale.length_leBytes]
  omega

/-- The other way in which C104 fails: the signature of any delegation of ten schemas is accepted as the
ownership proof of a passkey with 33 bytes as public key. Whoever has seen the delegation can have any transfer
executed for the delegator that it can pay for, with any passkey signature. -/
theorem C104_delegation_is_passkey_proof (cfg : Passkey.Config) (s : Nonce.Accounts) (p : Msa.AddProvider)
    (key : AccountId) (sig : Signature) (hp : p.schemaIds.length = 10)
    (hv : cfg.verify sig key (Request.delegation p).bytes = true) (c : Runtime.Call) (hc : Passkey.Transfer c)
    (pay : ∀ n, cfg.canPay key c n = true) (psig auth client : Bytes) :
    (Request.passkey p.encode).WT ∧
    ∃ s', Passkey.preDispatch cfg s
      ⟨p.encode, psig, auth, client, key, (Nonce.getAccount s key).nonce, sig, c⟩ = .ok s' := by
  refine ⟨?_, _, (Passkey.preDispatch_ok_iff _ _ _ _).2 ⟨hc, hv,
    (Nonce.preDispatch_ok_iff _ _ _ _ _).2 ⟨rfl, rfl⟩, pay _⟩⟩
  show p.encode.length = 33
  rw [length_delegation p (by omega), hp]

/-- Such a case: key 7 signed a delegation of ten schemas to provider 1 and nothing else. -/
example : ∃ s', Passkey.preDispatch
    ⟨fun sig key msg => decide (sig = 77 ∧ key = 7 ∧
      msg = (Request.delegation ⟨1, [1, 2, 3, 4, 5, 6, 7, 8, 9, 10], 50⟩).bytes),
      fun _ _ _ _ _ _ _ => false, fun _ _ _ => true⟩ ∅
    ⟨Msa.AddProvider.encode ⟨1, [1, 2, 3, 4, 5, 6, 7, 8, 9, 10], 50⟩, [], [], [], 7, 0, 77, .fn .transferAll 0⟩ =
      .ok s' :=
  (C104_delegation_is_passkey_proof _ _ ⟨1, [1, 2, 3, 4, 5, 6, 7, 8, 9, 10], 50⟩ 7 77 rfl (by decide +kernel) _
    (.all 0) (fun _ => rfl) [] [] []).2

/-! ## What is kept apart -/

theorem compact_small {n : Nat} (h : n < 64) : Scale.compact n = [UInt8.ofNat (4 * n)] := by
  unfold Scale.compact
  rw [if_pos (show _ < 2 ^ 6 by omega)]
  simp only [Scale.leBytes]
  rw [Nat.mod_eq_of_lt (by omega), Nat.mul_comm]

theorem length_handle {p : Handles.Payload} (h : p.baseHandle.length ≤ 32) :
    p.encode.length = p.baseHandle.length + 5 := by
  simp only [Handles.Payload.encode, Scale.vecU8, compact_small (show p.baseHandle.length < 64 by omega), Scale.u32,
    List.length_append, Scale.length_leBytes, List.length_singleton]
  omega

theorem length_key (q : Msa.AddKeyData) : q.encode.length = 44 := by
  simp only [Msa.AddKeyData.encode, Scale.u64, Scale.u32, List.length_append, Scale.length_leBytes]

theorem length_compact_le (n : Nat) : (Scale.compact n).length ≤ 5 := by
  unfold Scale.compact
  split
  · simp [Scale.length_leBytes]
  · split
    · simp [Scale.length_leBytes]
    · split
      · simp [Scale.length_leBytes]
      · simp [Scale.length_leBytes]

theorem length_encodeMsa_le (m : Option MsaId) : (Stateful.encodeMsa m).length ≤ 9 := by
  cases m with
  | none => simp [Stateful.encodeMsa]
  | some m =>
    show (Scale.compact64 m).length ≤ 9
    unfold Scale.compact64
    split
    · simp [Scale.length_leBytes]
    · split
      · simp [Scale.length_leBytes]
      · split
        · simp [Scale.length_leBytes]
        · have := (Scale.bigLen_bounds m).2
          simpa [Scale.length_leBytes] using this

theorem length_delete_le (p : Stateful.DeletePayload) : p.encode.length ≤ 28 := by
  have a1 := length_compact_le p.schemaId
  have a2 := length_compact_le p.pageId
  have a3 := length_compact_le p.targetHash
  have a4 := length_encodeMsa_le p.msaId
  simp only [Stateful.DeletePayload.encode, Scale.u32, List.length_append, Scale.length_leBytes]
  omega

/-- A claim of a name without a zero byte is no delegation to an account with a number that can occur. -/
theorem C104_handle_delegation_partial (p : Handles.Payload) (q : Msa.AddProvider)
    (hp : (Request.handle p).WT) (hm : q.authorizedMsaId < 2 ^ 56) (hz : 0 ∉ p.baseHandle) :
    (Request.handle p).bytes ≠ (Request.delegation q).bytes := by
  intro h
  have h : p.encode = q.encode := Msa.wrap_inj h
  obtain ⟨hp1, -⟩ := hp
  have hlen := congrArg List.length h
  rw [length_handle hp1] at hlen
  have hq : q.encode.length ≥ 12 + (Scale.compact q.schemaIds.length).length := by
    simp only [Msa.AddProvider.encode, Scale.u64, Scale.u32, Scale.vecOf, List.length_append, Scale.length_leBytes]
    omega
  have hc : (Scale.compact q.schemaIds.length).length ≥ 1 := by
    unfold Scale.compact
    repeat' split
    all_goals simp [Scale.length_leBytes]
  have h7 := congrArg (fun l => l[7]?) h
  simp only [Handles.Payload.encode, Scale.vecU8, compact_small (show p.baseHandle.length < 64 by omega),
    Msa.AddProvider.encode] at h7
  rw [List.getElem?_append_left (l₂ := Scale.u32 p.expiration)
      (by rw [List.length_append, List.length_singleton]; omega),
    List.getElem?_append_left (l₁ := Scale.u64 q.authorizedMsaId) (by simp [Scale.u64, Scale.length_leBytes])] at h7
  simp only [List.singleton_append, List.getElem?_cons_succ] at h7
  have e : (Scale.u64 q.authorizedMsaId)[7]? = some 0 := by
    simp only [Scale.u64, Scale.leBytes, List.getElem?_cons_succ, List.getElem?_cons_zero, Nat.div_div_eq_div_mul]
    rw [Nat.div_eq_of_lt (by omega)]
    rfl
  rw [e] at h7
  exact hz (List.mem_of_getElem? h7)

/-- A claim is no addition of a key. -/
theorem C104_handle_key_partial (p : Handles.Payload) (q : Msa.AddKeyData) (hp : (Request.handle p).WT) :
    (Request.handle p).bytes ≠ (Request.key q).bytes := by
  intro h
  have h := congrArg List.length (show p.encode = q.encode from Msa.wrap_inj h)
  rw [length_handle hp.1, length_key] at h
  have := hp.1
  omega

/-- A claim is no proof of a passkey with a key in the form that P-256 keys have, which begins with 2 or 3. -/
theorem C104_handle_passkey_partial (p : Handles.Payload) (k : Bytes) (hp : (Request.handle p).WT)
    (hk : k.head? = some 2 ∨ k.head? = some 3) : (Request.handle p).bytes ≠ (Request.passkey k).bytes := by
  intro h
  have h : p.encode = k := Msa.wrap_inj h
  subst h
  have := hp.1
  simp only [Handles.Payload.encode, Scale.vecU8, compact_small (show p.baseHandle.length < 64 by omega),
    List.cons_append, List.head?_cons, Option.some.injEq] at hk
  rcases hk with hk | hk
  all_goals
    have := congrArg UInt8.toNat hk
    simp at this
    omega

/-- The addition of a key is no proof of a passkey and no deletion of a page; the latter is no proof of a passkey
either. -/
theorem C104_lengths_partial (q : Msa.AddKeyData) (p : Stateful.DeletePayload) (k : Bytes)
    (hk : (Request.passkey k).WT) :
    (Request.key q).bytes ≠ (Request.passkey k).bytes ∧ (Request.key q).bytes ≠ (Request.delete p).bytes ∧
      (Request.delete p).bytes ≠ (Request.passkey k).bytes := by
  have hd := length_delete_le p
  have hk : k.length = 33 := hk
  refine ⟨fun h => ?_, fun h => ?_, fun h => ?_⟩
  · have h := congrArg List.length (show q.encode = k from Msa.wrap_inj h)
    rw [length_key] at h
    omega
  · have h := congrArg List.length (show q.encode = p.encode from Msa.wrap_inj h)
    rw [length_key] at h
    omega
  · have h := congrArg List.length (show p.encode = k from Msa.wrap_inj h)
    omega

/-- The number with which the payload of a storage request begins: the account in the first versions, the schema
in the second. -/
def lead (m : Option MsaId) (k : SchemaId) : Nat := m.getD k

theorem lead_compact {m : Option MsaId} {k : SchemaId} (h : StorageIds m k) {rest a : Bytes} {n : Nat}
    (hn : n < 64) (he : Scale.compact n ++ a = Stateful.encodeMsa m ++ (Scale.compact k ++ rest)) : n = lead m k := by
  obtain ⟨h1, h2⟩ := h
  cases m with
  | none => exact (Scale.compact_inj (by omega) (by omega) he).1
  | some m =>
    rw [← Scale.compact64_eq n (by omega)] at he
    exact (Scale.compact64_inj (by omega) (h1 m rfl) he).1

/-- A claim is a storage request of the second version only for the schema whose number is the length of the
name, and one of the first version only for the account with that number: other accounts and schemas, in
particular those above 32, are safe. -/
theorem C104_handle_storage_partial (p : Handles.Payload) (r : Request) (m : Option MsaId) (k : SchemaId)
    (hp : (Request.handle p).WT) (hr : r.WT)
    (hs : (∃ q, r = .items q ∧ m = q.msaId ∧ k = q.schemaId) ∨ (∃ q, r = .upsert q ∧ m = q.msaId ∧ k = q.schemaId) ∨
      (∃ q, r = .delete q ∧ m = q.msaId ∧ k = q.schemaId))
    (hk : lead m k ≠ p.baseHandle.length) : (Request.handle p).bytes ≠ r.bytes := by
  have hl := hp.1
  intro h
  apply hk
  symm
  rcases hs with ⟨q, rfl, rfl, rfl⟩ | ⟨q, rfl, rfl, rfl⟩ | ⟨q, rfl, rfl, rfl⟩
  · have h : p.encode = q.encode := Msa.wrap_inj h
    simp only [Handles.Payload.encode, Scale.vecU8, Stateful.ItemizedPayload.encode, List.append_assoc] at h
    exact lead_compact hr.1 (by omega) h
  · have h : p.encode = q.encode := Msa.wrap_inj h
    simp only [Handles.Payload.encode, Scale.vecU8, Stateful.UpsertPayload.encode, List.append_assoc] at h
    exact lead_compact hr.1 (by omega) h
  · have h : p.encode = q.encode := Msa.wrap_inj h
    simp only [Handles.Payload.encode, Scale.vecU8, Stateful.DeletePayload.encode, List.append_assoc] at h
    exact lead_compact hr.1 (by omega) h

/-- The requests of the witness meet the hypotheses of the partial statements as far as these allow: the claim
is no delegation, no addition of a key and no storage request for schema 6. -/
example : (exClaim.baseHandle.length ≤ 32 ∧ exClaim.expiration < 2 ^ 32) ∧ 0 ∉ exClaim.baseHandle ∧
    lead (some 5) 6 = exClaim.baseHandle.length ∧ lead none 5 = exClaim.baseHandle.length ∧
    lead none 6 ≠ exClaim.baseHandle.length := by
  decide

end Verif.Chain
