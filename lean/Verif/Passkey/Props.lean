import Verif.Passkey.Model
import Verif.Nonce.Props
/-!
# Properties of passkey transactions: C66, C76
-/

namespace Verif.Passkey
open Runtime (Call)

/-! ## C66 -/

/-- A call that transfers tokens of its caller. -/
inductive Transfer : Call → Prop
  | keepAlive (n) : Transfer (.fn .transferKeepAlive n)
  | allowDeath (n) : Transfer (.fn .transferAllowDeath n)
  | all (n) : Transfer (.fn .transferAll n)

theorem transfer_iff (c : Call) : Runtime.passkeyContains c = true ↔ Transfer c := by
  constructor
  · intro h
    cases c with
    | fn f n => cases f <;> simp [Runtime.passkeyContains] at h <;> constructor
    | _ => simp [Runtime.passkeyContains] at h
  · intro h; cases h <;> rfl

theorem checkNonce_ok_iff (x : Except Nonce.Err Nonce.Accounts) (a : Nonce.Accounts) :
    checkNonce x = .ok a ↔ x = .ok a := by cases x <;> simp [checkNonce]

theorem preDispatch_ok_iff (cfg : Config) (s s' : Nonce.Accounts) (p : Payload) :
    preDispatch cfg s p = .ok s' ↔ Transfer p.call ∧ cfg.verify p.proof p.account (Msa.wrap p.publicKey) = true ∧
      Nonce.preDispatch s p.account p.nonce true = .ok s' ∧ cfg.canPay p.account p.call (feeLength p) = true := by
  simp only [preDispatch, bind_eq_ok_iff, ensure_eq_ok_iff, checkNonce_ok_iff, pure_eq_ok_iff, transfer_iff]
  constructor
  · rintro ⟨_, ht, _, hv, x, hn, _, hp, rfl⟩
    refine ⟨ht, hv, ?_, hp⟩
    generalize p.call = c at ht hn
    cases ht <;> exact hn
  · rintro ⟨ht, hv, hn, hp⟩
    refine ⟨(), ht, (), hv, s', ?_, (), hp, rfl⟩
    generalize p.call = c at ht
    cases ht <;> exact hn

/-- The passkey of the payload signed its call and nonce. -/
def Signed (cfg : Config) (p : Payload) : Prop :=
  cfg.passkeyValid p.publicKey p.signature p.authenticatorData p.clientDataJson p.account p.call p.nonce = true

/-- C66 as stated, of a check of payloads: what it accepts was signed by the passkey. -/
def Authorised (check : Config → Nonce.Accounts → Payload → Except Err Nonce.Accounts) : Prop :=
  ∀ (cfg : Config) (s s' : Nonce.Accounts) (p : Payload), check cfg s p = .ok s' → Signed cfg p

/-- An account that signed a passkey and can pay; no passkey signature is valid. -/
def exCfg : Config := ⟨fun sig who _ => sig = who, fun _ _ _ _ _ _ _ => false, fun _ _ _ => true⟩
/-- A transfer of everything from account 7 with an empty passkey signature. -/
def exPayload : Payload := ⟨List.replicate 33 2, [], [], [], 7, 0, 7, .fn .transferAll 0⟩

/-- C66 is false of the code: the signature of the passkey is not looked at. -/
theorem C66_full_false : ¬ Authorised preDispatch := fun h => by
  have hp := (preDispatch_ok_iff exCfg ∅ _ exPayload).2 ⟨.all 0, by decide, rfl, rfl⟩
  exact absurd (h exCfg ∅ _ exPayload hp) (by simp [Signed, exCfg])

/-- The statement can be met: the code with a check of the passkey signature in front satisfies it. -/
example : Authorised (fun cfg s p => do
    ensure (cfg.passkeyValid p.publicKey p.signature p.authenticatorData p.clientDataJson p.account p.call
      p.nonce = true) .badSigner
    preDispatch cfg s p) := by
  intro cfg s s' p h
  simp only [bind_eq_ok_iff, ensure_eq_ok_iff] at h
  obtain ⟨_, h, _⟩ := h
  exact h

/-- In every state, from one accepted payload anybody can make others: any passkey signature and any other
transfer that the account can pay for are accepted with the same proof of ownership. -/
theorem C66_signature_ignored (cfg : Config) (s s' : Nonce.Accounts) (p : Payload)
    (h : preDispatch cfg s p = .ok s') (sig auth client : Bytes) (c : Call) (hc : Transfer c)
    (hp : cfg.canPay p.account c (feeLength p) = true) :
    preDispatch cfg s { p with signature := sig, authenticatorData := auth, clientDataJson := client, call := c } =
      .ok s' := by
  obtain ⟨_, hv, hn, _⟩ := (preDispatch_ok_iff _ _ _ _).1 h
  exact (preDispatch_ok_iff _ _ _ _).2 ⟨hc, hv, hn, hp⟩

/-- The proof of ownership is not used up either: after an accepted payload, the same proof is accepted for
any transfer with the next nonce. -/
theorem C66_proof_reusable (cfg : Config) (s s' : Nonce.Accounts) (p : Payload)
    (h : preDispatch cfg s p = .ok s') (c : Call) (hc : Transfer c)
    (hp : cfg.canPay p.account c (feeLength p) = true) :
    ∃ s'', preDispatch cfg s' { p with nonce := p.nonce + 1, call := c } = .ok s'' := by
  obtain ⟨_, hv, hn, _⟩ := (preDispatch_ok_iff _ _ _ _).1 h
  obtain ⟨hn1, hs1⟩ := (Nonce.preDispatch_ok_iff _ _ _ _ _).1 hn
  simp only [Bool.true_or, if_true] at hs1
  refine ⟨_, (preDispatch_ok_iff _ _ _ _).2 ⟨hc, hv, (Nonce.preDispatch_ok_iff _ _ _ _ _).2 ⟨?_, rfl⟩, hp⟩⟩
  show p.nonce + 1 = (Nonce.getAccount s' p.account).nonce
  rw [← hs1, Nonce.getAccount_insert, if_pos rfl, hn1]

/-- C66, what holds: an accepted payload carries a signature of its account on the public key, has the
current nonce of the account, and executes nothing but its call, a transfer, for that account. Missing: that
the passkey signed the call and the nonce, which is not checked. -/
theorem C66_authorised_partial (cfg : Config) (s s' : Nonce.Accounts) (p : Payload)
    (h : preDispatch cfg s p = .ok s') (base : Runtime.Filter) :
    cfg.verify p.proof p.account (Msa.wrap p.publicKey) = true ∧
      p.nonce = (Nonce.getAccount s p.account).nonce ∧ Transfer p.call ∧
      ∀ x ∈ executed base p, x = (p.account, p.call) := by
  obtain ⟨ht, hv, hn, _⟩ := (preDispatch_ok_iff _ _ _ _).1 h
  refine ⟨hv, ((Nonce.preDispatch_ok_iff _ _ _ _ _).1 hn).1, ht, fun x hx => ?_⟩
  unfold executed Runtime.executed at hx
  split at hx
  · generalize p.call = c at ht hx ⊢
    cases ht <;> simpa using hx
  · simp at hx

/-- C66, replay: an accepted payload is not accepted again while its account exists. -/
theorem C66_not_replayed_partial (cfg : Config) (s s' : Nonce.Accounts) (p : Payload)
    (h : preDispatch cfg s p = .ok s') (later : List Nonce.Op) (hr : Nonce.Op.reap p.account ∉ later) :
    preDispatch cfg (Nonce.run s' later) p = .error (.nonce .stale) := by
  obtain ⟨ht, hv, hn, _⟩ := (preDispatch_ok_iff _ _ _ _).1 h
  have hs := Nonce.C65_consumed_partial s s' p.account p.nonce true (!Runtime.paysNo p.call) later hn
    (Or.inl rfl) hr
  unfold preDispatch
  rw [hs]
  have e1 : (ensure (Runtime.passkeyContains p.call = true) Err.call) = .ok () :=
    ensure_eq_ok_iff.2 ((transfer_iff _).2 ht)
  have e2 : (ensure (cfg.verify p.proof p.account (Msa.wrap p.publicKey) = true) Err.badSigner) = .ok () :=
    ensure_eq_ok_iff.2 hv
  rw [e1, e2]
  rfl

example : (preDispatch exCfg ∅ exPayload).toOption.isSome = true := by decide

/-! ## C76 -/

/-- Length of an encoded payload; the encoded call has the given length, a signature of an account at least
65 bytes (`MultiSignature`: a tag and 64 or 65 bytes). -/
def encodedLength (p : Payload) (proofLength callLength : Nat) : Nat :=
  p.publicKey.length + (Scale.vecU8 p.signature).length + (Scale.vecU8 p.authenticatorData).length +
    (Scale.vecU8 p.clientDataJson).length + 32 + 4 + proofLength + callLength

/-- C76 is false: the fee is computed for 32 bytes whatever the payload, and every payload is more than
four times as long. -/
theorem C76_length_ignored (p : Payload) (proofLength callLength : Nat) (hk : p.publicKey.length = 33)
    (hp : 65 ≤ proofLength) : feeLength p = 32 ∧ 4 * feeLength p < encodedLength p proofLength callLength := by
  have h : feeLength p = 32 := Scale.length_leBytes 32 _
  refine ⟨h, ?_⟩
  rw [h]
  unfold encodedLength
  omega

example : exPayload.publicKey.length = 33 := by decide

/-- C76, what holds: a payload is accepted only if its account can pay the fee of its call for 32 bytes.
Missing: the length of the transaction. -/
theorem C76_fee_paid_partial (cfg : Config) (s s' : Nonce.Accounts) (p : Payload)
    (h : preDispatch cfg s p = .ok s') : cfg.canPay p.account p.call 32 = true := by
  have hp := ((preDispatch_ok_iff _ _ _ _).1 h).2.2.2
  rwa [show feeLength p = 32 from Scale.length_leBytes 32 _] at hp

end Verif.Passkey
