import Verif.Chain.Accounts
import Mathlib.Data.List.Induction
/-!
# Properties of the chain as a whole
-/

namespace Verif.Chain

/-! ## Specification -/

/-- In state `s` the step dispatches a call of a key of `p` that carries a valid unexpired signature over a
payload naming `p` and schema `k`, by a key of account `d`, or by the key for which this call creates the
account `d`. -/
def Consent (cfg : Config) (s : State) (x : Step) (p d : MsaId) (k : SchemaId) : Prop :=
  ∃ who dk proof pl, msaOf s who = some p ∧ pl.authorizedMsaId = p ∧ k ∈ pl.schemaIds ∧
    cfg.msa.verify proof dk (Msa.wrap pl.encode) = true ∧ s.block < pl.expiration ∧
    ((x.sends = some (.signed who, .msa (.grantDelegation dk proof pl)) ∧ msaOf s dk = some d) ∨
     (x.sends = some (.signed who, .msa (.createSponsoredAccountWithDelegation dk proof pl)) ∧ msaOf s dk = none ∧
      msaOf (apply cfg s x) dk = some d))

/-- Such a step occurs in the history. -/
def Consented (cfg : Config) (s : State) (h : List Step) (p d : MsaId) (k : SchemaId) : Prop :=
  ∃ h1 x h2, h = h1 ++ x :: h2 ∧ Consent cfg (run cfg s h1) x p d k

/-- The delegation of `d` to `p` is active now, and so is the grant of schema `k` in it. -/
def Authorised (s : State) (p d : MsaId) (k : SchemaId) : Prop :=
  ∃ info r, s.msa.delegations.get (d, p) = some info ∧ (info.revokedAt = 0 ∨ s.block ≤ info.revokedAt) ∧
    info.perms.get k = some r ∧ (r = 0 ∨ s.block ≤ r)

theorem Consented.append {cfg s h p d k} (hc : Consented cfg s h p d k) (h' : List Step) :
    Consented cfg s (h ++ h') p d k := by
  obtain ⟨h1, x, h2, rfl, hx⟩ := hc
  exact ⟨h1, x, h2 ++ h', by simp, hx⟩

/-! ## Helper lemmas -/

theorem signedGrant_of_records (cfg : Msa.Config) (s : Msa.State) (st : Msa.Step) (d p : MsaId) (k : SchemaId)
    (hb : ¬ Msa.records s d p k) (ha : Msa.records (Msa.apply cfg s st) d p k) : Msa.SignedGrant cfg s st p d k := by
  have he := Msa.apply_eff cfg s st
  obtain ⟨env, o, c⟩ := st
  unfold Msa.SignedGrant
  simp only at he ⊢
  generalize Msa.apply cfg s ⟨env, o, c⟩ = s' at he ha
  obtain ⟨info, h1, h2⟩ := ha
  have hold : ∀ {q : Prop}, s.delegations.get (d, p) = some info → q := fun h => absurd ⟨info, h, h2⟩ hb
  cases he with
  | noop => exact hold h1
  | create _ _ _ => exact hold h1
  | @sponsored who dk proof pl r0 d0 hv hr hw hp hid hk hc hn hd hl hs =>
    simp only [SMap.get_insert] at h1
    split at h1
    · rename_i e
      simp only [Prod.mk.injEq] at e
      obtain ⟨e1, e2⟩ := e
      subst e1; subst e2
      cases h1
      rw [(Msa.tryInsertSchemas_ok hd).2.2] at h2
      split at h2
      · rename_i hmem
        refine ⟨who, dk, proof, pl, rfl, hw, rfl, hmem, hv, Msa.register_expiration hr,
          Or.inr ⟨rfl, by intro m hm; unfold Msa.resolves at hm; rw [hk] at hm; simp at hm, ?_⟩⟩
        simp [Msa.resolves, Msa.withKey]
      · simp [Msa.Delegation.default] at h2
    · exact hold h1
  | provider _ _ _ => exact hold h1
  | @grant who dk proof pl r0 delegator d0 hv hr hw hdk hne hp hd =>
    simp only [SMap.get_insert] at h1
    split at h1
    · rename_i e
      simp only [Prod.mk.injEq] at e
      obtain ⟨e1, e2⟩ := e
      subst e1; subst e2
      cases h1
      obtain ⟨_, g2, _, _, g5⟩ := Msa.upsertDelegation_ok hd
      rw [g5] at h2
      split at h2
      · rename_i hmem
        exact ⟨who, dk, proof, pl, rfl, hw, rfl, hmem, hv, Msa.register_expiration hr, Or.inl ⟨rfl, hdk⟩⟩
      · cases hg : s.delegations.get (delegator, pl.authorizedMsaId) with
        | none =>
          rw [hg] at h2
          simp [Msa.Delegation.default] at h2
        | some i =>
          rw [hg] at h2
          refine absurd ⟨i, hg, ?_⟩ hb
          simp only [Option.getD_some] at h2
          split at h2
          · rename_i e; rw [e]; rfl
          · exact h2
    · exact hold h1
  | @revoke who c delegator provider d0 hc hd h0 =>
    simp only [SMap.get_insert] at h1
    split at h1
    · rename_i e
      cases h1
      exact absurd ⟨d0, by rw [← e]; exact hd, h2⟩ hb
    · exact hold h1
  | addKey _ _ _ _ _ _ _ => exact hold h1
  | delete _ _ _ => exact hold h1
  | @revokeSchemas who provider ids delegator d0 d1 hw hd hm =>
    simp only [SMap.get_insert] at h1
    split at h1
    · rename_i e
      cases h1
      refine absurd ⟨d0, by rw [← e]; exact hd, ?_⟩ hb
      obtain ⟨_, _, g3, g4⟩ := Msa.tryGetMutSchemas_ok hm
      rw [g3] at h2
      split at h2
      · rename_i hk
        obtain ⟨v, hv⟩ := (SMap.contains_iff _ _).1 (g4 k hk)
        rw [hv]; rfl
      · exact h2
    · exact hold h1

theorem msaOrigin_signed {o : Origin} {who} (h : o.msa = .signed who) : o = .signed who := by
  cases o <;> simp_all [Origin.msa]

theorem consent_step (cfg : Config) (s : State) (x : Step) (d p : MsaId) (k : SchemaId)
    (hb : ¬ Msa.records s.msa d p k) (ha : Msa.records (apply cfg s x).msa d p k) : Consent cfg s x p d k := by
  rcases apply_msa cfg s x with e | ⟨o, c, hs, e⟩
  · rw [e] at ha; exact absurd ha hb
  · have he := e
    rw [e] at ha
    obtain ⟨who, dk, proof, pl, h1, h2, h3, h4, h5, h6, h7⟩ := signedGrant_of_records _ _ _ _ _ _ hb ha
    simp only at h1
    have := msaOrigin_signed h1
    subst this
    refine ⟨who, dk, proof, pl, h2, h3, h4, h5, h6, ?_⟩
    rcases h7 with ⟨h7, h8⟩ | ⟨h7, h8, h9⟩
    · simp only at h7
      subst h7
      exact .inl ⟨hs, h8⟩
    · simp only at h7
      subst h7
      refine .inr ⟨hs, ?_, ?_⟩
      · cases hg : s.msa.keyToMsa.get dk with
        | none => exact hg
        | some m => exact absurd hg (h8 m)
      · unfold msaOf
        rw [he]
        exact h9

/-- Whatever a delegation records was consented to. -/
theorem consented_of_records (cfg : Config) (s : State) (hs : ∀ d p k, ¬ Msa.records s.msa d p k) (h : List Step)
    (d p : MsaId) (k : SchemaId) : Msa.records (run cfg s h).msa d p k → Consented cfg s h p d k := by
  induction h using List.reverseRecOn with
  | nil => intro hr; exact absurd hr (hs d p k)
  | append_singleton h x ih =>
    intro hr
    rw [run_snoc] at hr
    by_cases hb : Msa.records (run cfg s h).msa d p k
    · exact (ih hb).append [x]
    · exact ⟨h, x, [], by simp, consent_step cfg _ x d p k hb hr⟩

theorem grant_iff {cfg s p d k} : grant cfg s p d k s.block = true ↔ Authorised s p d k := by
  have : grant cfg s p d k s.block = true ↔
      Msa.ensureValidSchemaGrant (msaEnv cfg s) s.msa p d k s.block = .ok () := by
    unfold grant
    cases Msa.ensureValidSchemaGrant (msaEnv cfg s) s.msa p d k s.block with
    | error e => simp [Except.isOk, Except.toBool]
    | ok u => simp [Except.isOk, Except.toBool]
  rw [this, Msa.ensureValidSchemaGrant_iff]
  unfold Msa.grantedAt Msa.activeAt Authorised
  constructor
  · rintro ⟨_, h⟩; exact h
  · intro h; exact ⟨Nat.le_refl _, h⟩

theorem Authorised.records {s p d k} (h : Authorised s p d k) : Msa.records s.msa d p k := by
  obtain ⟨info, r, h1, _, h2, _⟩ := h
  exact ⟨info, h1, by rw [h2]; rfl⟩

theorem init_not_records (n : Nat) (d p : MsaId) (k : SchemaId) : ¬ Msa.records (State.init n).msa d p k := by
  rintro ⟨info, h, _⟩
  cases h

theorem messages_block (cfg : Config) (n : Nat) (h : List Step) :
    (run cfg (.init n) h).messages.block = (run cfg (.init n) h).block := by
  refine run_induction (P := fun s => s.messages.block = s.block) ?_ h _ rfl
  intro s x hs
  rcases apply_messages cfg s x with e | ⟨rfl, _⟩ | ⟨key, c, hx, e⟩
  · rcases apply_block cfg s x with ⟨_, e2⟩ | ⟨rfl, _⟩
    · rw [e, e2, hs]
    · show s.messages.block + 1 = s.block + 1
      rw [hs]
  · show s.messages.block + 1 = s.block + 1
    rw [hs]
  · rcases apply_block cfg s x with ⟨_, e2⟩ | ⟨rfl, _⟩
    · rw [e, e2, ← hs]
      unfold Messages.apply
      simp only
      split
      · rename_i s' hd
        rw [(Messages.dispatch_ok hd).2]
        rfl
      · rfl
    · cases hx

theorem mem_getMessages {s : Messages.State} {schema loc b r} (h : r ∈ Messages.getMessages s schema loc b) :
    ∃ i m, s.msgs.get (b, schema, i) = some m ∧ r = Messages.toResponse m b loc i := by
  unfold Messages.getMessages at h
  have : ∀ l : List ((Nat × Nat × Nat) × Messages.Msg), l = s.msgs.entries → 
      r ∈ ((l.filter (fun e => e.1.1 = b ∧ e.1.2.1 = schema)).map
      (fun e => Messages.toResponse e.2 b loc e.1.2.2)).mergeSort (fun a b => decide (a.index ≤ b.index)) →
      ∃ i m, s.msgs.get (b, schema, i) = some m ∧ r = Messages.toResponse m b loc i := by
    intro l hl hr
    rw [List.mem_mergeSort, List.mem_map] at hr
    obtain ⟨⟨⟨b', k', i⟩, m⟩, h1, h2⟩ := hr
    rw [List.mem_filter] at h1
    obtain ⟨h1, h3⟩ := h1
    simp only [decide_eq_true_eq] at h3
    obtain ⟨rfl, rfl⟩ := h3
    rw [hl, SMap.mem_entries_iff] at h1
    exact ⟨i, m, h1, h2.symm⟩
  cases loc
  · exact this _ rfl h
  · exact this _ rfl h
  · cases h
  · cases h

/-! ## C90 -/

/-- Where a stored message comes from. -/
theorem message_origin (cfg : Config) (n : Nat) (h : List Step) (b : BlockNumber) (schema : SchemaId) (i : Nat)
    (m : Messages.Msg) : (run cfg (.init n) h).messages.msgs.get (b, schema, i) = some m →
    ∃ h1 x h2 key c, h = h1 ++ x :: h2 ∧ x.sends = some (.signed key, .messages c) ∧
      let s := run cfg (.init n) h1
      s.block = b ∧ msaOf s key = some m.provider ∧
      ((∃ a o, m.author = some a ∧ c = .onchain o schema m.payload ∧ o.getD m.provider = a ∧
          (messagesEnv cfg s).location schema = some .onChain ∧
          (a ≠ m.provider → Authorised s m.provider a schema)) ∨
       (∃ cid len, m.author = none ∧ c = .ipfs schema cid len ∧
          (messagesEnv cfg s).location schema = some .ipfs)) := by
  induction h using List.reverseRecOn with
  | nil => intro hr; cases hr
  | append_singleton h x ih =>
    intro hr
    rw [run_snoc] at hr
    by_cases hb : (run cfg (.init n) h).messages.msgs.get (b, schema, i) = some m
    · obtain ⟨h1, y, h2, key, c, rfl, hy⟩ := ih hb
      exact ⟨h1, y, h2 ++ [x], key, c, by simp, hy⟩
    · have hblk := messages_block cfg n h
      generalize hs : run cfg (.init n) h = s at hr hb hblk
      rcases apply_messages cfg s x with e | ⟨_, e⟩ | ⟨key, c, hx, e⟩
      · rw [e] at hr; exact absurd hr hb
      · rw [e] at hr; exact absurd hr hb
      · rw [e] at hr
        obtain ⟨env, key', c', h1, h2, h3, h4, h5⟩ := Messages.C49_authorised _ _ _ _ _ _ _ hr hb
        cases h1
        refine ⟨h, x, [], key, c, by simp, hx, ?_⟩
        simp only [hs]
        refine ⟨by rw [h2, hblk], h3, ?_⟩
        rcases h5 with ⟨h6, a, h7, h8, o, h9, h10⟩ | ⟨h6, h7, cid, len, bin, h8, _⟩
        · refine .inl ⟨a, o, h7, h9, h10, h6, fun hne => ?_⟩
          have := h8 hne
          rw [hblk] at this
          exact grant_iff.1 this
        · exact .inr ⟨cid, len, h7, h8, h6⟩

/-- C90: every message that a query returns was sent in the block it is returned for, under the schema it is
returned for, by a key of the account it names as its provider. If it names another account as author, the
call named that author and carried that payload; before it, a call was dispatched that carried a valid
signature of the author over a payload naming the provider and the schema; and the delegation and the grant
were active when the message was sent. This holds for every history of calls, however they are wrapped. -/
theorem C90_messages_by_consent (cfg : Config) (n : Nat) (h : List Step) (schema : SchemaId)
    (loc : Schemas.Location) (b : BlockNumber) (r : Messages.Response)
    (hr : r ∈ Messages.getMessages (run cfg (.init n) h).messages schema loc b) :
    ∃ h1 x h2 key c, h = h1 ++ x :: h2 ∧ x.sends = some (.signed key, .messages c) ∧
      (run cfg (.init n) h1).block = b ∧ msaOf (run cfg (.init n) h1) key = some r.provider ∧
      ((∃ cid len, c = .ipfs schema cid len) ∨ ∃ o payload, c = .onchain o schema payload) ∧
      ∀ a, r.author = some a → ∃ o payload, c = .onchain o schema payload ∧ r.payload = some payload ∧
        o.getD r.provider = a ∧
        (a ≠ r.provider → o = some a ∧ Consented cfg (.init n) h1 r.provider a schema ∧
          Authorised (run cfg (.init n) h1) r.provider a schema) := by
  obtain ⟨i, m, h1, rfl⟩ := mem_getMessages hr
  obtain ⟨p, x, q, key, c, h2, h3, h4, h5, h6⟩ := message_origin cfg n h b schema i m h1
  have hp : (Messages.toResponse m b loc i).provider = m.provider := by cases loc <;> rfl
  refine ⟨p, x, q, key, c, h2, h3, h4, by rw [hp]; exact h5, ?_, ?_⟩
  · rcases h6 with ⟨a, o, _, h7, _⟩ | ⟨cid, len, _, h7, _⟩
    · exact .inr ⟨o, _, h7⟩
    · exact .inl ⟨cid, len, h7⟩
  · intro a ha
    have hloc : loc = .onChain ∧ m.author = some a := by
      cases loc <;> first | exact ⟨rfl, ha⟩ | cases ha
    obtain ⟨rfl, hau⟩ := hloc
    rcases h6 with ⟨a', o, h7, h8, h9, _, h10⟩ | ⟨cid, len, h7, _⟩
    · rw [h7] at hau
      cases hau
      refine ⟨o, m.payload, h8, rfl, by rw [hp]; exact h9, ?_⟩
      rw [hp]
      intro hne
      refine ⟨?_, consented_of_records cfg _ (init_not_records n) _ _ _ _ (h10 hne).records, h10 hne⟩
      cases o with
      | none => exact absurd h9.symm hne
      | some o => rw [← h9]; rfl
    · rw [h7] at hau; cases hau

/-! ### A concrete chain used in the examples -/

/-- Small configurations of the pallets; a signature is valid if it is the number of the key. -/
def exCfg : Config where
  msa := { Msa.exCfg with verify := fun sig key _ => sig == key }
  schemas := Schemas.exCfg
  messages := Messages.exCfg
  handles := { Handles.exCfg with verify := fun sig key _ => sig == key }
  storage := { Stateful.exCfg with verify := fun sig key _ => sig == key }
  capacity := Capacity.exCfg
  lo := 10
  hi := 99

/-- Everybody has 1000 tokens. -/
def exBal : AccountId → Balance := fun _ => 1000

/-- Key 10 creates account 1 and registers it as a provider, key 20 creates account 2; governance registers
schema 1 for messages and schema 2 for pages; account 2 grants both to provider 1; the provider posts a
message and writes a page for account 2; account 2 claims a handle; key 30 stakes to provider 1, which pays
a transaction with capacity. -/
def exHist : List Step :=
  [.newBlock,
   .submit exBal 10 (.msa .create),
   .submit exBal 20 (.msa .create),
   .submit exBal 10 (.msa (.createProvider [65])),
   .call exBal .council (.schemas (.createViaGovernance 10 (123 :: List.replicate 10 0) .avroBinary .onChain [])),
   .call exBal .council (.schemas (.createViaGovernance 10 (123 :: List.replicate 10 0) .parquet .paginated [])),
   .submit exBal 10 (.msa (.grantDelegation 20 20 ⟨1, [1, 2], 50⟩)),
   .newBlock,
   .submit exBal 10 (.messages (.onchain (some 2) 1 [7])),
   .submit exBal 20 (.messages (.onchain none 1 [8])),
   .submit exBal 10 (.storage (.upsertPage 2 2 0 0 [5])),
   .submit exBal 20 (.handles (.claim 20 20 (Handles.pl "alice" 30))),
   .submit exBal 30 (.capacity (.stake 1 100)),
   .charge 10 1]

/-- State after it. -/
def exState : State := run exCfg (.init 1024) exHist

/-- Hypotheses met: the message that provider 1 posted for account 2, and the call before it that carried
the consent. A provider without consent is refused, and so is one after the revocation. -/
example : ⟨1, 0, 2, some 2, some [7], none, none⟩ ∈ Messages.getMessages exState.messages 1 .onChain 2 ∧
    Consent exCfg (run exCfg (.init 1024) (exHist.take 6))
      (.submit exBal 10 (.msa (.grantDelegation 20 20 ⟨1, [1, 2], 50⟩))) 1 2 1 ∧
    (dispatch exCfg exBal (run exCfg (.init 1024) (exHist.take 6)) (.signed 10)
      (.messages (.onchain (some 2) 1 [7]))).isNone = true ∧
    (dispatch exCfg exBal (run exCfg exState [.submit exBal 20 (.msa (.revokeDelegationByDelegator 1)), .newBlock])
      (.signed 10) (.messages (.onchain (some 2) 1 [7]))).isNone = true := by
  refine ⟨?_, ⟨10, 20, 20, ⟨1, [1, 2], 50⟩, ?_⟩, ?_, ?_⟩
  · simp only [Messages.getMessages, List.mem_mergeSort]
    decide +kernel
  · refine ⟨by decide +kernel, rfl, by decide, rfl, by decide +kernel, .inl ⟨rfl, by decide +kernel⟩⟩
  · decide +kernel
  · decide +kernel

/-! ## C91 -/

/-- The schema and page ids in a call of the stateful-storage pallet are values of their types. -/
def StorageIdsOk : Stateful.Call → Prop
  | .applyItemActions _ k _ _ => k < 2 ^ 16
  | .upsertPage _ k p _ _ => k < 2 ^ 16 ∧ p < 2 ^ 16
  | .deletePage _ k p _ => k < 2 ^ 16 ∧ p < 2 ^ 16
  | .applyItemActionsWithSignature _ _ p => p.schemaId < 2 ^ 16
  | .upsertPageWithSignature _ _ p => p.schemaId < 2 ^ 16 ∧ p.pageId < 2 ^ 16
  | .deletePageWithSignature _ _ p => p.schemaId < 2 ^ 16 ∧ p.pageId < 2 ^ 16

/-- So are those of a step. -/
def IdsOk (x : Step) : Prop := ∀ o c, x.sends = some (o, .storage c) → StorageIdsOk c

/-- A storage call either changes nothing or is for an account that has been created. -/
theorem storage_call {cfg : Config} {n : Nat} {h : List Step} (hf : Fits cfg (run cfg (.init n) h))
    (who : Option AccountId) {c : Stateful.Call} (hc : StorageIdsOk c) :
    Stateful.apply cfg.storage (run cfg (.init n) h).storage ⟨storageEnv cfg (run cfg (.init n) h), who, c⟩ =
      (run cfg (.init n) h).storage ∨
    Stateful.StepOk cfg.storage ⟨storageEnv cfg (run cfg (.init n) h), who, c⟩ := by
  cases hd : Stateful.dispatch cfg.storage (storageEnv cfg (run cfg (.init n) h)) (run cfg (.init n) h).storage who c with
  | error e => exact .inl (by simp only [Stateful.apply, hd])
  | ok t =>
    refine .inr fun owner ho => ?_
    obtain ⟨ow, ha⟩ := Stateful.dispatch_accepted hd
    have : ow = owner := Option.some.inj (ha.howner.symm.trans ho)
    subst this
    have hi : Issued (run cfg (.init n) h) ow := by
      cases hsig : c.signature with
      | none =>
        obtain ⟨key', caller, _, h2, h3⟩ := ha.direct hsig
        by_cases e : caller = ow
        · rw [← e]; exact key_issued h2
        · obtain ⟨info, r, h1, _⟩ := grant_iff.1 (h3 e)
          exact issued_iff.2 ((msaRefs cfg n h).delegations _ _ _ h1).1
      | some q =>
        obtain ⟨k, sig, bytes, e⟩ := q
        exact key_issued (ha.signed k sig bytes e hsig).1
    have := hf _ hi
    cases c with
    | applyItemActions => exact ⟨this, hc⟩
    | upsertPage => exact ⟨this, hc⟩
    | deletePage => exact ⟨this, hc⟩
    | applyItemActionsWithSignature => exact ⟨this, hc⟩
    | upsertPageWithSignature => exact ⟨this, hc⟩
    | deletePageWithSignature => exact ⟨this, hc⟩

theorem storage_reachable (cfg : Config) (n : Nat) (h : List Step) :
    Fits cfg (run cfg (.init n) h) → (∀ x ∈ h, IdsOk x) → Stateful.Reachable cfg.storage (run cfg (.init n) h).storage := by
  induction h using List.reverseRecOn with
  | nil => intro _ _; exact ⟨[], by simp, rfl⟩
  | append_singleton h x ih =>
    intro hf hx
    rw [run_append] at hf
    have hr := ih hf.before (fun y hy => hx y (by simp [hy]))
    rw [run_snoc]
    rcases apply_storage cfg (run cfg (.init n) h) x with e | ⟨o, c, hs, e⟩
    · rw [e]; exact hr
    · rw [e]
      rcases storage_call hf.before o.signer (hx x (by simp) o c hs) with e' | hok
      · rw [e']; exact hr
      have := hr.run (hist := [⟨storageEnv cfg (run cfg (.init n) h), o.signer, c⟩])
        (by intro y hy; simp only [List.mem_singleton] at hy; rw [hy]; exact hok)
      exact this

/-- The schema is registered with the setting that calls need the signature of the owner. -/
def SignatureRequired (s : State) (k : SchemaId) : Prop :=
  ∃ r, Schemas.getSchemaById s.schemas k = some r ∧ .signatureRequired ∈ r.settings

/-- C91: whatever is read at a place in the storage of an account changes only by a call of the storage pallet
that is sent by a key of that account, or carries a valid unexpired signature by a key of that account, or is
sent by a key of another account `p`. In the last case a call was dispatched before that carried a valid
signature of the account over a payload naming `p` and the schema, the delegation and the grant are active,
and the schema was not registered as requiring signatures. -/
theorem C91_storage_by_consent (cfg : Config) (hc : Stateful.CfgOk cfg.storage) (n : Nat) (h : List Step) (x : Step)
    (hf : Fits cfg (run cfg (.init n) h)) (hx : ∀ y ∈ h ++ [x], IdsOk y) (l : Stateful.Loc)
    (hl : l.InRange cfg.storage)
    (hch : Stateful.readAt cfg.storage (run cfg (.init n) (h ++ [x])).storage l ≠
      Stateful.readAt cfg.storage (run cfg (.init n) h).storage l) :
    let s := run cfg (.init n) h
    ∃ key c, x.sends = some (.signed key, .storage c) ∧
      (msaOf s key = some l.msa ∨
       Stateful.SignedFor cfg.storage ⟨storageEnv cfg s, some key, c⟩ l.msa ∨
       ∃ p, msaOf s key = some p ∧ p ≠ l.msa ∧ Consented cfg (.init n) h p l.msa l.schema ∧
         Authorised s p l.msa l.schema ∧ ¬ SignatureRequired s l.schema) := by
  have hst := storage_reachable cfg n h hf (fun y hy => hx y (by simp [hy]))
  rw [run_snoc] at hch
  have hok : ∀ (o : Origin) c, x.sends = some (o, .storage c) → _ ∨ _ :=
    fun o c hs => storage_call hf o.signer (hx x (by simp) o c hs)
  have hcons := consented_of_records cfg (.init n) (init_not_records n) h
  intro s
  change Stateful.Reachable cfg.storage s.storage at hst
  change Stateful.readAt cfg.storage (apply cfg s x).storage l ≠ Stateful.readAt cfg.storage s.storage l at hch
  rcases apply_storage cfg s x with e | ⟨o, c, hs, e⟩
  · rw [e] at hch; exact absurd rfl hch
  · rw [e] at hch
    rcases hok o c hs with e' | hso
    · exact absurd (congrArg (fun t => Stateful.readAt cfg.storage t l) e') hch
    rcases Stateful.readAt_apply hc (hst.storeOk hc) hso hl with h1 | ⟨ow, _, _, ha, hloc, _⟩
    · exact absurd h1 hch
    · have hm : l.msa = ow := by rw [hloc]; exact (Stateful.loc_msa_schema _ _ _).1
      have hk : l.schema = c.schema := by rw [hloc]; exact (Stateful.loc_msa_schema _ _ _).2
      rw [hm, hk]
      obtain ⟨key, hkey⟩ := ha.signer
      have := signer_eq hkey
      subst this
      refine ⟨key, c, hs, ?_⟩
      cases hsig : c.signature with
      | none =>
        obtain ⟨key', caller, h1, h2, h3⟩ := ha.direct hsig
        cases h1
        by_cases e : caller = ow
        · exact .inl (by rw [← e]; exact h2)
        · have hau : Authorised s caller ow c.schema := grant_iff.1 (h3 e)
          refine .inr (.inr ⟨caller, h2, e, hcons _ _ _ hau.records, hau, ?_⟩)
          rintro ⟨r, hr1, hr2⟩
          obtain ⟨info, i1, _, _, i4⟩ := ha.info
          have hin : Stateful.Setting.signatureRequired ∈ info.settings := by
            have i1 : (Schemas.getSchemaInfoById s.schemas c.schema).map
              (fun i => (⟨location i.2.1, i.2.2.map setting⟩ : Stateful.SchemaInfo)) = some info := i1
            unfold Schemas.getSchemaById at hr1
            unfold Schemas.getSchemaInfoById at i1
            split at hr1
            · rename_i inf pl g1 g2
              cases hr1
              rw [g1] at i1
              cases i1
              exact List.mem_map.2 ⟨_, hr2, rfl⟩
            · cases hr1
          obtain ⟨key', h1, h4⟩ := i4 hin hsig
          cases h1
          have h2 : (storageEnv cfg s).msaOf key = some caller := h2
          rw [h2] at h4
          exact e (Option.some.inj h4)
      | some q =>
        obtain ⟨k, sig, bytes, e⟩ := q
        exact .inr (.inl (Stateful.signedFor_of hsig (ha.signed k sig bytes e hsig)))

/-- The configuration of the example is fine. -/
theorem exCfg_storage : Stateful.CfgOk exCfg.storage where
  toHashOk := ⟨Stateful.exCfg_ok.keyLen, Stateful.exCfg_ok.blakeLen, Stateful.exCfg_ok.twoxLen,
    Stateful.exCfg_ok.blakeInj, Stateful.exCfg_ok.kinds⟩
  itemizedSmall := Stateful.exCfg_ok.itemizedSmall
  paginatedSmall := Stateful.exCfg_ok.paginatedSmall
  pageIdSmall := Stateful.exCfg_ok.pageIdSmall

/-- Hypotheses met: provider 1 writes page 0 of schema 2 of account 2. The last step changes what is read
there; before the grant the same call is refused. -/
example : Fits exCfg (run exCfg (.init 1024) (exHist.take 11)) ∧ (∀ y ∈ exHist.take 11, IdsOk y) ∧
    exHist.take 11 = exHist.take 10 ++ [.submit exBal 10 (.storage (.upsertPage 2 2 0 0 [5]))] ∧
    Stateful.readAt exCfg.storage (run exCfg (.init 1024) (exHist.take 11)).storage (.page 2 2 0) ≠
      Stateful.readAt exCfg.storage (run exCfg (.init 1024) (exHist.take 10)).storage (.page 2 2 0) ∧
    (dispatch exCfg exBal (run exCfg (.init 1024) (exHist.take 6)) (.signed 10)
      (.storage (.upsertPage 2 2 0 0 [5]))).isNone = true := by
  refine ⟨fun m hm => Nat.lt_of_le_of_lt (issued_iff.1 hm).2 (by decide +kernel), ?_, rfl, by decide +kernel,
    by decide +kernel⟩
  intro y hy o c hs
  simp only [exHist, List.take_succ_cons, List.take_zero, List.mem_cons, List.not_mem_nil, or_false] at hy
  rcases hy with rfl | rfl | rfl | rfl | rfl | rfl | rfl | rfl | rfl | rfl | rfl <;> cases hs
  exact ⟨by decide, by decide⟩

end Verif.Chain
