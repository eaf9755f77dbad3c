import Verif.Chain.PropsRefs
import Verif.Stateful.PropsEffect
import Verif.Messages.PropsAccept
/-!
# The rules of the pallets on the chain (C105)

The rules of a pallet are proved for any environment: any answer to the question which schemas there are, which
block it is, which account a key has. Here they are stated of the chain, where the answers come from the other
pallets and from the origins that the runtime configures.
-/

namespace Verif.Chain

/-! ## Specification -/

/-- Who may make a call. Council is more than half of the members, member at least one. -/
def Entitled : Origin → Call → Prop
  | .signed _, .schemas (.createViaGovernance ..) => False
  | .signed _, .schemas (.createViaGovernanceV2 ..) => False
  | .signed _, .schemas (.setMaxBytes _) => False
  | .signed _, .schemas (.createName ..) => False
  | .signed _, .msa (.createProviderViaGovernance ..) => False
  | .signed _, .capacity (.setEpochLength _) => False
  | .signed _, _ => True
  | .root, .schemas (.setMaxBytes _) => True
  | .root, .capacity (.setEpochLength _) => True
  | .root, .schemas (.createViaGovernance ..) => True
  | .root, .schemas (.createViaGovernanceV2 ..) => True
  | .root, .schemas (.createName ..) => True
  | .council, .schemas (.createViaGovernance ..) => True
  | .council, .schemas (.createViaGovernanceV2 ..) => True
  | .council, .schemas (.createName ..) => True
  | .member, .msa (.createProviderViaGovernance ..) => True
  | .council, .msa (.createProviderViaGovernance ..) => True
  | .root, .msa (.createProviderViaGovernance ..) => True
  | _, _ => False

/-- The handle shown for an account, and the block until which it is kept. -/
def shown (s : State) (m : MsaId) : Option (Bytes × BlockNumber) := s.handles.byMsa.get m

/-- The bytes of a name with a suffix. -/
def Suffixed (name d : Bytes) : Prop := ∃ y : Nat, d = name ++ utf8Encode ('.' :: Nat.toDigits 10 y)

/-- The messages of a schema in a block, as asked for. -/
def messagesOf (s : State) (k : SchemaId) (loc : Schemas.Location) (b : BlockNumber) : List Messages.Response :=
  Messages.getMessages s.messages k loc b

/-- The kind of schema a storage call is for. -/
def kindOf : Stateful.Call → Schemas.Location
  | .applyItemActions .. | .applyItemActionsWithSignature .. => .itemized
  | _ => .paginated

/-- Whether a storage call deletes. -/
def deletes : Stateful.Call → Prop
  | .applyItemActions _ _ _ a => ∃ i, .delete i ∈ a
  | .applyItemActionsWithSignature _ _ p => ∃ i, .delete i ∈ p.actions
  | .deletePage .. | .deletePageWithSignature .. => True
  | _ => False

/-! ## Theorems -/

/-- C105, origins: only those entitled can make a call, and those who may use a governance call get the same from
it. -/
theorem C105_origins (cfg : Config) (bal : AccountId → Balance) (s : State) (o : Origin) (c : Call) :
    (∀ s', dispatch cfg bal s o c = some s' → Entitled o c) ∧
    (∀ o', Entitled o c → Entitled o' c → o.signer = none → o'.signer = none →
      dispatch cfg bal s o c = dispatch cfg bal s o' c) := by
  constructor
  · intro s' h
    have h := dispatch_called h
    cases h with
    | @msa c t h => cases o <;> cases c <;> trivial
    | @schemas c o' t ho h => cases o <;> cases ho <;> cases c <;> trivial
    | messages ho h => subst ho; trivial
    | handles ho h => subst ho; trivial
    | @storage c t hs =>
      obtain ⟨_, ha⟩ := Stateful.dispatch_accepted hs
      obtain ⟨key, hk⟩ := ha.signer
      rw [signer_eq hk]
      trivial
    | @capacity c op t ho h => cases o <;> cases c <;> trivial
  · intro o' h h' hs hs'
    cases o <;> cases hs <;> cases o' <;> cases hs' <;> cases c <;> first | rfl | (rename_i c; cases c <;> first | rfl | exact False.elim h | exact False.elim h')

/-- C105, grants: every schema in a delegation is registered, except for the number 0. -/
theorem C105_granted_registered (cfg : Config) (n : Nat) (h : List Step) (d p : MsaId) (k : SchemaId)
    (hk : Msa.records (run cfg (.init n) h).msa d p k) : k = 0 ∨ ∃ loc, HasSchema (run cfg (.init n) h) k loc := by
  suffices k ≤ (run cfg (.init n) h).schemas.lastId by
    by_cases h0 : k = 0
    · exact .inl h0
    · have hinv := (schemas_reachable cfg n h).inv
      obtain ⟨i, hi⟩ := (hinv.infos k).2 ⟨by omega, this⟩
      exact .inr ⟨_, hasSchema_of_info (by unfold Schemas.getSchemaInfoById; rw [hi]; rfl)⟩
  induction h using List.reverseRecOn with
  | nil =>
    obtain ⟨info, h1, _⟩ := hk
    cases h1
  | append_singleton h x ih =>
    have hmono : (run cfg (.init n) h).schemas.lastId ≤ (run cfg (.init n) (h ++ [x])).schemas.lastId := by
      by_contra hlt
      have hinv := (schemas_reachable cfg n h).inv
      obtain ⟨i, hi⟩ := (hinv.infos (run cfg (.init n) h).schemas.lastId).2 ⟨by omega, Nat.le_refl _⟩
      have := schema_mono cfg n h [x] _ _ (hasSchema_of_info (cfg := cfg) (n := n) (h := h)
        (k := (run cfg (.init n) h).schemas.lastId) (by unfold Schemas.getSchemaInfoById; rw [hi]; rfl))
      obtain ⟨r, h1, _⟩ := this
      have hinv' := (schemas_reachable cfg n (h ++ [x])).inv
      unfold Schemas.getSchemaById at h1
      split at h1
      · rename_i e1 e2
        have := (hinv'.infos _).1 ⟨_, e1⟩
        omega
      · cases h1
    by_cases hb : Msa.records (run cfg (.init n) h).msa d p k
    · exact Nat.le_trans (ih hb) hmono
    · rw [run_snoc] at hk
      rcases apply_msa cfg (run cfg (.init n) h) x with e | ⟨o, c, _, e⟩
      · rw [e] at hk; exact absurd hk hb
      · rw [e] at hk
        exact Nat.le_trans (Msa.C79_only_issued_partial _ _ _ _ _ _ hb hk) hmono

/-- C105, storage: a storage call succeeds only for a registered schema of its kind, and deletes nothing from
append-only schemas. -/
theorem C105_storage_schema (cfg : Config) (bal : AccountId → Balance) (n : Nat) (h : List Step) (o : Origin)
    (c : Stateful.Call) (s' : State) (hd : dispatch cfg bal (run cfg (.init n) h) o (.storage c) = some s') :
    ∃ r, Schemas.getSchemaById (run cfg (.init n) h).schemas c.schema = some r ∧ r.location = kindOf c ∧
      (deletes c → .appendOnly ∉ r.settings) := by
  have hd := dispatch_called hd
  cases hd with
  | storage hs =>
    obtain ⟨_, ha⟩ := Stateful.dispatch_accepted hs
    obtain ⟨info, i1, i2, i3, _⟩ := ha.info
    have i1 : (Schemas.getSchemaInfoById (run cfg (.init n) h).schemas c.schema).map
      (fun i => (⟨location i.2.1, i.2.2.map setting⟩ : Stateful.SchemaInfo)) = some info := i1
    rw [Option.map_eq_some_iff] at i1
    obtain ⟨j, hj, rfl⟩ := i1
    obtain ⟨r, hr1, hr2⟩ := hasSchema_of_info hj
    have hset : r.settings = j.2.2 := by
      unfold Schemas.getSchemaById at hr1
      unfold Schemas.getSchemaInfoById at hj
      split at hr1
      · rename_i g1 g2
        rw [g1] at hj
        cases hr1
        cases hj
        rfl
      · cases hr1
    refine ⟨r, hr1, ?_, fun hdel hap => ?_⟩
    · rw [hr2]
      cases hl : j.2.1 <;> rw [hl] at i2 <;> cases c <;> first | rfl | cases i2
    · have hf := i3 (List.mem_map.2 ⟨_, by rw [← hset]; exact hap, rfl⟩)
      cases c with
      | applyItemActions _ _ _ a =>
        obtain ⟨i, hi⟩ := hdel
        have ht : Stateful.isPruning a = true := List.any_eq_true.2 ⟨_, hi, rfl⟩
        exact absurd (ht.symm.trans hf) (by decide)
      | applyItemActionsWithSignature _ _ p =>
        obtain ⟨i, hi⟩ := hdel
        have ht : Stateful.isPruning p.actions = true := List.any_eq_true.2 ⟨_, hi, rfl⟩
        exact absurd (ht.symm.trans hf) (by decide)
      | upsertPage => exact hdel
      | upsertPageWithSignature => exact hdel
      | deletePage => cases hf
      | deletePageWithSignature => cases hf

/-- C105, messages: a message that is accepted can be queried under the block it was posted in, with its
sender and author. -/
theorem C105_messages (cfg : Config) (bal : AccountId → Balance) (n : Nat) (h : List Step) (key : AccountId)
    (a : Option MsaId) (k : SchemaId) (payload : Bytes) (s' : State)
    (hd : dispatch cfg bal (run cfg (.init n) h) (.signed key) (.messages (.onchain a k payload)) = some s') :
    ∃ p i, msaOf (run cfg (.init n) h) key = some p ∧
      ⟨p, i, (run cfg (.init n) h).block, some (a.getD p), some payload, none, none⟩ ∈
        messagesOf s' k .onChain (run cfg (.init n) h).block := by
  have hb := messages_block cfg n h
  generalize run cfg (.init n) h = s at *
  have hd := dispatch_called hd
  cases hd with
  | messages ho hs =>
    cases ho
    obtain ⟨ha, _⟩ := Messages.dispatch_ok hs
    have hp := ha.provider
    refine ⟨_, s.messages.index, hp, ?_⟩
    have he := (Messages.C84_onchain_effect _ _ _ _ _ _ _ _ _ hp hs).2 (s.messages.block, k, s.messages.index)
    rw [if_pos rfl] at he
    unfold messagesOf Messages.getMessages
    simp only [List.mem_mergeSort, List.mem_map, List.mem_filter]
    refine ⟨_, ⟨(SMap.mem_entries_iff _ _ _).2 he, ?_⟩, ?_⟩
    · simp [hb]
    · rfl

/-- C105, messages: what is answered for past blocks stays as it is. -/
theorem C105_past_messages_fixed (cfg : Config) (n : Nat) (h h' : List Step) (b : BlockNumber) (k : SchemaId)
    (loc : Schemas.Location) (hb : b < (run cfg (.init n) h).block) :
    messagesOf (run cfg (.init n) (h ++ h')) k loc b = messagesOf (run cfg (.init n) h) k loc b := by
  obtain ⟨l, hl⟩ := messages_run cfg h (.init n)
  obtain ⟨l', hl'⟩ := messages_run cfg h' (run cfg (.init n) h)
  have hb' := messages_block cfg n h
  unfold messagesOf
  rw [run_append, hl', hl]
  have := Messages.C46_past_blocks_fixed cfg.messages l l' b k loc (by rw [hl] at hb'; exact hb'.symm ▸ hb)
  simpa [Messages.run, List.foldl_append, State.init] using this

/-- C105, handles: a transaction cannot retire a handle before its expiration. -/
theorem C105_handle_kept (cfg : Config) (bal : AccountId → Balance) (s : State) (who : AccountId) (m : MsaId)
    (d : Bytes) (e : BlockNumber) (hm : msaOf s who = some m) (hs : shown s m = some (d, e)) (hb : s.block < e) :
    apply cfg s (.submit bal who (.handles .retire)) = s := by
  have : extensions cfg s who (.handles .retire) = false := by
    have hm : (handlesEnv cfg s).msaOf who = some m := hm
    have hs : s.handles.byMsa.get m = some (d, e) := hs
    have hb : ¬ (handlesEnv cfg s).block ≥ e := Nat.not_le.2 hb
    simp only [extensions, Handles.validateRetire, hm, hs, okOr, bind, Except.bind, ensure, if_neg hb]
    rfl
  show (if extensions cfg s who (.handles .retire) then _ else s) = s
  rw [this]
  rfl

/-- C105, handles: a claim is for those without a handle, a change for those with one; afterwards the handle is the
name asked for with a suffix, kept until the block named in the payload. -/
theorem C105_handle_set (cfg : Config) (bal : AccountId → Balance) (s s' : State) (key owner : AccountId)
    (sig : Signature) (p : Handles.Payload) :
    (dispatch cfg bal s (.signed key) (.handles (.claim owner sig p)) = some s' →
      ∃ m d, msaOf s owner = some m ∧ shown s m = none ∧ shown s' m = some (d, p.expiration) ∧
        Suffixed p.baseHandle d) ∧
    (dispatch cfg bal s (.signed key) (.handles (.change owner sig p)) = some s' →
      ∃ m d, msaOf s owner = some m ∧ (shown s m).isSome = true ∧ shown s' m = some (d, p.expiration) ∧
        Suffixed p.baseHandle d) := by
  have hsuf : ∀ {base : Str} {x : Nat}, utf8Decode p.baseHandle = some base →
      Suffixed p.baseHandle (Handles.displayOf base x) := by
    intro base x hb
    refine ⟨x, ?_⟩
    rw [← utf8Encode_decode hb]
    simp [Handles.displayOf, Handles.displayStr, utf8Encode, Handles.dec]
  constructor
  · intro hd
    have hd := dispatch_called hd
    cases hd with
    | @handles c k t ho hs =>
      have hs : Handles.claim cfg.handles (handlesEnv cfg s) s.handles owner sig p = .ok t := hs
      simp only [Handles.claim, bind_eq_ok_iff, okOr_eq_ok_iff, pure_eq_ok_iff] at hs
      obtain ⟨_, _, m, hm, _, _, _, _, ⟨s1, d⟩, h5, rfl⟩ := hs
      obtain ⟨base, i, x, hc⟩ := Handles.doClaim_ok h5
      refine ⟨m, d, hm, hc.noHandle, ?_, ?_⟩
      · show s1.byMsa.get m = _
        rw [hc.state]
        simp only [SMap.get_insert, if_pos]
      · rw [hc.display]; exact hsuf hc.decoded
  · intro hd
    have hd := dispatch_called hd
    cases hd with
    | @handles c k t ho hs =>
      have hs : Handles.change cfg.handles (handlesEnv cfg s) s.handles owner sig p = .ok t := hs
      simp only [Handles.change, bind_eq_ok_iff, okOr_eq_ok_iff, pure_eq_ok_iff] at hs
      obtain ⟨_, _, m, hm, _, _, _, _, old, hold, ⟨s1, d1⟩, _, ⟨s2, d⟩, h5, rfl⟩ := hs
      obtain ⟨base, i, x, hc⟩ := Handles.doClaim_ok h5
      refine ⟨m, d, hm, ?_, ?_, ?_⟩
      · show (s.handles.byMsa.get m).isSome = true
        rw [hold]; rfl
      · show s2.byMsa.get m = _
        rw [hc.state]
        simp only [SMap.get_insert, if_pos]
      · rw [hc.display]; exact hsuf hc.decoded

/-- C105, blocks: every block has the next number, and begins an epoch if the last one has had its length. -/
theorem C105_blocks (cfg : Config) (s : State) :
    (apply cfg s .newBlock).block = s.block + 1 ∧
    (apply cfg s .newBlock).capacity.epoch =
      (if s.capacity.epochLength ≤ s.block + 1 - s.capacity.epochStart then min cfg.capacity.maxEpoch (s.capacity.epoch + 1)
       else s.capacity.epoch) := by
  refine ⟨rfl, ?_⟩
  show (Capacity.startNewEpochIfNeeded cfg.capacity s.capacity (s.block + 1)).epoch = _
  unfold Capacity.startNewEpochIfNeeded
  split <;> rfl

/-- Hypotheses met: governance calls by the council are accepted and those by a signer not, in the same state. -/
example : (dispatch exCfg exBal exState .council (.schemas (.createName 1 (Handles.pl "abc.def" 0).baseHandle))).isSome = true ∧
    (dispatch exCfg exBal exState .root (.schemas (.createName 1 (Handles.pl "abc.def" 0).baseHandle))).isSome = true ∧
    (dispatch exCfg exBal exState (.signed 10) (.schemas (.createName 1 (Handles.pl "abc.def" 0).baseHandle))).isSome = false ∧
    (dispatch exCfg exBal exState .member (.schemas (.createName 1 (Handles.pl "abc.def" 0).baseHandle))).isSome = false := by
  decide +kernel

/-- Hypotheses met: account 2 granted schema 2; a page of it is written, an item of it is not; a message is
posted and remains; the handle of account 2 is kept until block 30, changed into another one, and can be retired
at block 30. -/
example : Msa.records exState.msa 2 1 2 ∧
    (dispatch exCfg exBal exState (.signed 10) (.storage (.upsertPage 2 2 1 0 [5]))).isSome = true ∧
    (dispatch exCfg exBal exState (.signed 10) (.storage (.applyItemActions 2 2 0 [.add [5]]))).isSome = false ∧
    (dispatch exCfg exBal exState (.signed 10) (.messages (.onchain (some 2) 1 [7]))).isSome = true ∧
    2 < (run exCfg (.init 1024) (exHist ++ [.newBlock])).block ∧
    (shown exState 2).map Prod.snd = some 30 ∧ exState.block < 30 ∧
    (dispatch exCfg exBal exState (.signed 20) (.handles (.claim 20 20 (Handles.pl "bob" 40)))).isSome = false ∧
    (dispatch exCfg exBal exState (.signed 20) (.handles (.change 20 20 (Handles.pl "bobby" 40)))).isSome = true ∧
    (dispatch exCfg exBal exState (.signed 10) (.handles (.claim 10 10 (Handles.pl "bobby" 40)))).isSome = true ∧
    shown (run exCfg exState (List.replicate 28 .newBlock ++ [.submit exBal 20 (.handles .retire)])) 2 = none := by
  refine ⟨by unfold Msa.records; decide +kernel, by decide +kernel, by decide +kernel, by decide +kernel,
    by decide +kernel, by decide +kernel, by decide +kernel, by decide +kernel, by decide +kernel, by decide +kernel,
    by decide +kernel⟩

end Verif.Chain
