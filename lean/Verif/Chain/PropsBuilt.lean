import Verif.Chain.PropsRetire
import Verif.Chain.PropsOwn
/-!
# The chain as built

The limits with the constants of the runtime, `runtime/common/src/constants.rs`.
-/

namespace Verif.Chain

/-! ## Specification -/

/-- The configuration has the constants that the runtime is built with, `runtime/common/src/constants.rs` 19, 43, 81-84, 94-106,
112-118, 268, 326-338, 382-385, wired in `runtime/frequency/src/lib.rs` 473-540, 1073-1142. Hashes, signatures, tables and the rest are
open. -/
structure Built (cfg : Config) : Prop where
  keys : cfg.msa.maxKeys = 25
  grants : cfg.msa.maxGrants = 30
  name : cfg.msa.maxNameSize = 16
  msaWindow : cfg.msa.window = 100
  signatures : cfg.msa.maxSignatures = 50000
  minModel : cfg.schemas.minModelBytes = 8
  maxModel : cfg.schemas.modelLimit = 65500
  settings : cfg.schemas.maxSettings = 2
  payload : cfg.messages.maxPayload = 3072
  handleWindow : cfg.handles.window = 100
  suffixMin : cfg.lo = 10
  suffixMax : cfg.hi = 99
  itemized : cfg.storage.maxItemizedPage = 10260
  blob : cfg.storage.maxBlob = 1024
  actions : cfg.storage.maxActions = 5
  paginated : cfg.storage.maxPaginatedPage = 1024
  pageId : cfg.storage.maxPageId = 32
  storageWindow : cfg.storage.window = 14400
  minStake : cfg.capacity.minStake = 1000000
  chunks : cfg.capacity.maxChunks = 4
  epochLength : cfg.capacity.maxEpochLength = 7200

/-- Limits of what accounts, schemas, messages, handles and stakes amount to, keys apart. -/
structure Limits (cfg : Config) (s : State) : Prop where
  /-- a delegation records at most 30 schemas -/
  grants : ∀ m p d, s.msa.delegations.get (m, p) = some d → d.perms.keys.Nodup ∧ d.perms.keys.length ≤ 30
  /-- names of providers have at most 16 bytes -/
  names : ∀ p name, s.msa.providers.get p = some name → name.length ≤ 16
  /-- there are at most 65,535 schemas, with models of 8 to 65,500 bytes and at most 2 settings -/
  schemas : ∀ k r, Schemas.getSchemaById s.schemas k = some r →
    1 ≤ k ∧ k ≤ 65535 ∧ 8 ≤ r.model.length ∧ r.model.length ≤ 65500 ∧ r.settings.length ≤ 2
  /-- a message has at most 3,072 bytes -/
  messages : ∀ b k i m, s.messages.msgs.get (b, k, i) = some m → m.payload.length ≤ 3072
  /-- a handle is a name of 3 to 20 characters in at most 32 bytes, and two digits -/
  handles : ∀ m d e, s.handles.byMsa.get m = some (d, e) → ∃ (base : Str) (x : Nat),
    d = utf8Encode (base ++ '.' :: Nat.toDigits 10 x) ∧ 10 ≤ x ∧ x ≤ 99 ∧ 3 ≤ base.length ∧ base.length ≤ 20 ∧
    (utf8Encode base).length ≤ 32
  /-- stakes are of at least a hundredth of a token, and at most 4 amounts are thawing -/
  stakes : ∀ k, (Capacity.actOf s.capacity k = 0 ∨ 1000000 ≤ Capacity.actOf s.capacity k) ∧
    (Capacity.chunksOf s.capacity k).length ≤ 4
  /-- epochs are at most 7,200 blocks long -/
  epochs : s.capacity.epochLength ≤ 7200

/-- Limits of what can be read in the storage of an account under a schema. -/
structure StorageLimits (cfg : Config) (s : State) (m : MsaId) (k : SchemaId) : Prop where
  /-- an item has at most 1,024 bytes, all together at most 10,260, counting two for the length of each -/
  items : (∀ d ∈ Stateful.itemsAt cfg.storage s.storage m k, d.length ≤ 1024) ∧
    ((Stateful.itemsAt cfg.storage s.storage m k).map fun d => 2 + d.length).sum ≤ 10260
  /-- there are pages 0 to 32, of at most 1,024 bytes each -/
  pages : ∀ i p, i < 2 ^ 16 → Stateful.readAt cfg.storage s.storage (.page m k i) = .ok (some p) →
    i ≤ 32 ∧ p.data.length ≤ 1024

/-! ## C130 -/

/-- C130, the theorems about other chains apply: the constants meet what other theorems assume of them. What remains are
the assumptions about hashes. -/
theorem C130_applies (cfg : Config) (hb : Built cfg) :
    2 ≤ cfg.msa.maxSignatures ∧ 1 ≤ cfg.msa.maxKeys ∧ cfg.msa.maxKeys ≤ 255 ∧ Handles.RangeOk cfg.hi ∧
    cfg.messages.maxPayload < 2 ^ 32 ∧ (Stateful.HashOk cfg.storage → Stateful.CfgOk cfg.storage) := by
  refine ⟨?_, ?_, ?_, ?_, ?_, fun h => ⟨h, ?_, ?_, ?_⟩⟩
  · rw [hb.signatures]; omega
  · rw [hb.keys]; omega
  · rw [hb.keys]; omega
  · unfold Handles.RangeOk; rw [hb.suffixMax]; omega
  · rw [hb.payload]; omega
  · rw [hb.itemized]; omega
  · rw [hb.paginated]; omega
  · rw [hb.pageId]; omega

theorem messages_bounded (cfg : Messages.Config) (h : List Messages.Step) (b : BlockNumber) (k : SchemaId) (i : Nat)
    (m : Messages.Msg) : (Messages.run cfg .init h).msgs.get (b, k, i) = some m → m.payload.length ≤ cfg.maxPayload := by
  induction h using List.reverseRecOn with
  | nil => intro hm; simp [Messages.run, Messages.State.init, SMap.get_empty] at hm
  | append_singleton h x ih =>
    intro hm
    have e : Messages.run cfg .init (h ++ [x]) = Messages.apply cfg (Messages.run cfg .init h) x := by
      simp [Messages.run, List.foldl_append]
    rw [e] at hm
    by_cases ho : (Messages.run cfg .init h).msgs.get (b, k, i) = some m
    · exact ih ho
    · obtain ⟨-, -, -, -, -, -, h1, -⟩ := Messages.C49_authorised cfg _ x b k i m hm ho
      exact h1

theorem names_bounded (cfg : Msa.Config) (h : List Msa.Step) (p : MsaId) (name : Bytes) :
    (Msa.run cfg .init h).providers.get p = some name → name.length ≤ cfg.maxNameSize := by
  induction h using List.reverseRecOn generalizing p name with
  | nil => intro hm; simp [Msa.run, Msa.State.init, SMap.get_empty] at hm
  | append_singleton h x ih =>
    have e : Msa.run cfg .init (h ++ [x]) = Msa.apply cfg (Msa.run cfg .init h) x := by
      simp [Msa.run, List.foldl_append]
    rw [e]
    have he := Msa.apply_eff cfg (Msa.run cfg .init h) x
    obtain ⟨env, o, c⟩ := x
    simp only at he
    generalize Msa.apply cfg (Msa.run cfg .init h) ⟨env, o, c⟩ = s' at he
    cases he with
    | provider hl =>
      intro hm
      simp only [SMap.get_insert] at hm
      split at hm
      · cases hm; exact hl
      · exact ih p name hm
    | _ => exact ih p name

/-- C130: what holds on the chain as built after any history, wrapped calls counted in. -/
theorem C130_limits (cfg : Config) (hb : Built cfg) (n : Nat) (h : List Step) : Limits cfg (run cfg (.init n) h) := by
  obtain ⟨-, -, -, hr, -, -⟩ := C130_applies cfg hb
  obtain ⟨l1, e1⟩ := msa_run cfg h (.init n)
  obtain ⟨l2, e2⟩ := messages_run cfg h (.init n)
  obtain ⟨l3, f3, e3⟩ := handles_run cfg h (.init n)
  obtain ⟨l4, e4⟩ := capacity_run cfg h (.init n)
  have hs := schemas_reachable cfg n h
  refine ⟨fun m p d hd => ?_, fun p name hp => ?_, fun k r hk => ?_, fun b k i m hm => ?_, fun m d e hd => ?_, fun k => ?_, ?_⟩
  · rw [e1] at hd
    have := Msa.C14_grants_bounded cfg.msa l1 m p d hd
    rw [hb.grants] at this
    exact this
  · rw [e1] at hp
    have := names_bounded cfg.msa l1 p name hp
    rw [hb.name] at this
    exact this
  · have := Schemas.C43_rules _ _ hs k r hk
    rw [hb.minModel, hb.maxModel] at this
    unfold Schemas.getSchemaById at hk
    split at hk
    · rename_i info _ h1 _
      have hk' := (hs.inv.infos k).1 ⟨info, h1⟩
      refine ⟨hk'.1, Nat.le_trans hk'.2 hs.inv.last, this.2.1, this.2.2.1, ?_⟩
      cases hk
      obtain ⟨a, b⟩ := info.settings
      cases a <;> cases b <;> simp [Schemas.Settings.toList]
    · cases hk
  · rw [e2] at hm
    have := messages_bounded cfg.messages l2 b k i m hm
    rw [hb.payload] at this
    exact this
  · rw [e3] at hd
    obtain ⟨base, x, h1, h2, h3, h4, h5, h6, -⟩ := Handles.C35_stored_names_valid cfg.handles cfg.lo cfg.hi hr l3 f3 m d e hd
    rw [hb.suffixMin] at h2
    rw [hb.suffixMax] at h3
    exact ⟨base, x, h1, h2, h3, h4, h5, h6⟩
  · rw [e4]
    have := Capacity.C55_minimum_and_chunks cfg.capacity l4 k
    rw [hb.minStake, hb.chunks] at this
    exact this
  · rw [e4]
    rcases List.eq_nil_or_concat l4 with rfl | ⟨l, x, rfl⟩
    · show (100 : Nat) ≤ 7200
      omega
    · have := (Capacity.C56_epochs cfg.capacity l x).2.2.2.2
      rw [hb.epochLength] at this
      have e : Capacity.run cfg.capacity (State.init n).capacity (l.concat x) =
          Capacity.apply cfg.capacity (Capacity.run cfg.capacity .init l) x := by
        simp [Capacity.run, List.foldl_append, State.init]
      rw [e]
      exact Nat.le_trans this (by decide)

theorem mem_survivors {ds : List Nat} {d : Bytes} : ∀ {n : Nat} {items : List Bytes}, d ∈ Stateful.survivors ds n items →
    d ∈ items := by
  intro n items
  induction items generalizing n with
  | nil => simp [Stateful.survivors]
  | cons a items ih =>
    simp only [Stateful.survivors]
    intro h
    split at h
    · exact List.mem_cons_of_mem _ (ih h)
    · rcases List.mem_cons.1 h with rfl | h
      · exact List.mem_cons_self
      · exact List.mem_cons_of_mem _ (ih h)

theorem items_bounded (cfg : Stateful.Config) (hc : Stateful.CfgOk cfg) (hist : List Stateful.Step)
    (hx : ∀ x ∈ hist, Stateful.StepOk cfg x) (m : MsaId) (hm : m < cfg.accounts) (k : SchemaId) (hk : k < 2 ^ 16) :
    ∀ d ∈ Stateful.itemsAt cfg (Stateful.run cfg ∅ hist) m k, d.length ≤ cfg.maxBlob := by
  induction hist using List.reverseRecOn with
  | nil =>
    intro d hd
    have : Stateful.readAt cfg (Stateful.run cfg ∅ []) (.items m k) = .ok none := rfl
    simp [Stateful.itemsAt, this] at hd
  | append_singleton h x ih =>
    have hr : Stateful.Reachable cfg (Stateful.run cfg ∅ h) := ⟨h, fun y hy => hx y (by simp [hy]), rfl⟩
    have ih := ih (fun y hy => hx y (by simp [hy]))
    have hxs := hx x (by simp)
    have e : Stateful.run cfg ∅ (h ++ [x]) = Stateful.apply cfg (Stateful.run cfg ∅ h) x := by
      simp [Stateful.run, List.foldl_append]
    rw [e]
    generalize Stateful.run cfg ∅ h = st at *
    have hloc : Stateful.Loc.InRange cfg (.items m k) := ⟨hm, hk⟩
    by_cases hne : ∀ owner, x.call.owner x.env = some owner → x.call.update.loc owner x.call.schema ≠ .items m k
    · have := Stateful.C25_other_locations_unchanged cfg hc st hr x hxs (.items m k) hloc hne
      simpa only [Stateful.itemsAt, this] using ih
    · simp only [not_forall, not_not] at hne
      obtain ⟨owner, ho, hl⟩ := hne
      cases hu : x.call.update with
      | upsert => rw [hu] at hl; cases hl
      | delete => rw [hu] at hl; cases hl
      | items th actions =>
        rw [hu] at hl
        cases hl
        cases hd : Stateful.dispatch cfg x.env st x.who x.call with
        | error er => simpa only [Stateful.apply, hd] using ih
        | ok st' =>
          obtain ⟨old, g1, -⟩ := (hr.storeOk hc).read hc hloc
          have h1 := Stateful.C83_items_exact cfg hc st hr x hxs _ ho th actions hu old g1
          obtain ⟨ha, -⟩ := h1.1.1 ⟨st', hd⟩
          simp only [Stateful.apply, hd]
          rw [(h1.2 st' hd).1]
          intro d hd
          rcases List.mem_append.1 hd with hd | hd
          · exact ih d (mem_survivors hd)
          · exact (ha.2.1 d hd).1

/-- C130, storage: what can be read in the storage of an account. -/
theorem C130_storage (cfg : Config) (hb : Built cfg) (hh : Stateful.HashOk cfg.storage) (n : Nat) (h : List Step)
    (hf : Fits cfg (run cfg (.init n) h)) (hids : ∀ y ∈ h, IdsOk y) (m : MsaId) (hm : Issued (run cfg (.init n) h) m)
    (k : SchemaId) (hk : k < 2 ^ 16) : StorageLimits cfg (run cfg (.init n) h) m k := by
  have hc := (C130_applies cfg hb).2.2.2.2.2 hh
  have hr := storage_reachable cfg n h hf hids
  have hl := Stateful.C27_limits cfg.storage hc _ hr m (hf m hm) k hk
  rw [hb.itemized, hb.paginated, hb.pageId] at hl
  refine ⟨⟨?_, ?_⟩, fun i p hi hp => ((hl.2 i p hi hp)).symm⟩
  · obtain ⟨hist, hx, e⟩ := hr
    rw [e]
    have := items_bounded cfg.storage hc hist hx m (hf m hm) k hk
    rw [hb.blob] at this
    exact this
  · obtain ⟨old, g1, g2⟩ := (hr.storeOk hc).read hc (show Stateful.Loc.InRange cfg.storage (.items m k) from ⟨hf m hm, hk⟩)
    obtain ⟨h1, h2, h3, h4⟩ := Stateful.itemsAt_of hc g1 g2
    cases old with
    | none => rw [h4.1 rfl]; simp
    | some p =>
      have := hl.1 p g1
      rw [Option.getD_some] at h3
      rw [h3] at this
      rw [← Stateful.encodeItems_length_eq]
      exact this

/-- C130, keys, partial: an account has at most 25 keys, as long as keys are deleted by transactions of their own only.
Missing: deletions within batches and the like, which miscount keys (see C02). -/
theorem C130_keys_partial (cfg : Config) (hb : Built cfg) (n : Nat) (h : List Step) (hd : ∀ x ∈ h, NoWrappedDelete x)
    (m : MsaId) (ks : List AccountId) (hn : ks.Nodup) (hk : ∀ k ∈ ks, msaOf (run cfg (.init n) h) k = some m) :
    ks.length ≤ 25 := by
  have h1 := (countInv cfg n h hd m).2
  rw [hb.keys] at h1
  have h2 : ks ⊆ Msa.keysOf (run cfg (.init n) h).msa m := fun k hk' => (Msa.mem_keysOf _ _ _).2 (hk k hk')
  have h3 := (hn.subperm h2).length_le
  have h4 : (Msa.keysOf (run cfg (.init n) h).msa m).length = (run cfg (.init n) h).msa.keyToMsa.countV (· == m) := by
    simp [Msa.keysOf, SMap.countV, List.countP_eq_length_filter]
  omega

/-- C130, keys: what one would expect. -/
def C130_full : Prop :=
  ∀ (cfg : Config) (_ : Built cfg) (n : Nat) (h : List Step) (m : MsaId) (ks : List AccountId) (_ : ks.Nodup)
    (_ : ∀ k ∈ ks, msaOf (run cfg (.init n) h) k = some m), ks.length ≤ 25

/-- A chain with the constants of the runtime, where a signature is valid if it leaves the remainder 7 by division by
ten. -/
def builtCfg : Config where
  msa := ⟨25, 30, 16, 100, 50000, fun sig _ _ => sig % 10 == 7⟩
  schemas := { Schemas.exCfg with minModelBytes := 8, modelLimit := 65500, maxSettings := 2 }
  messages := { Messages.exCfg with maxPayload := 3072 }
  handles := { Handles.exCfg with window := 100 }
  storage := { Stateful.exCfg with
    maxItemizedPage := 10260, maxBlob := 1024, maxActions := 5, maxPaginatedPage := 1024, maxPageId := 32, window := 14400 }
  capacity := { Capacity.exCfg with minStake := 1000000, maxChunks := 4, maxEpochLength := 7200 }
  lo := 10
  hi := 99

theorem builtCfg_built : Built builtCfg := by constructor <;> rfl

/-- Key 0 adds the key `k`. -/
def exAdd (k : AccountId) : Step :=
  .submit exBal 0 (.msa (.addPublicKeyToMsa 0 (20 * k + 7) (20 * k + 17) ⟨1, 50, k⟩))

/-- Key 0 creates an account and adds the keys 1 to 24; key 100 creates an account; key 0 deletes key 100 within a batch,
and adds the key 25. -/
def exCrowd : List Step :=
  .submit exBal 0 (.msa .create) :: (List.range' 1 24).map exAdd ++
    [.submit exBal 100 (.msa .create), exAdd 25, .call exBal (.signed 0) (.msa (.deleteMsaPublicKey 100)), exAdd 25]

/-- C130 is false of the code as for keys: an account can have a 26th key. The first attempt to add it fails, the one after
a wrapped deletion does not. -/
theorem C130_full_false : ¬ C130_full := by
  intro h
  have := h builtCfg builtCfg_built 1024 exCrowd 1 (List.range 26) (by decide) (by decide +kernel)
  simp at this

/-- Hypotheses of `C130_keys_partial` met: up to the deletion the account has 25 keys, and not the 26th. -/
example : (∀ k ∈ List.range 25, msaOf (run builtCfg (.init 1024) (exCrowd.take 27)) k = some 1) ∧
    msaOf (run builtCfg (.init 1024) (exCrowd.take 27)) 25 = none := by
  decide +kernel

/-- Key 10 creates an account, and governance registers schemas for messages, pages and items. -/
def exBuilt : State := run builtCfg (.init 1024)
  [.newBlock, .submit exBal 10 (.msa .create),
   .call exBal .council (.schemas (.createViaGovernance 10 (123 :: List.replicate 10 0) .avroBinary .onChain [])),
   .call exBal .council (.schemas (.createViaGovernance 10 (123 :: List.replicate 10 0) .avroBinary .paginated [])),
   .call exBal .council (.schemas (.createViaGovernance 10 (123 :: List.replicate 10 0) .avroBinary .itemized []))]

/-- Whether a call by key 10 succeeds there. -/
def exTry (c : Call) : Bool := (dispatch builtCfg exBal exBuilt (.signed 10) c).isSome

/-- The limits can be reached, and not exceeded. -/
example : exTry (.messages (.onchain none 1 (List.replicate 3072 1))) = true ∧
    exTry (.messages (.onchain none 1 (List.replicate 3073 1))) = false ∧
    exTry (.storage (.upsertPage 1 2 32 0 (List.replicate 1024 1))) = true ∧
    exTry (.storage (.upsertPage 1 2 33 0 [1])) = false ∧
    exTry (.storage (.upsertPage 1 2 0 0 (List.replicate 1025 1))) = false ∧
    exTry (.storage (.applyItemActions 1 3 0 (List.replicate 5 (.add (List.replicate 1024 1))))) = true ∧
    exTry (.storage (.applyItemActions 1 3 0 (List.replicate 6 (.add [1])))) = false ∧
    exTry (.storage (.applyItemActions 1 3 0 [.add (List.replicate 1025 1)])) = false := by
  decide +kernel

end Verif.Chain
