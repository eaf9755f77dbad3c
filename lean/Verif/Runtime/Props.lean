import Verif.Runtime.Calls
import Verif.Msa.PropsKeys
/-!
# Properties of the call filters: C67, C68, C75, C111 and the wrapped case of C03
-/

namespace Verif.Runtime

/-! ## C67 -/

/-- A call that C67 says no accepted batch contains: a batch, a capacity payment, the creation of a provider
or a schema, a call without fee. -/
inductive Forbidden : Call → Prop
  | batch (k calls) : Forbidden (.batch k calls)
  | capacity (c) : Forbidden (.payWithCapacity c)
  | capacityBatch (calls) : Forbidden (.payWithCapacityBatchAll calls)
  | provider (name) : Forbidden (.msa (.createProvider name))
  | schema (n) : Forbidden (.fn .createSchema n)
  | schemaV2 (n) : Forbidden (.fn .createSchemaV2 n)
  | schemaV3 (n) : Forbidden (.fn .createSchemaV3 n)
  | revokeByDelegator (p) : Forbidden (.msa (.revokeDelegationByDelegator p))
  | revokeByProvider (d) : Forbidden (.msa (.revokeDelegationByProvider d))
  | deleteKey (k) : Forbidden (.msa (.deleteMsaPublicKey k))
  | retireMsa : Forbidden (.msa .retireMsa)
  | retireHandle (n) : Forbidden (.fn .retireHandle n)
  | free (p n) : Forbidden (.fn (.other p true) n)

/-- The check of a single batched call is exact. -/
theorem isBatchCallAllowed_iff (c : Call) : isBatchCallAllowed c = false ↔ Forbidden c := by
  constructor
  · intro h
    cases c with
    | msa c => cases c <;> simp [isBatchCallAllowed, paysNo] at h <;> constructor
    | fn f n =>
      cases f with
      | other p free =>
        simp [isBatchCallAllowed, paysNo] at h
        subst h; constructor
      | _ => simp [isBatchCallAllowed, paysNo] at h <;> constructor
    | batch k l => constructor
    | payWithCapacity c => constructor
    | payWithCapacityBatchAll l => constructor
    | asDerivative a c => simp [isBatchCallAllowed, paysNo] at h
    | proxy t a c => simp [isBatchCallAllowed, paysNo] at h
    | multiThreshold1 a c => simp [isBatchCallAllowed, paysNo] at h
  · intro h; cases h <;> rfl

/-- C67 as stated: no batch that passes the filter contains a forbidden call. -/
def C67_full : Prop :=
  ∀ (mainnet : Bool) (k : BatchKind) (calls : List Call), contains mainnet (.batch k calls) = true →
    ∀ c ∈ calls, ¬ Forbidden c

/-- C67 is false: the filter asks for one allowed call (`any`), not for all of them. Any call whatever passes
in a batch next to a remark. -/
theorem C67_any_call_passes (mainnet : Bool) (k : BatchKind) (c : Call) (n : Nat) :
    contains mainnet (.batch k [.fn .remark n, c]) = true := rfl

theorem C67_full_false : ¬ C67_full := fun h =>
  h true .batch [.fn .remark 0, .msa .retireMsa] rfl (.msa .retireMsa) (by simp) .retireMsa

/-- C67, what holds: a batch passes exactly if at least one of its calls is not forbidden. Missing from the
statement: that the others are not forbidden either. -/
theorem C67_batch_partial (mainnet : Bool) (k : BatchKind) (calls : List Call) :
    contains mainnet (.batch k calls) = true ↔ ∃ c ∈ calls, ¬ Forbidden c := by
  simp only [contains, isUtilityCallAllowed, List.any_eq_true]
  refine exists_congr fun c => and_congr_right fun _ => ?_
  rw [← isBatchCallAllowed_iff]; simp

example : contains true (.batch .batch [.msa .retireMsa, .msa (.deleteMsaPublicKey 7)]) = false := rfl
example : contains true (.batch .batch [.msa .create, .msa .create]) = true := rfl

/-- Creation of a provider or a schema by a plain call. -/
inductive Creation : Call → Prop
  | provider (name) : Creation (.msa (.createProvider name))
  | schema (n) : Creation (.fn .createSchema n)
  | schemaV2 (n) : Creation (.fn .createSchemaV2 n)
  | schemaV3 (n) : Creation (.fn .createSchemaV3 n)

/-- A filter at least as strict as another. -/
def Stricter (f g : Filter) : Prop := ∀ c, f c = true → g c = true

theorem stricter_batch (k : BatchKind) {f g : Filter} (h : Stricter f g) : Stricter (k.filter f) g := by
  intro c hc
  unfold BatchKind.filter at hc
  split at hc
  · simp only [Bool.and_eq_true] at hc; exact h c hc.1
  · exact h c hc

theorem stricter_proxied (base : Filter) (ty : ProxyType) : Stricter (proxied base ty) base := by
  intro c hc
  simp only [proxied, Bool.and_eq_true] at hc
  exact hc.1

mutual
/-- Whatever is executed passed the base filter, however it was wrapped. -/
theorem executed_base (base flt : Filter) (hf : Stricter flt base) (who : AccountId) (c : Call)
    (p : AccountId × Call) (h : p ∈ executed base flt who c) : base p.2 = true := by
  unfold executed at h
  split at h
  · rename_i hc
    rcases List.mem_cons.1 h with rfl | h
    · exact hf _ hc
    · cases c with
      | msa c => simp at h
      | fn f n => simp at h
      | batch k calls => exact executedL_base base _ (stricter_batch k hf) who calls p h
      | asDerivative a c => exact executed_base base flt hf a c p h
      | payWithCapacity c => exact executed_base base flt hf who c p h
      | payWithCapacityBatchAll calls => exact executedL_base base _ (stricter_batch .batchAll hf) who calls p h
      | proxy ty real c => exact executed_base base _ (stricter_proxied base ty) real c p h
      | multiThreshold1 a c => exact executed_base base base (fun _ h => h) a c p h
  · simp at h
theorem executedL_base (base flt : Filter) (hf : Stricter flt base) (who : AccountId) (calls : List Call)
    (p : AccountId × Call) (h : p ∈ executedL base flt who calls) : base p.2 = true := by
  match calls with
  | [] => simp [executedL] at h
  | c :: cs =>
    rw [executedL, List.mem_append] at h
    rcases h with h | h
    · exact executed_base base flt hf who c p h
    · exact executedL_base base flt hf who cs p h
end

/-- C67 on the main network: no provider or schema is created by a plain call, however the call is nested in
batches, proxies, multisigs, derived accounts and capacity payments. -/
theorem C67_no_creation_on_mainnet (who : AccountId) (c : Call) (p : AccountId × Call)
    (h : p ∈ executed (contains true) (contains true) who c) : ¬ Creation p.2 := by
  have hb := executed_base _ _ (fun _ h => h) who c p h
  intro hc
  generalize p.2 = x at hb hc
  cases hc <;> simp [contains] at hb

/-- The batch passes the filter and its first call is executed, the creation is not; elsewhere it is. -/
example : (executed (contains true) (contains true) 1
      (.batch .forceBatch [.fn .remark 0, .msa (.createProvider [])])).length = 2 ∧
    (executed (contains false) (contains false) 1
      (.batch .forceBatch [.fn .remark 0, .msa (.createProvider [])])).length = 3 := by decide

/-- In `batch_all` everything but another `batch_all` is executed. -/
example : executed (contains true) (contains true) 1
      (.batch .batchAll [.fn .remark 0, .batch .batchAll [.fn .remark 1], .batch .batch [.fn .remark 2]]) =
    [(1, .batch .batchAll [.fn .remark 0, .batch .batchAll [.fn .remark 1], .batch .batch [.fn .remark 2]]),
     (1, .fn .remark 0), (1, .batch .batch [.fn .remark 2]), (1, .fn .remark 2)] := rfl

/-! ## C68 -/

/-- C68 as stated. -/
def C68_full : Prop :=
  ∀ (a b : ProxyType), a.isSuperset b = true → ∀ c, b.filter c = true → a.filter c = true

/-- C68 is false: `NonTransfer` is declared a superset of `CancelProxy`, which permits
`reject_announcement`; `NonTransfer` permits no call of the proxy pallet. -/
theorem C68_full_false : ¬ C68_full := fun h => by
  have := h .nonTransfer .cancelProxy rfl (.fn .rejectAnnouncement 0) rfl
  exact absurd this (by decide)

/-- C68 for all other pairs of types. -/
theorem C68_superset_partial (a b : ProxyType) (hne : ¬ (a = .nonTransfer ∧ b = .cancelProxy))
    (h : a.isSuperset b = true) (c : Call) (hc : b.filter c = true) : a.filter c = true := by
  by_cases hab : a = b
  · subst hab; exact hc
  · cases a <;> cases b <;> simp_all [ProxyType.isSuperset, ProxyType.filter]
    · cases c with
      | fn f n => cases f <;> simp_all [Fn.pallet]; rename_i p fr; cases p <;> simp_all
      | _ => simp_all
    · cases c with
      | fn f n => cases f <;> simp_all [Fn.pallet]
      | _ => simp_all

/-- The converse: whenever every call of one type is permitted to another, the code says so. -/
theorem C68_all_declared (a b : ProxyType) (h : ∀ c, b.filter c = true → a.filter c = true) : a.isSuperset b = true := by
  have h1 := h (.fn .transferAll 0)
  have h2 := h (.fn .addIpfsMessage 0)
  have h3 := h (.fn (.other .council false) 0)
  have h4 := h (.fn .stake 0)
  have h5 := h (.fn .rejectAnnouncement 0)
  clear h
  cases a <;> cases b <;> first
    | rfl
    | exact absurd (h1 rfl) (by decide)
    | exact absurd (h2 rfl) (by decide)
    | exact absurd (h3 rfl) (by decide)
    | exact absurd (h4 rfl) (by decide)
    | exact absurd (h5 rfl) (by decide)

example : ProxyType.isSuperset .nonTransfer .governance = true ∧
    ProxyType.filter .governance (.fn (.other .treasury false) 0) = true := by decide

/-! ## C75 -/

/-- A call that moves tokens of its caller to an account of the caller's choice. -/
inductive Transfer : Call → Prop
  | keepAlive (n) : Transfer (.fn .transferKeepAlive n)
  | allowDeath (n) : Transfer (.fn .transferAllowDeath n)
  | all (n) : Transfer (.fn .transferAll n)
  | vested (n) : Transfer (.fn .timeReleaseTransfer n)

/-- C75 as stated: nothing executed through a `NonTransfer` proxy is a transfer. -/
def C75_full : Prop :=
  ∀ (mainnet : Bool) (real : AccountId) (c : Call), ∀ p ∈ executed (contains mainnet)
    (proxied (contains mainnet) .nonTransfer) real c, ¬ Transfer p.2

/-- C75 is false: `as_multi_threshold_1` is permitted and dispatches with a new origin, without the filter of
the proxy, as the multisig account. -/
theorem C75_full_false : ¬ C75_full := fun h =>
  h true 1 (.multiThreshold1 2 (.fn .transferAll 0)) (2, .fn .transferAll 0)
    (by simp [executed, proxied, contains, ProxyType.filter]) (.all 0)

mutual
/-- No multisig call anywhere in the tree. -/
def noMultisig : Call → Bool
  | .msa _ | .fn _ _ => true
  | .batch _ calls | .payWithCapacityBatchAll calls => noMultisigL calls
  | .asDerivative _ c | .payWithCapacity c | .proxy _ _ c => noMultisig c
  | .multiThreshold1 _ _ => false
/-- The same for a list. -/
def noMultisigL : List Call → Bool
  | [] => true
  | c :: cs => noMultisig c && noMultisigL cs
end

mutual
theorem executed_nonTransfer (base flt : Filter) (hf : Stricter flt (ProxyType.filter .nonTransfer))
    (who : AccountId) (c : Call) (hm : noMultisig c = true) (p : AccountId × Call)
    (h : p ∈ executed base flt who c) : ProxyType.filter .nonTransfer p.2 = true := by
  unfold executed at h
  split at h
  · rename_i hc
    rcases List.mem_cons.1 h with rfl | h
    · exact hf _ hc
    · cases c with
      | msa c => simp at h
      | fn f n => simp at h
      | batch k calls =>
        exact executedL_nonTransfer base _ (stricter_batch k hf) who calls (by simpa [noMultisig] using hm) p h
      | asDerivative a c => exact executed_nonTransfer base flt hf a c (by simpa [noMultisig] using hm) p h
      | payWithCapacity c => exact executed_nonTransfer base flt hf who c (by simpa [noMultisig] using hm) p h
      | payWithCapacityBatchAll calls =>
        exact executedL_nonTransfer base _ (stricter_batch .batchAll hf) who calls
          (by simpa [noMultisig] using hm) p h
      | proxy ty real c => exact absurd (hf _ hc) (by simp [ProxyType.filter])
      | multiThreshold1 a c => simp [noMultisig] at hm
  · simp at h
theorem executedL_nonTransfer (base flt : Filter) (hf : Stricter flt (ProxyType.filter .nonTransfer))
    (who : AccountId) (calls : List Call) (hm : noMultisigL calls = true) (p : AccountId × Call)
    (h : p ∈ executedL base flt who calls) : ProxyType.filter .nonTransfer p.2 = true := by
  match calls with
  | [] => simp [executedL] at h
  | c :: cs =>
    simp only [noMultisigL, Bool.and_eq_true] at hm
    rw [executedL, List.mem_append] at h
    rcases h with h | h
    · exact executed_nonTransfer base flt hf who c hm.1 p h
    · exact executedL_nonTransfer base flt hf who cs hm.2 p h
end

/-- C75 for call trees without a multisig call. -/
theorem C75_no_transfer_partial (mainnet : Bool) (real : AccountId) (c : Call) (hm : noMultisig c = true)
    (p : AccountId × Call)
    (h : p ∈ executed (contains mainnet) (proxied (contains mainnet) .nonTransfer) real c) :
    ¬ Transfer p.2 := by
  have hs : Stricter (proxied (contains mainnet) .nonTransfer) (ProxyType.filter .nonTransfer) := by
    intro c hc
    simp only [proxied, Bool.and_eq_true] at hc
    exact hc.2
  have hb := executed_nonTransfer _ _ hs real c hm p h
  intro hc
  generalize p.2 = x at hb hc
  cases hc <;> simp [ProxyType.filter, Fn.pallet] at hb

/-- The batch and its claim are executed, the transfer in it is not. -/
example : (executed (contains true) (proxied (contains true) .nonTransfer) 1
    (.batch .forceBatch [.fn .timeReleaseClaim 0, .fn .transferAll 0])).length = 2 := by decide

/-! ## C111 -/

/-- Calls of the governance pallets. -/
def Governance (c : Call) : Prop :=
  ∃ f n, c = .fn f n ∧ f.pallet ∈ [.treasury, .democracy, .technicalCommittee, .council]

/-- Calls of the utility pallet: the batches, acting as a derived account, and the others. -/
def Utility (c : Call) : Prop :=
  (∃ k l, c = .batch k l) ∨ (∃ a c', c = .asDerivative a c') ∨ ∃ f n, c = .fn f n ∧ f.pallet = .utility

/-- What a staking proxy is for. -/
def Staking (c : Call) : Prop := ∃ n, c = .fn .stake n ∨ c = .fn .setCandidacyBond n

/-- What a proxy of the last type is for. -/
def Cancelling (c : Call) : Prop := ∃ n, c = .fn .rejectAnnouncement n

theorem governance_iff (c : Call) : ProxyType.filter .governance c = true ↔ Governance c ∨ Utility c := by
  unfold Governance Utility
  cases c with
  | fn f n =>
    simp only [ProxyType.filter, Call.fn.injEq, reduceCtorEq, exists_false, false_or, List.mem_cons, List.not_mem_nil,
      or_false]
    constructor
    · intro h
      cases hp : f.pallet <;> rw [hp] at h <;> first | cases h | skip
      all_goals first
        | exact .inl ⟨f, n, ⟨rfl, rfl⟩, by rw [hp]; decide⟩
        | exact .inr ⟨f, n, ⟨rfl, rfl⟩, hp⟩
    · rintro (⟨_, _, ⟨rfl, rfl⟩, h⟩ | ⟨_, _, ⟨rfl, rfl⟩, h⟩)
      · rcases h with h | h | h | h <;> rw [h]
      · rw [h]
  | _ => simp [ProxyType.filter]

mutual
theorem executed_governance (base flt : Filter) (hf : Stricter flt (ProxyType.filter .governance))
    (who : AccountId) (c : Call) (p : AccountId × Call) (h : p ∈ executed base flt who c) :
    ProxyType.filter .governance p.2 = true := by
  unfold executed at h
  split at h
  · rename_i hc
    rcases List.mem_cons.1 h with rfl | h
    · exact hf _ hc
    · cases c with
      | msa c => simp at h
      | fn f n => simp at h
      | batch k calls => exact executedL_governance base _ (stricter_batch k hf) who calls p h
      | asDerivative a c => exact executed_governance base flt hf a c p h
      | payWithCapacity c => exact absurd (hf _ hc) (by simp [ProxyType.filter])
      | payWithCapacityBatchAll calls => exact absurd (hf _ hc) (by simp [ProxyType.filter])
      | proxy ty real c => exact absurd (hf _ hc) (by simp [ProxyType.filter])
      | multiThreshold1 a c => exact absurd (hf _ hc) (by simp [ProxyType.filter])
  · simp at h
theorem executedL_governance (base flt : Filter) (hf : Stricter flt (ProxyType.filter .governance))
    (who : AccountId) (calls : List Call) (p : AccountId × Call) (h : p ∈ executedL base flt who calls) :
    ProxyType.filter .governance p.2 = true := by
  match calls with
  | [] => simp [executedL] at h
  | c :: cs =>
    rw [executedL, List.mem_append] at h
    rcases h with h | h
    · exact executed_governance base flt hf who c p h
    · exact executedL_governance base flt hf who cs p h
end

/-- C111, governance: whatever is dispatched through the proxy, only calls of the governance and utility pallets are
executed, to any depth of nesting. -/
theorem C111_governance_only (mainnet : Bool) (real : AccountId) (c : Call) (p : AccountId × Call)
    (h : p ∈ executed (contains mainnet) (proxied (contains mainnet) .governance) real c) :
    Governance p.2 ∨ Utility p.2 :=
  (governance_iff _).1 (executed_governance _ _ (fun c hc => by
    simp only [proxied, Bool.and_eq_true] at hc
    exact hc.2) real c p h)

/-- C111, governance: the calls of these pallets are executed, singly and in a batch, as the account that appointed
the proxy. The batch must have a call that pays a fee, as every batch. -/
theorem C111_governance_all (mainnet : Bool) (real : AccountId) (calls : List Call) (hg : ∀ c ∈ calls, Governance c) :
    (∀ c ∈ calls, executed (contains mainnet) (proxied (contains mainnet) .governance) real c = [(real, c)]) ∧
    ∀ k, (∃ c ∈ calls, ¬ Forbidden c) →
      executed (contains mainnet) (proxied (contains mainnet) .governance) real (.batch k calls) =
        (real, .batch k calls) :: calls.map (fun c => (real, c)) := by
  have hone : ∀ c, Governance c → ∀ flt : Filter, flt c = true →
      executed (contains mainnet) flt real c = [(real, c)] := by
    rintro _ ⟨f, n, rfl, _⟩ flt h
    unfold executed
    rw [if_pos h]
  have hpass : ∀ c, Governance c → proxied (contains mainnet) .governance c = true := by
    intro c hc
    have h1 := (governance_iff c).2 (.inl hc)
    obtain ⟨f, n, rfl, hp⟩ := hc
    have h2 : contains mainnet (.fn f n) = true := by
      cases f <;> first | rfl | (simp [Fn.pallet] at hp)
    simp [proxied, h1, h2]
  refine ⟨fun c hc => hone c (hg c hc) _ (hpass c (hg c hc)), fun k hk => ?_⟩
  have hb : proxied (contains mainnet) .governance (.batch k calls) = true := by
    simp only [proxied, Bool.and_eq_true]
    exact ⟨(C67_batch_partial mainnet k calls).2 hk, rfl⟩
  have hl : ∀ l : List Call, (∀ c ∈ l, Governance c) →
      executedL (contains mainnet) (k.filter (proxied (contains mainnet) .governance)) real l =
        l.map (fun c => (real, c)) := by
    intro l hl
    induction l with
    | nil => rfl
    | cons c l ih =>
      rw [executedL, ih (fun x hx => hl x (by simp [hx]))]
      have hc := hl c (by simp)
      rw [hone c hc]
      · rfl
      · unfold BatchKind.filter
        split
        · rw [Bool.and_eq_true]
          refine ⟨hpass c hc, ?_⟩
          obtain ⟨f, n, rfl, _⟩ := hc
          rfl
        · exact hpass c hc
  unfold executed
  rw [if_pos hb]
  dsimp only
  rw [hl calls hg]

/-- Hypotheses met; and a transfer between the two calls is left out. -/
example : executed (contains true) (proxied (contains true) .governance) 5
      (.batch .forceBatch [.fn (.other .council false) 0, .fn .transferAll 0, .fn (.other .treasury false) 1]) =
    [(5, .batch .forceBatch [.fn (.other .council false) 0, .fn .transferAll 0, .fn (.other .treasury false) 1]),
     (5, .fn (.other .council false) 0), (5, .fn (.other .treasury false) 1)] := rfl

open Classical in
/-- C111, staking: exactly the two calls are executed, whatever is dispatched, and as the account that appointed the
proxy. -/
theorem C111_staking (mainnet : Bool) (real : AccountId) (c : Call) :
    executed (contains mainnet) (proxied (contains mainnet) .staking) real c =
      if Staking c then [(real, c)] else [] := by
  by_cases h : Staking c
  · rw [if_pos h]
    obtain ⟨n, rfl | rfl⟩ := h <;> rfl
  · rw [if_neg h]
    unfold executed
    rw [if_neg]
    intro hf
    simp only [proxied, Bool.and_eq_true] at hf
    apply h
    cases c with
    | fn f n => cases f <;> simp [ProxyType.filter] at hf <;> exact ⟨n, by simp⟩
    | _ => simp [ProxyType.filter] at hf

open Classical in
/-- C111, cancelling: exactly the rejection of announcements. -/
theorem C111_cancelling (mainnet : Bool) (real : AccountId) (c : Call) :
    executed (contains mainnet) (proxied (contains mainnet) .cancelProxy) real c =
      if Cancelling c then [(real, c)] else [] := by
  by_cases h : Cancelling c
  · rw [if_pos h]
    obtain ⟨n, rfl⟩ := h; rfl
  · rw [if_neg h]
    unfold executed
    rw [if_neg]
    intro hf
    simp only [proxied, Bool.and_eq_true] at hf
    apply h
    cases c with
    | fn f n => cases f <;> simp [ProxyType.filter] at hf <;> exact ⟨n, rfl⟩
    | _ => simp [ProxyType.filter] at hf

/-- C63, size of a batch: one of more than ten calls fails as a whole. -/
theorem C63_batch_of_ten (cfg : Msa.Config) (env : Msa.Env) (base flt : Filter) (who : AccountId) (calls : List Call)
    (s : Msa.State) (h : 10 < calls.length) : exec cfg env base flt who (.payWithCapacityBatchAll calls) s = none := by
  unfold exec
  split
  · dsimp only
    rw [if_neg (by unfold maxCapacityBatch; omega)]
  · rfl

/-- Ten calls are not too many. -/
example : (exec Msa.exCfg (Msa.exEnv 1) (contains true) (contains true) 7
      (.payWithCapacityBatchAll (.msa .create :: List.replicate 9 (.fn .addIpfsMessage 0))) Msa.State.init).isSome = true ∧
    (exec Msa.exCfg (Msa.exEnv 1) (contains true) (contains true) 7
      (.payWithCapacityBatchAll (.msa .create :: List.replicate 10 (.fn .addIpfsMessage 0))) Msa.State.init).isSome = false := by
  decide +kernel

/-! ## C03 for wrapped calls -/

open Msa in
/-- C03 as stated, for every transaction: a key stops resolving to its account only if the signer is a key of
that account. (The statement says more, this is enough to refute it.) -/
def C03_full : Prop :=
  ∀ (mainnet : Bool) (cfg : Config) (env : Env) (h : List Step) (who k : AccountId) (m : MsaId) (c : Call),
    resolves (runTx cfg State.init h) k m → ¬ resolves (submit mainnet cfg env who c (runTx cfg State.init h)) k m →
    resolves (runTx cfg State.init h) who m

/-- The attack: key 100 of account 1 signs a batch of a remark and the deletion of key 200 of account 2. -/
def wrappedDelete : Call := .batch .batch [.fn .remark 0, .msa (.deleteMsaPublicKey 200)]

/-- C03 is false for wrapped calls: the batch passes the filter and the transaction extension, and key 200
no longer resolves to its account. -/
theorem C03_full_false : ¬ C03_full := fun h => by
  have := h true Msa.exCfg (Msa.exEnv 3) (Msa.exHistory.take 2) 100 200 2 wrappedDelete
    (by unfold Msa.resolves; decide +kernel) (by unfold Msa.resolves; decide +kernel)
  exact absurd this (by unfold Msa.resolves; decide +kernel)

/-- A single dispatched call that takes a key from its account deletes that key or retires the account of its
caller. -/
theorem dispatch_loses {cfg : Msa.Config} {env : Msa.Env} {s s' : Msa.State} {who k : AccountId} {m : MsaId}
    {c : Msa.Call} (h : Msa.dispatch cfg env s (.signed who) c = .ok s') (hb : Msa.resolves s k m)
    (ha : ¬ Msa.resolves s' k m) : c = .deleteMsaPublicKey k ∨ (c = .retireMsa ∧ who = k) := by
  unfold Msa.resolves at *
  have he := Msa.eff_of_dispatch h
  clear h
  generalize ho : Msa.Origin.signed who = o at he
  cases he with
  | noop => exact absurd hb ha
  | create hid hk hc =>
    exfalso; apply ha
    rw [show (_ : Msa.State).keyToMsa.get k = _ from Msa.withKey_get _ _ _ _]
    split
    · rename_i e; subst e; rw [hk] at hb; simp at hb
    · exact hb
  | sponsored _ _ _ _ _ hk hc _ _ _ _ =>
    exfalso; apply ha
    rw [show (_ : Msa.State).keyToMsa.get k = _ from Msa.withKey_get _ _ _ _]
    split
    · rename_i e; subst e; rw [hk] at hb; simp at hb
    · exact hb
  | provider _ _ _ => exact absurd hb ha
  | grant _ _ _ _ _ _ _ => exact absurd hb ha
  | revoke _ _ _ => exact absurd hb ha
  | addKey _ _ _ _ _ hk hc =>
    exfalso; apply ha
    rw [show (_ : Msa.State).keyToMsa.get k = _ from Msa.withKey_get _ _ _ _]
    split
    · rename_i e; subst e; rw [hk] at hb; simp at hb
    · exact hb
  | @delete who' _ m1 k1 m2 hw hk hc =>
    rw [show (_ : Msa.State).keyToMsa.get k = _ from Msa.withoutKey_get _ _ _ _] at ha
    split at ha
    · rename_i e
      subst e
      rcases hc with hc | ⟨hc, hkw⟩
      · exact Or.inl hc
      · cases ho
        exact Or.inr ⟨hc, hkw.symm⟩
    · exact absurd hb ha
  | revokeSchemas _ _ _ => exact absurd hb ha

/-- A call that takes key `k` from its account, with the account it is executed for. -/
inductive Removes (k : AccountId) : AccountId × Call → Prop
  | delete (who) : Removes k (who, .msa (.deleteMsaPublicKey k))
  | retire : Removes k (k, .msa .retireMsa)

mutual
theorem exec_loses {cfg : Msa.Config} {env : Msa.Env} {base flt : Filter} {who k : AccountId} {m : MsaId}
    (c : Call) {s s' : Msa.State} (h : exec cfg env base flt who c s = some s') (hb : Msa.resolves s k m)
    (ha : ¬ Msa.resolves s' k m) : ∃ p ∈ executed base flt who c, Removes k p := by
  unfold exec at h
  unfold executed
  split at h
  · rename_i hc
    rw [if_pos hc]
    cases c with
    | msa c =>
      simp only at h
      cases hd : Msa.dispatch cfg env s (.signed who) c with
      | error e => rw [hd] at h; simp [Except.toOption] at h
      | ok s2 =>
        rw [hd] at h
        simp only [Except.toOption, Option.some.injEq] at h
        subst h
        refine ⟨_, List.mem_cons_self, ?_⟩
        rcases dispatch_loses hd hb ha with rfl | ⟨rfl, rfl⟩
        · exact .delete _
        · exact .retire
    | fn f n => simp only [Option.some.injEq] at h; subst h; exact absurd hb ha
    | batch kd calls =>
      obtain ⟨p, hp, hr⟩ := execL_loses calls h hb ha
      exact ⟨p, List.mem_cons_of_mem _ hp, hr⟩
    | asDerivative a c =>
      obtain ⟨p, hp, hr⟩ := exec_loses c h hb ha
      exact ⟨p, List.mem_cons_of_mem _ hp, hr⟩
    | payWithCapacity c =>
      obtain ⟨p, hp, hr⟩ := exec_loses c h hb ha
      exact ⟨p, List.mem_cons_of_mem _ hp, hr⟩
    | payWithCapacityBatchAll calls =>
      simp only at h
      split at h
      · obtain ⟨p, hp, hr⟩ := execL_loses calls h hb ha
        exact ⟨p, List.mem_cons_of_mem _ hp, hr⟩
      · simp at h
    | proxy ty real c =>
      simp only [Option.some.injEq] at h
      cases hd : exec cfg env base (proxied base ty) real c s with
      | none => rw [hd] at h; simp only [Option.getD_none] at h; subst h; exact absurd hb ha
      | some s2 =>
        rw [hd] at h
        simp only [Option.getD_some] at h
        subst h
        obtain ⟨p, hp, hr⟩ := exec_loses c hd hb ha
        exact ⟨p, List.mem_cons_of_mem _ hp, hr⟩
    | multiThreshold1 a c =>
      obtain ⟨p, hp, hr⟩ := exec_loses c h hb ha
      exact ⟨p, List.mem_cons_of_mem _ hp, hr⟩
  · simp at h
theorem execL_loses {cfg : Msa.Config} {env : Msa.Env} {base flt : Filter} {kd : BatchKind} {who k : AccountId}
    {m : MsaId} (calls : List Call) {s s' : Msa.State} (h : execL cfg env base kd flt who calls s = some s')
    (hb : Msa.resolves s k m) (ha : ¬ Msa.resolves s' k m) : ∃ p ∈ executedL base flt who calls, Removes k p := by
  match calls with
  | [] => simp only [execL, Option.some.injEq] at h; subst h; exact absurd hb ha
  | c :: cs =>
    rw [executedL]
    rw [execL.eq_def] at h
    simp only at h
    cases hd : exec cfg env base flt who c s with
    | some s2 =>
      rw [hd] at h
      by_cases h2 : Msa.resolves s2 k m
      · obtain ⟨p, hp, hr⟩ := execL_loses cs h h2 ha
        exact ⟨p, List.mem_append_right _ hp, hr⟩
      · obtain ⟨p, hp, hr⟩ := exec_loses c hd hb h2
        exact ⟨p, List.mem_append_left _ hp, hr⟩
    | none =>
      rw [hd] at h
      cases kd with
      | batch => simp only [Option.some.injEq] at h; subst h; exact absurd hb ha
      | batchAll => simp at h
      | forceBatch =>
        obtain ⟨p, hp, hr⟩ := execL_loses cs h hb ha
        exact ⟨p, List.mem_append_right _ hp, hr⟩
end

/-- C03 for every transaction, however it nests calls: a key stops resolving to its account only if the
transaction executes a deletion of this key or a retirement for this key itself. Missing: that the caller of
a nested deletion is a key of the same account, which is false (`C03_full_false`). -/
theorem C03_wrapped_partial (mainnet : Bool) (cfg : Msa.Config) (env : Msa.Env) (s : Msa.State)
    (who k : AccountId) (m : MsaId) (c : Call) (hb : Msa.resolves s k m)
    (ha : ¬ Msa.resolves (submit mainnet cfg env who c s) k m) :
    ∃ p ∈ executed (contains mainnet) (contains mainnet) who c, Removes k p := by
  unfold submit at ha
  split at ha
  · cases hd : exec cfg env (contains mainnet) (contains mainnet) who c s with
    | none => rw [hd] at ha; exact absurd hb ha
    | some s2 => rw [hd] at ha; exact exec_loses c hd hb ha
  · exact absurd hb ha

/-- The attack meets the hypotheses. -/
example : Msa.resolves (Msa.runTx Msa.exCfg Msa.State.init (Msa.exHistory.take 2)) 200 2 ∧
    ¬ Msa.resolves (submit true Msa.exCfg (Msa.exEnv 3) 100 wrappedDelete
      (Msa.runTx Msa.exCfg Msa.State.init (Msa.exHistory.take 2))) 200 2 := by
  unfold Msa.resolves; decide +kernel

end Verif.Runtime
