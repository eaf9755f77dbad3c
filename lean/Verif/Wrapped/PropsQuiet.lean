import Verif.Wrapped.Props
import Verif.Chain.PropsQuiet
/-!
# Whoever signs nothing keeps what they have
-/

namespace Verif.Wrapped

/-! ## Specification -/

/-- No executed call carries a signature of one of the keys in what it transports. -/
def NoPayload (D : AccountId → Prop) (l : List (AccountId × Call)) : Prop :=
  ∀ e ∈ l, ∀ c, e.2 = .leaf c → ∀ k ∈ c.signers, ¬ D k

/-- Schema and page numbers in the executed calls have the size they have on the chain. -/
def Sized (l : List (AccountId × Call)) : Prop :=
  ∀ e ∈ l, ∀ c, e.2 = .leaf (.storage c) → Chain.StorageIdsOk c

/-- What an account `m` has is the same in `s` and `t`, but for keys and capacity. -/
structure SameData (cfg : Chain.Config) (s t : Chain.State) (m : MsaId) : Prop where
  delegations : ∀ p, t.msa.delegations.get (m, p) = s.msa.delegations.get (m, p)
  handle : t.handles.byMsa.get m = s.handles.byMsa.get m
  messages : Chain.SameMessages s t m
  storage : ∀ l : Stateful.Loc, l.InRange cfg.storage → l.msa = m →
    Stateful.readAt cfg.storage t.storage l = Stateful.readAt cfg.storage s.storage l

/-- The account has the same keys. -/
def SameKeys (s t : Chain.State) (m : MsaId) : Prop := ∀ k, Chain.msaOf t k = some m ↔ Chain.msaOf s k = some m

/-! ## Where the steps of the chain come from -/

/-- A new block, a payment of a signer, or an executed call. -/
inductive Source (h : List Event) (l : List (AccountId × Call)) : Chain.Step → Prop
  | newBlock : Source h l .newBlock
  | charge (t fee) : .submit t ∈ h → Source h l (.charge t.who fee)
  | call (a c bal) : (a, .leaf c) ∈ l → Source h l (.call bal (.signed a) c)

theorem Source.mono {h h' : List Event} {l l' : List (AccountId × Call)} {x : Chain.Step} (hs : Source h l x)
    (hh : ∀ e ∈ h, e ∈ h') (hl : ∀ e ∈ l, e ∈ l') : Source h' l' x := by
  cases hs with
  | newBlock => exact .newBlock
  | charge t fee ht => exact .charge t fee (hh _ ht)
  | call a c bal hc => exact .call a c bal (hl _ hc)

/-- C127 over time: the log grows by the calls executed, and the chain changes by these calls, the payments of those who
sign transactions, and new blocks, by nothing else. -/
theorem C127_history (cfg : Config) (s : State) (h : List Event) :
    ∃ l q, (run cfg s h).world.log = s.world.log ++ l ∧
      (run cfg s h).world.chain = Chain.run cfg.chain s.world.chain q ∧ ∀ x ∈ q, Source h l x := by
  induction h generalizing s with
  | nil => exact ⟨[], [], by simp [run], rfl, by simp⟩
  | cons e h ih =>
    have hstep : ∃ l q, (apply cfg s e).world.log = s.world.log ++ l ∧
        (apply cfg s e).world.chain = Chain.run cfg.chain s.world.chain q ∧ ∀ x ∈ q, Source [e] l x := by
      cases e with
      | newBlock => exact ⟨[], [.newBlock], by simp [apply], rfl, by simpa using Source.newBlock⟩
      | tick n => exact ⟨[], [], by simp [apply], rfl, by simp⟩
      | submit t =>
        obtain ⟨p, l, b, hp, hb, hl, hc⟩ := C127_log cfg s t
        obtain ⟨q, hq, hof⟩ := run_chain cfg.wallet.tokens s.world.tokens (p ++ l.filterMap (deed t.env) ++ b)
        refine ⟨l, q, hl, (congrArg (·.chain) hc).trans hq, fun y hy => ?_⟩
        obtain ⟨x, hx, hxy⟩ := hof y hy
        rcases List.mem_append.1 hx with hx | hx
        · rcases List.mem_append.1 hx with hx | hx
          · rcases hp with rfl | ⟨fee, rfl⟩ | rfl
            · simp at hx
            · rw [List.mem_singleton.1 hx] at hxy
              cases hxy
              exact .charge t fee (by simp)
            · rw [List.mem_singleton.1 hx] at hxy
              cases hxy
          · obtain ⟨⟨a, c⟩, he, hx⟩ := List.mem_filterMap.1 hx
            cases c <;> simp only [deed, reduceCtorEq, Option.some.injEq] at hx <;> subst hx <;> cases hxy
            exact .call _ _ _ he
        · rcases hb with rfl | rfl
          · simp at hx
          · rw [List.mem_singleton.1 hx] at hxy
            cases hxy
    obtain ⟨l, q, h1, h2, h3⟩ := hstep
    obtain ⟨l', q', h1', h2', h3'⟩ := ih (apply cfg s e)
    have hr : run cfg s (e :: h) = run cfg (apply cfg s e) h := rfl
    rw [hr]
    refine ⟨l ++ l', q ++ q', by rw [h1', h1, List.append_assoc], by rw [h2', h2, Chain.run_append], fun x hx => ?_⟩
    rcases List.mem_append.1 hx with hx | hx
    · exact (h3 x hx).mono (by simp) (fun e he => by simp [he])
    · exact (h3' x hx).mono (fun e he => by simp [he]) (fun e he => by simp [he])

/-! ## C128 -/

/-- C128 in full: whoever signs nothing keeps what they have. A set `D` of accounts is given that only its members have
power over (see C127), and a set `M` of MSAs whose keys are in `D` and which have no delegations in force to MSAs
outside `M`. If none of `D` signs a transaction and no executed call carries a signature of one of `D`, the MSAs keep
their keys, delegations, handles, messages and storage, and also their capacity unless somebody stakes for them or takes
such a stake back. -/
def C128_full : Prop :=
  ∀ (cfg : Config) (_ : ∀ l k l' k', cfg.multi l k = cfg.multi l' k' → l = l' ∧ k = k')
    (_ : Stateful.CfgOk cfg.chain.storage) (D : AccountId → Prop) (M : MsaId → Prop) (_ : Closed cfg D) (s : State)
    (_ : Circle cfg D s.world) (n : Nat) (h0 : List Chain.Step) (_ : s.world.chain = Chain.run cfg.chain (.init n) h0)
    (_ : ∀ y ∈ h0, Chain.IdsOk y) (_ : Chain.Group D M s.world.chain) (h : List Event)
    (_ : ∀ t, .submit t ∈ h → ¬ D t.who) (l : List (AccountId × Call)) (_ : (run cfg s h).world.log = s.world.log ++ l)
    (_ : NoPayload D l) (_ : Sized l) (_ : Chain.Fits cfg.chain (run cfg s h).world.chain) (m : MsaId) (_ : M m),
    SameData cfg.chain s.world.chain (run cfg s h).world.chain m ∧
    SameKeys s.world.chain (run cfg s h).world.chain m ∧
    ((run cfg s h).world.chain.capacity.capacity.get m = s.world.chain.capacity.capacity.get m ∨
      ∃ a k, (a, .leaf (.capacity (.stake m k))) ∈ l ∨ (a, .leaf (.capacity (.unstake m k))) ∈ l)

theorem quiet_steps (cfg : Config) (hinj : ∀ l k l' k', cfg.multi l k = cfg.multi l' k' → l = l' ∧ k = k')
    (D : AccountId → Prop) (hs : Closed cfg D) (s : State) (hc : Circle cfg D s.world) (h : List Event)
    (hn : ∀ t, .submit t ∈ h → ¬ D t.who) (l : List (AccountId × Call))
    (hl : (run cfg s h).world.log = s.world.log ++ l) (hp : NoPayload D l) :
    ∃ q, (run cfg s h).world.chain = Chain.run cfg.chain s.world.chain q ∧ (∀ x ∈ q, Source h l x) ∧
      ∀ x ∈ q, Chain.Silent D x := by
  obtain ⟨⟨l', e1, hn'⟩, -⟩ := C127_circle cfg hinj D hs s hc h hn
  obtain ⟨l2, q, e2, hq, hsrc⟩ := C127_history cfg s h
  have := List.append_cancel_left (e1.symm.trans hl); subst this
  have := List.append_cancel_left (e2.symm.trans hl); subst this
  refine ⟨q, hq, hsrc, fun x hx => ?_⟩
  cases hsrc x hx with
  | newBlock => exact ⟨by simp [Chain.Step.sends], by simp⟩
  | charge t fee ht =>
    refine ⟨by simp [Chain.Step.sends], fun k fee' e => ?_⟩
    cases e
    exact hn t ht
  | call a c bal hm =>
    refine ⟨fun o c' e => ?_, by simp⟩
    simp only [Chain.Step.sends, Option.some.injEq, Prod.mk.injEq] at e
    obtain ⟨rfl, rfl⟩ := e
    refine ⟨fun k e => ?_, hp _ hm c rfl⟩
    cases e
    exact hn' _ hm

/-- C128, what holds: nothing of the data changes; no key is added; a key is lost only if somebody has a deletion of just
this key executed; and the capacity changes only by stakes. Missing: that no key is lost. -/
theorem C128_kept_partial (cfg : Config) (hinj : ∀ l k l' k', cfg.multi l k = cfg.multi l' k' → l = l' ∧ k = k')
    (hcfg : Stateful.CfgOk cfg.chain.storage) (D : AccountId → Prop) (M : MsaId → Prop) (hs : Closed cfg D) (s : State)
    (hc : Circle cfg D s.world) (n : Nat) (h0 : List Chain.Step) (h0' : s.world.chain = Chain.run cfg.chain (.init n) h0)
    (hids : ∀ y ∈ h0, Chain.IdsOk y) (hg : Chain.Group D M s.world.chain) (h : List Event)
    (hn : ∀ t, .submit t ∈ h → ¬ D t.who) (l : List (AccountId × Call)) (hl : (run cfg s h).world.log = s.world.log ++ l)
    (hp : NoPayload D l) (hz : Sized l) (hf : Chain.Fits cfg.chain (run cfg s h).world.chain) (m : MsaId) (hm : M m) :
    SameData cfg.chain s.world.chain (run cfg s h).world.chain m ∧
    (∀ k, Chain.msaOf (run cfg s h).world.chain k = some m → Chain.msaOf s.world.chain k = some m) ∧
    (∀ k, Chain.msaOf s.world.chain k = some m → Chain.msaOf (run cfg s h).world.chain k = some m ∨
      ∃ a, (a, .leaf (.msa (.deleteMsaPublicKey k))) ∈ l) ∧
    ((run cfg s h).world.chain.capacity.capacity.get m = s.world.chain.capacity.capacity.get m ∨
      ∃ a k, (a, .leaf (.capacity (.stake m k))) ∈ l ∨ (a, .leaf (.capacity (.unstake m k))) ∈ l) := by
  obtain ⟨q, hq, hsrc, hsil⟩ := quiet_steps cfg hinj D hs s hc h hn l hl hp
  have sends : ∀ x ∈ q, ∀ a c, x.sends = some (.signed a, c) → (a, .leaf c) ∈ l := by
    intro x hx a c e
    cases hsrc x hx with
    | newBlock => simp [Chain.Step.sends] at e
    | charge => simp [Chain.Step.sends] at e
    | call a' c' bal hm =>
      simp only [Chain.Step.sends, Option.some.injEq, Prod.mk.injEq, Chain.Origin.signed.injEq] at e
      obtain ⟨rfl, rfl⟩ := e
      exact hm
  have idsq : ∀ x ∈ q, Chain.IdsOk x := by
    intro x hx o c e
    cases hsrc x hx with
    | newBlock => simp [Chain.Step.sends] at e
    | charge => simp [Chain.Step.sends] at e
    | call a' c' bal hm =>
      simp only [Chain.Step.sends, Option.some.injEq, Prod.mk.injEq] at e
      obtain ⟨-, rfl⟩ := e
      exact hz _ hm c rfl
  rw [h0', ← Chain.run_append] at hq
  rw [hq] at hf ⊢
  rw [h0'] at hg ⊢
  obtain ⟨-, r2, r3, r4, r5, r6, r7⟩ := Chain.group_run cfg.chain n h0 q hg hsil
  refine ⟨⟨fun p => r4 m p hm, r5 m hm, r6 m hm, fun lc hr e => ?_⟩, fun k hk => r2 k m hm hk, fun k hk => ?_, ?_⟩
  · refine Chain.group_storage cfg.chain hcfg n h0 q hg hsil hf (fun y hy => ?_) lc hr (e ▸ hm)
    rcases List.mem_append.1 hy with hy | hy
    · exact hids y hy
    · exact idsq y hy
  · rcases r3 k m hm hk with h | ⟨x, hx, a, e⟩
    · exact .inl h
    · exact .inr ⟨a, sends x hx _ _ e⟩
  · rcases r7 m hm with h | ⟨x, hx, a, k, e | e⟩
    · exact .inl h
    · exact .inr ⟨a, k, .inl (sends x hx _ _ e)⟩
    · exact .inr ⟨a, k, .inr (sends x hx _ _ e)⟩

/-! ## Concrete chains -/

/-- The storage tells whether accounts are a group. -/
theorem group_of {D : AccountId → Prop} {M : MsaId → Prop} {s : Chain.State} (h1 : ∀ m, M m → m ≤ s.msa.maxMsaId)
    (h2 : ∀ e ∈ s.msa.keyToMsa.entries, M e.2 → D e.1) (h3 : ∀ e ∈ s.msa.delegations.entries, M e.1.1 → M e.1.2) :
    Chain.Group D M s :=
  ⟨h1, fun k m hk hm => h2 (k, m) ((SMap.mem_entries_iff _ _ _).2 hk) hm,
   fun m p d hm hd => .inr (h3 ((m, p), d) ((SMap.mem_entries_iff _ _ _).2 hd) hm)⟩

/-- The state after the larger example of the chain, without proxies, multisigs and announcements. -/
def exQuiet : State := ⟨⟨⟨Chain.exState, exLedger, ∅, 0⟩, fun _ => [], fun _ => [], fun _ _ => none, 0, []⟩, fun _ => 0⟩

theorem exQuiet_chain : exQuiet.world.chain = Chain.run exCfg.chain (.init 1024) Chain.exHist := by
  simp only [exQuiet, exCfg, Config.chain, World.chain, Wallet.exCfg, Tokens.exCfg, Chain.exState]

theorem exQuiet_ids : ∀ y ∈ Chain.exHist, Chain.IdsOk y := by
  intro y hy o c hs
  simp only [Chain.exHist, List.mem_cons, List.not_mem_nil, or_false] at hy
  rcases hy with rfl | rfl | rfl | rfl | rfl | rfl | rfl | rfl | rfl | rfl | rfl | rfl | rfl | rfl <;> cases hs
  exact ⟨by decide, by decide⟩

theorem exQuiet_fits (h : List Event) (hm : (run exCfg exQuiet h).world.chain.msa.maxMsaId < 10) :
    Chain.Fits exCfg.chain (run exCfg exQuiet h).world.chain := by
  obtain ⟨-, q, -, hq, -⟩ := C127_history exCfg exQuiet h
  rw [exQuiet_chain, ← Chain.run_append] at hq
  rw [hq] at hm ⊢
  have : (10 : Nat) ≤ exCfg.chain.storage.accounts := by decide +kernel
  intro m hi
  have := (Chain.issued_iff.1 hi).2
  omega

/-- Keys 10 and 20 and the accounts 1 and 2 they belong to: account 2 has delegated to account 1, account 1 to nobody. -/
theorem exQuiet_group : Closed exCfg (fun a => a = 10 ∨ a = 20) ∧ Circle exCfg (fun a => a = 10 ∨ a = 20) exQuiet.world ∧
    Chain.Group (fun a => a = 10 ∨ a = 20) (fun m => m = 1 ∨ m = 2) exQuiet.world.chain := by
  refine ⟨⟨fun a i => ?_, fun a t i b e => ?_, fun l k => ?_⟩, ⟨?_, ?_, ?_⟩, group_of ?_ ?_ ?_⟩
  · simp only [exCfg]; omega
  · simp only [exCfg]; omega
  · simp only [exCfg]; omega
  · simp [exQuiet]
  · simp [exQuiet]
  · simp [exQuiet]
  · rintro m (rfl | rfl) <;> decide +kernel
  · decide +kernel
  · decide +kernel

/-- Key 40 creates an account; then it has a remark and a deletion executed within a batch. -/
def exTheft : List Event :=
  [.submit ⟨40, 0, .leaf (.msa .create), 100, 0, 0, Wallet.exEnv⟩,
   .submit ⟨40, 1, .batch .batch [.other .remark 0, .leaf (.msa (.deleteMsaPublicKey 20))], 100, 0, 0, Wallet.exEnv⟩]

/-- Calls that carry neither signatures nor pages. -/
def harmless : Call → Bool
  | .leaf (.msa .create) | .leaf (.msa (.deleteMsaPublicKey _)) | .leaf (.capacity _) | .other _ _ => true
  | _ => false

theorem harmless_payload {D : AccountId → Prop} {l : List (AccountId × Call)} (h : ∀ e ∈ l, harmless e.2 = true) :
    NoPayload D l ∧ Sized l := by
  refine ⟨fun e he c hc k hk => ?_, fun e he c hc => ?_⟩
  · have := h e he
    rw [hc] at this
    revert this hk
    unfold harmless
    split <;> rename_i h
    · cases h; simp [Chain.Call.signers]
    · cases h; simp [Chain.Call.signers]
    · cases h; simp [Chain.Call.signers]
    · cases h
    · simp
  · have := h e he
    rw [hc] at this
    simp [harmless] at this

/-- C128 in full is false of the code: that a key is deleted by its own account is checked for whole transactions only,
so key 40 can delete key 20 within a batch. -/
theorem C128_full_false : ¬ C128_full := by
  intro hf
  obtain ⟨l, -, hl, -⟩ := C127_history exCfg exQuiet exTheft
  have hh : ∀ e ∈ l, harmless e.2 = true := by
    have : ∀ e ∈ (run exCfg exQuiet exTheft).world.log, harmless e.2 = true := by decide +kernel
    exact fun e he => this e (by rw [hl]; exact List.mem_append_right _ he)
  have h := hf exCfg exMulti Chain.exCfg_storage (fun a => a = 10 ∨ a = 20) (fun m => m = 1 ∨ m = 2) exQuiet_group.1 exQuiet
    exQuiet_group.2.1 1024 Chain.exHist exQuiet_chain exQuiet_ids exQuiet_group.2.2 exTheft (by simp [exTheft]) l hl
    (harmless_payload hh).1 (harmless_payload (D := fun _ => True) hh).2 (exQuiet_fits _ (by decide +kernel)) 2 (.inr rfl)
  have := (h.2.1 20).2 (by decide +kernel)
  exact absurd this (by decide +kernel)

/-- Key 30 stakes more for account 1, and key 40 creates an account. -/
def exCalm : List Event :=
  [.submit ⟨40, 0, .leaf (.msa .create), 100, 0, 0, Wallet.exEnv⟩, .newBlock,
   .submit ⟨30, 0, .leaf (.capacity (.stake 1 100)), 100, 0, 0, Wallet.exEnv⟩]

/-- Hypotheses of `C128_kept_partial` met: nobody of the group signs anything. Account 2 has a handle, a delegation, a
message and a page, all of which it keeps; the capacity of account 1 grows. -/
example : (∀ t, .submit t ∈ exCalm → ¬ (t.who = 10 ∨ t.who = 20)) ∧
    (∀ e ∈ (run exCfg exQuiet exCalm).world.log, harmless e.2 = true) ∧
    (run exCfg exQuiet exCalm).world.log.map Prod.fst = [40, 30] ∧
    Chain.Fits exCfg.chain (run exCfg exQuiet exCalm).world.chain ∧
    Chain.msaOf (run exCfg exQuiet exCalm).world.chain 20 = some 2 ∧
    ((run exCfg exQuiet exCalm).world.chain.handles.byMsa.get 2).isSome = true ∧
    ((run exCfg exQuiet exCalm).world.chain.msa.delegations.get (2, 1)).isSome = true ∧
    (Stateful.readAt exCfg.chain.storage (run exCfg exQuiet exCalm).world.chain.storage (.page 2 2 0)).toOption.join.isSome ∧
    (run exCfg exQuiet exCalm).world.chain.capacity.capacity.get 1 ≠ exQuiet.world.chain.capacity.capacity.get 1 :=
  ⟨by simp [exCalm], by decide +kernel, by decide +kernel, exQuiet_fits _ (by decide +kernel), by decide +kernel,
   by decide +kernel, by decide +kernel, by decide +kernel, by decide +kernel⟩

end Verif.Wrapped
