import Verif.Wrapped.PropsQuiet
import Verif.Chain.PropsOwn
/-!
# Strangers cannot get in the way
-/

namespace Verif.Wrapped

/-! ## Specification -/

/-- A transaction of the key with this call passes the checks of the pallets and succeeds. -/
def Can (cfg : Chain.Config) (bal : AccountId → Balance) (s : Chain.State) (key : AccountId) (c : Chain.Call) : Prop :=
  Chain.extensions cfg s key c = true ∧ Chain.Succeeds cfg bal s key c

/-- C129 in full: strangers cannot get in the way. Whatever an account could do in its own affairs before others sent
transactions it can do after them, within a batch or the like (first part) and as a transaction (second part). -/
def C129_full : Prop :=
  ∀ (cfg : Config) (_ : ∀ l k l' k', cfg.multi l k = cfg.multi l' k' → l = l' ∧ k = k')
    (_ : Stateful.CfgOk cfg.chain.storage) (_ : 2 ≤ cfg.chain.msa.maxSignatures) (_ : 1 ≤ cfg.chain.msa.maxKeys)
    (_ : cfg.chain.msa.maxKeys ≤ 255) (_ : Handles.RangeOk cfg.chain.hi)
    (D : AccountId → Prop) (M : MsaId → Prop) (_ : Closed cfg D) (s : State)
    (_ : Circle cfg D s.world) (n : Nat) (h0 : List Chain.Step) (_ : s.world.chain = Chain.run cfg.chain (.init n) h0)
    (_ : ∀ y ∈ h0, Chain.IdsOk y) (_ : Chain.Group D M s.world.chain) (h : List Event)
    (_ : ∀ t, .submit t ∈ h → ¬ D t.who) (l : List (AccountId × Call)) (_ : (run cfg s h).world.log = s.world.log ++ l)
    (_ : NoPayload D l) (_ : Sized l) (_ : Chain.Fits cfg.chain (run cfg s h).world.chain)
    (key : AccountId) (m : MsaId) (_ : M m) (_ : Chain.msaOf s.world.chain key = some m)
    (c : Chain.Call) (_ : Chain.OwnAffair s.world.chain m c) (_ : ∀ c', c = .storage c' → Chain.StorageIdsOk c')
    (bal bal' : AccountId → Balance),
    (Chain.Succeeds cfg.chain bal s.world.chain key c →
      Chain.Succeeds cfg.chain bal' (run cfg s h).world.chain key c) ∧
    (Can cfg.chain bal s.world.chain key c → Can cfg.chain bal' (run cfg s h).world.chain key c)

/-! ## C129 -/

/-- C129, what holds: so it is as long as nobody has a deletion of a key of the group executed. Missing: that strangers
cannot delete keys. -/
theorem C129_own_partial (cfg : Config) (hinj : ∀ l k l' k', cfg.multi l k = cfg.multi l' k' → l = l' ∧ k = k')
    (hcfg : Stateful.CfgOk cfg.chain.storage) (hcap : 2 ≤ cfg.chain.msa.maxSignatures)
    (h1k : 1 ≤ cfg.chain.msa.maxKeys) (h255 : cfg.chain.msa.maxKeys ≤ 255) (hr : Handles.RangeOk cfg.chain.hi)
    (D : AccountId → Prop) (M : MsaId → Prop) (hs : Closed cfg D) (s : State)
    (hc : Circle cfg D s.world) (n : Nat) (h0 : List Chain.Step) (h0' : s.world.chain = Chain.run cfg.chain (.init n) h0)
    (hids : ∀ y ∈ h0, Chain.IdsOk y) (hg : Chain.Group D M s.world.chain) (h : List Event)
    (hn : ∀ t, .submit t ∈ h → ¬ D t.who) (l : List (AccountId × Call)) (hl : (run cfg s h).world.log = s.world.log ++ l)
    (hp : NoPayload D l) (hz : Sized l) (hf : Chain.Fits cfg.chain (run cfg s h).world.chain)
    (hdel : ∀ a k, D k → (a, .leaf (.msa (.deleteMsaPublicKey k))) ∉ l)
    (key : AccountId) (m : MsaId) (hm : M m) (hk : Chain.msaOf s.world.chain key = some m)
    (c : Chain.Call) (hown : Chain.OwnAffair s.world.chain m c) (hcid : ∀ c', c = .storage c' → Chain.StorageIdsOk c')
    (bal bal' : AccountId → Balance) :
    (Chain.Succeeds cfg.chain bal s.world.chain key c →
      Chain.Succeeds cfg.chain bal' (run cfg s h).world.chain key c) ∧
    (Can cfg.chain bal s.world.chain key c → Can cfg.chain bal' (run cfg s h).world.chain key c) := by
  obtain ⟨q, hq, hsrc, hsil⟩ := quiet_steps cfg hinj D hs s hc h hn l hl hp
  have sends : ∀ x ∈ q, ∀ o c, x.sends = some (o, c) → ∃ a, (a, .leaf c) ∈ l := by
    intro x hx o c e
    cases hsrc x hx with
    | newBlock => simp [Chain.Step.sends] at e
    | charge => simp [Chain.Step.sends] at e
    | call a' c' bal hm =>
      simp only [Chain.Step.sends, Option.some.injEq, Prod.mk.injEq] at e
      obtain ⟨-, rfl⟩ := e
      exact ⟨_, hm⟩
  rw [h0', ← Chain.run_append] at hq
  rw [hq] at hf ⊢
  rw [h0'] at hg hk hown ⊢
  have main := fun hs => Chain.own_succeeds cfg.chain hcap h1k h255 hr hcfg n h0 q hg hsil (fun x hx k hD hd => by
    obtain ⟨a, e⟩ := hd
    obtain ⟨b, hb⟩ := sends x hx _ _ e
    exact hdel b k hD hb) hf (fun y hy => by
      rcases List.mem_append.1 hy with hy | hy
      · exact hids y hy
      · intro o c' e
        obtain ⟨b, hb⟩ := sends y hy _ _ e
        exact hz _ hb c' rfl) bal bal' key m hm hk c hown hcid hs
  exact ⟨fun hs => (main hs).1, fun hs => ⟨(main hs.2).2 hs.1, (main hs.2).1⟩⟩

theorem succeeds_of {cfg : Chain.Config} {bal : AccountId → Balance} {s : Chain.State} {key : AccountId} {c : Chain.Call}
    (h : (Chain.dispatch cfg bal s (.signed key) c).isSome = true) : Chain.Succeeds cfg bal s key c :=
  Option.isSome_iff_exists.1 h

/-- C129 in full is false of the code: after key 40 deleted key 20 within a batch, key 20 cannot post messages any more. -/
theorem C129_full_false : ¬ C129_full := by
  intro hf
  obtain ⟨l, -, hl, -⟩ := C127_history exCfg exQuiet exTheft
  have hh : ∀ e ∈ l, harmless e.2 = true := by
    have : ∀ e ∈ (run exCfg exQuiet exTheft).world.log, harmless e.2 = true := by decide +kernel
    exact fun e he => this e (by rw [hl]; exact List.mem_append_right _ he)
  have h := hf exCfg exMulti Chain.exCfg_storage (by decide +kernel) (by decide +kernel) (by decide +kernel)
    (show exCfg.chain.hi < 65535 by decide +kernel) (fun a => a = 10 ∨ a = 20)
    (fun m => m = 1 ∨ m = 2) exQuiet_group.1 exQuiet
    exQuiet_group.2.1 1024 Chain.exHist exQuiet_chain exQuiet_ids exQuiet_group.2.2 exTheft (by simp [exTheft]) l hl
    (harmless_payload hh).1 (harmless_payload (D := fun _ => True) hh).2 (exQuiet_fits _ (by decide +kernel)) 20 2 (.inr rfl)
    (by decide +kernel) (.messages (.onchain none 1 [1])) trivial (by simp) Chain.exBal Chain.exBal
  obtain ⟨s', hs⟩ := h.1 (succeeds_of (by decide +kernel))
  have : (Chain.dispatch exCfg.chain Chain.exBal (run exCfg exQuiet exTheft).world.chain (.signed 20)
    (.messages (.onchain none 1 [1]))).isSome = false := by decide +kernel
  rw [hs] at this
  simp at this

/-- The call is a deletion of a key. -/
def deletion : Call → Bool
  | .leaf (.msa (.deleteMsaPublicKey _)) => true
  | _ => false

/-- Things key 20 may want to do: overwrite or delete its page (naming the hash of what is there), post a message, take a
schema from its delegation, revoke it. -/
def exOwn : List Chain.Call :=
  let hash := Stateful.hashOf exCfg.chain.storage
    (Stateful.readAt exCfg.chain.storage exQuiet.world.chain.storage (.page 2 2 0)).toOption.join
  [.storage (.upsertPage 2 2 0 hash [6]), .storage (.deletePage 2 2 0 hash), .messages (.onchain none 1 [1]),
   .msa (.revokeSchemaPermissions 1 [1]), .msa (.revokeDelegationByDelegator 1)]

/-- Hypotheses of `C129_own_partial` met: in `exCalm` keys 30 and 40 stake for account 1 and create an account. Key 20 can do
all of `exOwn` before and after that, and so can it retire its handle within a batch, which takes longer as a transaction. -/
example : (∀ e ∈ (run exCfg exQuiet exCalm).world.log, harmless e.2 = true ∧ deletion e.2 = false) ∧
    Chain.msaOf exQuiet.world.chain 20 = some 2 ∧
    (∀ s ∈ [exQuiet.world.chain, (run exCfg exQuiet exCalm).world.chain], (∀ c ∈ exOwn,
      (Chain.dispatch exCfg.chain Chain.exBal s (.signed 20) c).isSome = true ∧
      Chain.extensions exCfg.chain s 20 c = true) ∧
      (Chain.dispatch exCfg.chain Chain.exBal s (.signed 20) (.handles .retire)).isSome = true ∧
      Chain.extensions exCfg.chain s 20 (.handles .retire) = false) := by
  decide +kernel

end Verif.Wrapped
