import Verif.Tx.Props
import Verif.Tx.PropsSignUp
import Verif.Chain.PropsPallets
import Verif.Capacity.PropsOrder
/-!
# C173: neighbouring transactions of different accounts can change places
-/

namespace Verif.Tx
open Verif.Chain (Part msaOf)

/-! ## Specification -/

/-- The call that a transaction is about, if it is one call, paid for with tokens or with capacity. -/
def Call.single : Call → Option Chain.Call
  | .leaf c | .payWithCapacity (.leaf c) => some c
  | _ => none

/-- The account that pays with capacity. -/
def payer (s : State) (t : Signed) : Option MsaId := if t.call.withCapacity then msaOf s.chain t.who else none

/-- The same is stored about everything; only the order in which the storage lists accounts and providers may differ. -/
structure Alike (s t : State) : Prop where
  block : s.chain.block = t.chain.block
  pallets : ∀ p : Part, p ≠ .capacity → p.Same s.chain t.chain
  capacity : Capacity.Same s.chain.capacity t.chain.capacity
  accounts : ∀ a, s.accounts.get a = t.accounts.get a

/-- What a transaction with this call is about, in other pallets than the one it calls, is the same in two states: the account of the
signer, the delegation it uses, its schema, the schemas it grants, the handle of an account given up. -/
structure Untouched (cfg : Config) (t : Signed) (c : Chain.Call) (s s' : Chain.State) : Prop where
  signer : t.call.withCapacity = true → msaOf s t.who = msaOf s' t.who
  accounts : c.part ≠ .msa → Chain.AgreeMsa (.submit t.bal t.who c) s.msa s'.msa
  schemas : c.part ≠ .schemas → Chain.AgreeSchemas (.submit t.bal t.who c) s.schemas s'.schemas
  handle : c = .msa .retireMsa → ∀ m, msaOf s t.who = some m →
    (Handles.handleForMsa cfg.chain.handles s.handles m).isSome = (Handles.handleForMsa cfg.chain.handles s'.handles m).isSome

/-- Transactions of different accounts to different pallets, paid for by different accounts, neither of which changes what the other
is about. -/
structure Independent (cfg : Config) (s : State) (t u : Signed) (c d : Chain.Call) : Prop where
  signers : t.who ≠ u.who
  parts : c.part ≠ d.part
  payers : ∀ m, payer s t = some m → payer s u ≠ some m
  left : Untouched cfg t c s.chain (submit cfg s u).chain
  right : Untouched cfg u d s.chain (submit cfg s t).chain

/-- Transactions one after the other. -/
def submits (cfg : Config) (s : State) (h : List Signed) : State := h.foldl (submit cfg) s

/-- What can follow: a transaction of any kind, or anything else that happens to the pallets (a new block, a call of root or the
council, a runtime upgrade). -/
inductive Event where
  | tx (t : Signed)
  | step (x : Chain.Step)

/-- Its effect. -/
def Event.apply (cfg : Config) (s : State) : Event → State
  | .tx t => submit cfg s t
  | .step x => { s with chain := Chain.apply cfg.chain s.chain x }

/-- One after the other. -/
def follow (cfg : Config) (s : State) (l : List Event) : State := l.foldl (Event.apply cfg) s

/-- Whether a transaction is taken into the block, and then whether its call succeeds. -/
def fate (cfg : Config) (s : State) (t : Signed) : Option Bool := (takeIn cfg s t).map (succeeds cfg · t)

/-! ## Payment -/

/-- The capacities after the payment. -/
def paid (cfg : Config) (s : State) (t : Signed) : Option Capacity.State := (pay cfg s.chain t).map (·.capacity)

theorem pay_shape {cfg : Config} {s r : Chain.State} {t : Signed} (h : pay cfg s t = some r) :
    r = { s with capacity := r.capacity } := by
  unfold pay at h
  split at h
  · rename_i x hx
    cases x with
    | error e => cases h
    | ok k => cases h; rfl
  · split at h
    · cases h; rfl
    · cases h

/-- Only the capacity of one account has changed. -/
structure FrameC (m : Option MsaId) (s k : Capacity.State) : Prop where
  mine : ∀ a, s.active.get a = k.active.get a ∧ s.frozen.get a = k.frozen.get a ∧ s.unlocks.get a = k.unlocks.get a
  target : ∀ a n, s.target.get (a, n) = k.target.get (a, n)
  cap : ∀ n, m ≠ some n → s.capacity.get n = k.capacity.get n
  epoch : s.epoch = k.epoch ∧ s.epochStart = k.epochStart ∧ s.epochLength = k.epochLength

theorem FrameC.refl (m : Option MsaId) (s : Capacity.State) : FrameC m s s :=
  ⟨fun _ => ⟨rfl, rfl, rfl⟩, fun _ _ => rfl, fun _ _ => rfl, rfl, rfl, rfl⟩

theorem frameC_of {m : MsaId} {fee : Balance} {s k : Capacity.State} (h : Capacity.Frame (.charge m fee) s k) : FrameC (some m) s k :=
  ⟨fun a => h.mine a (by simp [Capacity.staker]), fun a n => h.both a n (.inl (by simp [Capacity.staker])),
    fun n hn => h.cap n (by simpa [Capacity.provider] using hn), h.epoch⟩

theorem withCapacity_charge (cfg : TxPayment.Config) (keys : Msa.State) (b : Balance) (k : Capacity.State) (who : AccountId) (len : Nat)
    {call : Call} {c : Chain.Call} (hc : call.single = some c) :
    TxPayment.charge cfg keys b k who len call.view =
      if call.withCapacity then some (TxPayment.withdrawCapacityFee cfg keys b k who [view c] len) else none := by
  cases call with
  | leaf d =>
    cases hc
    cases c with
    | schemas c => cases c <;> rfl
    | messages c => cases c <;> rfl
    | handles c => cases c <;> rfl
    | storage c => cases c <;> rfl
    | capacity c => cases c <;> rfl
    | msa c => rfl
  | payWithCapacity d =>
    cases d with
    | leaf d => cases hc; rfl
    | _ => cases hc
  | _ => cases hc

theorem paid_alike {cfg : Config} {s s' : State} {t : Signed} {c : Chain.Call} (hc : t.call.single = some c)
    (hk : t.call.withCapacity = true → msaOf s.chain t.who = msaOf s'.chain t.who)
    (hm : ∀ m, payer s t = some m → s.chain.capacity.capacity.get m = s'.chain.capacity.capacity.get m)
    (he : s.chain.capacity.epoch = s'.chain.capacity.epoch) :
    (paid cfg s t = none ∧ paid cfg s' t = none) ∨
    ∃ k k', paid cfg s t = some k ∧ paid cfg s' t = some k' ∧
      (∀ m, payer s t = some m → k.capacity.get m = k'.capacity.get m) ∧ FrameC (payer s t) s.chain.capacity k := by
  unfold paid pay
  rw [withCapacity_charge _ _ _ _ _ _ hc, withCapacity_charge _ _ _ _ _ _ hc]
  by_cases hw : t.call.withCapacity = true
  · have hk := hk hw
    have hpay : payer s t = msaOf s.chain t.who := by simp [payer, hw]
    simp only [hw, if_true]
    unfold TxPayment.withdrawCapacityFee
    cases TxPayment.sumWeights cfg.payment [view c] TxPayment.Weight.zero with
    | error e => exact .inl ⟨rfl, rfl⟩
    | ok w =>
      simp only [bind, Except.bind]
      unfold TxPayment.withdrawFee
      by_cases hb : cfg.payment.minBalance ≤ t.bal t.who
      · rw [hpay] at hm ⊢
        unfold msaOf at hk hm ⊢
        cases hg : s.chain.msa.keyToMsa.get t.who with
        | none =>
          rw [← hk, hg]
          exact .inl ⟨by simp [ensure, hb, okOr, bind, Except.bind, Except.toOption],
            by simp [ensure, hb, okOr, bind, Except.bind, Except.toOption]⟩
        | some m =>
          have hg' := hk.symm.trans hg
          rw [hg']
          have hcm := hm m hg
          generalize TxPayment.computeCapacityFee cfg.payment (TxPayment.u32 t.len) w = fee
          have ha : Capacity.Agree (.charge m fee) s.chain.capacity s'.chain.capacity :=
            ⟨fun a h => (nomatch h), fun n hn => (by cases hn; exact hcm), fun a n h => (nomatch h), he⟩
          rcases Capacity.charge_alike m fee ha with ⟨e, h1, h2⟩ | ⟨k, k', h1, h2, h3, h4, -⟩
          · exact .inl ⟨by simp [ensure, hb, okOr, bind, Except.bind, h1, TxPayment.toPayment, Except.toOption],
              by simp [ensure, hb, okOr, bind, Except.bind, h2, TxPayment.toPayment, Except.toOption]⟩
          · refine .inr ⟨k, k', by simp [ensure, hb, okOr, bind, Except.bind, h1, TxPayment.toPayment, Except.toOption],
              by simp [ensure, hb, okOr, bind, Except.bind, h2, TxPayment.toPayment, Except.toOption], fun n hn => ?_, frameC_of h4⟩
            cases hn
            exact h3.cap m rfl
      · exact .inl ⟨by simp [ensure, hb, bind, Except.bind, Except.toOption], by simp [ensure, hb, bind, Except.bind, Except.toOption]⟩
  · have hw : t.call.withCapacity = false := by simpa using hw
    simp only [hw, Bool.false_eq_true, if_false]
    by_cases hp : (Runtime.paysNo t.call.view || t.tokens) = true
    · simp only [hp, if_true]
      exact .inr ⟨_, _, rfl, rfl, fun m h => by simp [payer, hw] at h, .refl _ _⟩
    · simp only [hp]
      exact .inl ⟨rfl, rfl⟩

/-! ## Numbers -/

/-- The accounts after the number has been used. -/
def numbered (s : State) (t : Signed) : Option Nonce.Accounts :=
  (Nonce.preDispatch s.accounts t.who t.nonce (!Runtime.paysNo t.call.view)).toOption

theorem numbered_alike {s s' : State} {t : Signed} (h : s.accounts.get t.who = s'.accounts.get t.who) :
    (numbered s t = none ∧ numbered s' t = none) ∨
    ∃ a a', numbered s t = some a ∧ numbered s' t = some a' ∧ a.get t.who = a'.get t.who ∧
      ∀ k, k ≠ t.who → a.get k = s.accounts.get k := by
  unfold numbered Nonce.preDispatch Nonce.getAccount
  rw [← h]
  simp only
  split
  · exact .inl ⟨rfl, rfl⟩
  · split
    · exact .inr ⟨_, _, rfl, rfl, by simp [SMap.get_insert_self], fun k hk => SMap.get_insert_ne _ (Ne.symm hk) _⟩
    · exact .inr ⟨_, _, rfl, rfl, h, fun _ _ => rfl⟩

/-! ## A transaction -/

/-- The pallets after the call. -/
def called (cfg : Config) (s : Chain.State) (t : Signed) (c : Chain.Call) : Chain.State :=
  (if Runtime.contains cfg.mainnet (view c) then Chain.dispatch cfg.chain t.bal s (.signed t.who) c else none).getD s

theorem dispatch_with_capacity (cfg : Chain.Config) (bal : AccountId → Balance) (s : Chain.State) (o : Chain.Origin) {c : Chain.Call}
    (hc : c.part ≠ .capacity) (k : Capacity.State) :
    Chain.dispatch cfg bal { s with capacity := k } o c = (Chain.dispatch cfg bal s o c).map (fun r => { r with capacity := k }) := by
  cases c with
  | capacity c => exact absurd rfl hc
  | msa c =>
    have : ∀ c, Msa.dispatch cfg.msa (Chain.msaEnv cfg { s with capacity := k }) s.msa o.msa c =
      Msa.dispatch cfg.msa (Chain.msaEnv cfg s) s.msa o.msa c := fun _ => rfl
    simp only [Chain.dispatch, this]
    cases Msa.dispatch cfg.msa (Chain.msaEnv cfg s) s.msa o.msa c <;> rfl
  | schemas c =>
    simp only [Chain.dispatch]
    cases o.schemas with
    | none => rfl
    | some o =>
      simp only [Option.bind_eq_bind, Option.bind_some]
      cases Schemas.dispatch cfg.schemas s.schemas o c <;> rfl
  | messages c =>
    simp only [Chain.dispatch]
    cases o.signer with
    | none => rfl
    | some key =>
      simp only [Option.bind_eq_bind, Option.bind_some]
      have : Messages.dispatch cfg.messages (Chain.messagesEnv cfg { s with capacity := k }) s.messages key c =
        Messages.dispatch cfg.messages (Chain.messagesEnv cfg s) s.messages key c := rfl
      rw [this]
      cases Messages.dispatch cfg.messages (Chain.messagesEnv cfg s) s.messages key c <;> rfl
  | handles c =>
    simp only [Chain.dispatch]
    cases o.signer with
    | none => rfl
    | some key =>
      simp only [Option.bind_eq_bind, Option.bind_some]
      have : Handles.dispatch cfg.handles s.handles ⟨Chain.handlesEnv cfg { s with capacity := k }, c.op key⟩ =
        Handles.dispatch cfg.handles s.handles ⟨Chain.handlesEnv cfg s, c.op key⟩ := rfl
      rw [this]
      cases Handles.dispatch cfg.handles s.handles ⟨Chain.handlesEnv cfg s, c.op key⟩ <;> rfl
  | storage c =>
    simp only [Chain.dispatch]
    have : Stateful.dispatch cfg.storage (Chain.storageEnv cfg { s with capacity := k }) s.storage o.signer c =
      Stateful.dispatch cfg.storage (Chain.storageEnv cfg s) s.storage o.signer c := rfl
    simp only [this, Option.bind_eq_bind]
    cases Stateful.dispatch cfg.storage (Chain.storageEnv cfg s) s.storage o.signer c <;> rfl

theorem extensions_capacity (cfg : Config) (s : Chain.State) (who : AccountId) (c : Call) (k : Capacity.State) :
    extensions cfg { s with capacity := k } who c = extensions cfg s who c := by
  cases c with
  | leaf c =>
    cases c with
    | handles c => cases c <;> rfl
    | _ => rfl
  | _ => rfl

theorem called_capacity (cfg : Config) (s : Chain.State) (t : Signed) {c : Chain.Call} (hc : c.part ≠ .capacity) (k : Capacity.State) :
    called cfg { s with capacity := k } t c = { called cfg s t c with capacity := k } := by
  unfold called
  rw [dispatch_with_capacity _ _ _ _ hc]
  split
  · cases Chain.dispatch cfg.chain t.bal s (.signed t.who) c <;> rfl
  · rfl

theorem exec_called (cfg : Config) (s : Chain.State) (t : Signed) {c : Chain.Call} (hc : t.call.single = some c) :
    (exec cfg.chain t.bal (Runtime.contains cfg.mainnet) t.who t.call s).getD s = called cfg s t c := by
  unfold called
  cases hcall : t.call with
  | leaf d =>
    rw [hcall] at hc
    cases hc
    simp only [exec, Call.view]
    rfl
  | payWithCapacity d =>
    cases d with
    | leaf d =>
      rw [hcall] at hc
      cases hc
      simp only [exec, Call.view]
      rfl
    | _ => rw [hcall] at hc; cases hc
  | _ => rw [hcall] at hc; cases hc

theorem submit_eq (cfg : Config) (s : State) (t : Signed) {c : Chain.Call} (hc : t.call.single = some c) (hp : c.part ≠ .capacity) :
    submit cfg s t = match numbered s t, paid cfg s t with
      | some a, some k => if extensions cfg s.chain t.who t.call then ⟨{ called cfg s.chain t c with capacity := k }, a⟩ else s
      | _, _ => s := by
  unfold submit takeIn numbered paid
  cases (Nonce.preDispatch s.accounts t.who t.nonce (!Runtime.paysNo t.call.view)).toOption with
  | none => rfl
  | some a =>
    simp only [Option.bind_eq_bind, Option.bind_some]
    cases hpay : pay cfg s.chain t with
    | none => rfl
    | some r =>
      have hr := pay_shape hpay
      generalize r.capacity = k at hr
      subst hr
      simp only [Option.bind_some, Option.map_some, extensions_capacity]
      split
      · rename_i he
        split at he
        · cases he
        · rename_i hx
          simp only [hx]
          rfl
      · rename_i s1 he
        split at he
        · rename_i hx
          cases he
          rw [if_pos hx]
          simp only
          rw [exec_called cfg _ t hc, called_capacity cfg s.chain t hp]
        · cases he

theorem called_frame (cfg : Config) (s : Chain.State) (t : Signed) (c : Chain.Call) :
    (called cfg s t c).block = s.block ∧ ∀ p : Part, p ≠ c.part → p.Same (called cfg s t c) s := by
  unfold called
  split
  · cases h : Chain.dispatch cfg.chain t.bal s (.signed t.who) c with
    | none => exact ⟨rfl, fun p _ => .refl p s⟩
    | some r => exact Chain.dispatch_frame h
  · exact ⟨rfl, fun p _ => .refl p s⟩

theorem same_capacity {p : Part} (hp : p ≠ .capacity) {s t : Chain.State} (h : p.Same s t) (k k' : Capacity.State) :
    p.Same { s with capacity := k } { t with capacity := k' } := by
  cases p <;> first | exact h | exact absurd rfl hp

/-- What a transaction leaves alone. -/
theorem submit_frame (cfg : Config) (s : State) (t : Signed) {c : Chain.Call} (hc : t.call.single = some c) (hp : c.part ≠ .capacity) :
    (submit cfg s t).chain.block = s.chain.block ∧
    (∀ p : Part, p ≠ .capacity → p ≠ c.part → p.Same (submit cfg s t).chain s.chain) ∧
    FrameC (payer s t) s.chain.capacity (submit cfg s t).chain.capacity ∧
    ∀ a, a ≠ t.who → (submit cfg s t).accounts.get a = s.accounts.get a := by
  have triv : s.chain.block = s.chain.block ∧ (∀ p : Part, p ≠ .capacity → p ≠ c.part → p.Same s.chain s.chain) ∧
      FrameC (payer s t) s.chain.capacity s.chain.capacity ∧ ∀ a, a ≠ t.who → s.accounts.get a = s.accounts.get a :=
    ⟨rfl, fun p _ _ => .refl p _, .refl _ _, fun _ _ => rfl⟩
  rw [submit_eq cfg s t hc hp]
  rcases numbered_alike (s := s) (s' := s) (t := t) rfl with ⟨h, -⟩ | ⟨a, a', h, -, -, h2⟩
  · rw [h]; exact triv
  · rcases paid_alike (cfg := cfg) (s := s) (s' := s) hc (fun _ => rfl) (fun _ _ => rfl) rfl with ⟨g, -⟩ | ⟨k, k', g, -, -, g2⟩
    · rw [h, g]; exact triv
    · rw [h, g]
      simp only
      split
      · obtain ⟨f1, f2⟩ := called_frame cfg s.chain t c
        exact ⟨f1, fun p hpc hpp => same_capacity hpc (f2 p hpp) k s.chain.capacity, g2, h2⟩
      · exact triv

theorem succeeds_capacity (cfg : Config) (s : State) (t : Signed) {c : Chain.Call} (hc : t.call.single = some c)
    (hp : c.part ≠ .capacity) (k : Capacity.State) (a : Nonce.Accounts) :
    succeeds cfg ⟨{ s.chain with capacity := k }, a⟩ t =
      (Runtime.contains cfg.mainnet (view c) && (Chain.dispatch cfg.chain t.bal s.chain (.signed t.who) c).isSome) := by
  unfold succeeds
  have e : (exec cfg.chain t.bal (Runtime.contains cfg.mainnet) t.who t.call { s.chain with capacity := k }).isSome =
      (if Runtime.contains cfg.mainnet (view c) then Chain.dispatch cfg.chain t.bal { s.chain with capacity := k } (.signed t.who) c
        else none).isSome := by
    cases hcall : t.call with
    | leaf d =>
      rw [hcall] at hc
      cases hc
      simp only [exec, Call.view]
      rfl
    | payWithCapacity d =>
      cases d with
      | leaf d =>
        rw [hcall] at hc
        cases hc
        simp only [exec, Call.view]
        rfl
      | _ => rw [hcall] at hc; cases hc
    | _ => rw [hcall] at hc; cases hc
  rw [e, dispatch_with_capacity _ _ _ _ hp]
  cases Runtime.contains cfg.mainnet (view c)
  · rfl
  · simp only [if_true, Option.isSome_map, Bool.true_and]

/-- Two states agree on everything that a transaction is about. -/
structure Reads (cfg : Config) (t : Signed) (c : Chain.Call) (s s' : State) : Prop where
  block : s.chain.block = s'.chain.block
  part : c.part.Same s.chain s'.chain
  others : Untouched cfg t c s.chain s'.chain
  account : s.accounts.get t.who = s'.accounts.get t.who
  cap : ∀ m, payer s t = some m → s.chain.capacity.capacity.get m = s'.chain.capacity.capacity.get m
  epoch : s.chain.capacity.epoch = s'.chain.capacity.epoch

theorem extensions_alike {cfg : Config} {t : Signed} {c : Chain.Call} (hc : t.call.single = some c) {s s' : State}
    (h : Reads cfg t c s s') : extensions cfg s.chain t.who t.call = extensions cfg s'.chain t.who t.call := by
  cases hcall : t.call with
  | leaf d =>
    rw [hcall] at hc
    cases hc
    exact Chain.extensions_part (bal := t.bal) h.block h.part h.others.accounts (fun e m hk => h.others.handle e m hk)
  | _ => rfl

/-- Whether a transaction is taken in and what it does to its own. -/
theorem submit_alike (cfg : Config) {t : Signed} {c : Chain.Call} (hc : t.call.single = some c) (hp : c.part ≠ .capacity) {s s' : State}
    (h : Reads cfg t c s s') :
    fate cfg s t = fate cfg s' t ∧
    c.part.Same (submit cfg s t).chain (submit cfg s' t).chain ∧
    (submit cfg s t).accounts.get t.who = (submit cfg s' t).accounts.get t.who ∧
    ∀ m, payer s t = some m →
      (submit cfg s t).chain.capacity.capacity.get m = (submit cfg s' t).chain.capacity.capacity.get m := by
  have taken : ∀ s : State, fate cfg s t = match numbered s t, paid cfg s t with
      | some _, some _ => if extensions cfg s.chain t.who t.call then
          some (Runtime.contains cfg.mainnet (view c) && (Chain.dispatch cfg.chain t.bal s.chain (.signed t.who) c).isSome) else none
      | _, _ => none := by
    intro s
    unfold fate takeIn numbered paid
    cases (Nonce.preDispatch s.accounts t.who t.nonce (!Runtime.paysNo t.call.view)).toOption with
    | none => rfl
    | some a =>
      simp only [Option.bind_eq_bind, Option.bind_some]
      cases hpay : pay cfg s.chain t with
      | none => rfl
      | some r =>
        have hr := pay_shape hpay
        generalize r.capacity = k at hr
        subst hr
        simp only [Option.bind_some, Option.map_some, extensions_capacity]
        split
        · simp only [Option.map_some, succeeds_capacity cfg s t hc hp]
        · rfl
  have both := Chain.dispatch_both (cfg := cfg.chain) (bal := t.bal) (o := .signed t.who) (c := c) h.block h.part
    (fun e => ⟨(h.others.accounts e).keys, (h.others.accounts e).delegation, (h.others.accounts e).target⟩)
    (fun e => ⟨(h.others.schemas e).schema, (h.others.schemas e).grants⟩)
  rw [taken, taken, submit_eq cfg s t hc hp, submit_eq cfg s' t hc hp, extensions_alike hc h]
  rcases numbered_alike h.account with ⟨h1, h2⟩ | ⟨a, a', h1, h2, h3, -⟩
  · rw [h1, h2]; exact ⟨rfl, h.part, h.account, h.cap⟩
  · rcases paid_alike (cfg := cfg) hc h.others.signer h.cap h.epoch with ⟨g1, g2⟩ | ⟨k, k', g1, g2, g3, -⟩
    · rw [h1, h2, g1, g2]; exact ⟨rfl, h.part, h.account, h.cap⟩
    · rw [h1, h2, g1, g2]
      simp only [both.2]
      refine ⟨trivial, ?_⟩
      split
      · refine ⟨same_capacity hp ?_ k k', h3, g3⟩
        unfold called
        split
        · exact both.1
        · exact h.part
      · exact ⟨h.part, h.account, h.cap⟩

/-! ## Exchange -/

theorem Alike.refl (s : State) : Alike s s := ⟨rfl, fun p _ => .refl p _, .refl _, fun _ => rfl⟩

theorem Alike.symm {s t : State} (h : Alike s t) : Alike t s :=
  ⟨h.block.symm, fun p hp => (h.pallets p hp).symm, h.capacity.symm, fun a => (h.accounts a).symm⟩

/-- States of the pallets that differ only in the order in which the capacity pallet lists what it stores. -/
def Near (s s' : Chain.State) : Prop := ∃ k, s' = { s with capacity := k } ∧ Capacity.Same s.capacity k

/-- Both fail, or both succeed with such states. -/
def NearO (r r' : Option Chain.State) : Prop := (r = none ∧ r' = none) ∨ ∃ s s', r = some s ∧ r' = some s' ∧ Near s s'

theorem alike_iff (s s' : State) : Alike s s' ↔ Near s.chain s'.chain ∧ ∀ a, s.accounts.get a = s'.accounts.get a := by
  constructor
  · intro h
    refine ⟨⟨s'.chain.capacity, ?_, h.capacity⟩, h.accounts⟩
    have h0 := h.block
    have h1 : s.chain.msa = s'.chain.msa := h.pallets .msa (by simp)
    have h2 : s.chain.schemas = s'.chain.schemas := h.pallets .schemas (by simp)
    have h3 : s.chain.messages = s'.chain.messages := h.pallets .messages (by simp)
    have h4 : s.chain.handles = s'.chain.handles := h.pallets .handles (by simp)
    have h5 : s.chain.storage = s'.chain.storage := h.pallets .storage (by simp)
    rw [h0, h1, h2, h3, h4, h5]
  · rintro ⟨⟨k, h, hk⟩, ha⟩
    refine ⟨by rw [h], fun p hp => ?_, by rw [h]; exact hk, ha⟩
    rw [h]
    cases p <;> first | rfl | exact absurd rfl hp

theorem capacity_near (cfg : Capacity.Config) {x : Capacity.Step} (hx : Capacity.Ordinary x.op ∨ ∃ n, x.op = .setEpochLength n)
    {s k : Capacity.State} (h : Capacity.Same s k) :
    ((∃ e, Capacity.dispatch cfg s x = .error e) ∧ ∃ e, Capacity.dispatch cfg k x = .error e) ∨
    ∃ t t', Capacity.dispatch cfg s x = .ok t ∧ Capacity.dispatch cfg k x = .ok t' ∧ Capacity.Same t t' := by
  rcases hx with hx | ⟨n, hx⟩
  · have g := h.apply cfg hx
    unfold Capacity.apply at g
    rcases Capacity.dispatch_alike cfg hx (h.agree x.op) with ⟨e, h1, h2⟩ | ⟨t, t', h1, h2, -⟩
    · exact .inl ⟨⟨e, h1⟩, e, h2⟩
    · rw [h1, h2] at g
      exact .inr ⟨t, t', h1, h2, g⟩
  · simp only [Capacity.dispatch, hx, Capacity.setEpochLength]
    by_cases hn : n ≤ cfg.maxEpochLength
    · exact .inr ⟨{ s with epochLength := n }, { k with epochLength := n }, by simp only [ensure, hn, if_true]; rfl,
        by simp only [ensure, hn, if_true]; rfl,
        h.active, h.frozen, h.unlocks, h.target, h.capacity, h.epoch.1, h.epoch.2.1, rfl⟩
    · exact .inl ⟨⟨.maxEpochLengthExceeded, by simp only [ensure, hn, if_false]; rfl⟩, .maxEpochLengthExceeded,
        by simp only [ensure, hn, if_false]; rfl⟩

theorem dispatch_near (cfg : Chain.Config) (bal : AccountId → Balance) {s s' : Chain.State} (o : Chain.Origin) (c : Chain.Call)
    (h : Near s s') : NearO (Chain.dispatch cfg bal s o c) (Chain.dispatch cfg bal s' o c) := by
  obtain ⟨k, rfl, hk⟩ := h
  by_cases hp : c.part = .capacity
  · cases c with
    | capacity c =>
      simp only [Chain.dispatch]
      cases ho : c.op o with
      | none => exact .inl ⟨rfl, rfl⟩
      | some op =>
        have hx : Capacity.Ordinary op ∨ ∃ n, op = .setEpochLength n := by
          cases o <;> cases c <;> simp [Chain.CapacityCall.op] at ho <;> subst ho <;> first | exact .inl trivial | exact .inr ⟨_, rfl⟩
        have e : Chain.capacityEnv bal { s with capacity := k } = Chain.capacityEnv bal s := rfl
        simp only [Option.bind_eq_bind, Option.bind_some, e]
        rcases capacity_near cfg.capacity (x := ⟨Chain.capacityEnv bal s, op⟩) hx hk with ⟨⟨e1, h1⟩, e2, h2⟩ | ⟨t, t', h1, h2, h3⟩
        · rw [h1, h2]; exact .inl ⟨rfl, rfl⟩
        · rw [h1, h2]; exact .inr ⟨_, _, rfl, rfl, t', rfl, h3⟩
    | _ => cases hp
  · have e := dispatch_with_capacity cfg bal s o hp k
    rw [e]
    cases h : Chain.dispatch cfg bal s o c with
    | none => exact .inl ⟨rfl, rfl⟩
    | some r =>
      refine .inr ⟨_, _, rfl, rfl, k, rfl, ?_⟩
      have : s.capacity = r.capacity := ((Chain.dispatch_frame h).2 .capacity (fun e => hp e.symm)).symm
      rw [← this]
      exact hk

mutual
theorem exec_near (cfg : Chain.Config) (bal : AccountId → Balance) (who : AccountId) (c : Call) (flt : Runtime.Filter) (s s' : Chain.State)
    (h : Near s s') : NearO (exec cfg bal flt who c s) (exec cfg bal flt who c s') := by
  cases c with
  | leaf c =>
    simp only [exec]
    split
    · exact dispatch_near cfg bal (.signed who) c h
    · exact .inl ⟨rfl, rfl⟩
  | batch k calls =>
    simp only [exec]
    split
    · exact execL_near cfg bal who calls k _ s s' h
    · exact .inl ⟨rfl, rfl⟩
  | payWithCapacity c =>
    simp only [exec]
    split
    · exact exec_near cfg bal who c flt s s' h
    · exact .inl ⟨rfl, rfl⟩
  | payWithCapacityBatchAll calls =>
    simp only [exec]
    split
    · split
      · exact execL_near cfg bal who calls _ _ s s' h
      · exact .inl ⟨rfl, rfl⟩
    · exact .inl ⟨rfl, rfl⟩
theorem execL_near (cfg : Chain.Config) (bal : AccountId → Balance) (who : AccountId) (calls : List Call) (k : Runtime.BatchKind)
    (flt : Runtime.Filter) (s s' : Chain.State) (h : Near s s') : NearO (execL cfg bal k flt who calls s) (execL cfg bal k flt who calls s') := by
  cases calls with
  | nil =>
    simp only [execL]
    exact .inr ⟨_, _, rfl, rfl, h⟩
  | cons c cs =>
    simp only [execL]
    rcases exec_near cfg bal who c flt s s' h with ⟨h1, h2⟩ | ⟨t, t', h1, h2, h3⟩
    · rw [h1, h2]
      cases k with
      | batch => exact .inr ⟨_, _, rfl, rfl, h⟩
      | batchAll => exact .inl ⟨rfl, rfl⟩
      | forceBatch => exact execL_near cfg bal who cs .forceBatch flt s s' h
    · rw [h1, h2]
      exact execL_near cfg bal who cs k flt t t' h3
end

theorem pay_near (cfg : Config) {s s' : Chain.State} (t : Signed) (h : Near s s') : NearO (pay cfg s t) (pay cfg s' t) := by
  obtain ⟨k, rfl, hk⟩ := h
  have w : ∀ calls, ((∃ e, TxPayment.withdrawCapacityFee cfg.payment s.msa (t.bal t.who) s.capacity t.who calls t.len = .error e) ∧
        ∃ e, TxPayment.withdrawCapacityFee cfg.payment s.msa (t.bal t.who) k t.who calls t.len = .error e) ∨
      ∃ r r', TxPayment.withdrawCapacityFee cfg.payment s.msa (t.bal t.who) s.capacity t.who calls t.len = .ok r ∧
        TxPayment.withdrawCapacityFee cfg.payment s.msa (t.bal t.who) k t.who calls t.len = .ok r' ∧ Capacity.Same r r' := by
    intro calls
    unfold TxPayment.withdrawCapacityFee
    cases TxPayment.sumWeights cfg.payment calls TxPayment.Weight.zero with
    | error e => exact .inl ⟨⟨_, rfl⟩, _, rfl⟩
    | ok w =>
      simp only [bind, Except.bind]
      unfold TxPayment.withdrawFee
      generalize TxPayment.computeCapacityFee cfg.payment (TxPayment.u32 t.len) w = fee
      by_cases hb : cfg.payment.minBalance ≤ t.bal t.who
      · cases hg : s.msa.keyToMsa.get t.who with
        | none => exact .inl ⟨⟨.invalidMsaKey, by simp [ensure, hb, okOr, bind, Except.bind]⟩, .invalidMsaKey,
            by simp [ensure, hb, okOr, bind, Except.bind]⟩
        | some m =>
          have g := capacity_near cfg.chain.capacity (x := ⟨Chain.capacityEnv t.bal s, .charge m fee⟩) (.inl trivial) hk
          simp only [Capacity.dispatch] at g
          rcases g with ⟨⟨e1, h1⟩, e2, h2⟩ | ⟨r, r', h1, h2, h3⟩
          · exact .inl ⟨⟨.payment, by simp [ensure, hb, okOr, bind, Except.bind, h1, TxPayment.toPayment]⟩, .payment,
              by simp [ensure, hb, okOr, bind, Except.bind, h2, TxPayment.toPayment]⟩
          · exact .inr ⟨r, r', by simp [ensure, hb, okOr, bind, Except.bind, h1, TxPayment.toPayment],
              by simp [ensure, hb, okOr, bind, Except.bind, h2, TxPayment.toPayment], h3⟩
      · exact .inl ⟨⟨.payment, by simp [ensure, hb, bind, Except.bind]⟩, .payment, by simp [ensure, hb, bind, Except.bind]⟩
  have tok : NearO (if Runtime.paysNo t.call.view || t.tokens then some s else none)
      (if Runtime.paysNo t.call.view || t.tokens then some { s with capacity := k } else none) := by
    split
    · exact .inr ⟨_, _, rfl, rfl, k, rfl, hk⟩
    · exact .inl ⟨rfl, rfl⟩
  have cap : ∀ calls, NearO
      ((TxPayment.withdrawCapacityFee cfg.payment s.msa (t.bal t.who) s.capacity t.who calls t.len).toOption.map
        (fun c => { s with capacity := c }))
      ((TxPayment.withdrawCapacityFee cfg.payment s.msa (t.bal t.who) k t.who calls t.len).toOption.map
        (fun c => { s with capacity := c })) := by
    intro calls
    rcases w calls with ⟨⟨e1, h1⟩, e2, h2⟩ | ⟨r, r', h1, h2, h3⟩
    · rw [h1, h2]; exact .inl ⟨rfl, rfl⟩
    · rw [h1, h2]; exact .inr ⟨_, _, rfl, rfl, r', rfl, h3⟩
  unfold pay TxPayment.charge
  cases hv : t.call.view with
  | payWithCapacity c => exact cap [c]
  | payWithCapacityBatchAll l => exact cap l
  | _ => rw [hv] at tok; exact tok

theorem Alike.takeIn {s s' : State} (h : Alike s s') (cfg : Config) (t : Signed) :
    (takeIn cfg s t = none ∧ takeIn cfg s' t = none) ∨ ∃ r r', takeIn cfg s t = some r ∧ takeIn cfg s' t = some r' ∧ Alike r r' := by
  obtain ⟨hn, ha⟩ := (alike_iff s s').1 h
  unfold Tx.takeIn
  rcases numbered_alike (t := t) (ha t.who) with ⟨h1, h2⟩ | ⟨a, a', h1, h2, h3, h4⟩
  · unfold numbered at h1 h2
    rw [h1, h2]
    exact .inl ⟨rfl, rfl⟩
  · have h5 : ∀ k, a.get k = a'.get k := by
      intro k
      by_cases e : k = t.who
      · rw [e]; exact h3
      · rcases numbered_alike (t := t) (ha t.who).symm with ⟨g1, -⟩ | ⟨b, b', g1, g2, -, g4⟩
        · rw [h2] at g1; cases g1
        · rw [h2] at g1
          cases g1
          rw [h4 k e, g4 k e]
          exact ha k
    unfold numbered at h1 h2
    rw [h1, h2]
    simp only [Option.bind_eq_bind, Option.bind_some]
    rcases pay_near cfg t hn with ⟨g1, g2⟩ | ⟨c, c', g1, g2, hc⟩
    · rw [g1, g2]
      exact .inl ⟨rfl, rfl⟩
    · rw [g1, g2]
      have he : extensions cfg c' t.who t.call = extensions cfg c t.who t.call := by
        obtain ⟨k, rfl, -⟩ := hc
        exact extensions_capacity cfg c t.who t.call k
      simp only [Option.bind_some, he]
      cases extensions cfg c t.who t.call
      · exact .inl ⟨rfl, rfl⟩
      · exact .inr ⟨_, _, rfl, rfl, (alike_iff _ _).2 ⟨hc, h5⟩⟩

theorem Alike.exec {s s' : State} (h : Alike s s') (cfg : Config) (t : Signed) :
    NearO (exec cfg.chain t.bal (Runtime.contains cfg.mainnet) t.who t.call s.chain)
      (exec cfg.chain t.bal (Runtime.contains cfg.mainnet) t.who t.call s'.chain) :=
  exec_near cfg.chain t.bal t.who t.call (Runtime.contains cfg.mainnet) _ _ ((alike_iff s s').1 h).1

theorem Alike.submit {s s' : State} (h : Alike s s') (cfg : Config) (t : Signed) :
    Alike (submit cfg s t) (submit cfg s' t) := by
  unfold Tx.submit
  rcases h.takeIn cfg t with ⟨h1, h2⟩ | ⟨r, r', h1, h2, hr⟩
  · rw [h1, h2]; exact h
  · rw [h1, h2]
    simp only
    rw [alike_iff]
    refine ⟨?_, hr.accounts⟩
    rcases hr.exec cfg t with ⟨e1, e2⟩ | ⟨q, q', e1, e2, hq⟩
    · rw [e1, e2]; exact ((alike_iff r r').1 hr).1
    · rw [e1, e2]; exact hq

theorem Alike.fate {s s' : State} (h : Alike s s') (cfg : Config) (t : Signed) : fate cfg s t = fate cfg s' t := by
  unfold Tx.fate
  rcases h.takeIn cfg t with ⟨h1, h2⟩ | ⟨r, r', h1, h2, hr⟩
  · rw [h1, h2]
  · rw [h1, h2]
    simp only [Option.map_some, succeeds]
    rcases hr.exec cfg t with ⟨e1, e2⟩ | ⟨q, q', e1, e2, -⟩ <;> rw [e1, e2]
    rfl

theorem newBlock_near (cfg : Chain.Config) {s s' : Chain.State} (h : Near s s') : Near (Chain.newBlock cfg s) (Chain.newBlock cfg s') := by
  obtain ⟨k, rfl, hk⟩ := h
  refine ⟨Capacity.startNewEpochIfNeeded cfg.capacity k (s.block + 1), rfl, ?_⟩
  show Capacity.Same (Capacity.startNewEpochIfNeeded cfg.capacity s.capacity (s.block + 1)) _
  unfold Capacity.startNewEpochIfNeeded
  obtain ⟨e1, e2, e3⟩ := hk.epoch
  rw [← e1, ← e2, ← e3]
  split
  · exact ⟨hk.active, hk.frozen, hk.unlocks, hk.target, hk.capacity, rfl, rfl, rfl⟩
  · exact hk

theorem NearO.getD {r r' : Option Chain.State} {s s' : Chain.State} (h : NearO r r') (hs : Near s s') : Near (r.getD s) (r'.getD s') := by
  rcases h with ⟨rfl, rfl⟩ | ⟨t, t', rfl, rfl, ht⟩
  · exact hs
  · exact ht

theorem step_near (cfg : Chain.Config) {s s' : Chain.State} (h : Near s s') (x : Chain.Step) :
    Near (Chain.apply cfg s x) (Chain.apply cfg s' x) := by
  cases x with
  | newBlock => exact newBlock_near cfg h
  | call bal o c => exact (dispatch_near cfg bal o c h).getD h
  | submit bal who c =>
    have he : Chain.extensions cfg s' who c = Chain.extensions cfg s who c := by
      obtain ⟨k, rfl, -⟩ := h
      cases c with
      | handles c => cases c <;> rfl
      | _ => rfl
    simp only [Chain.apply, he]
    split
    · exact (dispatch_near cfg bal (.signed who) c h).getD h
    · exact h
  | charge key fee =>
    refine NearO.getD ?_ h
    obtain ⟨k, rfl, hk⟩ := h
    have e : msaOf { s with capacity := k } key = msaOf s key := rfl
    unfold Chain.charge
    rw [e]
    cases msaOf s key with
    | none => exact .inl ⟨rfl, rfl⟩
    | some m =>
      have g := capacity_near cfg.capacity (x := ⟨Chain.capacityEnv (fun _ => 0) s, .charge m fee⟩) (.inl trivial) hk
      simp only [Capacity.dispatch] at g
      simp only [Option.bind_eq_bind, Option.bind_some]
      rcases g with ⟨⟨e1, h1⟩, e2, h2⟩ | ⟨r, r', h1, h2, h3⟩
      · rw [h1, h2]; exact .inl ⟨rfl, rfl⟩
      · rw [h1, h2]; exact .inr ⟨_, _, rfl, rfl, r', rfl, h3⟩
  | upgrade known =>
    obtain ⟨k, rfl, hk⟩ := h
    exact ⟨k, rfl, hk⟩

theorem Alike.follow {s s' : State} (h : Alike s s') (cfg : Config) (l : List Event) : Alike (follow cfg s l) (follow cfg s' l) := by
  induction l generalizing s s' with
  | nil => exact h
  | cons x l ih =>
    refine ih ?_
    cases x with
    | tx t => exact h.submit cfg t
    | step x =>
      obtain ⟨hn, ha⟩ := (alike_iff s s').1 h
      exact (alike_iff _ _).2 ⟨step_near cfg.chain hn x, ha⟩

theorem Alike.submits {s s' : State} (h : Alike s s') (cfg : Config) (l : List Signed) :
    Alike (submits cfg s l) (submits cfg s' l) := by
  induction l generalizing s s' with
  | nil => exact h
  | cons t l ih => exact ih (h.submit cfg t)

/-- After another transaction, independent of it, a transaction finds what it is about as before. -/
theorem Independent.reads {cfg : Config} {s : State} {t u : Signed} {c d : Chain.Call} (h : Independent cfg s t u c d)
    (hd : u.call.single = some d) (hp : c.part ≠ .capacity) (hq : d.part ≠ .capacity) : Reads cfg t c s (submit cfg s u) := by
  obtain ⟨f1, f2, f3, f4⟩ := submit_frame cfg s u hd hq
  exact ⟨f1.symm, (f2 _ hp h.parts).symm, h.left, (f4 _ h.signers).symm, fun m hm => f3.cap m (h.payers m hm), f3.epoch.1⟩

theorem Independent.symm {cfg : Config} {s : State} {t u : Signed} {c d : Chain.Call} (h : Independent cfg s t u c d) :
    Independent cfg s u t d c :=
  ⟨h.signers.symm, h.parts.symm, fun m hm hm' => h.payers m hm' hm, h.right, h.left⟩

theorem exchange (cfg : Config) (s : State) {t u : Signed} {c d : Chain.Call} (hc : t.call.single = some c) (hd : u.call.single = some d)
    (hp : c.part ≠ .capacity) (hq : d.part ≠ .capacity) (h : Independent cfg s t u c d) :
    Alike (submit cfg (submit cfg s t) u) (submit cfg (submit cfg s u) t) := by
  have rt := h.reads hd hp hq
  have ru := h.symm.reads hc hq hp
  obtain ⟨-, a2, a3, a4⟩ := submit_alike cfg hc hp rt
  obtain ⟨-, b2, b3, b4⟩ := submit_alike cfg hd hq ru
  obtain ⟨f1, f2, f3, f4⟩ := submit_frame cfg s t hc hp
  obtain ⟨g1, g2, g3, g4⟩ := submit_frame cfg s u hd hq
  obtain ⟨i1, i2, i3, i4⟩ := submit_frame cfg (submit cfg s t) u hd hq
  obtain ⟨j1, j2, j3, j4⟩ := submit_frame cfg (submit cfg s u) t hc hp
  have pu : payer (submit cfg s t) u = payer s u := by
    unfold payer
    split
    · rename_i hw; exact (h.right.signer hw).symm
    · rfl
  have pt : payer (submit cfg s u) t = payer s t := by
    unfold payer
    split
    · rename_i hw; exact (h.left.signer hw).symm
    · rfl
  rw [pu] at i3
  rw [pt] at j3
  refine ⟨by rw [i1, j1, f1, g1], fun p hpc => ?_, ⟨fun a => ?_, fun a => ?_, fun a => ?_, fun a m => ?_, fun m => ?_, ?_⟩, fun a => ?_⟩
  · by_cases e1 : p = c.part
    · have e2 : p ≠ d.part := fun e2 => h.parts (e1.symm.trans e2)
      have := i2 p hpc e2
      subst e1
      exact this.trans a2
    · by_cases e2 : p = d.part
      · have := j2 p hpc e1
        subst e2
        exact b2.symm.trans this.symm
      · exact ((i2 p hpc e2).trans (f2 p hpc e1)).trans ((j2 p hpc e1).trans (g2 p hpc e2)).symm
  · rw [← (i3.mine a).1, ← (f3.mine a).1, ← (j3.mine a).1, ← (g3.mine a).1]
  · rw [← (i3.mine a).2.1, ← (f3.mine a).2.1, ← (j3.mine a).2.1, ← (g3.mine a).2.1]
  · rw [← (i3.mine a).2.2, ← (f3.mine a).2.2, ← (j3.mine a).2.2, ← (g3.mine a).2.2]
  · rw [← i3.target, ← f3.target, ← j3.target, ← g3.target]
  · by_cases e1 : payer s t = some m
    · have e2 := h.payers m e1
      rw [← i3.cap m e2, a4 m e1]
    · by_cases e2 : payer s u = some m
      · rw [← j3.cap m e1, b4 m e2]
      · rw [← i3.cap m e2, ← f3.cap m e1, ← j3.cap m e1, ← g3.cap m e2]
  · rw [← i3.epoch.1, ← i3.epoch.2.1, ← i3.epoch.2.2, ← j3.epoch.1, ← j3.epoch.2.1, ← j3.epoch.2.2, ← f3.epoch.1, ← f3.epoch.2.1,
      ← f3.epoch.2.2, ← g3.epoch.1, ← g3.epoch.2.1, ← g3.epoch.2.2]
    exact ⟨rfl, rfl, rfl⟩
  · by_cases e1 : a = t.who
    · subst e1
      rw [i4 _ h.signers, a3]
    · by_cases e2 : a = u.who
      · subst e2
        rw [j4 _ h.signers.symm, b3]
      · rw [i4 a e2, f4 a e1, j4 a e1, g4 a e2]

/-- C173: two neighbouring transactions of different accounts to different pallets, paid for by different accounts, neither of which
changes what the other is about, can change places: each is taken into the block in both orders or in none, its call succeeds in
both or in none, and whatever follows, in this block and in later ones, the same is stored about everything, and the next
transaction fares alike. -/
theorem C173_exchange (cfg : Config) (s : State) (t u : Signed) (b : List Event) (c d : Chain.Call) (hc : t.call.single = some c)
    (hd : u.call.single = some d) (hp : c.part ≠ .capacity) (hq : d.part ≠ .capacity) (h : Independent cfg s t u c d) :
    fate cfg s t = fate cfg (submits cfg s [u]) t ∧ fate cfg s u = fate cfg (submits cfg s [t]) u ∧
    Alike (follow cfg (submits cfg s [t, u]) b) (follow cfg (submits cfg s [u, t]) b) ∧
    ∀ x, fate cfg (follow cfg (submits cfg s [t, u]) b) x = fate cfg (follow cfg (submits cfg s [u, t]) b) x :=
  ⟨(submit_alike cfg hc hp (h.reads hd hp hq)).1, (submit_alike cfg hd hq (h.symm.reads hc hq hp)).1,
    (exchange cfg _ hc hd hp hq h).follow cfg b, fun x => ((exchange cfg _ hc hd hp hq h).follow cfg b).fate cfg x⟩

/-- Messages, handles and stored data. -/
def Content (p : Part) : Prop := p = .messages ∨ p = .handles ∨ p = .storage

theorem untouched_of {cfg : Config} {t u : Signed} {c d : Chain.Call} (s : State) (hd : u.call.single = some d) (hq : Content d.part)
    (hp : Content c.part) : Untouched cfg t c s.chain (submit cfg s u).chain := by
  have hx : d.part ≠ .capacity := by rcases hq with h | h | h <;> rw [h] <;> simp
  obtain ⟨-, f, -, -⟩ := submit_frame cfg s u hd hx
  have hm : s.chain.msa = (submit cfg s u).chain.msa :=
    (f .msa (by simp) (by rcases hq with h | h | h <;> rw [h] <;> simp)).symm
  have hs : s.chain.schemas = (submit cfg s u).chain.schemas :=
    (f .schemas (by simp) (by rcases hq with h | h | h <;> rw [h] <;> simp)).symm
  refine ⟨fun _ => by unfold msaOf; rw [← hm], fun _ => ?_, fun _ => ?_, fun h => ?_⟩
  · rw [← hm]; exact ⟨fun _ _ => rfl, fun _ _ _ _ _ _ => rfl, fun _ _ => rfl⟩
  · rw [← hs]; exact ⟨fun _ _ _ _ => rfl, fun _ _ _ _ => Iff.rfl⟩
  · rw [h] at hp
    rcases hp with h | h | h <;> cases h

/-- C173: a message, a call about a handle, a call about stored data, of different keys and paid for by different accounts: any two of
different kinds can change places, in any state. -/
theorem C173_content (cfg : Config) (s : State) (t u : Signed) (b : List Event) (c d : Chain.Call) (hc : t.call.single = some c)
    (hd : u.call.single = some d) (hp : Content c.part) (hq : Content d.part) (hcd : c.part ≠ d.part) (hw : t.who ≠ u.who)
    (hpay : ∀ m, payer s t = some m → payer s u ≠ some m) :
    fate cfg s t = fate cfg (submits cfg s [u]) t ∧ fate cfg s u = fate cfg (submits cfg s [t]) u ∧
    Alike (follow cfg (submits cfg s [t, u]) b) (follow cfg (submits cfg s [u, t]) b) ∧
    ∀ x, fate cfg (follow cfg (submits cfg s [t, u]) b) x = fate cfg (follow cfg (submits cfg s [u, t]) b) x :=
  C173_exchange cfg s t u b c d hc hd (by rcases hp with h | h | h <;> rw [h] <;> simp)
    (by rcases hq with h | h | h <;> rw [h] <;> simp)
    ⟨hw, hcd, hpay, untouched_of _ hd hq hp, untouched_of _ hc hp hq⟩

/-- A message, a call about a handle or about stored data. -/
def ContentTx (t : Signed) : Prop := ∃ c, t.call.single = some c ∧ Content c.part

/-- The pallet of the call. -/
def Signed.part (t : Signed) : Option Part := t.call.single.map Chain.Call.part

/-- Two lists of transactions have the same transactions of each key, to each pallet and paid with the capacity of each account, each of
these in the same order. -/
structure Reordered (s : State) (h h' : List Signed) : Prop where
  keys : ∀ k, h.filter (fun t => t.who = k) = h'.filter (fun t => t.who = k)
  parts : ∀ p, h.filter (fun t => t.part = some p) = h'.filter (fun t => t.part = some p)
  payers : ∀ m, h.filter (fun t => payer s t = some m) = h'.filter (fun t => payer s t = some m)

/-- The transactions, each with how it fares. -/
def fates (cfg : Config) (s : State) : List Signed → List (Signed × Option Bool)
  | [] => []
  | t :: h => (t, fate cfg s t) :: fates cfg (submit cfg s t) h

theorem payer_submit (cfg : Config) (s : State) {t : Signed} (ht : ContentTx t) (u : Signed) : payer (submit cfg s t) u = payer s u := by
  obtain ⟨c, hc, hp⟩ := ht
  obtain ⟨-, f, -, -⟩ := submit_frame cfg s t hc (by rcases hp with h | h | h <;> rw [h] <;> simp)
  have hm : (submit cfg s t).chain.msa = s.chain.msa := f .msa (by simp) (by rcases hp with h | h | h <;> rw [h] <;> simp)
  unfold payer msaOf
  rw [hm]

/-- Different in every respect. -/
def Apart (s : State) (x t : Signed) : Prop := x.who ≠ t.who ∧ x.part ≠ t.part ∧ ∀ m, payer s x = some m → payer s t ≠ some m

theorem fates_append (cfg : Config) (a b : List Signed) (s : State) :
    fates cfg s (a ++ b) = fates cfg s a ++ fates cfg (submits cfg s a) b := by
  induction a generalizing s with
  | nil => rfl
  | cons t a ih => simp only [List.cons_append, fates, ih]; rfl

theorem Alike.fates {s s' : State} (h : Alike s s') (cfg : Config) (l : List Signed) : fates cfg s l = fates cfg s' l := by
  induction l generalizing s s' with
  | nil => rfl
  | cons t l ih => simp only [Tx.fates, h.fate cfg t, ih (h.submit cfg t)]

theorem apart_fates (cfg : Config) (s : State) {x t : Signed} (hx : ContentTx x) (ht : ContentTx t) (h : Apart s x t) :
    fate cfg s x = fate cfg (submit cfg s t) x ∧ fate cfg s t = fate cfg (submit cfg s x) t := by
  obtain ⟨c, hc, hp⟩ := hx
  obtain ⟨d, hd, hq⟩ := ht
  obtain ⟨h1, h2, h3⟩ := h
  have h2 : c.part ≠ d.part := fun e => h2 (by simp [Signed.part, hc, hd, e])
  have r := C173_content cfg s x t [] c d hc hd hp hq h2 h1 h3
  exact ⟨r.1, r.2.1⟩

theorem apart_exchange (cfg : Config) (s : State) {x t : Signed} (hx : ContentTx x) (ht : ContentTx t) (h : Apart s x t) :
    Alike (submit cfg (submit cfg s x) t) (submit cfg (submit cfg s t) x) := by
  obtain ⟨c, hc, hp⟩ := hx
  obtain ⟨d, hd, hq⟩ := ht
  obtain ⟨h1, h2, h3⟩ := h
  have h2 : c.part ≠ d.part := fun e => h2 (by simp [Signed.part, hc, hd, e])
  exact (C173_content cfg s x t [] c d hc hd hp hq h2 h1 h3).2.2.1

theorem Alike.trans {s t u : State} (h : Alike s t) (g : Alike t u) : Alike s u :=
  ⟨h.block.trans g.block, fun p hp => (h.pallets p hp).trans (g.pallets p hp), h.capacity.trans g.capacity,
    fun a => (h.accounts a).trans (g.accounts a)⟩

theorem to_front (cfg : Config) (l : List Signed) (s : State) {t : Signed} (ht : ContentTx t) (hl : ∀ x ∈ l, ContentTx x)
    (ha : ∀ x ∈ l, Apart s x t) : Alike (submits cfg s (l ++ [t])) (submits cfg s (t :: l)) := by
  induction l generalizing s with
  | nil => exact .refl _
  | cons x l ih =>
    have hx := hl x List.mem_cons_self
    have hi := ih (submit cfg s x) (fun y hy => hl y (List.mem_cons_of_mem _ hy)) (fun y hy => by
      have := ha y (List.mem_cons_of_mem _ hy)
      simpa only [Apart, payer_submit cfg s hx] using this)
    exact hi.trans ((apart_exchange cfg s hx ht (ha x List.mem_cons_self)).submits cfg l)

theorem to_front_fates (cfg : Config) (l : List Signed) (s : State) {t : Signed} (ht : ContentTx t) (hl : ∀ x ∈ l, ContentTx x)
    (ha : ∀ x ∈ l, Apart s x t) (k : AccountId) :
    (fates cfg s (l ++ [t])).filter (fun y => y.1.who = k) = (fates cfg s (t :: l)).filter (fun y => y.1.who = k) := by
  induction l generalizing s with
  | nil => rfl
  | cons x l ih =>
    have hx := hl x List.mem_cons_self
    have hxt := ha x List.mem_cons_self
    have hi := ih (submit cfg s x) (fun y hy => hl y (List.mem_cons_of_mem _ hy)) (fun y hy => by
      have := ha y (List.mem_cons_of_mem _ hy)
      simpa only [Apart, payer_submit cfg s hx] using this)
    obtain ⟨e1, e2⟩ := apart_fates cfg s hx ht hxt
    have e3 := (apart_exchange cfg s hx ht hxt).fates cfg l
    simp only [List.cons_append, fates, List.filter_cons] at hi ⊢
    rw [hi, ← e1, ← e2, e3]
    by_cases h1 : x.who = k
    · have h2 : t.who ≠ k := fun h2 => hxt.1 (h1.trans h2.symm)
      simp [h1, h2]
    · simp [h1]

theorem first_of {α : Type} {q : α → Bool} {t : α} {r l1 l2 : List α} (ht : t ∉ l1) (hq : q t = true)
    (h : (t :: r).filter q = (l1 ++ t :: l2).filter q) : ∀ x ∈ l1, q x = false := by
  rw [List.filter_append, List.filter_cons_of_pos hq] at h
  cases hf : l1.filter q with
  | nil =>
    intro x hx
    cases hqx : q x
    · rfl
    · have : x ∈ l1.filter q := List.mem_filter.2 ⟨hx, hqx⟩
      rw [hf] at this
      cases this
  | cons y l =>
    rw [hf] at h
    have e : t = y := (List.cons.inj h).1
    have : y ∈ l1.filter q := by rw [hf]; exact List.mem_cons_self
    exact absurd (e ▸ (List.mem_filter.1 this).1) ht

theorem without {α : Type} {q : α → Bool} {t : α} {r l1 l2 : List α} (ht : t ∉ l1)
    (h : (t :: r).filter q = (l1 ++ t :: l2).filter q) : r.filter q = (l1 ++ l2).filter q := by
  cases hq : q t with
  | true =>
    have hn : l1.filter q = [] := List.filter_eq_nil_iff.2 (fun x hx => by simp [first_of ht hq h x hx])
    rw [List.filter_append, List.filter_cons_of_pos hq, List.filter_cons_of_pos hq, hn] at h
    rw [List.filter_append, hn]
    exact (List.cons.inj h).2
  | false =>
    rw [List.filter_append, List.filter_cons_of_neg (by simp [hq]), List.filter_cons_of_neg (by simp [hq])] at h
    rw [List.filter_append]
    exact h

theorem reordered_split {s : State} {t : Signed} {r h' : List Signed} (hc : ∀ u ∈ t :: r, ContentTx u) (hr : Reordered s (t :: r) h') :
    ∃ l1 l2, h' = l1 ++ t :: l2 ∧ t ∉ l1 ∧ ∀ x ∈ l1, Apart s x t := by
  have ht := hc t List.mem_cons_self
  have hm : t ∈ h' := by
    have : t ∈ (t :: r).filter (fun u => u.who = t.who) := List.mem_filter.2 ⟨List.mem_cons_self, by simp⟩
    rw [hr.keys] at this
    exact (List.mem_filter.1 this).1
  obtain ⟨l1, l2, rfl, hn⟩ := List.eq_append_cons_of_mem hm
  refine ⟨l1, l2, rfl, hn, fun x hx => ⟨fun e => ?_, fun e => ?_, fun m e1 e2 => ?_⟩⟩
  · simpa [e] using first_of hn (by simp) (hr.keys t.who) x hx
  · obtain ⟨c, h1, -⟩ := ht
    have hp : t.part = some c.part := by simp [Signed.part, h1]
    simpa [e, hp] using first_of hn (by simp [hp]) (hr.parts c.part) x hx
  · simpa [e1] using first_of hn (by simp [e2]) (hr.payers m) x hx

theorem reordered_alike (cfg : Config) (h : List Signed) (s : State) (h' : List Signed) (hc : ∀ t ∈ h, ContentTx t)
    (hr : Reordered s h h') : Alike (submits cfg s h) (submits cfg s h') := by
  have mem : ∀ x ∈ h', x ∈ h := fun x hx => by
    have : x ∈ h'.filter (fun t => t.who = x.who) := List.mem_filter.2 ⟨hx, by simp⟩
    rw [← hr.keys] at this
    exact (List.mem_filter.1 this).1
  induction h generalizing s h' with
  | nil =>
    cases h' with
    | nil => exact .refl _
    | cons x l => exact nomatch mem x List.mem_cons_self
  | cons t r ih =>
    have ht := hc t List.mem_cons_self
    obtain ⟨l1, l2, rfl, hn, ha⟩ := reordered_split hc hr
    have hl : ∀ x ∈ l1, ContentTx x := fun x hx => hc x (mem x (List.mem_append_left _ hx))
    have e1 : submits cfg s (l1 ++ t :: l2) = submits cfg (submits cfg s (l1 ++ [t])) l2 := by simp [submits]
    have e2 : submits cfg (submits cfg s (t :: l1)) l2 = submits cfg (submit cfg s t) (l1 ++ l2) := by simp [submits]
    have g := (to_front cfg l1 s ht hl ha).submits cfg l2
    rw [← e1, e2] at g
    have hr' : Reordered (submit cfg s t) r (l1 ++ l2) :=
      ⟨fun k => without hn (hr.keys k), fun p => without hn (hr.parts p),
        fun m => by simpa only [payer_submit cfg s ht] using without hn (hr.payers m)⟩
    refine Alike.trans (ih (submit cfg s t) (l1 ++ l2) (fun u hu => hc u (List.mem_cons_of_mem _ hu)) hr' fun x hx => ?_) g.symm
    have : x ∈ (l1 ++ l2).filter (fun u => u.who = x.who) := List.mem_filter.2 ⟨hx, by simp⟩
    rw [← hr'.keys] at this
    exact (List.mem_filter.1 this).1

theorem reordered_fates (cfg : Config) (h : List Signed) (s : State) (h' : List Signed) (hc : ∀ t ∈ h, ContentTx t)
    (hr : Reordered s h h') (k : AccountId) :
    (fates cfg s h).filter (fun y => y.1.who = k) = (fates cfg s h').filter (fun y => y.1.who = k) := by
  induction h generalizing s h' with
  | nil =>
    cases h' with
    | nil => rfl
    | cons x l => exact absurd (hr.keys x.who) (by simp)
  | cons t r ih =>
    have mem : ∀ x ∈ h', x ∈ t :: r := fun x hx => by
      have : x ∈ h'.filter (fun t => t.who = x.who) := List.mem_filter.2 ⟨hx, by simp⟩
      rw [← hr.keys] at this
      exact (List.mem_filter.1 this).1
    obtain ⟨l1, l2, rfl, hn, ha⟩ := reordered_split hc hr
    have ht := hc t List.mem_cons_self
    have hl : ∀ x ∈ l1, ContentTx x := fun x hx => hc x (mem x (List.mem_append_left _ hx))
    have hr' : Reordered (submit cfg s t) r (l1 ++ l2) :=
      ⟨fun k => without hn (hr.keys k), fun p => without hn (hr.parts p),
        fun m => by simpa only [payer_submit cfg s ht] using without hn (hr.payers m)⟩
    have g := ih (submit cfg s t) (l1 ++ l2) (fun u hu => hc u (List.mem_cons_of_mem _ hu)) hr'
    have f := to_front_fates cfg l1 s ht hl ha k
    have a := (to_front cfg l1 s ht hl ha).fates cfg l2
    have e1 : l1 ++ t :: l2 = (l1 ++ [t]) ++ l2 := by simp
    rw [e1, fates_append, List.filter_append, f, a, ← List.filter_append, ← fates_append, List.cons_append]
    simp only [fates, List.filter_cons, g]

/-- C173: messages, calls about handles and calls about stored data in a block can come in any order in which those of each key, those
to each pallet and those paid with the capacity of each account keep theirs: each of them fares alike, the same is stored
afterwards, and everything that follows fares alike. -/
theorem C173_block (cfg : Config) (s : State) (h h' : List Signed) (b : List Event) (hc : ∀ t ∈ h, ContentTx t)
    (hr : Reordered s h h') :
    (∀ k, (fates cfg s h).filter (fun y => y.1.who = k) = (fates cfg s h').filter (fun y => y.1.who = k)) ∧
    Alike (follow cfg (submits cfg s h) b) (follow cfg (submits cfg s h') b) ∧
    ∀ x, fate cfg (follow cfg (submits cfg s h) b) x = fate cfg (follow cfg (submits cfg s h') b) x := by
  have g := (reordered_alike cfg h s h' hc hr).follow cfg b
  exact ⟨fun k => reordered_fates cfg h s h' hc hr k, g, fun x => g.fate cfg x⟩

/-! ## A concrete chain -/

/-- The accounts 1 of key 10 and 3 of key 40 are providers with capacity; account 2 has given account 1 permissions. -/
def exTwo : State := ⟨Chain.run Chain.exCfg (.init 1024) (Chain.exHist.take 8 ++ [.submit Chain.exBal 40 (.msa .create),
  .submit Chain.exBal 40 (.msa (.createProvider [66])),
  .submit Chain.exBal 30 (.capacity (.stake 1 500)), .submit Chain.exBal 31 (.capacity (.stake 3 500))]), ∅⟩

/-- Key 10 posts for account 2. -/
def exPost : Chain.Call := .messages (.onchain (some 2) 1 [9])

/-- Key 40 adds the key 50 to account 3. -/
def exAdd : Chain.Call := .msa (.addPublicKeyToMsa 40 40 50 ⟨3, 50, 50⟩)

/-- Paid with capacity. -/
def exSigned (who : AccountId) (c : Chain.Call) : Signed := ⟨who, 0, .payWithCapacity (.leaf c), 200, Chain.exBal, false⟩

local instance {K V : Type} [DecidableEq K] [DecidableEq V] : DecidableEq (SMap K V) := fun a b =>
  decidable_of_iff (a.entries = b.entries) ⟨fun h => by cases a; cases b; cases h; rfl, congrArg _⟩

local instance : DecidableEq Msa.Delegation := fun a b =>
  decidable_of_iff (a.revokedAt = b.revokedAt ∧ a.perms = b.perms)
    ⟨fun h => by cases a; cases b; cases h.1; cases h.2; rfl, fun h => by rw [h]; exact ⟨rfl, rfl⟩⟩

/-- Hypotheses of `C173_exchange` met. -/
theorem exTwo_independent : Independent exCfg exTwo (exSigned 10 exPost) (exSigned 40 exAdd) exPost exAdd := by
  have k1 : msaOf exTwo.chain 10 = some 1 := by decide +kernel
  have k2 : msaOf exTwo.chain 40 = some 3 := by decide +kernel
  have k3 : exTwo.chain.msa.keyToMsa.get 10 = (submit exCfg exTwo (exSigned 40 exAdd)).chain.msa.keyToMsa.get 10 := by decide +kernel
  have k4 : exTwo.chain.msa.delegations.get (2, 1) = (submit exCfg exTwo (exSigned 40 exAdd)).chain.msa.delegations.get (2, 1) := by
    decide +kernel
  have k5 : Schemas.getSchemaInfoById exTwo.chain.schemas 1 =
      Schemas.getSchemaInfoById (submit exCfg exTwo (exSigned 40 exAdd)).chain.schemas 1 := by decide +kernel
  have k6 : msaOf exTwo.chain 40 = msaOf (submit exCfg exTwo (exSigned 10 exPost)).chain 40 := by decide +kernel
  refine ⟨by decide, by decide, fun m h => ?_, ⟨fun _ => k3, fun _ => ⟨fun k hk => ?_, fun d hd k hk p hp => ?_, fun _ h => ?_⟩,
    fun _ => ⟨fun c k h hk => ?_, fun c h k hk => ?_⟩, fun h => ?_⟩, ⟨fun _ => k6, fun h => absurd rfl h,
    fun _ => ⟨fun c k h hk => ?_, fun c h k hk => ?_⟩, fun h => ?_⟩⟩
  · have h : msaOf exTwo.chain 10 = some m := h
    have e : payer exTwo (exSigned 40 exAdd) = some 3 := k2
    rw [k1] at h
    cases h
    rw [e]
    decide
  · rw [List.mem_singleton.1 (show k ∈ [10] from hk)]
    exact k3
  · rw [List.mem_singleton.1 (show k ∈ [10] from hk)] at hp
    have hp : msaOf exTwo.chain 10 = some p := hp
    rw [k1] at hp
    cases hp
    cases hd
    exact k4
  · cases h
  · cases h
    cases hk
    exact k5
  · cases h
    cases hk
  · cases h
  · cases h
    cases hk
  · cases h
    cases hk
  · cases h

/-- Both are taken in and succeed, in both orders; a message and a key have been added and both providers have paid. -/
example : Call.single (exSigned 10 exPost).call = some exPost ∧ Call.single (exSigned 40 exAdd).call = some exAdd ∧
    exPost.part ≠ .capacity ∧ exAdd.part ≠ .capacity ∧
    fate exCfg exTwo (exSigned 10 exPost) = some true ∧ fate exCfg (submits exCfg exTwo [exSigned 40 exAdd]) (exSigned 10 exPost) = some true ∧
    fate exCfg (submits exCfg exTwo [exSigned 10 exPost]) (exSigned 40 exAdd) = some true ∧
    msaOf (submits exCfg exTwo [exSigned 10 exPost, exSigned 40 exAdd]).chain 50 = some 3 ∧
    spendable exTwo.chain 1 = 10 ∧ spendable (submits exCfg exTwo [exSigned 40 exAdd, exSigned 10 exPost]).chain 1 = 8 ∧
    spendable exTwo.chain 3 = 10 ∧ spendable (submits exCfg exTwo [exSigned 40 exAdd, exSigned 10 exPost]).chain 3 = 8 := by
  exact ⟨rfl, rfl, by decide, by decide, by decide +kernel⟩

/-- The hypothesis is needed: with the key 50 one can post after it has been added, not before. -/
example :
    let t : Signed := ⟨50, 0, .leaf (.messages (.onchain none 1 [9])), 200, Chain.exBal, true⟩
    fate exCfg exTwo t = some false ∧ fate exCfg (submits exCfg exTwo [exSigned 40 exAdd]) t = some true := by
  decide +kernel

/-- Key 20 takes a handle. -/
def exClaim : Chain.Call := .handles (.claim 20 20 (Handles.pl "alice" 30))

/-- Hypotheses of `C173_content` met: key 40 submits the claim of key 20, key 10 posts. -/
example : Call.single (exSigned 10 exPost).call = some exPost ∧ Call.single (exSigned 40 exClaim).call = some exClaim ∧
    Content exPost.part ∧ Content exClaim.part ∧ exPost.part ≠ exClaim.part ∧
    payer (submits exCfg exTwo []) (exSigned 10 exPost) = some 1 ∧ payer (submits exCfg exTwo []) (exSigned 40 exClaim) = some 3 ∧
    fate exCfg exTwo (exSigned 10 exPost) = some true ∧ fate exCfg exTwo (exSigned 40 exClaim) = some true ∧
    ((submits exCfg exTwo [exSigned 10 exPost, exSigned 40 exClaim]).chain.handles.byMsa.get 2).isSome = true := by
  exact ⟨rfl, rfl, .inl rfl, .inr (.inl rfl), by decide, by decide +kernel⟩

/-- Key 10 then writes a page for account 2. -/
def exPage : Signed := ⟨10, 1, .payWithCapacity (.leaf (.storage (.upsertPage 2 2 0 0 [5]))), 200, Chain.exBal, false⟩

/-- Three transactions. -/
def exBlock : List Signed := [exSigned 10 exPost, exPage, exSigned 40 exClaim]

/-- In another order; the two of key 10 keep theirs. -/
def exBlock' : List Signed := [exSigned 40 exClaim, exSigned 10 exPost, exPage]

/-- Hypotheses of `C173_block` met. -/
theorem exBlock_reordered : (∀ t ∈ exBlock, ContentTx t) ∧ Reordered exTwo exBlock exBlock' := by
  have p1 : payer exTwo (exSigned 10 exPost) = some 1 := by decide +kernel
  have p2 : payer exTwo exPage = some 1 := by decide +kernel
  have p3 : payer exTwo (exSigned 40 exClaim) = some 3 := by decide +kernel
  refine ⟨?_, fun k => ?_, fun p => ?_, fun m => ?_⟩
  · intro t ht
    simp only [exBlock, List.mem_cons, List.not_mem_nil, or_false] at ht
    rcases ht with rfl | rfl | rfl
    · exact ⟨exPost, rfl, .inl rfl⟩
    · exact ⟨_, rfl, .inr (.inr rfl)⟩
    · exact ⟨exClaim, rfl, .inr (.inl rfl)⟩
  · have w1 : (exSigned 10 exPost).who = 10 := rfl
    have w2 : exPage.who = 10 := rfl
    have w3 : (exSigned 40 exClaim).who = 40 := rfl
    by_cases h1 : 10 = k
    · subst h1
      simp [exBlock, exBlock', w1, w2, w3]
    · simp [exBlock, exBlock', List.filter_cons, w1, w2, w3, h1]
  · cases p <;> rfl
  · by_cases h1 : 1 = m
    · subst h1
      simp [exBlock, exBlock', p1, p2, p3]
    · simp [exBlock, exBlock', List.filter_cons, p1, p2, p3, h1]

/-- All are taken in and succeed, in both orders. -/
example : fate exCfg exTwo (exSigned 10 exPost) = some true ∧ fate exCfg (submits exCfg exTwo (exBlock.take 1)) exPage = some true ∧
    fate exCfg (submits exCfg exTwo (exBlock.take 2)) (exSigned 40 exClaim) = some true ∧
    fate exCfg exTwo (exSigned 40 exClaim) = some true ∧
    fate exCfg (submits exCfg exTwo (exBlock'.take 2)) exPage = some true ∧
    spendable (submits exCfg exTwo exBlock).chain 1 = 6 ∧ spendable (submits exCfg exTwo exBlock').chain 1 = 6 := by
  decide +kernel

end Verif.Tx
