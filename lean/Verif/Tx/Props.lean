import Verif.Tx.Model
import Verif.TxPayment.PropsStake
import Verif.Nonce.Props
/-!
# C125: what a signed transaction does

The specification speaks of the number of the signer, of the account that pays, and of the calls carried, dispatched
one after the other.
-/

namespace Verif.Tx
open TxPayment (Eligible fee available spent)

/-! ## Specification -/

/-- The transaction is to be paid with capacity: the outermost call says so. -/
def Call.withCapacity : Call → Bool
  | .payWithCapacity _ | .payWithCapacityBatchAll _ => true
  | _ => false

/-- What a transaction paid with capacity carries. -/
inductive Carries : Call → List Chain.Call → Prop
  | single (c) : Carries (.payWithCapacity (.leaf c)) [c]
  | batch (cs : List Chain.Call) : Carries (.payWithCapacityBatchAll (cs.map .leaf)) cs

/-- The transaction has the next number of its signer. -/
def Next (s : State) (t : Signed) : Prop := t.nonce = (Nonce.getAccount s.accounts t.who).nonce

/-- The accounts after an included transaction: the number is used up, unless the call is free and the account has
nothing on the chain. -/
def counted (s : State) (t : Signed) : Nonce.Accounts :=
  let a := Nonce.getAccount s.accounts t.who
  if Runtime.paysNo t.call.view && !a.existing then s.accounts
  else s.accounts.insert t.who { a with nonce := t.nonce + 1 }

/-- All calls dispatched in turn by the signer, or none. -/
def dispatchAll (cfg : Chain.Config) (bal : AccountId → Balance) (who : AccountId) : Chain.State → List Chain.Call →
    Option Chain.State
  | s, [] => some s
  | s, c :: cs => match Chain.dispatch cfg bal s (.signed who) c with
    | some s' => dispatchAll cfg bal who s' cs
    | none => none

/-! ## Proofs -/

theorem viewL_map (cs : List Call) : viewL cs = cs.map Call.view := by
  induction cs with
  | nil => rfl
  | cons c cs ih => simp [viewL, ih]

theorem view_leaf (cs : List Chain.Call) : viewL (cs.map .leaf) = cs.map view := by
  rw [viewL_map, List.map_map]
  exact List.map_congr_left (fun c _ => by simp [Call.view])

theorem leaf_of_eligible {c : Call} (h : Eligible c.view) : ∃ c', c = .leaf c' ∧ Eligible (view c') := by
  cases c with
  | leaf c => exact ⟨c, rfl, by simpa [Call.view] using h⟩
  | batch k calls => simp only [Call.view] at h; cases h
  | payWithCapacity c => simp only [Call.view] at h; cases h
  | payWithCapacityBatchAll calls => simp only [Call.view] at h; cases h

theorem leaves_of_eligible (cs : List Call) (h : ∀ c ∈ cs, Eligible c.view) :
    ∃ ls : List Chain.Call, cs = ls.map .leaf ∧ ∀ c ∈ ls, Eligible (view c) := by
  induction cs with
  | nil => exact ⟨[], rfl, by simp⟩
  | cons c cs ih =>
    obtain ⟨c', rfl, h1⟩ := leaf_of_eligible (h c (by simp))
    obtain ⟨ls, rfl, h2⟩ := ih (fun c hc => h c (by simp [hc]))
    exact ⟨c' :: ls, rfl, by simpa using ⟨h1, h2⟩⟩

theorem contains_eligible (mainnet : Bool) {c : Runtime.Call} (h : Eligible c) : Runtime.contains mainnet c = true := by
  cases h <;> rfl

theorem noBatchAll_eligible {c : Runtime.Call} (h : Eligible c) : Runtime.noBatchAll c = true := by
  cases h <;> rfl

theorem allowed_eligible {c : Runtime.Call} (h : Eligible c) : Runtime.isBatchCallAllowed c = true := by
  cases h <;> rfl

/-- Calls that may be paid with capacity neither see nor touch the capacity of anybody. -/
theorem dispatch_capacity (cfg : Chain.Config) (bal : AccountId → Balance) (s : Chain.State) (o : Chain.Origin)
    (c : Chain.Call) (h : Eligible (view c)) (k : Capacity.State) :
    Chain.dispatch cfg bal { s with capacity := k } o c =
      (Chain.dispatch cfg bal s o c).map (fun t => { t with capacity := k }) := by
  cases c with
  | msa c =>
    simp only [Chain.dispatch, Option.map_map]
    rfl
  | schemas c => cases c <;> simp only [view] at h <;> cases h
  | messages c =>
    simp only [Chain.dispatch]
    cases o.signer with
    | none => rfl
    | some key =>
      show ((Messages.dispatch cfg.messages (Chain.messagesEnv cfg s) s.messages key c).toOption.bind _) =
        Option.map _ ((Messages.dispatch cfg.messages (Chain.messagesEnv cfg s) s.messages key c).toOption.bind _)
      cases (Messages.dispatch cfg.messages (Chain.messagesEnv cfg s) s.messages key c).toOption <;> rfl
  | handles c =>
    simp only [Chain.dispatch]
    cases o.signer with
    | none => rfl
    | some key =>
      show ((Handles.dispatch cfg.handles s.handles ⟨Chain.handlesEnv cfg s, c.op key⟩).toOption.bind _) =
        Option.map _ ((Handles.dispatch cfg.handles s.handles ⟨Chain.handlesEnv cfg s, c.op key⟩).toOption.bind _)
      cases (Handles.dispatch cfg.handles s.handles ⟨Chain.handlesEnv cfg s, c.op key⟩).toOption <;> rfl
  | storage c =>
    simp only [Chain.dispatch]
    show ((Stateful.dispatch cfg.storage (Chain.storageEnv cfg s) s.storage o.signer c).toOption.bind _) =
      Option.map _ ((Stateful.dispatch cfg.storage (Chain.storageEnv cfg s) s.storage o.signer c).toOption.bind _)
    cases (Stateful.dispatch cfg.storage (Chain.storageEnv cfg s) s.storage o.signer c).toOption <;> rfl
  | capacity c => cases c <;> simp only [view] at h <;> cases h

theorem dispatchAll_capacity (cfg : Chain.Config) (bal : AccountId → Balance) (who : AccountId) (cs : List Chain.Call)
    (h : ∀ c ∈ cs, Eligible (view c)) (s : Chain.State) (k : Capacity.State) :
    dispatchAll cfg bal who { s with capacity := k } cs =
      (dispatchAll cfg bal who s cs).map (fun t => { t with capacity := k }) := by
  induction cs generalizing s with
  | nil => rfl
  | cons c cs ih =>
    simp only [dispatchAll, dispatch_capacity cfg bal s _ c (h c (by simp)) k]
    cases Chain.dispatch cfg bal s (.signed who) c with
    | none => rfl
    | some s' => exact ih (fun c hc => h c (by simp [hc])) s'

/-- A call that may be paid with capacity keeps the capacity of everybody. -/
theorem dispatchAll_keeps (cfg : Chain.Config) (bal : AccountId → Balance) (who : AccountId) (cs : List Chain.Call)
    (h : ∀ c ∈ cs, Eligible (view c)) (s s' : Chain.State) (hd : dispatchAll cfg bal who s cs = some s') :
    s'.capacity = s.capacity := by
  have := dispatchAll_capacity cfg bal who cs h s s.capacity
  rw [show ({ s with capacity := s.capacity } : Chain.State) = s from rfl, hd] at this
  rw [Option.some.inj this]

theorem execL_leaves (cfg : Chain.Config) (bal : AccountId → Balance) (flt : Runtime.Filter) (who : AccountId)
    (cs : List Chain.Call) (h : ∀ c ∈ cs, flt (view c) = true) (s : Chain.State) :
    execL cfg bal .batchAll flt who (cs.map .leaf) s = dispatchAll cfg bal who s cs := by
  induction cs generalizing s with
  | nil => simp [execL, dispatchAll]
  | cons c cs ih =>
    have hc : exec cfg bal flt who (.leaf c) s = Chain.dispatch cfg bal s (.signed who) c := by
      simp [exec, Call.view, h c (by simp)]
    rw [List.map_cons, execL, dispatchAll, hc]
    cases Chain.dispatch cfg bal s (.signed who) c with
    | none => rfl
    | some s' => exact ih (fun c hc => h c (by simp [hc])) s'

theorem exec_carries (cfg : Chain.Config) (bal : AccountId → Balance) (mainnet : Bool) (who : AccountId) {c : Call}
    {cs : List Chain.Call} (hc : Carries c cs) (h : ∀ c ∈ cs, Eligible (view c)) (s : Chain.State) :
    exec cfg bal (Runtime.contains mainnet) who c s =
      if cs.length ≤ 10 then dispatchAll cfg bal who s cs else none := by
  cases hc with
  | single c =>
    have he := contains_eligible mainnet (h c (by simp))
    rw [exec, if_pos (by simp [Call.view, Runtime.contains])]
    simp only [exec, Call.view, he, if_true, List.length_singleton, dispatchAll]
    cases Chain.dispatch cfg bal s (.signed who) c <;> rfl
  | batch cs =>
    rw [exec, if_pos (by simp [Call.view, Runtime.contains])]
    simp only [List.length_map, Runtime.maxCapacityBatch]
    split
    · refine execL_leaves cfg bal _ who cs (fun c hc => ?_) s
      simp [Runtime.BatchKind.filter, contains_eligible mainnet (h c hc), noBatchAll_eligible (h c hc)]
    · rfl

theorem paid_carries {c : Call} {cs : List Chain.Call} (h : Carries c cs) : TxPayment.Paid c.view (cs.map view) := by
  cases h with
  | single c => simp only [Call.view]; exact .single _
  | batch cs => simp only [Call.view, view_leaf]; exact .batch _

theorem takeIn_iff (cfg : Config) (s s1 : State) (t : Signed) : takeIn cfg s t = some s1 ↔
    Next s t ∧ pay cfg s.chain t = some s1.chain ∧ extensions cfg s1.chain t.who t.call = true ∧
      s1.accounts = counted s t := by
  unfold takeIn
  have hn : ∀ a, (Nonce.preDispatch s.accounts t.who t.nonce (!Runtime.paysNo t.call.view)).toOption = some a ↔
      Next s t ∧ a = counted s t := by
    intro a
    unfold Nonce.preDispatch Next counted
    simp only
    by_cases h : t.nonce = (Nonce.getAccount s.accounts t.who).nonce
    · rw [if_neg (not_not.2 h)]
      cases hf : Runtime.paysNo t.call.view <;> cases he : (Nonce.getAccount s.accounts t.who).existing <;>
        simp [Except.toOption, h, eq_comm]
    · rw [if_pos h]
      simp [Except.toOption, h]
  cases ha : (Nonce.preDispatch s.accounts t.who t.nonce (!Runtime.paysNo t.call.view)).toOption with
  | none =>
    have : ¬ Next s t := fun h => by have := (hn _).2 ⟨h, rfl⟩; rw [ha] at this; simp at this
    simp [this]
  | some a =>
    obtain ⟨h1, rfl⟩ := (hn a).1 ha
    simp only [Option.bind_eq_bind, Option.bind_some, h1, true_and]
    cases hp : pay cfg s.chain t with
    | none => simp
    | some c =>
      obtain ⟨s1c, s1a⟩ := s1
      simp only [Option.bind_some, Option.some.injEq]
      by_cases hx : extensions cfg c t.who t.call = true
      · rw [if_pos hx]
        constructor
        · intro h; cases h; exact ⟨rfl, hx, rfl⟩
        · rintro ⟨rfl, _, rfl⟩; rfl
      · rw [if_neg hx]
        constructor
        · intro h; simp at h
        · rintro ⟨rfl, h, _⟩; exact absurd h hx

theorem withCapacity_paid {c : Call} (h : c.withCapacity = true) : ∃ calls, TxPayment.Paid c.view (viewL calls) ∧
    (∀ cs, (calls = cs.map .leaf → (∃ ls, Carries c ls ∧ ls = cs))) ∧ Runtime.paysNo c.view = false := by
  cases c with
  | leaf c => simp [Call.withCapacity] at h
  | batch k calls => simp [Call.withCapacity] at h
  | payWithCapacity c =>
    refine ⟨[c], ?_, ?_, ?_⟩
    · simp only [Call.view, viewL]; exact .single _
    · rintro cs hcs
      cases cs with
      | nil => simp at hcs
      | cons c' cs =>
        simp only [List.map_cons, List.cons.injEq] at hcs
        obtain ⟨rfl, h2⟩ := hcs
        cases cs with
        | nil => exact ⟨_, .single _, rfl⟩
        | cons _ _ => simp at h2
    · simp [Call.view, Runtime.paysNo]
  | payWithCapacityBatchAll calls =>
    refine ⟨calls, ?_, ?_, ?_⟩
    · simp only [Call.view]; exact .batch _
    · rintro cs rfl; exact ⟨_, .batch _, rfl⟩
    · simp [Call.view, Runtime.paysNo]

theorem carries_withCapacity {c : Call} {cs : List Chain.Call} (h : Carries c cs) :
    c.withCapacity = true ∧ Runtime.paysNo c.view = false := by
  cases h <;> simp [Call.withCapacity, Call.view, Runtime.paysNo]

theorem carries_unique {c : Call} {a b : List Chain.Call} (ha : Carries c a) (hb : Carries c b) : a = b := by
  have key : ∀ {c : Call} {cs : List Chain.Call}, Carries c cs →
      (∀ l, c = .payWithCapacity (.leaf l) → cs = [l]) ∧
      (∀ ls : List Chain.Call, c = .payWithCapacityBatchAll (ls.map .leaf) → cs = ls) := by
    intro c cs h
    cases h with
    | single c => exact ⟨fun l h => by injection h with h; injection h with h; rw [h], fun ls h => by simp at h⟩
    | batch =>
      refine ⟨fun l h => by simp at h, fun ls h => ?_⟩
      injection h with h
      exact (List.map_injective_iff.2 (fun a b h => by injection h)) h
  cases hb with
  | single c => exact (key ha).1 c rfl
  | batch => exact (key ha).2 b rfl

theorem pay_carries (cfg : Config) (s s1 : Chain.State) (t : Signed) {cs : List Chain.Call} (hc : Carries t.call cs) :
    pay cfg s t = some s1 ↔ ∃ k, TxPayment.charge cfg.payment s.msa (t.bal t.who) s.capacity t.who t.len t.call.view =
      some (.ok k) ∧ s1 = { s with capacity := k } := by
  unfold pay
  rw [TxPayment.charge_paid _ _ _ _ _ _ (paid_carries hc)]
  cases TxPayment.withdrawCapacityFee cfg.payment s.msa (t.bal t.who) s.capacity t.who (cs.map view) t.len with
  | error e => simp [Except.toOption]
  | ok k => simp [Except.toOption, eq_comm]

theorem carries_of_pay (cfg : Config) (s s1 : Chain.State) (t : Signed) (hw : t.call.withCapacity = true)
    (h : pay cfg s t = some s1) : ∃ cs, Carries t.call cs ∧ ∀ c ∈ cs, Eligible (view c) := by
  obtain ⟨calls, hp, hcar, _⟩ := withCapacity_paid hw
  have hel : ∀ c ∈ viewL calls, Eligible c := by
    unfold pay at h
    rw [TxPayment.charge_paid _ _ _ _ _ _ hp] at h
    cases hk : TxPayment.withdrawCapacityFee cfg.payment s.msa (t.bal t.who) s.capacity t.who (viewL calls) t.len with
    | error e => rw [hk] at h; simp [Except.toOption] at h
    | ok k => exact ((TxPayment.withdraw_iff ..).1 hk).1
  rw [viewL_map] at hel
  obtain ⟨ls, hls, hel'⟩ := leaves_of_eligible calls (fun c hc => hel _ (List.mem_map.2 ⟨c, hc, rfl⟩))
  obtain ⟨ls', h1, rfl⟩ := hcar ls hls
  exact ⟨ls', h1, hel'⟩

theorem ext_carries (cfg : Config) (s : Chain.State) (who : AccountId) {c : Call} (h : c.withCapacity = true) :
    extensions cfg s who c = true := by
  cases c <;> simp [Call.withCapacity] at h <;> rfl

/-! ## Theorems -/

/-- C125, inclusion, paid with capacity: a transaction is included just if it has the next number, carries only calls
that may be paid with capacity, its signer holds the least balance, and the account of the signer can spend the fee. -/
theorem C125_included_capacity (cfg : Config) (s : State) (t : Signed) (hw : t.call.withCapacity = true) :
    (takeIn cfg s t).isSome = true ↔ Next s t ∧ ∃ cs, Carries t.call cs ∧ (∀ c ∈ cs, Eligible (view c)) ∧
      cfg.payment.minBalance ≤ t.bal t.who ∧ ∃ m d, Msa.resolves s.chain.msa t.who m ∧
        s.chain.capacity.capacity.get m = some d ∧ fee cfg.payment (cs.map view) t.len ≤ available s.chain.capacity d := by
  rw [Option.isSome_iff_exists]
  constructor
  · rintro ⟨s1, h⟩
    obtain ⟨h1, h2, h3, h4⟩ := (takeIn_iff ..).1 h
    obtain ⟨cs, hc, he⟩ := carries_of_pay cfg s.chain s1.chain t hw h2
    obtain ⟨k, hk, _⟩ := (pay_carries cfg s.chain s1.chain t hc).1 h2
    obtain ⟨_, hb, m, d, hm⟩ := (TxPayment.C63_accepted_iff _ _ _ _ _ _ _ _ (paid_carries hc)).1 ⟨k, hk⟩
    exact ⟨h1, cs, hc, he, hb, m, d, hm⟩
  · rintro ⟨h1, cs, hc, he, hb, m, d, hm⟩
    obtain ⟨k, hk⟩ := (TxPayment.C63_accepted_iff cfg.payment s.chain.msa (t.bal t.who) s.chain.capacity t.who t.len _ _
      (paid_carries hc)).2 ⟨by simpa using he, hb, m, d, hm⟩
    exact ⟨⟨{ s.chain with capacity := k }, counted s t⟩, (takeIn_iff ..).2
      ⟨h1, (pay_carries cfg s.chain _ t hc).2 ⟨k, hk, rfl⟩, ext_carries cfg _ _ hw, rfl⟩⟩

/-- C125, inclusion, other transactions: just if the number is next, the call is free or the fee can be paid in tokens,
and the extensions for free calls accept it. -/
theorem C125_included_tokens (cfg : Config) (s : State) (t : Signed) (hw : t.call.withCapacity = false) :
    (takeIn cfg s t).isSome = true ↔ Next s t ∧ (Runtime.paysNo t.call.view = true ∨ t.tokens = true) ∧
      ∀ c, t.call = .leaf c → Chain.extensions cfg.chain s.chain t.who c = true := by
  have hp : pay cfg s.chain t = if Runtime.paysNo t.call.view || t.tokens then some s.chain else none := by
    unfold pay
    obtain ⟨who, nonce, call, len, bal, tokens⟩ := t
    cases call with
    | leaf c =>
      simp only [Call.view]
      cases c with
      | msa c => rfl
      | schemas c => cases c <;> rfl
      | messages c => cases c <;> rfl
      | handles c => cases c <;> rfl
      | storage c => cases c <;> rfl
      | capacity c => cases c <;> rfl
    | batch k calls => simp only [Call.view]; rfl
    | payWithCapacity c => simp [Call.withCapacity] at hw
    | payWithCapacityBatchAll calls => simp [Call.withCapacity] at hw
  have hx : ∀ c, extensions cfg c t.who t.call = true ↔ ∀ l, t.call = .leaf l → Chain.extensions cfg.chain c t.who l = true := by
    intro c
    cases t.call with
    | leaf l => simp [extensions]
    | _ => simp [extensions]
  rw [Option.isSome_iff_exists]
  constructor
  · rintro ⟨s1, h⟩
    obtain ⟨h1, h2, h3, h4⟩ := (takeIn_iff ..).1 h
    rw [hp] at h2
    split at h2
    · rename_i hf
      have hf : Runtime.paysNo t.call.view = true ∨ t.tokens = true := by simpa using hf
      rw [← Option.some.inj h2] at h3
      exact ⟨h1, hf, (hx _).1 h3⟩
    · simp at h2
  · rintro ⟨h1, h2, h3⟩
    refine ⟨⟨s.chain, counted s t⟩, (takeIn_iff ..).2 ⟨h1, ?_, (hx _).2 h3, rfl⟩⟩
    rw [hp, if_pos (by simpa using h2)]

/-- C125, effect, paid with capacity: an included transaction uses up the number and takes exactly the fee from what the
account of the signer can spend, whether or not its calls succeed; its calls take effect as if the signer had dispatched
them one after the other, all of them or, if one fails or there are more than ten, none. Nothing else changes. -/
theorem C125_capacity_effect (cfg : Config) (s : State) (t : Signed) (hw : t.call.withCapacity = true)
    (h : (takeIn cfg s t).isSome = true) :
    ∃ cs m d d' k, Carries t.call cs ∧ Msa.resolves s.chain.msa t.who m ∧ s.chain.capacity.capacity.get m = some d ∧
      k.capacity.get m = some d' ∧ d'.remaining + fee cfg.payment (cs.map view) t.len = available s.chain.capacity d ∧
      available k d' = d'.remaining ∧ d'.issued = d.issued ∧ d'.staked = d.staked ∧
      (∀ m', m' ≠ m → k.capacity.get m' = s.chain.capacity.capacity.get m') ∧
      k.active = s.chain.capacity.active ∧ k.target = s.chain.capacity.target ∧ k.unlocks = s.chain.capacity.unlocks ∧
      k.frozen = s.chain.capacity.frozen ∧ k.epoch = s.chain.capacity.epoch ∧
      k.epochStart = s.chain.capacity.epochStart ∧ k.epochLength = s.chain.capacity.epochLength ∧
      submit cfg s t = ⟨{ (if cs.length ≤ 10 then (dispatchAll cfg.chain t.bal t.who s.chain cs).getD s.chain else s.chain) with
        capacity := k }, s.accounts.insert t.who { Nonce.getAccount s.accounts t.who with nonce := t.nonce + 1 }⟩ := by
  obtain ⟨s1, hs⟩ := Option.isSome_iff_exists.1 h
  obtain ⟨h1, h2, h3, h4⟩ := (takeIn_iff ..).1 hs
  obtain ⟨cs, hc, he⟩ := carries_of_pay cfg s.chain s1.chain t hw h2
  obtain ⟨k, hk, hk1⟩ := (pay_carries cfg s.chain s1.chain t hc).1 h2
  obtain ⟨m, d, d', e1, e2, e3, e4, e5, e6, e7, e8⟩ :=
    TxPayment.C63_charged_exactly _ _ _ _ _ _ _ _ _ (paid_carries hc) hk
  have hav : available k d' = d'.remaining := by
    have := TxPayment.charged_next (t := ⟨t.who, t.bal t.who, t.call.view, cs.map view, t.len⟩) (paid_carries hc) e1 e2 hk
    have hd : d' = _ := Option.some.inj (e3.symm.trans this.1)
    rw [hd, TxPayment.available_spent _ _ _ _ this.2]
    rfl
  refine ⟨cs, m, d, d', k, hc, e1, e2, e3, e4, hav, e5, e6, e7, e8.1, e8.2.1, e8.2.2.1, e8.2.2.2.1, e8.2.2.2.2.1, e8.2.2.2.2.2.1,
    e8.2.2.2.2.2.2, ?_⟩
  have ha : counted s t = s.accounts.insert t.who { Nonce.getAccount s.accounts t.who with nonce := t.nonce + 1 } := by
    unfold counted
    rw [(carries_withCapacity hc).2]
    rfl
  unfold submit
  rw [hs]
  simp only [h4, ha, exec_carries cfg.chain t.bal cfg.mainnet t.who hc he, hk1]
  congr 1
  by_cases hl : cs.length ≤ 10
  · rw [if_pos hl, if_pos hl, dispatchAll_capacity _ _ _ _ he s.chain k]
    cases dispatchAll cfg.chain t.bal t.who s.chain cs <;> rfl
  · simp only [if_neg hl]; rfl

/-- C125, effect, other transactions: the number is used up, unless the call is free and the account has nothing on the
chain, and the call takes effect if it succeeds. -/
theorem C125_token_effect (cfg : Config) (s : State) (t : Signed) (hw : t.call.withCapacity = false)
    (h : (takeIn cfg s t).isSome = true) :
    submit cfg s t = ⟨(exec cfg.chain t.bal (Runtime.contains cfg.mainnet) t.who t.call s.chain).getD s.chain, counted s t⟩ := by
  obtain ⟨s1, hs⟩ := Option.isSome_iff_exists.1 h
  obtain ⟨h1, h2, h3, h4⟩ := (takeIn_iff ..).1 hs
  have : s1.chain = s.chain := by
    unfold pay at h2
    split at h2
    · rename_i r hr
      exfalso
      obtain ⟨who, nonce, call, len, bal, tokens⟩ := t
      cases call with
      | leaf c =>
        simp only [Call.view] at hr
        cases c with
        | msa c => simp [view, TxPayment.charge] at hr
        | schemas c => cases c <;> simp [view, TxPayment.charge] at hr
        | messages c => cases c <;> simp [view, TxPayment.charge] at hr
        | handles c => cases c <;> simp [view, TxPayment.charge] at hr
        | storage c => cases c <;> simp [view, TxPayment.charge] at hr
        | capacity c => cases c <;> simp [view, TxPayment.charge] at hr
      | batch k calls => simp [Call.view, TxPayment.charge] at hr
      | payWithCapacity c => simp [Call.withCapacity] at hw
      | payWithCapacityBatchAll calls => simp [Call.withCapacity] at hw
    · split at h2
      · exact (Option.some.inj h2).symm
      · simp at h2
  unfold submit
  rw [hs]
  simp only [h4, this]

/-- C125, refused: a transaction that is not included changes nothing. -/
theorem C125_refused (cfg : Config) (s : State) (t : Signed) (h : (takeIn cfg s t).isSome = false) : submit cfg s t = s := by
  unfold submit
  cases ha : takeIn cfg s t with
  | none => rfl
  | some s1 => rw [ha] at h; simp at h

/-- C125, payment makes no difference: the same calls, in a batch of the utility pallet paid with tokens or in one paid
with capacity, leave the same chain but for the capacity of the account that pays. -/
theorem C125_same_effect (cfg : Config) (s : State) (t t' : Signed) (cs : List Chain.Call) (hne : cs ≠ [])
    (hl : cs.length ≤ 10) (hwho : t'.who = t.who) (hbal : t'.bal = t.bal)
    (hc : Carries t.call cs) (hb : t'.call = .batch .batchAll (cs.map .leaf))
    (h : (takeIn cfg s t).isSome = true) (h' : (takeIn cfg s t').isSome = true) :
    (submit cfg s t).chain = { (submit cfg s t').chain with capacity := (submit cfg s t).chain.capacity } ∧
      (submit cfg s t').chain.capacity = s.chain.capacity := by
  have hw := (carries_withCapacity hc).1
  obtain ⟨cs', m, d, d', k, hc', _, _, _, _, _, _, _, _, _, _, _, _, _, _, _, e⟩ := C125_capacity_effect cfg s t hw h
  have hcs : cs' = cs := carries_unique hc' hc
  subst hcs
  obtain ⟨_, cs2, hc2, he, _⟩ := (C125_included_capacity cfg s t hw).1 h
  have hcs : cs2 = cs' := carries_unique hc2 hc
  subst hcs
  have e' := C125_token_effect cfg s t' (by rw [hb]; rfl) h'
  have hx : exec cfg.chain t'.bal (Runtime.contains cfg.mainnet) t'.who t'.call s.chain =
      dispatchAll cfg.chain t.bal t.who s.chain cs2 := by
    rw [hb, hwho, hbal, exec, if_pos]
    · refine execL_leaves _ _ _ _ _ (fun c hc => ?_) _
      simp [Runtime.BatchKind.filter, contains_eligible cfg.mainnet (he c hc), noBatchAll_eligible (he c hc)]
    · simp only [Call.view, view_leaf, Runtime.contains, Runtime.isUtilityCallAllowed]
      obtain ⟨c, l, rfl⟩ := List.exists_cons_of_ne_nil hne
      simp [allowed_eligible (he c (by simp))]
  rw [e, e', hx, if_pos hl]
  refine ⟨rfl, ?_⟩
  cases hd : dispatchAll cfg.chain t.bal t.who s.chain cs2 with
  | none => rfl
  | some s' => exact dispatchAll_keeps _ _ _ _ he _ _ hd

/-! ## Histories -/

/-- Steps of the chain that one signer causes: calls, transactions and payments of their own. -/
inductive By (who : AccountId) : Chain.Step → Prop
  | call (bal c) : By who (.call bal (.signed who) c)
  | submit (bal c) : By who (.submit bal who c)
  | charge (fee) : By who (.charge who fee)

theorem run_append (cfg : Chain.Config) (s : Chain.State) (a b : List Chain.Step) :
    Chain.run cfg s (a ++ b) = Chain.run cfg (Chain.run cfg s a) b := List.foldl_append

mutual
theorem exec_run (cfg : Chain.Config) (bal : AccountId → Balance) (flt : Runtime.Filter) (who : AccountId) (c : Call)
    (s s' : Chain.State) (h : exec cfg bal flt who c s = some s') :
    ∃ l, (∀ x ∈ l, By who x) ∧ Chain.run cfg s l = s' := by
  rw [exec.eq_def] at h
  split at h
  · split at h
    · rename_i c _
      exact ⟨[.call bal (.signed who) c], by simpa using By.call bal c, by simp [Chain.run, Chain.apply, h]⟩
    · exact execL_run cfg bal _ _ who _ s s' h
    · exact exec_run cfg bal _ who _ s s' h
    · split at h
      · exact execL_run cfg bal _ _ who _ s s' h
      · simp at h
  · simp at h
theorem execL_run (cfg : Chain.Config) (bal : AccountId → Balance) (k : Runtime.BatchKind) (flt : Runtime.Filter)
    (who : AccountId) (calls : List Call) (s s' : Chain.State) (h : execL cfg bal k flt who calls s = some s') :
    ∃ l, (∀ x ∈ l, By who x) ∧ Chain.run cfg s l = s' := by
  match calls with
  | [] =>
    simp only [execL, Option.some.injEq] at h
    exact ⟨[], by simp, h⟩
  | c :: cs =>
    rw [execL.eq_def] at h
    simp only at h
    cases hx : exec cfg bal flt who c s with
    | some s1 =>
      rw [hx] at h
      obtain ⟨l1, h1, e1⟩ := exec_run cfg bal flt who c s s1 hx
      obtain ⟨l2, h2, e2⟩ := execL_run cfg bal k flt who cs s1 s' h
      refine ⟨l1 ++ l2, fun x hx => ?_, by rw [run_append, e1, e2]⟩
      rcases List.mem_append.1 hx with hx | hx
      · exact h1 x hx
      · exact h2 x hx
    | none =>
      rw [hx] at h
      cases k with
      | batch => exact ⟨[], by simp, Option.some.inj h⟩
      | batchAll => simp at h
      | forceBatch => exact execL_run cfg bal _ flt who cs s s' h
end

/-- C125, authorship: whatever a signed transaction does to the chain, it does by calls and payments of its signer, in a
way that the model of the chain has. So everything proved of histories of the chain holds of transactions. -/
theorem C125_by_signer (cfg : Config) (s : State) (t : Signed) :
    ∃ l, (∀ x ∈ l, By t.who x) ∧ Chain.run cfg.chain s.chain l = (submit cfg s t).chain := by
  cases h : (takeIn cfg s t).isSome with
  | false => exact ⟨[], by simp, by rw [C125_refused cfg s t h]; rfl⟩
  | true =>
    obtain ⟨s1, hs⟩ := Option.isSome_iff_exists.1 h
    obtain ⟨_, hp, hx, _⟩ := (takeIn_iff ..).1 hs
    have hpay : ∃ l, (∀ x ∈ l, By t.who x) ∧ Chain.run cfg.chain s.chain l = s1.chain := by
      cases hw : t.call.withCapacity with
      | false =>
        have := C125_token_effect cfg s t hw h
        unfold submit at this
        unfold pay at hp
        split at hp
        · rename_i r hr
          exfalso
          revert hr
          generalize t.call = c at hw
          intro hr
          cases c with
          | leaf c =>
            simp only [Call.view] at hr
            cases c with
            | msa c => simp [view, TxPayment.charge] at hr
            | schemas c => cases c <;> simp [view, TxPayment.charge] at hr
            | messages c => cases c <;> simp [view, TxPayment.charge] at hr
            | handles c => cases c <;> simp [view, TxPayment.charge] at hr
            | storage c => cases c <;> simp [view, TxPayment.charge] at hr
            | capacity c => cases c <;> simp [view, TxPayment.charge] at hr
          | batch k calls => simp [Call.view, TxPayment.charge] at hr
          | payWithCapacity c => simp [Call.withCapacity] at hw
          | payWithCapacityBatchAll calls => simp [Call.withCapacity] at hw
        · split at hp
          · exact ⟨[], by simp, Option.some.inj hp⟩
          · simp at hp
      | true =>
        obtain ⟨cs, hc, _⟩ := carries_of_pay cfg s.chain s1.chain t hw hp
        obtain ⟨k, hk, e⟩ := (pay_carries cfg s.chain s1.chain t hc).1 hp
        rw [TxPayment.charge_paid _ _ _ _ _ _ (paid_carries hc), Option.some.injEq, TxPayment.withdraw_iff] at hk
        obtain ⟨_, _, m, hm, hk⟩ := hk
        refine ⟨[.charge t.who (fee cfg.payment (cs.map view) t.len)], by simpa using By.charge _, ?_⟩
        have : Chain.charge s.chain t.who (fee cfg.payment (cs.map view) t.len) = some s1.chain := by
          unfold Chain.charge
          have hm' : Chain.msaOf s.chain t.who = some m := hm
          simp [hm', hk, Except.toOption, e]
        simp [Chain.run, Chain.apply, this]
    obtain ⟨l1, h1, e1⟩ := hpay
    cases he : exec cfg.chain t.bal (Runtime.contains cfg.mainnet) t.who t.call s1.chain with
    | none =>
      refine ⟨l1, h1, ?_⟩
      unfold submit
      rw [hs]
      simp [he, e1]
    | some s2 =>
      obtain ⟨l2, h2, e2⟩ := exec_run cfg.chain t.bal _ t.who t.call s1.chain s2 he
      refine ⟨l1 ++ l2, fun x hx => ?_, ?_⟩
      · rcases List.mem_append.1 hx with hx | hx
        · exact h1 x hx
        · exact h2 x hx
      · unfold submit
        rw [hs, run_append, e1, e2]
        simp [he]

/-- What an account can spend now. -/
def spendable (s : Chain.State) (m : MsaId) : Balance :=
  ((s.capacity.capacity.get m).map (available s.capacity)).getD 0

instance (s : Msa.State) (k : AccountId) (m : MsaId) : Decidable (Msa.resolves s k m) := by
  unfold Msa.resolves; infer_instance

/-- What the included transactions of a list take from an account: the fees of those whose signer then has the account. -/
def taken (cfg : Config) (m : MsaId) : State → List (Signed × List Chain.Call) → Balance
  | _, [] => 0
  | s, (t, cs) :: ts =>
    (if (takeIn cfg s t).isSome ∧ Msa.resolves s.chain.msa t.who m then fee cfg.payment (cs.map view) t.len else 0) +
      taken cfg m (submit cfg s t) ts

/-- The transactions one after the other. -/
def submitAll (cfg : Config) (s : State) (ts : List Signed) : State := ts.foldl (submit cfg) s

/-- C125, sum: over any transactions paid with capacity, an account loses exactly the fees of those that are included while
their signer has the account, whether or not their calls succeed. -/
theorem C125_total (cfg : Config) (m : MsaId) (ts : List (Signed × List Chain.Call))
    (h : ∀ x ∈ ts, Carries x.1.call x.2) (s : State) :
    spendable (submitAll cfg s (ts.map Prod.fst)).chain m + taken cfg m s ts = spendable s.chain m := by
  induction ts generalizing s with
  | nil => simp [submitAll, taken]
  | cons x ts ih =>
    obtain ⟨t, cs⟩ := x
    have hc : Carries t.call cs := h (t, cs) (by simp)
    have ih := ih (fun x hx => h x (by simp [hx])) (submit cfg s t)
    have hstep : spendable (submit cfg s t).chain m +
        (if (takeIn cfg s t).isSome = true ∧ Msa.resolves s.chain.msa t.who m then fee cfg.payment (cs.map view) t.len else 0) =
        spendable s.chain m := by
      cases hi : (takeIn cfg s t).isSome with
      | false => rw [C125_refused cfg s t hi, if_neg (by simp)]; rfl
      | true =>
        obtain ⟨cs', n, d, d', k, hc', hn, hd, hd', hf, hav, _, _, hoth, _, _, _, _, hep, _, _, e⟩ :=
          C125_capacity_effect cfg s t (carries_withCapacity hc).1 hi
        have := carries_unique hc' hc
        subst this
        have hk : (submit cfg s t).chain.capacity = k := by rw [e]
        unfold spendable
        rw [hk]
        by_cases hm : Msa.resolves s.chain.msa t.who m
        · have : m = n := Option.some.inj (hm.symm.trans hn)
          subst this
          rw [if_pos ⟨rfl, hm⟩, hd, hd']
          simp only [Option.map_some, Option.getD_some, hav]
          exact hf
        · rw [if_neg (by simp [hm])]
          have hne : m ≠ n := fun h => hm (h ▸ hn)
          rw [hoth m hne]
          unfold available
          rw [hep]
          rfl
    show spendable (submitAll cfg (submit cfg s t) (ts.map Prod.fst)).chain m + (_ + taken cfg m (submit cfg s t) ts) = _
    rw [← hstep, ← ih]
    omega

end Verif.Tx
