import Verif.Tx.PropsOutcome
import Verif.TxPayment.PropsWeightFee
/-!
# C132: the price list

The column "Payment" of the tables in the READMEs of the pallets, and prices in terms of what a call writes.
-/

namespace Verif.Tx
open TxPayment (available runtimeCfg)

/-! ## Specification -/

/-- An entry of the price list: time of the call, time for every unit of what it writes, reads and writes of the
database. -/
structure Entry where
  base : Nat
  perUnit : Nat
  reads : Nat
  writes : Nat
  deriving DecidableEq, Repr

/-- The calls that may be paid with capacity: those listed with "Capacity" or "Capacity or Tokens", and the first
versions of the calls of stateful storage with a signature, which differ from the second ones in the payload only.
Numbers of pallets/frequency-tx-payment/src/capacity_stable_weights.rs 82-316. -/
def listed : Chain.Call → Option Entry
  | .msa (.addPublicKeyToMsa ..) => some ⟨177629000, 0, 8, 7⟩
  | .msa (.createSponsoredAccountWithDelegation ..) => some ⟨123084817, 138668, 10, 7⟩
  | .msa (.grantDelegation ..) => some ⟨115947313, 192710, 8, 4⟩
  | .messages (.ipfs ..) => some ⟨159242000, 0, 3, 1⟩
  | .messages (.onchain ..) => some ⟨174064230, 1527, 4, 1⟩
  | .storage (.applyItemActions ..) => some ⟨104137090, 7325, 4, 1⟩
  | .storage (.upsertPage ..) => some ⟨32297181, 594, 4, 1⟩
  | .storage (.deletePage ..) => some ⟨37792000, 0, 4, 1⟩
  | .storage (.applyItemActionsWithSignature ..) => some ⟨158947612, 13664, 3, 1⟩
  | .storage (.upsertPageWithSignature ..) => some ⟨87768259, 6648, 3, 1⟩
  | .storage (.deletePageWithSignature ..) => some ⟨90631000, 0, 3, 1⟩
  | .handles (.claim ..) => some ⟨85480476, 107272, 3, 3⟩
  | .handles (.change ..) => some ⟨95748064, 212118, 3, 4⟩
  | _ => none

/-- All that a list of item actions adds, one after the other. -/
def added : List Stateful.ItemAction → Bytes
  | [] => []
  | .add d :: l => d ++ added l
  | .delete _ :: l => added l

/-- What a call writes: bytes of a message, of a page, of items or of a handle, or a number of schemas granted. -/
def units : Chain.Call → Nat
  | .msa (.createSponsoredAccountWithDelegation _ _ p) | .msa (.grantDelegation _ _ p) => p.schemaIds.length
  | .messages (.onchain _ _ payload) => payload.length
  | .storage (.applyItemActions _ _ _ actions) => (added actions).length
  | .storage (.upsertPage _ _ _ _ payload) => payload.length
  | .storage (.applyItemActionsWithSignature _ _ p) => (added p.actions).length
  | .storage (.upsertPageWithSignature _ _ p) => p.payload.length
  | .handles (.claim _ _ p) | .handles (.change _ _ p) => p.baseHandle.length
  | _ => 0

/-- The time of a call, where `read` and `write` are the times of the database. -/
def work (read write : Nat) (c : Chain.Call) : Nat :=
  match listed c with
  | some e => e.base + e.perUnit * units c + e.reads * read + e.writes * write
  | none => 0

/-- The price of a time, rounded. -/
def rounded (time : Nat) : Nat := (time * 1686141 + 499999999) / 1000000000

/-- The price in capacity of calls in one transaction: a base price, the time of the calls but at most that of a full
block, and 10,000 for every byte of the transaction. -/
def price (read write : Nat) (cs : List Chain.Call) (len : Nat) : Balance :=
  177812 + rounded (min 500000000000 (cs.map (work read write)).sum) + 10000 * len

/-- Sizes are 32 bit numbers. -/
def Fits (cs : List Chain.Call) (len : Nat) : Prop := len < 2 ^ 32 ∧ ∀ c ∈ cs, units c < 2 ^ 32

/-! ## Proofs -/

theorem eligible_listed (c : Chain.Call) : TxPayment.Eligible (view c) ↔ listed c ≠ none := by
  constructor
  · intro h
    cases c with
    | msa c => cases c <;> first | (simp only [listed]; exact Option.some_ne_none _) | (simp only [view] at h; cases h)
    | schemas c => cases c <;> (simp only [view] at h; cases h)
    | messages c => cases c <;> (simp only [listed]; exact Option.some_ne_none _)
    | handles c => cases c <;> first | (simp only [listed]; exact Option.some_ne_none _) | (simp only [view] at h; cases h)
    | storage c => cases c <;> (simp only [listed]; exact Option.some_ne_none _)
    | capacity c => cases c <;> (simp only [view] at h; cases h)
  · intro h
    cases c with
    | msa c => cases c <;> first | (simp only [view]; constructor) | exact absurd rfl h
    | schemas c => exact absurd rfl h
    | messages c => cases c <;> (simp only [view]; constructor)
    | handles c => cases c <;> first | (simp only [view]; constructor) | exact absurd rfl h
    | storage c => cases c <;> (simp only [view]; constructor)
    | capacity c => exact absurd rfl h

theorem addedBytes_eq (l : List Stateful.ItemAction) : addedBytes l = (added l).length := by
  induction l with
  | nil => rfl
  | cons a l ih =>
    simp only [addedBytes] at ih
    cases a <;> simp [addedBytes, added, ih]

theorem callTime_work (read write : Nat) (c : Chain.Call) (h : units c < 2 ^ 32) :
    TxPayment.callTime (runtimeCfg read write) (view c) = work read write c := by
  cases c with
  | msa c => cases c <;> first
    | rfl
    | (simp only [units] at h
       simp only [view, TxPayment.callTime, work, listed, units, Nat.mod_eq_of_lt h, runtimeCfg])
  | schemas c => cases c <;> rfl
  | messages c => cases c with
    | ipfs a b d => simp only [view, TxPayment.callTime, work, listed, units, runtimeCfg, Nat.zero_mul, Nat.add_zero]
    | onchain a b d =>
      simp only [units] at h
      simp only [view, TxPayment.callTime, work, listed, units, Nat.mod_eq_of_lt h, runtimeCfg]
  | handles c => cases c <;> first
    | rfl
    | (simp only [units] at h
       simp only [view, TxPayment.callTime, work, listed, units, Nat.mod_eq_of_lt h, runtimeCfg])
  | storage c => cases c <;> first
    | (simp only [units] at h
       simp only [view, TxPayment.callTime, work, listed, units, addedBytes_eq, Nat.mod_eq_of_lt h, runtimeCfg])
  | capacity c => cases c <;> rfl

theorem min_sum (M : Nat) (l : List Nat) (hM : M ≤ 2 ^ 64 - 1) :
    min M (min (2 ^ 64 - 1) ((l.map (min (2 ^ 64 - 1))).sum)) = min M l.sum := by
  induction l with
  | nil => rfl
  | cons a l ih =>
    simp only [List.map_cons, List.sum_cons]
    generalize (l.map (min (2 ^ 64 - 1))).sum = x at *
    generalize l.sum = y at *
    omega

theorem rounded_eq (n : Nat) :
    n * 1686141 / 1000000000 + (if 500000000 < n * 1686141 % 1000000000 then 1 else 0) = rounded n := by
  unfold rounded
  generalize n * 1686141 = x
  split <;> omega

theorem rounded_mono {a b : Nat} (h : a ≤ b) : rounded a ≤ rounded b :=
  Nat.div_le_div_right (by omega)

theorem rounded_add (a b : Nat) : rounded (a + b) ≤ rounded a + rounded b + 1 := by
  unfold rounded
  rw [Nat.add_mul]
  omega

theorem weight_price (cfg : TxPayment.Config) (hc : cfg.weightToFee = TxPayment.runtimeWeightToFee) (w : TxPayment.Weight)
    (hb : cfg.maxBlock.refTime < 2 ^ 64) : TxPayment.weightToFee cfg w = rounded (min cfg.maxBlock.refTime w.refTime) := by
  unfold TxPayment.weightToFee TxPayment.Weight.min
  have h : Nat.min w.refTime cfg.maxBlock.refTime = min cfg.maxBlock.refTime w.refTime := Nat.min_comm _ _
  rw [hc, TxPayment.runtimeWeightToFee_eq _ (by dsimp only; rw [h]; omega), rounded_eq]
  dsimp only
  rw [h]

theorem rounded_base : rounded (min 500000000000 105455000) = 177812 := by decide

theorem rounded_full : rounded 500000000000 = 843070500 := by decide

theorem fee_eq (cfg : TxPayment.Config) (hc : cfg.weightToFee = TxPayment.runtimeWeightToFee)
    (hb : cfg.maxBlock.refTime = 500000000000) (hx : cfg.byteFee = 10000) (hm : cfg.maxBalance = 2 ^ 128 - 1)
    (calls : List Runtime.Call) (len x : Nat) (hl : len < 2 ^ 32)
    (ht : min 500000000000 (min (2 ^ 64 - 1) (TxPayment.totalRef cfg calls)) = x) (h2 : rounded x ≤ 843070500) :
    TxPayment.fee cfg calls len = 177812 + rounded x + 10000 * len := by
  unfold TxPayment.fee
  rw [weight_price cfg hc _ (by rw [hb]; decide), weight_price cfg hc _ (by rw [hb]; decide), hb, hx, hm]
  dsimp only
  rw [ht, rounded_base, Nat.mod_eq_of_lt hl]
  omega

theorem fee_price (read write : Nat) (cs : List Chain.Call) (len : Nat) (h : Fits cs len) :
    TxPayment.fee (runtimeCfg read write) (cs.map view) len = price read write cs len := by
  have ht : TxPayment.totalRef (runtimeCfg read write) (cs.map view) =
      ((cs.map (work read write)).map (min (2 ^ 64 - 1))).sum := by
    unfold TxPayment.totalRef
    rw [List.map_map, List.map_map]
    congr 1
    exact List.map_congr_left (fun c hc => by
      simp only [Function.comp_apply, callTime_work read write c (h.2 c hc)])
  refine fee_eq (runtimeCfg read write) rfl rfl rfl rfl _ _ _ h.1 ?_ ?_
  · rw [ht, min_sum _ _ (by decide)]
  · exact Nat.le_trans (rounded_mono (Nat.min_le_left _ _)) (Nat.le_of_eq rounded_full)

theorem carries_fits {c : Call} {cs cs' : List Chain.Call} (h : Carries c cs) (h' : Carries c cs') (len : Nat)
    (hf : Fits cs len) : Fits cs' len := by
  rw [carries_unique h' h]; exact hf

theorem free_capacity (cfg : Chain.Config) (bal : AccountId → Balance) (s s' : Chain.State) (who : AccountId)
    {c : Chain.Call} (hf : Free c) (h : Chain.dispatch cfg bal s (.signed who) c = some s') : s'.capacity = s.capacity := by
  cases hf <;> simp only [Chain.dispatch] at h
  case retireHandle =>
    obtain ⟨_, _, h⟩ := Option.bind_eq_some_iff.1 h
    obtain ⟨_, _, h⟩ := Option.bind_eq_some_iff.1 h
    cases h
    rfl
  all_goals
    obtain ⟨_, _, rfl⟩ := Option.map_eq_some_iff.1 h
    rfl

/-! ## Theorems -/

/-- C132, paid with capacity: just the listed calls may be, by whoever holds a hundredth of a token and can spend the price
of the calls, which depends on nothing but the calls and the length of the transaction. -/
theorem C132_capacity (cfg : Config) (read write : Nat) (hcfg : cfg.payment = runtimeCfg read write) (s : State)
    (t : Signed) (hw : t.call.withCapacity = true) (hf : ∀ cs, Carries t.call cs → Fits cs t.len) :
    (takeIn cfg s t).isSome = true ↔ Next s t ∧ ∃ cs, Carries t.call cs ∧ (∀ c ∈ cs, listed c ≠ none) ∧
      1000000 ≤ t.bal t.who ∧ ∃ m d, Msa.resolves s.chain.msa t.who m ∧ s.chain.capacity.capacity.get m = some d ∧
        price read write cs t.len ≤ available s.chain.capacity d := by
  rw [C125_included_capacity cfg s t hw]
  refine and_congr_right (fun _ => exists_congr (fun cs => and_congr_right (fun hc => ?_)))
  rw [hcfg, fee_price read write cs t.len (hf cs hc)]
  simp only [eligible_listed]
  exact Iff.rfl

/-- C132, what is taken: exactly the price, whether or not the calls succeed. -/
theorem C132_charged (cfg : Config) (read write : Nat) (hcfg : cfg.payment = runtimeCfg read write) (s : State)
    (t : Signed) (cs : List Chain.Call) (hc : Carries t.call cs) (hf : Fits cs t.len)
    (h : (takeIn cfg s t).isSome = true) :
    ∃ m d d', Msa.resolves s.chain.msa t.who m ∧ s.chain.capacity.capacity.get m = some d ∧
      (submit cfg s t).chain.capacity.capacity.get m = some d' ∧
      available (submit cfg s t).chain.capacity d' + price read write cs t.len = available s.chain.capacity d := by
  obtain ⟨cs', m, d, d', k, h1, h2, h3, h4, h5, h6, _, _, _, _, _, _, _, _, _, _, e⟩ :=
    C125_capacity_effect cfg s t (carries_withCapacity hc).1 h
  rw [carries_unique h1 hc, hcfg, fee_price read write cs t.len hf] at h5
  refine ⟨m, d, d', h2, h3, ?_, ?_⟩
  · rw [e]; exact h4
  · rw [e]
    show available k d' + _ = _
    rw [h6]; exact h5

/-- C132, free calls: whether the signer has tokens makes no difference to them, and they leave all capacity as it is. -/
theorem C132_free (cfg : Config) (s : State) (t : Signed) (c : Chain.Call) (hc : t.call = .leaf c) (hf : Free c) :
    (takeIn cfg s { t with tokens := false }).isSome = (takeIn cfg s { t with tokens := true }).isSome ∧
    submit cfg s { t with tokens := false } = submit cfg s { t with tokens := true } ∧
    (submit cfg s t).chain.capacity = s.chain.capacity := by
  have hi : ∀ b, (takeIn cfg s { t with tokens := b }).isSome = true ↔ Next s t ∧
      Chain.extensions cfg.chain s.chain t.who c = true := by
    intro b
    rw [C125_included_tokens cfg s { t with tokens := b } (by rw [hc]; rfl)]
    refine and_congr_right (fun _ => ⟨fun h => h.2 c hc, fun h => ⟨.inl ((freeCall_iff _).2 ⟨c, hc, hf⟩), ?_⟩⟩)
    intro c' hc'
    cases hc.symm.trans hc'
    exact h
  have hs : ∀ b, submit cfg s { t with tokens := b } =
      if (takeIn cfg s { t with tokens := b }).isSome then
        ⟨(exec cfg.chain t.bal (Runtime.contains cfg.mainnet) t.who t.call s.chain).getD s.chain, counted s t⟩ else s := by
    intro b
    split
    · rename_i h
      rw [C125_token_effect cfg s { t with tokens := b } (by rw [hc]; rfl) h]
      rfl
    · rename_i h
      exact C125_refused cfg s _ (by simpa using h)
  have he : (takeIn cfg s { t with tokens := false }).isSome = (takeIn cfg s { t with tokens := true }).isSome := by
    rw [Bool.eq_iff_iff, hi, hi]
  refine ⟨he, by rw [hs, hs, he], ?_⟩
  have ht := hs t.tokens
  rw [show ({ t with tokens := t.tokens } : Signed) = t from rfl] at ht
  rw [ht]
  split
  · show ((exec _ _ _ _ _ _).getD _).capacity = _
    cases hx : exec cfg.chain t.bal (Runtime.contains cfg.mainnet) t.who t.call s.chain with
    | none => rfl
    | some s' =>
      have := (C125_outcome ..).1 hx
      rw [hc] at this
      generalize hr : some s' = r at this
      cases this with
      | call _ =>
        rw [← hr]
        exact free_capacity cfg.chain t.bal s.chain s' t.who hf hr.symm
      | barred _ hb => cases hr
  · rfl

/-- C132, all else costs tokens: no other transaction that is not paid with capacity is included without them. -/
theorem C132_tokens (cfg : Config) (s : State) (t : Signed) (hw : t.call.withCapacity = false)
    (hf : ∀ c, t.call = .leaf c → ¬ Free c) (ht : t.tokens = false) : takeIn cfg s t = none := by
  cases h : takeIn cfg s t with
  | none => rfl
  | some s1 =>
    exfalso
    obtain ⟨_, hp, _⟩ := (C125_included_tokens cfg s t hw).1 (by rw [h]; rfl)
    rcases hp with hp | hp
    · obtain ⟨c, hc, hx⟩ := (freeCall_iff _).1 hp
      exact hf c hc hx
    · rw [ht] at hp; cases hp

theorem work_mono (read write : Nat) {c c' : Chain.Call} (h : listed c = listed c' ∧ units c ≤ units c') :
    work read write c ≤ work read write c' := by
  unfold work
  rw [h.1]
  cases listed c' with
  | none => exact Nat.le_refl _
  | some e =>
    dsimp only
    have := Nat.mul_le_mul_left e.perUnit h.2
    omega

/-- C132, order: with more to write, or more calls, or more bytes, the price is never lower. -/
theorem C132_more (read write : Nat) (cs cs' more : List Chain.Call) (len len' : Nat)
    (h : List.Forall₂ (fun c c' => listed c = listed c' ∧ units c ≤ units c') cs cs') (hl : len ≤ len') :
    price read write cs len ≤ price read write (cs' ++ more) len' := by
  have : (cs.map (work read write)).sum ≤ ((cs' ++ more).map (work read write)).sum := by
    rw [List.map_append, List.sum_append]
    refine Nat.le_trans ?_ (Nat.le_add_right _ _)
    induction h with
    | nil => exact Nat.le_refl _
    | cons h _ ih => simp only [List.map_cons, List.sum_cons]; exact Nat.add_le_add (work_mono read write h) ih
  have := rounded_mono (show min 500000000000 (cs.map (work read write)).sum ≤
    min 500000000000 ((cs' ++ more).map (work read write)).sum by omega)
  unfold price
  omega

/-- C132, batches: calls in one transaction cost less than the same calls one by one, by at least the base price for
every call but the first, if the one transaction is no longer than the many. -/
theorem C132_batch (read write : Nat) (c : Chain.Call) (len : Nat) (rest : List (Chain.Call × Nat)) (len' : Nat)
    (hl : len' ≤ len + (rest.map Prod.snd).sum) :
    price read write (c :: rest.map Prod.fst) len' + 177811 * rest.length ≤
      price read write [c] len + (rest.map (fun x => price read write [x.1] x.2)).sum := by
  induction rest generalizing c len len' with
  | nil =>
    simp only [List.map_nil, List.sum_nil, List.length_nil, Nat.mul_zero, Nat.add_zero] at *
    unfold price
    omega
  | cons x rest ih =>
    have ih := ih x.1 x.2 (x.2 + (rest.map Prod.snd).sum) (Nat.le_refl _)
    simp only [List.map_cons, List.sum_cons, List.length_cons] at *
    unfold price at *
    simp only [List.map_cons, List.sum_cons, List.map_nil, List.sum_nil, Nat.add_zero] at *
    generalize work read write x.1 + ((rest.map Prod.fst).map (work read write)).sum = b at *
    generalize work read write c = a at *
    have h1 := rounded_mono (show min 500000000000 (a + b) ≤ min 500000000000 a + min 500000000000 b by omega)
    have h2 := rounded_add (min 500000000000 a) (min 500000000000 b)
    omega

/-- C132, the formula is the one charged: the fee of C63 with the constants of the runtime is the price. -/
theorem C132_price (read write : Nat) (cs : List Chain.Call) (len : Nat) (h : Fits cs len) :
    TxPayment.fee (runtimeCfg read write) (cs.map view) len = price read write cs len :=
  fee_price read write cs len h

/-! ## Examples -/

/-- The price with the times of the database of runtime weights: 25 and 100 microseconds. -/
example : price 25000000 100000000 [.storage (.upsertPage 1 1 0 0 (List.replicate 100 7))] 250 = 3069598 ∧
    price 25000000 100000000 [.storage (.upsertPage 1 1 0 0 (List.replicate 1000 7))] 1150 = 12070499 ∧
    Fits [.storage (.upsertPage 1 1 0 0 (List.replicate 100 7))] 250 := by
  refine ⟨by decide +kernel, by decide +kernel, by decide, ?_⟩
  intro c hc
  rw [List.mem_singleton] at hc
  subst hc
  decide

/-- The runtime's constants for payment, and a chain as in `exState` with a stake of five tokens. -/
def exPrice : Config := { exCfg with payment := runtimeCfg 25000000 100000000 }

/-- Everybody has ten tokens. -/
def exRich : AccountId → Balance := fun _ => 1000000000

/-- Key 20 has account 2 and has delegated to account 1. -/
def exPriced : State := ⟨Chain.run Chain.exCfg (.init 1024) [.newBlock,
   .submit exRich 10 (.msa .create),
   .submit exRich 10 (.msa (.createProvider [65])),
   .call exRich .council (.schemas (.createViaGovernance 10 (123 :: List.replicate 10 0) .avroBinary .onChain [])),
   .submit exRich 30 (.capacity (.stake 1 500000000)),
   .submit exRich 10 (.msa (.createSponsoredAccountWithDelegation 20 20 ⟨1, [1], 50⟩))], ∅⟩

/-- A message is paid for with capacity at its price. Key 20 revokes the delegation without tokens, but cannot stake or
create an account without. -/
example :
    let msg : Chain.Call := .messages (.onchain none 1 [7, 8, 9])
    let t : Signed := ⟨10, 0, .payWithCapacity (.leaf msg), 200, exRich, false⟩
    (takeIn exPrice exPriced t).isSome = true ∧ price 25000000 100000000 [msg] 200 = 2808545 ∧
    spendable exPriced.chain 1 = 10000000 ∧ spendable (submit exPrice exPriced t).chain 1 + 2808545 = 10000000 ∧
    (submit exPrice exPriced t).chain.messages.index = 1 ∧
    (takeIn exPrice exPriced ⟨20, 0, .leaf (.msa (.revokeDelegationByDelegator 1)), 100, fun _ => 0, false⟩).isSome = true ∧
    (takeIn exPrice exPriced ⟨20, 0, .leaf (.capacity (.stake 1 500)), 100, exRich, false⟩).isSome = false ∧
    (takeIn exPrice exPriced { t with call := .payWithCapacity (.leaf (.capacity (.stake 1 500))) }).isSome = false := by
  decide +kernel

/-- Two messages in one transaction, and one by one. -/
example :
    let msg : Chain.Call := .messages (.onchain none 1 [7, 8, 9])
    price 25000000 100000000 [msg, msg] 220 + 1977812 = price 25000000 100000000 [msg] 200 + price 25000000 100000000 [msg] 200 := by
  decide +kernel

end Verif.Tx
