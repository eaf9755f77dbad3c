import Verif.TxPayment.Model
import Verif.Msa.PropsKeys
/-!
# Properties of capacity payment: C63, C64
-/

namespace Verif.TxPayment
open Runtime (Call)

/-! ## C63 -/

/-- The calls that may be paid with capacity, by name. -/
inductive Eligible : Call → Prop
  | addKey (o p n d) : Eligible (.msa (.addPublicKeyToMsa o p n d))
  | sponsor (k p d) : Eligible (.msa (.createSponsoredAccountWithDelegation k p d))
  | grant (k p d) : Eligible (.msa (.grantDelegation k p d))
  | ipfs (n) : Eligible (.fn .addIpfsMessage n)
  | onchain (n) : Eligible (.fn .addOnchainMessage n)
  | items (n) : Eligible (.fn .applyItemActions n)
  | upsert (n) : Eligible (.fn .upsertPage n)
  | delete (n) : Eligible (.fn .deletePage n)
  | itemsSig (n) : Eligible (.fn .applyItemActionsWithSignature n)
  | itemsSigV2 (n) : Eligible (.fn .applyItemActionsWithSignatureV2 n)
  | upsertSig (n) : Eligible (.fn .upsertPageWithSignature n)
  | upsertSigV2 (n) : Eligible (.fn .upsertPageWithSignatureV2 n)
  | deleteSig (n) : Eligible (.fn .deletePageWithSignature n)
  | deleteSigV2 (n) : Eligible (.fn .deletePageWithSignatureV2 n)
  | claimHandle (n) : Eligible (.fn .claimHandle n)
  | changeHandle (n) : Eligible (.fn .changeHandle n)

theorem eligible_iff (cfg : Config) (c : Call) : (stableWeight cfg c).isSome = true ↔ Eligible c := by
  constructor
  · intro h
    cases c with
    | msa c => cases c <;> simp [stableWeight] at h <;> constructor
    | fn f n => cases f <;> simp [stableWeight] at h <;> constructor
    | _ => simp [stableWeight] at h
  · intro h; cases h <;> rfl

/-- Execution time of a call that may be paid with capacity, in plain arithmetic: the numbers of
capacity_stable_weights.rs 82-316, transcribed from the source a second time, independently of the model. -/
def callTime (cfg : Config) : Call → Nat
  | .msa (.addPublicKeyToMsa ..) => 177629000 + 8 * cfg.read + 7 * cfg.write
  | .msa (.createSponsoredAccountWithDelegation _ _ p) => 123084817 + 138668 * (p.schemaIds.length % 2 ^ 32) + 10 * cfg.read + 7 * cfg.write
  | .msa (.grantDelegation _ _ p) => 115947313 + 192710 * (p.schemaIds.length % 2 ^ 32) + 8 * cfg.read + 4 * cfg.write
  | .fn .addIpfsMessage _ => 159242000 + 3 * cfg.read + 1 * cfg.write
  | .fn .addOnchainMessage n => 174064230 + 1527 * (n % 2 ^ 32) + 4 * cfg.read + 1 * cfg.write
  | .fn .applyItemActions n => 104137090 + 7325 * (n % 2 ^ 32) + 4 * cfg.read + 1 * cfg.write
  | .fn .upsertPage n => 32297181 + 594 * (n % 2 ^ 32) + 4 * cfg.read + 1 * cfg.write
  | .fn .deletePage _ => 37792000 + 4 * cfg.read + 1 * cfg.write
  | .fn .applyItemActionsWithSignature n => 158947612 + 13664 * (n % 2 ^ 32) + 3 * cfg.read + 1 * cfg.write
  | .fn .applyItemActionsWithSignatureV2 n => 158947612 + 13664 * (n % 2 ^ 32) + 3 * cfg.read + 1 * cfg.write
  | .fn .upsertPageWithSignature n => 87768259 + 6648 * (n % 2 ^ 32) + 3 * cfg.read + 1 * cfg.write
  | .fn .upsertPageWithSignatureV2 n => 87768259 + 6648 * (n % 2 ^ 32) + 3 * cfg.read + 1 * cfg.write
  | .fn .deletePageWithSignature _ => 90631000 + 3 * cfg.read + 1 * cfg.write
  | .fn .deletePageWithSignatureV2 _ => 90631000 + 3 * cfg.read + 1 * cfg.write
  | .fn .claimHandle n => 85480476 + 107272 * (n % 2 ^ 32) + 3 * cfg.read + 3 * cfg.write
  | .fn .changeHandle n => 95748064 + 212118 * (n % 2 ^ 32) + 3 * cfg.read + 4 * cfg.write
  | _ => 0

/-- Proof size of such a call, from the same lines. -/
def callProof : Call → Nat
  | .msa (.addPublicKeyToMsa ..) => 18396
  | .msa (.createSponsoredAccountWithDelegation ..) => 14946
  | .msa (.grantDelegation ..) => 14946
  | .fn .addIpfsMessage _ => 48664
  | .fn .addOnchainMessage _ => 59148
  | .fn .applyItemActions _ => 45745
  | .fn .upsertPage _ => 12791
  | .fn .deletePage _ => 13950
  | .fn .applyItemActionsWithSignature _ => 45752
  | .fn .applyItemActionsWithSignatureV2 _ => 45752
  | .fn .upsertPageWithSignature _ => 12724
  | .fn .upsertPageWithSignatureV2 _ => 12724
  | .fn .deletePageWithSignature _ => 13883
  | .fn .deletePageWithSignatureV2 _ => 13883
  | .fn .claimHandle _ => 12434
  | .fn .changeHandle _ => 12434
  | _ => 0

theorem stable_eq (cfg : Config) (base proof perUnit units reads writes : Nat) (hp : proof ≤ maxU64) :
    stable cfg base proof perUnit units reads writes =
      ⟨min maxU64 (base + perUnit * units + reads * cfg.read + writes * cfg.write), proof⟩ := by
  unfold stable
  rw [Nat.mul_comm cfg.read, Nat.mul_comm cfg.write]
  generalize perUnit * units = x
  generalize reads * cfg.read = y
  generalize writes * cfg.write = z
  show Weight.mk (min maxU64 (min maxU64 (min maxU64 (base + min maxU64 x) + min maxU64 y) + min maxU64 z))
    (min maxU64 (min maxU64 (min maxU64 (proof + 0) + 0) + 0)) = _
  rw [Weight.mk.injEq]
  constructor <;> omega

/-- The weight table of the model agrees with the second transcription, up to the largest `u64`. -/
theorem stableWeight_spec (cfg : Config) (c : Call) : (stableWeight cfg c).getD Weight.zero =
    ⟨min maxU64 (callTime cfg c), callProof c⟩ := by
  cases c with
  | msa c =>
    cases c <;> first
      | rfl
      | (refine (stable_eq cfg _ _ _ _ _ _ (by decide)).trans ?_
         simp only [callTime, callProof, u32, Nat.zero_mul, Nat.add_zero])
  | fn f n =>
    cases f <;> first
      | rfl
      | (refine (stable_eq cfg _ _ _ _ _ _ (by decide)).trans ?_
         simp only [callTime, callProof, u32, Nat.zero_mul, Nat.add_zero])
  | _ => rfl

/-- Total time of calls; every call counts at most the largest `u64`. -/
def totalRef (cfg : Config) (calls : List Call) : Nat := (calls.map fun c => min (2 ^ 64 - 1) (callTime cfg c)).sum
/-- Total proof size of calls. -/
def totalProof (calls : List Call) : Nat := (calls.map callProof).sum

/-- The fee of C63: base fee plus weight fee plus length fee, at most the largest balance. The weight fee is
that of the total weight of the calls, at most a full block. -/
def fee (cfg : Config) (calls : List Call) (len : Nat) : Balance :=
  min cfg.maxBalance
    (weightToFee cfg ⟨105455000, 0⟩ +
     weightToFee cfg ⟨min (2 ^ 64 - 1) (totalRef cfg calls), min (2 ^ 64 - 1) (totalProof calls)⟩ +
     (len % 2 ^ 32) * cfg.byteFee)

theorem maxU64_eq : maxU64 = 2 ^ 64 - 1 := rfl

theorem sumOrZero_eq (cfg : Config) (calls : List Call) (a : Weight) (h1 : a.refTime ≤ maxU64)
    (h2 : a.proof ≤ maxU64) : sumWeightsOrZero cfg calls a =
      ⟨min maxU64 (a.refTime + totalRef cfg calls), min maxU64 (a.proof + totalProof calls)⟩ := by
  induction calls generalizing a with
  | nil =>
    simp only [sumWeightsOrZero, totalRef, totalProof, List.map_nil, List.sum_nil, Nat.add_zero]
    rw [Nat.min_eq_right h1, Nat.min_eq_right h2]
  | cons c cs ih =>
    rw [sumWeightsOrZero, ih _ (Nat.min_le_left _ _) (Nat.min_le_left _ _)]
    simp only [stableWeight_spec, Weight.satAdd, totalRef, totalProof, List.map_cons, List.sum_cons, Weight.mk.injEq,
      ← maxU64_eq]
    constructor <;> omega

theorem sumWeights_ok_iff (cfg : Config) (calls : List Call) (a w : Weight) :
    sumWeights cfg calls a = .ok w ↔ (∀ c ∈ calls, Eligible c) ∧ w = sumWeightsOrZero cfg calls a := by
  induction calls generalizing a with
  | nil => simp [sumWeights, sumWeightsOrZero, eq_comm]
  | cons c cs ih =>
    simp only [sumWeights, bind_eq_ok_iff, okOr_eq_ok_iff, ih, List.mem_cons, forall_eq_or_imp, sumWeightsOrZero,
      ← eligible_iff cfg c]
    constructor
    · rintro ⟨x, hx, h1, h2⟩
      rw [hx]; exact ⟨⟨rfl, h1⟩, h2⟩
    · rintro ⟨⟨hx, h1⟩, h2⟩
      obtain ⟨x, hx⟩ := Option.isSome_iff_exists.1 hx
      rw [hx] at h2
      exact ⟨x, hx, h1, h2⟩

theorem computeFee_eq (cfg : Config) (calls : List Call) (len : Nat) :
    computeCapacityFee cfg (u32 len) (sumWeightsOrZero cfg calls Weight.zero) = fee cfg calls len := by
  rw [sumOrZero_eq cfg calls Weight.zero (Nat.zero_le _) (Nat.zero_le _)]
  simp only [computeCapacityFee, fee, satAdd, lengthToFee, u32, Weight.zero, Nat.zero_add, extrinsicBase,
    ← maxU64_eq]
  generalize weightToFee cfg _ = a
  generalize weightToFee cfg _ = b
  generalize _ % _ * cfg.byteFee = c
  omega

/-- What an account can spend: all issued capacity if it was not replenished in this epoch. -/
def available (s : Capacity.State) (d : Capacity.CapacityDetails) : Balance :=
  if d.lastReplenished < s.epoch then d.issued else d.remaining

/-- The entry of the account after a charge. -/
def spent (s : Capacity.State) (d : Capacity.CapacityDetails) (f : Balance) : Capacity.CapacityDetails :=
  ⟨available s d - f, d.staked, d.issued, if d.lastReplenished < s.epoch then s.epoch else d.lastReplenished⟩

theorem capacity_none {s : Capacity.State} {m : MsaId} (f : Balance) (hg : s.capacity.get m = none) :
    Capacity.withdrawFee s m f = .error .targetCapacityNotFound := by
  have hr : Capacity.replenishIfNeeded s m = .ok s := by
    simp [Capacity.replenishIfNeeded, Capacity.canReplenish, hg]
  unfold Capacity.withdrawFee
  rw [hr]
  show Capacity.deduct s m f = _
  simp [Capacity.deduct, hg, okOr, bind, Except.bind]

/-- The replenished state, explicitly. -/
theorem replenish_some {s : Capacity.State} {m : MsaId} {d : Capacity.CapacityDetails}
    (hg : s.capacity.get m = some d) : Capacity.replenishIfNeeded s m =
      .ok (if d.lastReplenished < s.epoch then Capacity.setCapacity s m (d.replenishAll s.epoch) else s) := by
  unfold Capacity.replenishIfNeeded
  have hc : Capacity.canReplenish s m = decide (d.lastReplenished < s.epoch) := by
    simp [Capacity.canReplenish, hg, Capacity.CapacityDetails.canReplenish]
  rw [hc]
  by_cases hr : d.lastReplenished < s.epoch
  · simp [hr, Capacity.replenishAllFor, hg, okOr, bind, Except.bind, pure, Except.pure]
  · simp [hr]

/-- A charge of the capacity pallet that goes through. -/
theorem capacity_ok_iff {s s' : Capacity.State} {m : MsaId} {d : Capacity.CapacityDetails} (f : Balance)
    (hg : s.capacity.get m = some d) : Capacity.withdrawFee s m f = .ok s' ↔ f ≤ available s d ∧
      (if d.lastReplenished < s.epoch then
        Capacity.setCapacity (Capacity.setCapacity s m (d.replenishAll s.epoch)) m (spent s d f)
       else Capacity.setCapacity s m (spent s d f)) = s' := by
  unfold Capacity.withdrawFee
  rw [replenish_some hg]
  by_cases hr : d.lastReplenished < s.epoch
  · rw [if_pos hr, if_pos hr]
    show Capacity.deduct _ m f = _ ↔ _
    have h1 : (Capacity.setCapacity s m (d.replenishAll s.epoch)).capacity.get m = some (d.replenishAll s.epoch) :=
      SMap.get_insert_self _ _ _
    simp only [Capacity.deduct, bind_eq_ok_iff, okOr_eq_ok_iff, pure_eq_ok_iff, h1, Option.some.injEq,
      exists_eq_left', Capacity.CapacityDetails.deduct, available, spent, if_pos hr]
    simp only [Capacity.CapacityDetails.replenishAll]
    by_cases hf : f ≤ d.issued
    · simp [hf]
    · simp [hf]
  · rw [if_neg hr, if_neg hr]
    show Capacity.deduct s m f = _ ↔ _
    simp only [Capacity.deduct, bind_eq_ok_iff, okOr_eq_ok_iff, pure_eq_ok_iff, hg, Option.some.injEq,
      exists_eq_left', Capacity.CapacityDetails.deduct, available, spent, if_neg hr]
    by_cases hf : f ≤ d.remaining
    · simp [hf]
    · simp [hf]

theorem toPayment_ok_iff {α : Type} (x : Except Capacity.Err α) (a : α) : toPayment x = .ok a ↔ x = .ok a := by
  cases x <;> simp [toPayment]

/-- A capacity-paid transaction: the outermost call and the calls it carries. -/
inductive Paid : Call → List Call → Prop
  | single (c) : Paid (.payWithCapacity c) [c]
  | batch (calls) : Paid (.payWithCapacityBatchAll calls) calls

theorem charge_paid (cfg : Config) (keys : Msa.State) (balance : Balance) (s : Capacity.State) (key : AccountId)
    (len : Nat) {c : Call} {calls : List Call} (hp : Paid c calls) :
    charge cfg keys balance s key len c = some (withdrawCapacityFee cfg keys balance s key calls len) := by
  cases hp <;> rfl

theorem withdraw_iff (cfg : Config) (keys : Msa.State) (balance : Balance) (s s' : Capacity.State)
    (key : AccountId) (calls : List Call) (len : Nat) :
    withdrawCapacityFee cfg keys balance s key calls len = .ok s' ↔
      (∀ c ∈ calls, Eligible c) ∧ cfg.minBalance ≤ balance ∧ ∃ m, keys.keyToMsa.get key = some m ∧
        Capacity.withdrawFee s m (fee cfg calls len) = .ok s' := by
  simp only [withdrawCapacityFee, withdrawFee, bind_eq_ok_iff, sumWeights_ok_iff, ensure_eq_ok_iff,
    okOr_eq_ok_iff, toPayment_ok_iff]
  constructor
  · rintro ⟨w, ⟨he, rfl⟩, _, hb, m, hm, hw⟩
    rw [computeFee_eq] at hw
    exact ⟨he, hb, m, hm, hw⟩
  · rintro ⟨he, hb, m, hm, hw⟩
    rw [← computeFee_eq] at hw
    exact ⟨_, ⟨he, rfl⟩, (), hb, m, hm, hw⟩

/-- C63, acceptance: a capacity-paid transaction is accepted exactly if all its calls are eligible, the key
holds the minimum token balance and belongs to an account, and the account can spend the fee. -/
theorem C63_accepted_iff (cfg : Config) (keys : Msa.State) (balance : Balance) (s : Capacity.State)
    (key : AccountId) (len : Nat) (c : Call) (calls : List Call) (hp : Paid c calls) :
    (∃ s', charge cfg keys balance s key len c = some (.ok s')) ↔
      (∀ c ∈ calls, Eligible c) ∧ cfg.minBalance ≤ balance ∧
        ∃ m d, Msa.resolves keys key m ∧ s.capacity.get m = some d ∧ fee cfg calls len ≤ available s d := by
  simp only [charge_paid cfg keys balance s key len hp, Option.some.injEq, withdraw_iff]
  constructor
  · rintro ⟨s', he, hb, m, hm, hw⟩
    cases hg : s.capacity.get m with
    | none => rw [capacity_none _ hg] at hw; simp at hw
    | some d => exact ⟨he, hb, m, d, hm, hg, ((capacity_ok_iff _ hg).1 hw).1⟩
  · rintro ⟨he, hb, m, d, hm, hg, hf⟩
    exact ⟨_, he, hb, m, hm, (capacity_ok_iff _ hg).2 ⟨hf, rfl⟩⟩

/-- C63, amount: an accepted transaction takes exactly the fee from what the account of the key can spend,
and changes nothing else. A transaction that is not accepted has no new state. -/
theorem C63_charged_exactly (cfg : Config) (keys : Msa.State) (balance : Balance) (s s' : Capacity.State)
    (key : AccountId) (len : Nat) (c : Call) (calls : List Call) (hp : Paid c calls)
    (h : charge cfg keys balance s key len c = some (.ok s')) :
    ∃ m d d', Msa.resolves keys key m ∧ s.capacity.get m = some d ∧ s'.capacity.get m = some d' ∧
      d'.remaining + fee cfg calls len = available s d ∧ d'.issued = d.issued ∧ d'.staked = d.staked ∧
      (∀ m', m' ≠ m → s'.capacity.get m' = s.capacity.get m') ∧ s'.active = s.active ∧ s'.target = s.target ∧
      s'.unlocks = s.unlocks ∧ s'.frozen = s.frozen ∧ s'.epoch = s.epoch ∧ s'.epochStart = s.epochStart ∧
      s'.epochLength = s.epochLength := by
  rw [charge_paid cfg keys balance s key len hp, Option.some.injEq, withdraw_iff] at h
  obtain ⟨_, _, m, hm, hw⟩ := h
  cases hg : s.capacity.get m with
  | none => rw [capacity_none _ hg] at hw; simp at hw
  | some d =>
    obtain ⟨hf, rfl⟩ := (capacity_ok_iff _ hg).1 hw
    refine ⟨m, d, spent s d (fee cfg calls len), hm, hg, ?_, Nat.sub_add_cancel hf, rfl, rfl, ?_⟩
    · split <;> exact SMap.get_insert_self _ _ _
    · split
      · refine ⟨fun m' hne => ?_, rfl, rfl, rfl, rfl, rfl, rfl, rfl⟩
        exact (SMap.get_insert_ne _ (Ne.symm hne) _).trans (SMap.get_insert_ne _ (Ne.symm hne) _)
      · exact ⟨fun m' hne => SMap.get_insert_ne _ (Ne.symm hne) _, rfl, rfl, rfl, rfl, rfl, rfl, rfl⟩

theorem executed_leaf {base flt : Runtime.Filter} {who : AccountId} {c : Call} (he : Eligible c)
    {p : AccountId × Call} (h : p ∈ Runtime.executed base flt who c) : p = (who, c) := by
  unfold Runtime.executed at h
  split at h
  · cases he <;> simpa using h
  · simp at h

theorem executedL_leaf {base flt : Runtime.Filter} {who : AccountId} {calls : List Call}
    (he : ∀ c ∈ calls, Eligible c) {p : AccountId × Call} (h : p ∈ Runtime.executedL base flt who calls) :
    p.1 = who ∧ Eligible p.2 := by
  induction calls with
  | nil => simp [Runtime.executedL] at h
  | cons c cs ih =>
    rw [Runtime.executedL, List.mem_append] at h
    rcases h with h | h
    · rw [executed_leaf (he c (by simp)) h]; exact ⟨rfl, he c (by simp)⟩
    · exact ih (fun c hc => he c (by simp [hc])) h

/-- C63, eligibility at execution: an accepted transaction executes, besides its outermost call, only
eligible calls, and only for the account of the key that paid. -/
theorem C63_only_eligible_executed (cfg : Config) (keys : Msa.State) (balance : Balance) (s s' : Capacity.State)
    (key : AccountId) (len : Nat) (c : Call) (calls : List Call) (hp : Paid c calls) (base : Runtime.Filter)
    (h : charge cfg keys balance s key len c = some (.ok s')) (p : AccountId × Call)
    (hx : p ∈ Runtime.executed base base key c) : p = (key, c) ∨ (p.1 = key ∧ Eligible p.2) := by
  have he := ((C63_accepted_iff cfg keys balance s key len c calls hp).1 ⟨s', h⟩).1
  unfold Runtime.executed at hx
  split at hx
  · rcases List.mem_cons.1 hx with rfl | hx
    · exact Or.inl rfl
    · right
      cases hp with
      | single c =>
        have := executed_leaf (he c (by simp)) hx
        subst this
        exact ⟨rfl, he c (by simp)⟩
      | batch calls => exact executedL_leaf he hx
  · simp at hx

/-! ### A concrete chain -/

/-- Database weights of RocksDb, a fee of one per thousand units of time and per byte. -/
def exCfg : Config :=
  { read := 25000000, write := 100000000, maxBlock := ⟨500000000000, 5242880⟩,
    weightToFee := fun w => w.refTime / 1000, byteFee := 1, minBalance := 10, maxBalance := 2 ^ 128 - 1 }

/-- Key 100 belongs to account 1. -/
def exKeys : Msa.State := Msa.run Msa.exCfg Msa.State.init [⟨Msa.exEnv 1, .signed 100, .create⟩]

/-- Account 1 was last replenished in epoch 2, it is epoch 3. -/
def exCap : Capacity.State :=
  ⟨∅, ∅, (∅ : SMap MsaId Capacity.CapacityDetails).insert 1 ⟨5, 2000000, 1000000, 2⟩, ∅, 3, 0, 100, ∅⟩

/-- Two messages in a batch. -/
def exTx : Call := .payWithCapacityBatchAll [.fn .addIpfsMessage 0, .fn .addOnchainMessage 100]

example : ((charge exCfg exKeys 10 exCap 100 150 exTx).bind Except.toOption).isSome = true ∧
    ((charge exCfg exKeys 9 exCap 100 150 exTx).bind Except.toOption).isSome = false ∧
    ((charge exCfg exKeys 10 exCap 100 150 (.payWithCapacity (.fn .transferAll 0))).bind
      Except.toOption).isSome = false ∧
    ((charge exCfg exKeys 10 exCap 100 150 exTx).bind Except.toOption).map (fun s => s.capacity.get 1) =
      some (some ⟨1000000 - fee exCfg [.fn .addIpfsMessage 0, .fn .addOnchainMessage 100] 150,
        2000000, 1000000, 3⟩) := by decide +kernel

/-! ## C64 -/

/-- A conversion of weights that does not decrease. -/
def Monotone (f : Weight → Balance) : Prop :=
  ∀ a b : Weight, a.refTime ≤ b.refTime → a.proof ≤ b.proof → f a ≤ f b

/-- C64 as stated: what is charged is at most the estimate. -/
def C64_full : Prop :=
  ∀ (cfg : Config), Monotone cfg.weightToFee → ∀ (keys : Msa.State) (balance : Balance) (s s' : Capacity.State)
    (key : AccountId) (len : Nat) (c : Call) (calls : List Call) (dw : Weight), Paid c calls → len < 2 ^ 32 →
    charge cfg keys balance s key len c = some (.ok s') → fee cfg calls len ≤ estimate cfg c dw len

/-- C64 is false: for a batch without calls nothing is reported, and base and length fee are charged. -/
theorem C64_full_false : ¬ C64_full := fun h => by
  have hm : Monotone exCfg.weightToFee := fun a b h _ => Nat.div_le_div_right h
  have hs : ∃ s', charge exCfg exKeys 10 exCap 100 150 (.payWithCapacityBatchAll []) = some (.ok s') :=
    (C63_accepted_iff exCfg exKeys 10 exCap 100 150 _ _ (.batch [])).2
      ⟨by simp, by decide, 1, ⟨5, 2000000, 1000000, 2⟩, by unfold Msa.resolves; decide, by decide,
        by decide +kernel⟩
  obtain ⟨s', hs⟩ := hs
  exact absurd (h exCfg hm exKeys 10 exCap s' 100 150 _ _ Weight.zero (.batch []) (by decide) hs)
    (by decide +kernel)

theorem stable_pos (cfg : Config) (base proof perUnit units reads writes : Nat) (h : 0 < base) :
    0 < (stable cfg base proof perUnit units reads writes).refTime := by
  simp only [stable, Weight.satAdd, maxU64]
  omega

theorem eligible_pos (cfg : Config) {c : Call} (h : Eligible c) :
    0 < ((stableWeight cfg c).getD Weight.zero).refTime := by
  cases h <;> exact stable_pos _ _ _ _ _ _ _ (by decide)

/-- What is missing of C64: nothing is reported for a batch without calls, nor if the weight of the transaction and
the calls exceeds the range of the type. -/
theorem C64_nothing_reported (cfg : Config) (len : Nat) (dw : Weight) :
    estimate cfg (.payWithCapacityBatchAll []) dw len = 0 ∧
    ∀ c calls, Paid c calls → (2 ^ 64 ≤ dw.refTime + min (2 ^ 64 - 1) (totalRef cfg calls) ∨
      2 ^ 64 ≤ dw.proof + min (2 ^ 64 - 1) (totalProof calls)) → estimate cfg c dw len = 0 := by
  refine ⟨rfl, fun c calls hp h => ?_⟩
  have hi : estimate cfg c dw len = feeDetails cfg c dw len ∧ innerCalls c = calls := by
    cases hp <;> exact ⟨rfl, rfl⟩
  rw [hi.1]
  unfold feeDetails
  dsimp only
  rw [hi.2, sumOrZero_eq cfg calls Weight.zero (Nat.zero_le _) (Nat.zero_le _)]
  simp only [Weight.zero, Nat.zero_add]
  split
  · rfl
  · unfold Weight.checkedAdd
    dsimp only
    rw [if_neg (by rw [maxU64_eq] at *; omega)]

example : estimate exCfg exTx ⟨2 ^ 64 - 1, 0⟩ 150 = 0 := by decide +kernel

/-- C64 for transactions with at least one call, whose total weight with that of the transaction fits into
the weight type: the estimate is at least the charge. Missing: the batch without calls, where the estimate
is zero (`C64_full_false`), and overflow of the weight, where it is zero as well. -/
theorem C64_estimate_covers_partial (cfg : Config) (hm : Monotone cfg.weightToFee) (keys : Msa.State)
    (balance : Balance) (s s' : Capacity.State) (key : AccountId) (len : Nat) (c : Call) (calls : List Call)
    (dw : Weight) (hp : Paid c calls) (hlen : len < 2 ^ 32)
    (h : charge cfg keys balance s key len c = some (.ok s')) (hne : calls ≠ [])
    (hr : totalRef cfg calls + dw.refTime < 2 ^ 64) (hq : totalProof calls + dw.proof < 2 ^ 64) :
    fee cfg calls len ≤ estimate cfg c dw len := by
  replace hr : totalRef cfg calls + dw.refTime ≤ maxU64 := Nat.le_pred_of_lt hr
  replace hq : totalProof calls + dw.proof ≤ maxU64 := Nat.le_pred_of_lt hq
  have he := ((C63_accepted_iff cfg keys balance s key len c calls hp).1 ⟨s', h⟩).1
  have hi : estimate cfg c dw len = feeDetails cfg c dw len ∧ innerCalls c = calls := by
    cases hp <;> exact ⟨rfl, rfl⟩
  have hpos : 0 < totalRef cfg calls := by
    cases calls with
    | nil => exact absurd rfl hne
    | cons x xs =>
      have h0 := eligible_pos cfg (he x (by simp))
      rw [stableWeight_spec] at h0
      have h1 : 0 < min maxU64 (callTime cfg x) := h0
      simp only [totalRef, List.map_cons, List.sum_cons, ← maxU64_eq]
      omega
  have hsum : sumWeightsOrZero cfg calls Weight.zero = ⟨totalRef cfg calls, totalProof calls⟩ := by
    rw [sumOrZero_eq cfg calls Weight.zero (Nat.zero_le _) (Nat.zero_le _)]
    simp only [Weight.zero, Nat.zero_add, Weight.mk.injEq]
    constructor <;> omega
  have hz : (⟨totalRef cfg calls, totalProof calls⟩ : Weight) ≠ Weight.zero := by
    intro e
    simp only [Weight.zero, Weight.mk.injEq] at e
    omega
  rw [hi.1]
  unfold feeDetails
  simp only [hi.2, hsum, if_neg hz, Weight.checkedAdd, if_pos (And.intro hr hq)]
  have hw : weightToFee cfg ⟨min maxU64 (totalRef cfg calls), min maxU64 (totalProof calls)⟩ ≤
      weightToFee cfg ⟨totalRef cfg calls + dw.refTime, totalProof calls + dw.proof⟩ := by
    unfold weightToFee
    apply hm
    · show min (min maxU64 (totalRef cfg calls)) cfg.maxBlock.refTime ≤
        min (totalRef cfg calls + dw.refTime) cfg.maxBlock.refTime
      omega
    · show min (min maxU64 (totalProof calls)) cfg.maxBlock.proof ≤
        min (totalProof calls + dw.proof) cfg.maxBlock.proof
      omega
  simp only [fee, satAdd, lengthToFee, extrinsicBase, Nat.mod_eq_of_lt hlen, ← maxU64_eq]
  generalize weightToFee cfg ⟨min maxU64 (totalRef cfg calls), min maxU64 (totalProof calls)⟩ = a at hw ⊢
  generalize weightToFee cfg ⟨totalRef cfg calls + dw.refTime, totalProof calls + dw.proof⟩ = b at hw ⊢
  show min _ (weightToFee cfg ⟨105455000, 0⟩ + a + _) ≤ min _ (min _ (weightToFee cfg ⟨105455000, 0⟩ + _) + b)
  generalize weightToFee cfg ⟨105455000, 0⟩ = d
  generalize len * cfg.byteFee = l
  omega

example : fee exCfg [.fn .addIpfsMessage 0, .fn .addOnchainMessage 100] 150 <
    estimate exCfg exTx ⟨400000000, 0⟩ 150 := by decide +kernel

/-- C64, asked about a call by itself: the query tells exactly the fee that is charged for a transaction of that length
that pays for the call with capacity. -/
theorem C64_call_alone (cfg : Config) (c : Call) (h : Eligible c) (dw : Weight) (len : Nat) (hlen : len < 2 ^ 32) :
    estimate cfg c dw len = fee cfg [c] len := by
  have h0 := eligible_pos cfg h
  have hp : callProof c ≤ maxU64 := by cases h <;> (simp only [callProof]; decide)
  have hi : estimate cfg c dw len = feeDetails cfg c Weight.zero len ∧ innerCalls c = [c] := by
    cases h <;> exact ⟨rfl, rfl⟩
  have hsum : sumWeightsOrZero cfg [c] Weight.zero = ⟨min maxU64 (callTime cfg c), callProof c⟩ := by
    rw [sumOrZero_eq cfg [c] Weight.zero (Nat.zero_le _) (Nat.zero_le _)]
    simp only [Weight.zero, Nat.zero_add, Weight.mk.injEq, totalRef, totalProof, List.map_cons, List.map_nil,
      List.sum_cons, List.sum_nil, Nat.add_zero, ← maxU64_eq]
    constructor <;> omega
  rw [stableWeight_spec] at h0
  replace h0 : 0 < min maxU64 (callTime cfg c) := h0
  have hz : (⟨min maxU64 (callTime cfg c), callProof c⟩ : Weight) ≠ Weight.zero := by
    intro e
    simp only [Weight.zero, Weight.mk.injEq] at e
    omega
  have ha : min maxU64 (callTime cfg c) + Weight.zero.refTime ≤ maxU64 := Nat.min_le_left _ _
  rw [hi.1]
  unfold feeDetails
  simp only [hi.2, hsum, if_neg hz, Weight.checkedAdd]
  rw [if_pos (And.intro ha (show callProof c + Weight.zero.proof ≤ maxU64 from hp))]
  have e1 : min maxU64 (totalRef cfg [c]) = min maxU64 (callTime cfg c) := by
    simp only [totalRef, List.map_cons, List.map_nil, List.sum_cons, List.sum_nil, ← maxU64_eq]
    omega
  have e2 : min maxU64 (totalProof [c]) = callProof c := by
    simp only [totalProof, List.map_cons, List.map_nil, List.sum_cons, List.sum_nil]
    omega
  simp only [fee, satAdd, lengthToFee, extrinsicBase, Nat.mod_eq_of_lt hlen, ← maxU64_eq, e1, e2]
  show min _ (min _ (weightToFee cfg ⟨105455000, 0⟩ + _) + weightToFee cfg ⟨min maxU64 (callTime cfg c), callProof c⟩) =
    min _ (weightToFee cfg ⟨105455000, 0⟩ + _ + _)
  generalize weightToFee cfg ⟨105455000, 0⟩ = d
  generalize weightToFee cfg _ = e
  generalize len * cfg.byteFee = l
  omega

/-- C64, asked about a call that cannot be paid for with capacity: the query tells that it costs nothing. -/
theorem C64_call_not_payable (cfg : Config) (c : Call) (h : ¬ Eligible c) (hw : ∀ calls, ¬ Paid c calls) (dw : Weight)
    (len : Nat) : estimate cfg c dw len = 0 := by
  have h0 : stableWeight cfg c = none := by
    rw [← Option.not_isSome_iff_eq_none]
    exact fun hs => h ((eligible_iff cfg c).1 hs)
  have hi : estimate cfg c dw len = feeDetails cfg c Weight.zero len ∧ innerCalls c = [c] := by
    cases c with
    | payWithCapacity c => exact absurd (.single c) (hw [c])
    | payWithCapacityBatchAll calls => exact absurd (.batch calls) (hw calls)
    | _ => exact ⟨rfl, rfl⟩
  rw [hi.1]
  unfold feeDetails
  rw [hi.2]
  simp only [sumWeightsOrZero, h0, Option.getD_none]
  exact if_pos rfl

example : estimate exCfg (.fn .addIpfsMessage 7) ⟨400000000, 0⟩ 150 = fee exCfg [.fn .addIpfsMessage 7] 150 ∧
    0 < fee exCfg [.fn .addIpfsMessage 7] 150 ∧
    estimate exCfg (.fn .retireHandle 0) ⟨400000000, 0⟩ 150 = 0 := by decide +kernel

end Verif.TxPayment
