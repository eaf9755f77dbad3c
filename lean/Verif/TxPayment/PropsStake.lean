import Verif.TxPayment.PropsWeightFee
import Verif.Capacity.Props
/-!
# C124: what a stake pays for

The rules of staking and paying with the constants of the runtime.
-/

namespace Verif.TxPayment
open Verif.Runtime (Call)

/-! ## Constants -/

/-- Payment in the runtime: at most half a second and five megabytes, constants.rs 78-80; `WeightToFee`, fee.rs 29-40;
`TransactionByteFee`, constants.rs 237; `EXISTENTIAL_DEPOSIT`, constants.rs 41. `RocksDbWeight` and `MAX_POV_SIZE` are
constants of libraries; the first is left open. -/
def runtimeCfg (read write : Nat) : Config :=
  ⟨read, write, ⟨500000000000, 5242880⟩, runtimeWeightToFee, 10000, 1000000, 2 ^ 128 - 1⟩

/-- Staking in the runtime: `CapacityMinimumStakingAmount`, `CapacityMinimumTokenBalance`, `CapacityMaxUnlockingChunks`,
`CapacityMaxEpochLength`, `CapacityUnstakingThawPeriod` and `CapacityPerToken`, constants.rs 380-399, runtime lib.rs
503-518. The thaw period depends on the build, and rounding of fractions is a function of a library; both are left
open. -/
def stakingCfg (thaw : Nat) (fromRational : Nat → Nat → Nat) : Capacity.Config :=
  ⟨1000000, 100000000, 4, thaw, 7200, 20000000, 2 ^ 128 - 1, 2 ^ 32 - 1, fromRational⟩

/-! ## Specification -/

/-- A transaction paid with capacity, with the calls it carries. -/
structure Tx where
  key : AccountId
  balance : Balance
  call : Call
  calls : List Call
  len : Nat

/-- The transactions are charged one after the other, all successfully. -/
def payAll (cfg : Config) (keys : Msa.State) (s : Capacity.State) : List Tx → Option Capacity.State
  | [] => some s
  | t :: ts => match charge cfg keys t.balance s t.key t.len t.call with
    | some (.ok s') => payAll cfg keys s' ts
    | _ => none

/-- The capacity a provider has who has been given a single stake of `n`: a fiftieth, rounded to the nearest, halves
down. -/
def capacityOf (n : Balance) : Balance := (n + 24) / 50

/-- C124, first sentence: a stake that is accepted, to a provider that had none, pays for some transaction. -/
def C124_full : Prop :=
  ∀ (read write thaw : Nat) (fr : Nat → Nat → Nat) (hist : List Capacity.Step) (env : Capacity.Env) (who : AccountId)
    (t : MsaId) (a : Balance) (s' : Capacity.State) (keys : Msa.State) (key : AccountId) (balance : Balance),
    (Capacity.run (stakingCfg thaw fr) .init hist).capacity.get t = none →
    Capacity.dispatch (stakingCfg thaw fr) (Capacity.run (stakingCfg thaw fr) .init hist) ⟨env, .stake who t a⟩ = .ok s' →
    Msa.resolves keys key t → 1000000 ≤ balance →
    ∃ c calls len, Paid c calls ∧ ∃ s'', charge (runtimeCfg read write) keys balance s' key len c = some (.ok s'')

/-! ## Proofs -/

theorem available_spent (s s' : Capacity.State) (d : Capacity.CapacityDetails) (f : Balance) (he : s'.epoch = s.epoch) :
    available s' (spent s d f) = available s d - f := by
  unfold available
  rw [he]
  split
  · rename_i h
    simp only [spent] at h
    by_cases h2 : d.lastReplenished < s.epoch
    · rw [if_pos h2] at h; exact absurd h (Nat.lt_irrefl _)
    · rw [if_neg h2] at h; exact absurd h h2
  · rfl

theorem charged_next {cfg : Config} {keys : Msa.State} {s s' : Capacity.State} {t : Tx} {m : MsaId}
    {d : Capacity.CapacityDetails} (hp : Paid t.call t.calls) (hm : Msa.resolves keys t.key m)
    (hd : s.capacity.get m = some d) (h : charge cfg keys t.balance s t.key t.len t.call = some (.ok s')) :
    s'.capacity.get m = some (spent s d (fee cfg t.calls t.len)) ∧ s'.epoch = s.epoch := by
  rw [charge_paid cfg keys t.balance s t.key t.len hp, Option.some.injEq, withdraw_iff] at h
  obtain ⟨_, _, m', hm', hw⟩ := h
  have : m' = m := Option.some.inj (hm'.symm.trans hm)
  subst this
  obtain ⟨_, rfl⟩ := (capacity_ok_iff _ hd).1 hw
  split <;> simp [Capacity.setCapacity]

/-- C124, many transactions: the transactions of an account are all paid for just if they carry eligible calls, their
keys hold the minimum balance, and their fees add up to no more than the account can spend. -/
theorem C124_paid_iff (cfg : Config) (keys : Msa.State) (m : MsaId) (txs : List Tx)
    (hp : ∀ t ∈ txs, Paid t.call t.calls ∧ Msa.resolves keys t.key m) :
    ∀ (s : Capacity.State) (d : Capacity.CapacityDetails), s.capacity.get m = some d →
      ((∃ s', payAll cfg keys s txs = some s') ↔
        (∀ t ∈ txs, (∀ c ∈ t.calls, Eligible c) ∧ cfg.minBalance ≤ t.balance) ∧
        (txs.map (fun t => fee cfg t.calls t.len)).sum ≤ available s d) := by
  induction txs with
  | nil => intro s d _; simp [payAll]
  | cons t ts ih =>
    intro s d hd
    obtain ⟨h1, h2⟩ := hp t List.mem_cons_self
    have ih := ih (fun t' ht => hp t' (List.mem_cons_of_mem _ ht))
    have hacc := C63_accepted_iff cfg keys t.balance s t.key t.len t.call t.calls h1
    simp only [payAll, List.map_cons, List.sum_cons, List.forall_mem_cons]
    constructor
    · intro ⟨s', h⟩
      split at h
      · rename_i s1 hc
        obtain ⟨he, hb, m', d', hm', hd', hf⟩ := hacc.1 ⟨s1, hc⟩
        have hm' : m' = m := Option.some.inj (hm'.symm.trans h2)
        subst hm'
        have hd' : d' = d := Option.some.inj (hd'.symm.trans hd)
        subst hd'
        obtain ⟨hn, hep⟩ := charged_next h1 h2 hd hc
        obtain ⟨h3, h4⟩ := (ih s1 _ hn).1 ⟨s', h⟩
        rw [available_spent s s1 d' _ hep] at h4
        exact ⟨⟨⟨he, hb⟩, h3⟩, by omega⟩
      · cases h
    · rintro ⟨⟨⟨he, hb⟩, h3⟩, h4⟩
      obtain ⟨s1, hc⟩ := hacc.2 ⟨he, hb, m, d, h2, hd, by omega⟩
      obtain ⟨hn, hep⟩ := charged_next h1 h2 hd hc
      rw [hc]
      apply (ih s1 _ hn).2
      rw [available_spent s s1 d _ hep]
      exact ⟨h3, by omega⟩

theorem generated_eq (thaw : Nat) (fr : Nat → Nat → Nat) (n : Nat) :
    Capacity.capacityGenerated (stakingCfg thaw fr) n = capacityOf n := by
  unfold Capacity.capacityGenerated Capacity.mulNearest capacityOf stakingCfg Capacity.billion
  dsimp only
  split <;> omega

/-- What a provider has who has been given a single stake. -/
theorem staked_fresh {thaw : Nat} {fr : Nat → Nat → Nat} {s s' : Capacity.State} {env : Capacity.Env} {who : AccountId}
    {t : MsaId} {a : Balance} (h0 : s.capacity.get t = none)
    (h : Capacity.dispatch (stakingCfg thaw fr) s ⟨env, .stake who t a⟩ = .ok s') :
    s'.capacity.get t = some ⟨capacityOf (min (env.balance who - 100000000) a), min (env.balance who - 100000000) a,
      capacityOf (min (env.balance who - 100000000) a), 0⟩ := by
  obtain ⟨n, hn⟩ := Capacity.stake_ok h
  have hc : Capacity.capOf s t = ⟨0, 0, 0, 0⟩ := by unfold Capacity.capOf; rw [h0]; rfl
  have hact : n = min (env.balance who - 100000000) a := hn.actual
  rw [hn.capacity, SMap.get_insert, if_pos rfl, hc, generated_eq, ← hact]
  simp

/-- C124, partial: what a stake pays for. After a stake that sets aside `n`, to a provider that had none, transactions of
the provider are paid for just as long as their fees add up to no more than a fiftieth of `n`, in this epoch and, if
nothing else happens, in every later one. Missing: this may be less than the fee of any transaction, see
`C124_full_false`. -/
theorem C124_stake_pays_partial (read write thaw : Nat) (fr : Nat → Nat → Nat) (hist : List Capacity.Step)
    (env : Capacity.Env) (who : AccountId) (t : MsaId) (a : Balance) (s' : Capacity.State) (keys : Msa.State)
    (h0 : (Capacity.run (stakingCfg thaw fr) .init hist).capacity.get t = none)
    (h : Capacity.dispatch (stakingCfg thaw fr) (Capacity.run (stakingCfg thaw fr) .init hist) ⟨env, .stake who t a⟩ = .ok s')
    (blocks : List BlockNumber) (txs : List Tx) (hp : ∀ x ∈ txs, Paid x.call x.calls ∧ Msa.resolves keys x.key t) :
    (∃ s'', payAll (runtimeCfg read write) keys
        (Capacity.run (stakingCfg thaw fr) s' (blocks.map (fun b => ⟨env, .onInitialize b⟩))) txs = some s'') ↔
      (∀ x ∈ txs, (∀ c ∈ x.calls, Eligible c) ∧ 1000000 ≤ x.balance) ∧
      (txs.map (fun x => fee (runtimeCfg read write) x.calls x.len)).sum ≤
        (min (env.balance who - 100000000) a + 24) / 50 := by
  have hs := staked_fresh h0 h
  have hrun : ∀ (l : List BlockNumber) (s : Capacity.State),
      (Capacity.run (stakingCfg thaw fr) s (l.map (fun b => ⟨env, .onInitialize b⟩))).capacity = s.capacity := by
    intro l
    induction l with
    | nil => intro s; rfl
    | cons b l ih =>
      intro s
      show (Capacity.run (stakingCfg thaw fr) (Capacity.apply (stakingCfg thaw fr) s ⟨env, .onInitialize b⟩) _).capacity = _
      rw [ih]
      show (Capacity.startNewEpochIfNeeded (stakingCfg thaw fr) s b).capacity = _
      unfold Capacity.startNewEpochIfNeeded
      split <;> rfl
  rw [C124_paid_iff _ keys t txs hp _ _ (by rw [hrun]; exact hs)]
  have : ∀ (s : Capacity.State) (g n : Nat), available s ⟨g, n, g, 0⟩ = g := by
    intro s g n; unfold available; split <;> rfl
  rw [this]
  rfl

theorem base_fee (read write : Nat) : weightToFee (runtimeCfg read write) ⟨105455000, 0⟩ = 177812 := by
  show runtimeWeightToFee ⟨Nat.min 105455000 500000000000, Nat.min 0 5242880⟩ = 177812
  rw [runtimeWeightToFee_eq _ (by decide)]
  decide

/-- C124, least fee: whatever a transaction carries, it costs 177,812 and 10,000 for every byte. -/
theorem C124_least_fee (read write : Nat) (calls : List Call) (len : Nat) :
    177812 + 10000 * (len % 2 ^ 32) ≤ fee (runtimeCfg read write) calls len := by
  have h1 : weightToFee (runtimeCfg read write) ⟨105455000, 0⟩ = 177812 := base_fee read write
  unfold fee
  rw [h1]
  have : len % 2 ^ 32 < 2 ^ 32 := Nat.mod_lt _ (by decide)
  have h2 : (runtimeCfg read write).byteFee = 10000 := rfl
  have h3 : (runtimeCfg read write).maxBalance = 2 ^ 128 - 1 := rfl
  rw [h2, h3]
  omega

theorem full_fee : runtimeWeightToFee ⟨500000000000, 5242880⟩ = 843070500 := by
  rw [runtimeWeightToFee_eq _ (by decide)]; decide

theorem min_time (a b : Weight) : (a.min b).refTime ≤ b.refTime := Nat.min_le_right _ _

theorem capped_fee (cfg : Config) (hf : cfg.weightToFee = runtimeWeightToFee) (w : Weight) :
    weightToFee cfg w ≤ runtimeWeightToFee cfg.maxBlock := by
  unfold weightToFee
  rw [hf]
  exact C112_monotone _ _ (min_time w cfg.maxBlock)

theorem block_fee (read write : Nat) (w : Weight) : weightToFee (runtimeCfg read write) w ≤ 843070500 := by
  have h := capped_fee (runtimeCfg read write) rfl w
  rw [show (runtimeCfg read write).maxBlock = ⟨500000000000, 5242880⟩ from rfl, full_fee] at h
  exact h

/-- C124, greatest fee: nor does it cost more than 843,248,312 and 10,000 for every byte. -/
theorem C124_greatest_fee (read write : Nat) (calls : List Call) (len : Nat) :
    fee (runtimeCfg read write) calls len ≤ 843248312 + 10000 * len := by
  have h1 : weightToFee (runtimeCfg read write) ⟨105455000, 0⟩ = 177812 := base_fee read write
  have h2 := block_fee read write
  unfold fee
  rw [h1]
  have h3 := h2 ⟨min (2 ^ 64 - 1) (totalRef (runtimeCfg read write) calls), min (2 ^ 64 - 1) (totalProof calls)⟩
  have h4 : (runtimeCfg read write).byteFee = 10000 := rfl
  have h5 : len % 2 ^ 32 ≤ len := Nat.mod_le _ _
  rw [h4]
  generalize weightToFee _ _ = x at h3 ⊢
  generalize len % 2 ^ 32 = y at h5 ⊢
  refine Nat.le_trans (Nat.min_le_right _ _) ?_
  omega

/-- C124, what follows for stakes: less than 0.08890576 tokens pay for nothing at all, and a stake of at least fifty
times the greatest fee, 422 tokens and half a token for every hundred bytes, pays for any transaction. -/
theorem C124_stakes (read write thaw : Nat) (fr : Nat → Nat → Nat) (hist : List Capacity.Step)
    (env : Capacity.Env) (who : AccountId) (t : MsaId) (a : Balance) (s' : Capacity.State) (keys : Msa.State)
    (h0 : (Capacity.run (stakingCfg thaw fr) .init hist).capacity.get t = none)
    (h : Capacity.dispatch (stakingCfg thaw fr) (Capacity.run (stakingCfg thaw fr) .init hist) ⟨env, .stake who t a⟩ = .ok s')
    (key : AccountId) (balance : Balance) (hk : Msa.resolves keys key t) (c : Call) (calls : List Call) (len : Nat)
    (hp : Paid c calls) :
    (min (env.balance who - 100000000) a < 8890576 →
      ¬ ∃ s'', charge (runtimeCfg read write) keys balance s' key len c = some (.ok s'')) ∧
    (42162415600 + 500000 * len ≤ min (env.balance who - 100000000) a → (∀ c ∈ calls, Eligible c) → 1000000 ≤ balance →
      ∃ s'', charge (runtimeCfg read write) keys balance s' key len c = some (.ok s'')) := by
  have hs := staked_fresh h0 h
  have hav : ∀ g n : Nat, available s' ⟨g, n, g, 0⟩ = g := by
    intro g n; unfold available; split <;> rfl
  have h1 := C124_least_fee read write calls len
  have h2 := C124_greatest_fee read write calls len
  rw [C63_accepted_iff _ keys balance s' key len c calls hp]
  generalize hn : min (env.balance who - 100000000) a = n at *
  constructor
  · rintro hlt ⟨_, _, m, d, hm, hd, hf⟩
    have : m = t := Option.some.inj (hm.symm.trans hk)
    subst this
    have : d = _ := Option.some.inj (hd.symm.trans hs)
    subst this
    rw [hav] at hf
    unfold capacityOf at hf
    omega
  · intro hge he hb
    refine ⟨he, hb, t, _, hk, hs, ?_⟩
    rw [hav]
    unfold capacityOf
    omega

/-- Somebody with 1.01 tokens stakes all that may be staked, the minimum. -/
def exStakeEnv : Capacity.Env := ⟨fun _ => 101000000, fun _ => true⟩

/-- C124 is false of the code: the minimum stake of 0.01 tokens gives a capacity of 20,000, less than any fee. -/
theorem C124_full_false : ¬ C124_full := fun hf => by
  have hs : ∃ s', Capacity.dispatch (stakingCfg 30 (fun _ _ => 0)) (Capacity.run (stakingCfg 30 (fun _ _ => 0)) .init [])
      ⟨exStakeEnv, .stake 5 1 1000000⟩ = .ok s' := by
    have : (Capacity.dispatch (stakingCfg 30 (fun _ _ => 0)) (Capacity.run (stakingCfg 30 (fun _ _ => 0)) .init [])
      ⟨exStakeEnv, .stake 5 1 1000000⟩).isOk = true := by decide +kernel
    revert this
    cases Capacity.dispatch (stakingCfg 30 (fun _ _ => 0)) (Capacity.run (stakingCfg 30 (fun _ _ => 0)) .init [])
      ⟨exStakeEnv, .stake 5 1 1000000⟩ <;> simp [Except.isOk, Except.toBool]
  obtain ⟨s', hs⟩ := hs
  have hk : Msa.resolves exKeys 100 1 := by unfold Msa.resolves; decide
  obtain ⟨c, calls, len, hp, hc⟩ := hf 25000000 100000000 30 _ [] exStakeEnv 5 1 1000000 s' exKeys 100 1000000 rfl hs hk
    (Nat.le_refl _)
  exact (C124_stakes 25000000 100000000 30 _ [] exStakeEnv 5 1 1000000 s' exKeys rfl hs 100 1000000 hk c calls len
    hp).1 (by decide) hc

/-- A stake of ten tokens gives a capacity of 20,000,000, which pays for twelve transactions of a hundred bytes that write
a page; a thirteenth is not paid for. -/
example :
    let cfg := stakingCfg 30 (fun _ _ => 0)
    let s := Capacity.apply cfg .init ⟨⟨fun _ => 5000000000, fun _ => true⟩, .stake 5 1 1000000000⟩
    let tx : Tx := ⟨100, 1000000, .payWithCapacity (.fn .upsertPage 50), [.fn .upsertPage 50], 100⟩
    s.capacity.get 1 = some ⟨20000000, 1000000000, 20000000, 0⟩ ∧ fee (runtimeCfg 25000000 100000000) tx.calls 100 = 1569548 ∧
    (payAll (runtimeCfg 25000000 100000000) exKeys s (List.replicate 12 tx)).isSome = true ∧
    (payAll (runtimeCfg 25000000 100000000) exKeys s (List.replicate 13 tx)).isSome = false := by
  decide +kernel

end Verif.TxPayment
