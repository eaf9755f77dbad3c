import Verif.Chain.Props
import Verif.Capacity.PropsOrder
/-!
# C166 on the chain
-/

namespace Verif.Chain

/-- What accounts and providers do about capacity within a block: signed calls of the capacity pallet, and payments. -/
inductive CapacityTx where
  | call (who : AccountId) (c : CapacityCall)
  | pay (key : AccountId) (fee : Balance)

/-- The step of the chain. -/
def CapacityTx.step (bal : AccountId → Balance) : CapacityTx → Step
  | .call who c => .submit bal who (.capacity c)
  | .pay key fee => .charge key fee

/-- What the capacity pallet is asked to do, if anything. -/
def CapacityTx.asked (bal : AccountId → Balance) (s : State) : CapacityTx → Option Capacity.Step
  | .call who c => (c.op (.signed who)).map (fun op => ⟨capacityEnv bal s, op⟩)
  | .pay key fee => (msaOf s key).map (fun m => ⟨capacityEnv bal s, .charge m fee⟩)

theorem CapacityTx.asked_ordinary {bal : AccountId → Balance} {s : State} {x : CapacityTx} {y : Capacity.Step}
    (h : x.asked bal s = some y) : Capacity.Ordinary y.op := by
  cases x with
  | call who c => cases c <;> simp [asked, CapacityCall.op] at h <;> subst h <;> trivial
  | pay key fee =>
    simp only [asked, Option.map_eq_some_iff] at h
    obtain ⟨m, -, rfl⟩ := h
    trivial

theorem run_capacityTx (cfg : Config) (bal : AccountId → Balance) (h : List CapacityTx) (s : State) :
    run cfg s (h.map (CapacityTx.step bal)) =
      { s with capacity := Capacity.run cfg.capacity s.capacity (h.filterMap (CapacityTx.asked bal s)) } := by
  induction h generalizing s with
  | nil => rfl
  | cons x h ih =>
    have e : apply cfg s (x.step bal) =
        { s with capacity := Capacity.run cfg.capacity s.capacity (x.asked bal s).toList } := by
      cases x with
      | call who c =>
        simp only [apply, CapacityTx.step, extensions, if_true, dispatch, CapacityTx.asked]
        cases c.op (.signed who) with
        | none => rfl
        | some op =>
          simp only [Option.map_some, Option.toList, Capacity.run, List.foldl, Capacity.apply]
          show (((Capacity.dispatch cfg.capacity s.capacity ⟨capacityEnv bal s, op⟩).toOption >>= _).getD s) = _
          cases Capacity.dispatch cfg.capacity s.capacity ⟨capacityEnv bal s, op⟩ <;> rfl
      | pay key fee =>
        simp only [apply, CapacityTx.step, charge, CapacityTx.asked]
        cases msaOf s key with
        | none => rfl
        | some m =>
          simp only [Option.map_some, Option.toList, Capacity.run, List.foldl, Capacity.apply, Capacity.dispatch]
          show (((Capacity.withdrawFee s.capacity m fee).toOption >>= _).getD s) = _
          cases Capacity.withdrawFee s.capacity m fee <;> rfl
    show run cfg (apply cfg s (x.step bal)) (h.map (CapacityTx.step bal)) = _
    rw [e, ih]
    have e' : ∀ y : CapacityTx, y.asked bal { s with capacity := Capacity.run cfg.capacity s.capacity (x.asked bal s).toList } =
        y.asked bal s := fun y => by cases y <;> rfl
    simp only [e', funext e']
    cases hx : x.asked bal s with
    | none => simp [hx, Capacity.run]
    | some y => simp [hx, Capacity.run]

/-- C166, on the chain, partial: signed calls of the capacity pallet and payments with capacity within a block, of different
accounts, and for each provider only stakes, only payments or a single unstake. If the pallet does all it is asked in one order,
then it does so in every order, the same is stored afterwards about every account and provider, and nothing else changes. -/
theorem C166_chain_partial (cfg : Config) (bal : AccountId → Balance) (s : State) (h h' : List CapacityTx) (hp : h.Perm h')
    (hd : (h.filterMap (CapacityTx.asked bal s)).Pairwise (fun x y => Capacity.Together x.op y.op))
    (ha : Capacity.AllOk cfg.capacity s.capacity (h.filterMap (CapacityTx.asked bal s))) :
    let t := run cfg s (h.map (CapacityTx.step bal))
    let t' := run cfg s (h'.map (CapacityTx.step bal))
    Capacity.AllOk cfg.capacity s.capacity (h'.filterMap (CapacityTx.asked bal s)) ∧
    Capacity.Same t.capacity t'.capacity ∧ { t with capacity := s.capacity } = s ∧ { t' with capacity := s.capacity } = s := by
  have ho : ∀ x ∈ h.filterMap (CapacityTx.asked bal s), Capacity.Ordinary x.op := by
    intro x hx
    obtain ⟨y, -, hy⟩ := List.mem_filterMap.1 hx
    exact CapacityTx.asked_ordinary hy
  obtain ⟨h1, h2⟩ := Capacity.C166_all_partial cfg.capacity s.capacity _ _ (hp.filterMap _) ho hd ha
  simp only [run_capacityTx]
  exact ⟨h1, h2, trivial, trivial⟩

/-- Two accounts stake to provider 1 in one block, in both orders. -/
example :
    let s := run exCfg (.init 1024) (exHist.take 10)
    let h : List CapacityTx := [.call 20 (.stake 1 500), .call 21 (.stake 1 700)]
    h.filterMap (CapacityTx.asked exBal s) = [⟨capacityEnv exBal s, .stake 20 1 500⟩, ⟨capacityEnv exBal s, .stake 21 1 700⟩] ∧
    (h.filterMap (CapacityTx.asked exBal s)).Pairwise (fun x y => Capacity.Together x.op y.op) ∧
    (Capacity.dispatch exCfg.capacity s.capacity ⟨capacityEnv exBal s, .stake 20 1 500⟩).isOk = true ∧
    (Capacity.dispatch exCfg.capacity (run exCfg s ((h.take 1).map (CapacityTx.step exBal))).capacity
      ⟨capacityEnv exBal s, .stake 21 1 700⟩).isOk = true := by
  intro s h
  refine ⟨rfl, ?_, by decide +kernel, by decide +kernel⟩
  show ([⟨capacityEnv exBal s, .stake 20 1 500⟩, ⟨capacityEnv exBal s, .stake 21 1 700⟩] : List Capacity.Step).Pairwise _
  simp [Capacity.Together, Capacity.Strangers, Capacity.IsStake, Capacity.staker]

end Verif.Chain
