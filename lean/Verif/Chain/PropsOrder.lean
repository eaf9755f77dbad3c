import Verif.Chain.Props
import Verif.Stateful.PropsOrder
/-!
# C137 on the chain
-/

namespace Verif.Chain

/-- A transaction with a call of the storage pallet. -/
def storageTx (bal : AccountId → Balance) (p : AccountId × Stateful.Call) : Step := .submit bal p.1 (.storage p.2)

/-- The same in the pallet, as the pallet sees the other ones. -/
def storageStep (cfg : Config) (s : State) (p : AccountId × Stateful.Call) : Stateful.Step :=
  ⟨storageEnv cfg s, some p.1, p.2⟩

/-- Transactions of the storage pallet change its storage only. -/
theorem run_storageTx (cfg : Config) (bal : AccountId → Balance) (h : List (AccountId × Stateful.Call)) (s : State) :
    run cfg s (h.map (storageTx bal)) =
      { s with storage := Stateful.run cfg.storage s.storage (h.map (storageStep cfg s)) } := by
  induction h generalizing s with
  | nil => rfl
  | cons p h ih =>
    have e : apply cfg s (storageTx bal p) =
        { s with storage := Stateful.apply cfg.storage s.storage (storageStep cfg s p) } := by
      simp only [apply, storageTx, extensions, if_true, dispatch, storageStep, Stateful.apply, Origin.signer]
      cases Stateful.dispatch cfg.storage (storageEnv cfg s) s.storage (some p.1) p.2 <;> rfl
    show run cfg (apply cfg s (storageTx bal p)) (h.map (storageTx bal)) = _
    rw [e, ih]
    rfl

/-- C137, on the chain: transactions with storage calls to different places have the same effect in any order within
a block: the same is read at every place afterwards, and nothing else changes. -/
theorem C137_chain (cfg : Config) (hc : Stateful.HashOk cfg.storage) (bal : AccountId → Balance) (s : State)
    (h h' : List (AccountId × Stateful.Call)) (hp : h.Perm h') (ha : Stateful.PlacesDiffer (h.map (storageStep cfg s)))
    (hok : ∀ p ∈ h, Stateful.StepOk cfg.storage (storageStep cfg s p)) :
    let t := run cfg s (h.map (storageTx bal))
    let t' := run cfg s (h'.map (storageTx bal))
    (∀ l : Stateful.Loc, l.InRange cfg.storage →
      Stateful.readAt cfg.storage t.storage l = Stateful.readAt cfg.storage t'.storage l) ∧
    { t with storage := s.storage } = s ∧ { t' with storage := s.storage } = s := by
  dsimp only
  rw [run_storageTx, run_storageTx]
  refine ⟨fun l hl => ?_, rfl, rfl⟩
  refine Stateful.C137_contents cfg.storage hc s.storage _ _ (hp.map _) ha ?_ l hl
  intro x hx
  obtain ⟨p, hm, rfl⟩ := List.mem_map.1 hx
  exact hok p hm

/-- Two pages written by provider 1 in one block, in both orders. -/
example :
    let s := run exCfg (.init 1024) (exHist.take 10)
    let h : List (AccountId × Stateful.Call) := [(10, .upsertPage 2 2 0 0 [5]), (10, .upsertPage 2 2 1 0 [6])]
    Stateful.PlacesDiffer (h.map (storageStep exCfg s)) ∧ (∀ p ∈ h, Stateful.StepOk exCfg.storage (storageStep exCfg s p)) ∧
    Stateful.readAt exCfg.storage (run exCfg s (h.map (storageTx exBal))).storage (.page 2 2 0) = .ok (some ⟨1, [5]⟩) ∧
    Stateful.readAt exCfg.storage (run exCfg s (h.reverse.map (storageTx exBal))).storage (.page 2 2 1) =
      .ok (some ⟨1, [6]⟩) := by
  intro s h
  refine ⟨?_, ?_, by decide +kernel, by decide +kernel⟩
  · simp [h, Stateful.PlacesDiffer, Stateful.Step.place, storageStep, Stateful.Call.owner, Stateful.Call.update,
      Stateful.Update.loc]
  · intro p hp m hm
    simp only [h, List.mem_cons, List.not_mem_nil, or_false] at hp
    rcases hp with rfl | rfl <;>
      · simp only [storageStep, Stateful.Call.owner, Option.some.injEq] at hm; subst hm; decide

end Verif.Chain
