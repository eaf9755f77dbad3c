import Verif.Wallet.Props
/-!
# C133: transactions of the six pallets on the chain with its tokens

On calls without transfers and without the time-release pallet this model agrees with that of C125, with the balances
that are on the chain: what C125 says of calls within calls, and what the filters let pass, is true here.
-/

namespace Verif.Wallet
open TimeRelease (acct)

/-! ## Specification -/

mutual
/-- A call of `Tx` here. -/
def embed : Tx.Call → Call
  | .leaf c => .chain c
  | .batch k calls => .batch k (embedL calls)
  | .payWithCapacity c => .payWithCapacity (embed c)
  | .payWithCapacityBatchAll calls => .payWithCapacityBatchAll (embedL calls)
/-- The same for lists of calls. -/
def embedL : List Tx.Call → List Call
  | [] => []
  | c :: cs => embed c :: embedL cs
end

/-! ## Proofs -/

mutual
theorem embed_view (c : Tx.Call) : (embed c).view = c.view := by
  match c with
  | .leaf c => simp [embed, Call.view, Tx.Call.view]
  | .batch k calls => simp [embed, Call.view, Tx.Call.view, embed_viewL calls]
  | .payWithCapacity c => simp [embed, Call.view, Tx.Call.view, embed_view c]
  | .payWithCapacityBatchAll calls => simp [embed, Call.view, Tx.Call.view, embed_viewL calls]
theorem embed_viewL (cs : List Tx.Call) : viewL (embedL cs) = Tx.viewL cs := by
  match cs with
  | [] => simp [embedL, viewL, Tx.viewL]
  | c :: cs => simp [embedL, viewL, Tx.viewL, embed_view c, embed_viewL cs]
end

theorem embedL_length (cs : List Tx.Call) : (embedL cs).length = cs.length := by
  induction cs with
  | nil => rfl
  | cons c cs ih => simp [embedL, ih]

/-- The same result, and the same balances. -/
def Same (s : Tokens.State) (a : Option Tokens.State) (b : Option Chain.State) : Prop :=
  (a = none ∧ b = none) ∨ ∃ s', a = some s' ∧ b = some s'.chain ∧ Tokens.bal s' = Tokens.bal s

mutual
theorem exec_same (cfg : Config) (env : TimeRelease.Env) (flt : Runtime.Filter) (who : AccountId) (c : Tx.Call)
    (s : Tokens.State) : Same s (exec cfg env flt who (embed c) s)
      (Tx.exec cfg.tokens.chain (Tokens.bal s) flt who c s.chain) := by
  match c with
  | .leaf c =>
    rw [exec.eq_def, Tx.exec.eq_def, embed_view]
    split
    · simp only [embed]
      cases h : Chain.dispatch cfg.tokens.chain (Tokens.bal s) s.chain (.signed who) c with
      | none => exact .inl ⟨rfl, rfl⟩
      | some ch =>
        refine .inr ⟨_, rfl, rfl, ?_⟩
        funext w
        exact (Tokens.sync_balances { s with chain := ch } who w).1
    · exact .inl ⟨rfl, rfl⟩
  | .batch k calls =>
    rw [exec.eq_def, Tx.exec.eq_def, embed_view]
    split
    · simp only [embed]
      exact execL_same cfg env k _ who calls s
    · exact .inl ⟨rfl, rfl⟩
  | .payWithCapacity c =>
    rw [exec.eq_def, Tx.exec.eq_def, embed_view]
    split
    · simp only [embed]
      exact exec_same cfg env flt who c s
    · exact .inl ⟨rfl, rfl⟩
  | .payWithCapacityBatchAll calls =>
    rw [exec.eq_def, Tx.exec.eq_def, embed_view]
    split
    · simp only [embed, embedL_length]
      split
      · exact execL_same cfg env .batchAll _ who calls s
      · exact .inl ⟨rfl, rfl⟩
    · exact .inl ⟨rfl, rfl⟩
theorem execL_same (cfg : Config) (env : TimeRelease.Env) (k : Runtime.BatchKind) (flt : Runtime.Filter)
    (who : AccountId) (cs : List Tx.Call) (s : Tokens.State) : Same s (execL cfg env k flt who (embedL cs) s)
      (Tx.execL cfg.tokens.chain (Tokens.bal s) k flt who cs s.chain) := by
  match cs with
  | [] =>
    rw [embedL, execL.eq_def, Tx.execL.eq_def]
    exact .inr ⟨s, rfl, rfl, rfl⟩
  | c :: cs =>
    rw [embedL, execL.eq_def, Tx.execL.eq_def]
    dsimp only
    rcases exec_same cfg env flt who c s with ⟨h1, h2⟩ | ⟨s', h1, h2, h3⟩
    · rw [h1, h2]
      cases k with
      | batch => exact .inr ⟨s, rfl, rfl, rfl⟩
      | batchAll => exact .inl ⟨rfl, rfl⟩
      | forceBatch => exact execL_same cfg env .forceBatch flt who cs s
    · rw [h1, h2]
      dsimp only
      have := execL_same cfg env k flt who cs s'
      rw [h3] at this
      rcases this with h | ⟨s2, h4, h5, h6⟩
      · exact .inl h
      · exact .inr ⟨s2, h4, h5, h6.trans h3⟩
end

/-! ## Theorem -/

/-- C133, calls of the six pallets, nested in any way: they succeed here just if they do in the model of C125 with the
balances that are on the chain, leave the six pallets in the same state, and all balances as they are. -/
theorem C133_six_pallets (cfg : Config) (env : TimeRelease.Env) (who : AccountId) (c : Tx.Call) (s : Tokens.State) :
    ((exec cfg env (Runtime.contains cfg.mainnet) who (embed c) s).map (·.chain) =
      Tx.exec cfg.tokens.chain (Tokens.bal s) (Runtime.contains cfg.mainnet) who c s.chain) ∧
    ∀ s', exec cfg env (Runtime.contains cfg.mainnet) who (embed c) s = some s' →
      ∀ w, (acct s'.ledger w).free = (acct s.ledger w).free := by
  rcases exec_same cfg env (Runtime.contains cfg.mainnet) who c s with ⟨h1, h2⟩ | ⟨s', h1, h2, h3⟩
  · rw [h1, h2]
    exact ⟨rfl, fun s' h => by cases h⟩
  · rw [h1, h2]
    refine ⟨rfl, fun s2 h w => ?_⟩
    cases h
    exact congrFun h3 w

/-- Hypotheses met: staking within a batch, after a call that fails. -/
example : ((exec exCfg exEnv (Runtime.contains false) 30 (embed (.batch .forceBatch [.leaf (.capacity (.stake 9 500)),
    .leaf (.capacity (.stake 1 500))])) (exAt 3).tokens).map
      (fun s => (acct s.ledger 30, s.chain.capacity.frozen.get 30))) = some (⟨1000, 0, 500, 400⟩, some 500) := by
  decide +kernel

end Verif.Wallet
