import Verif.Wrapped.Steps
import Verif.Wallet.Props
/-!
# What steps of some accounts do to the chain and to the tokens of others
-/

namespace Verif.Wrapped
open TimeRelease (acct setAcct acct_setAcct)
open Tokens (total)

/-! ## The six pallets -/

/-- The step of the six pallets in a step of the chain with its tokens. -/
inductive ChainOf : Tokens.Step → Chain.Step → Prop
  | newBlock : ChainOf .newBlock .newBlock
  | call (bal o c) : ChainOf (.call o c) (.call bal o c)
  | submit (bal who c) : ChainOf (.submit who c) (.submit bal who c)
  | charge (key fee) : ChainOf (.charge key fee) (.charge key fee)
  | upgrade (known) : ChainOf (.upgrade known) (.upgrade known)

theorem transfer_chain {cfg : Tokens.Config} {env : TimeRelease.Env} {keep : Bool} {s : Tokens.State} {src dest : AccountId}
    {amount : Balance} : ((Tokens.transfer cfg env keep s src dest amount).getD s).chain = s.chain := by
  unfold Tokens.transfer
  split
  · split <;> rfl
  · rfl

theorem apply_chain (cfg : Tokens.Config) (s : Tokens.State) (x : Tokens.Step) :
    (Tokens.apply cfg s x).chain = s.chain ∨
    ∃ y, ChainOf x y ∧ (Tokens.apply cfg s x).chain = Chain.apply cfg.chain s.chain y := by
  cases x with
  | newBlock => exact .inr ⟨_, .newBlock, rfl⟩
  | tick n => exact .inl rfl
  | call o c =>
    refine .inr ⟨_, .call (Tokens.bal s) o c, ?_⟩
    simp only [Tokens.apply, Tokens.syncSigner]
    split <;> rfl
  | submit who c => exact .inr ⟨_, .submit (Tokens.bal s) who c, rfl⟩
  | charge key fee => exact .inr ⟨_, .charge key fee, rfl⟩
  | upgrade known => exact .inr ⟨_, .upgrade known, rfl⟩
  | release env o c => exact .inl rfl
  | transfer env keep src dest amount => exact .inl transfer_chain
  | transferAll env keep src dest => exact .inl transfer_chain
  | fee who amount => left; simp only [Tokens.apply, Tokens.fee]; split <;> rfl
  | refund who amount => left; simp only [Tokens.apply, Tokens.refund]; split <;> rfl
  | reserve who amount => left; simp only [Tokens.apply, Tokens.reserve]; split <;> rfl
  | unreserve who amount => left; simp only [Tokens.apply, Tokens.unreserve]; split <;> rfl
  | lock who amount => exact .inl rfl

/-- A history of the chain with its tokens is one of the six pallets. -/
theorem run_chain (cfg : Tokens.Config) (s : Tokens.State) (h : List Tokens.Step) :
    ∃ q, (Tokens.run cfg s h).chain = Chain.run cfg.chain s.chain q ∧ ∀ y ∈ q, ∃ x ∈ h, ChainOf x y := by
  induction h generalizing s with
  | nil => exact ⟨[], rfl, by simp⟩
  | cons x h ih =>
    obtain ⟨q, h1, h2⟩ := ih (Tokens.apply cfg s x)
    have hr : Tokens.run cfg s (x :: h) = Tokens.run cfg (Tokens.apply cfg s x) h := rfl
    rw [hr, h1]
    rcases apply_chain cfg s x with e | ⟨y, hy, e⟩
    · rw [e]
      refine ⟨q, rfl, fun y hy => ?_⟩
      obtain ⟨z, hz, ho⟩ := h2 y hy
      exact ⟨z, by simp [hz], ho⟩
    · rw [e]
      refine ⟨y :: q, (Chain.run_cons ..).symm, fun z hz => ?_⟩
      rcases List.mem_cons.1 hz with rfl | hz
      · exact ⟨x, by simp, hy⟩
      · obtain ⟨x', hx', ho⟩ := h2 z hz
        exact ⟨x', by simp [hx'], ho⟩

theorem run_tokens_block (cfg : Tokens.Config) (s : Tokens.State) (h : List Tokens.Step) (hn : .newBlock ∉ h) :
    (Tokens.run cfg s h).chain.block = s.chain.block := by
  obtain ⟨q, h1, h2⟩ := run_chain cfg s h
  rw [h1]
  have hq : .newBlock ∉ q := by
    intro hm
    obtain ⟨x, hx, ho⟩ := h2 _ hm
    cases ho
    exact hn hx
  clear h1 h2
  generalize s.chain = c
  induction q generalizing c with
  | nil => rfl
  | cons y q ih =>
    rw [Chain.run_cons, ih (fun hm => hq (List.mem_cons_of_mem _ hm))]
    rcases Chain.apply_block cfg.chain c y with ⟨_, e⟩ | ⟨e, _⟩
    · exact e
    · exact absurd (e ▸ List.mem_cons_self ..) hq

/-! ## The tokens of others -/

theorem setFreeze_total {env : TimeRelease.Env} {s s' : TimeRelease.State} {who : AccountId} {n : Balance}
    (h : TimeRelease.setFreeze env s who n = .ok s') (w : AccountId) :
    (acct s' w).free = (acct s w).free ∧ (acct s' w).reserved = (acct s w).reserved := by
  rw [TimeRelease.setFreeze_ok_iff] at h
  obtain ⟨_, rfl⟩ := h
  rw [acct_setAcct]
  split
  · rename_i e; rw [e]; exact ⟨rfl, rfl⟩
  · exact ⟨rfl, rfl⟩

theorem pruneAndGet_acct {s : TimeRelease.State} {who : AccountId} {p} (h : TimeRelease.pruneAndGet s who = .ok p)
    (w : AccountId) : acct p.1 w = acct s w := by
  simp only [TimeRelease.pruneAndGet, TimeRelease.prune, bind_eq_ok_iff, okOr_eq_ok_iff, pure_eq_ok_iff] at h
  obtain ⟨_, ⟨_, _, rfl⟩, _, _, _, _, rfl⟩ := h
  exact TimeRelease.acct_store ..

/-- Calls of the time-release pallet take no tokens from others than the caller. -/
theorem release_total {cfg : TimeRelease.Config} {env : TimeRelease.Env} {s : TimeRelease.State} {a w : AccountId}
    {c : TimeRelease.Call} {p} (h : TimeRelease.dispatch cfg env s (some a) c = .ok p) (hw : w ≠ a) :
    (acct s w).free ≤ (acct p.1 w).free ∧ (acct p.1 w).reserved = (acct s w).reserved := by
  cases c with
  | claim =>
    simp only [TimeRelease.dispatch, TimeRelease.doClaim, okOr, bind_eq_ok_iff, Except.ok.injEq, pure_eq_ok_iff] at h
    obtain ⟨_, rfl, _, ⟨q, hq, s1, h1, rfl⟩, rfl⟩ := h
    have := setFreeze_total h1 w
    rw [pruneAndGet_acct hq] at this
    exact ⟨Nat.le_of_eq this.1.symm, this.2⟩
  | claimFor dest =>
    simp only [TimeRelease.dispatch, TimeRelease.doClaim, okOr, bind_eq_ok_iff, Except.ok.injEq, pure_eq_ok_iff] at h
    obtain ⟨_, rfl, _, ⟨q, hq, s1, h1, rfl⟩, rfl⟩ := h
    have := setFreeze_total h1 w
    rw [pruneAndGet_acct hq] at this
    exact ⟨Nat.le_of_eq this.1.symm, this.2⟩
  | update who l =>
    simp [TimeRelease.dispatch, bind_eq_ok_iff, ensure_eq_ok_iff] at h
  | transfer dest c =>
    simp only [TimeRelease.dispatch, okOr, bind_eq_ok_iff, Except.ok.injEq, pure_eq_ok_iff] at h
    obtain ⟨_, rfl, _, _, s1, h1, rfl⟩ := h
    unfold TimeRelease.doTransfer at h1
    simp only [bind_eq_ok_iff, ensure_eq_ok_iff, pure_eq_ok_iff] at h1
    obtain ⟨n, _, q, hq, t, _, s2, h2, s3, h3, _, _, rfl⟩ := h1
    have h3 := setFreeze_total h3 w
    obtain ⟨_, _, _, _, _, hr, he, hn⟩ := TimeRelease.currencyTransfer_ok h2
    show _ ≤ (acct s3 w).free ∧ (acct s3 w).reserved = _
    rw [h3.1, h3.2, hr w, pruneAndGet_acct hq]
    refine ⟨?_, rfl⟩
    by_cases hd : a = dest
    · rw [he hd, pruneAndGet_acct hq]
    · obtain ⟨k1, k2, _⟩ := hn hd
      by_cases hwd : w = dest
      · rw [hwd, k1, pruneAndGet_acct hq]
        exact Nat.le_add_right ..
      · rw [k2 w hw hwd, pruneAndGet_acct hq]

/-- What an account does takes no tokens from others. -/
theorem by_total (cfg : Tokens.Config) (s : Tokens.State) {a w : AccountId} {x : Tokens.Step} (hx : Wallet.By a x) (hw : w ≠ a) :
    total s w ≤ total (Tokens.apply cfg s x) w := by
  have one : ∀ (b : TimeRelease.Account), acct (setAcct s.ledger a b) w = acct s.ledger w := by
    intro b
    rw [acct_setAcct, if_neg hw]
  have tra : ∀ env keep dest amount, total s w ≤ total ((Tokens.transfer cfg env keep s a dest amount).getD s) w := by
    intro env keep dest amount
    cases h : Tokens.transfer cfg env keep s a dest amount with
    | none => exact Nat.le_refl _
    | some s' =>
      obtain ⟨_, _, _, ⟨_, rfl⟩ | ⟨_, rfl⟩⟩ := Tokens.transfer_ok h
      · exact Nat.le_refl _
      · unfold total
        dsimp only [Option.getD_some]
        rw [acct_setAcct]
        by_cases hd : w = dest
        · rw [if_pos hd, hd]
          dsimp only
          omega
        · rw [if_neg hd, one]
  cases hx with
  | charge n => exact Nat.le_refl _
  | fee n =>
    simp only [Tokens.apply, Tokens.fee]
    split
    · unfold total
      dsimp only [Option.getD_some]
      rw [one]
    · exact Nat.le_refl _
  | refund n =>
    simp only [Tokens.apply, Tokens.refund]
    split
    · unfold total
      dsimp only [Option.getD_some]
      rw [one]
    · exact Nat.le_refl _
  | does hx =>
    cases hx with
    | call c =>
      have e := fun t => Tokens.syncSigner_balances t (some a) w
      unfold total
      simp only [Tokens.apply, Chain.Origin.signer]
      rw [(e _).1, (e _).2]
    | release env c =>
      simp only [Tokens.apply, TimeRelease.apply]
      cases hd : TimeRelease.dispatch cfg.release env s.ledger (some a) c with
      | error e => exact Nat.le_refl _
      | ok p =>
        obtain ⟨h1, h2⟩ := release_total hd hw
        unfold total
        dsimp only
        rw [h2]
        omega
    | transfer env keep dest amount => exact tra ..
    | transferAll env keep dest => exact tra ..

theorem run_total (cfg : Tokens.Config) (s : Tokens.State) {w : AccountId} (h : List Tokens.Step)
    (hh : ∀ x ∈ h, ∃ a, a ≠ w ∧ Wallet.By a x) : total s w ≤ total (Tokens.run cfg s h) w := by
  induction h generalizing s with
  | nil => exact Nat.le_refl _
  | cons x h ih =>
    obtain ⟨a, ha, hx⟩ := hh x (by simp)
    exact Nat.le_trans (by_total cfg s hx (fun e => ha e.symm)) (ih _ (fun y hy => hh y (by simp [hy])))

end Verif.Wrapped
