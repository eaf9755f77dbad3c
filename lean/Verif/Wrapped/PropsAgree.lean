import Verif.Wrapped.PropsTokens
/-!
# C135: transactions without other accounts are those of C133

On transactions whose calls act for nobody but the signer this model agrees with that of C133: what C133 and C134 say of
balances, fees and numbers is true here.
-/

namespace Verif.Wrapped

/-! ## Specification -/

/-- A transaction of `Wallet` here. -/
def embedTx (t : Wallet.Signed) : Signed := ⟨t.who, t.nonce, embed t.call, t.len, t.fee, t.back, t.env⟩

/-- The events of `Wallet` that are events here. -/
inductive Same : Wallet.Event → Event → Prop
  | newBlock : Same .newBlock .newBlock
  | tick (n) : Same (.tick n) (.tick n)
  | submit (t) : Same (.submit t) (.submit (embedTx t))

/-- The same pallets and tokens, and the same numbers of accounts. -/
def Agree (s : State) (s0 : Wallet.State) : Prop :=
  s.world.tokens = s0.tokens ∧ ∀ a, s.nonces a = Wallet.nonceOf s0 a

/-! ## Proofs -/

theorem embed_inTokens (c : Wallet.Call) : inTokens (embed c) = Wallet.inTokens c := by
  cases c <;> simp only [inTokens, Wallet.inTokens, embed, ← embed_view]

theorem embed_extensions (cfg : Config) (s : Chain.State) (who : AccountId) (c : Wallet.Call) :
    extensions cfg s who (embed c) = Wallet.extensions cfg.wallet s who c := by
  cases c <;> simp only [extensions, Wallet.extensions, embed]

theorem embed_pay (cfg : Config) (s : Tokens.State) (t : Wallet.Signed) :
    pay cfg s (embedTx t) = Wallet.pay cfg.wallet s t := by
  simp only [pay, Wallet.pay, embedTx, embed_view]
  rfl

theorem embed_settle (s : Tokens.State) (t : Wallet.Signed) : settle s (embedTx t) = Wallet.settle s t := by
  simp only [settle, Wallet.settle, embedTx, embed_inTokens]

theorem checkNonce_agree {s : State} {s0 : Wallet.State} (h : Agree s s0) (t : Wallet.Signed) :
    (checkNonce s (embedTx t) = none ∧ Wallet.checkNonce s0 t = none) ∨
    ∃ n n0, checkNonce s (embedTx t) = some n ∧ Wallet.checkNonce s0 t = some n0 ∧
      ∀ a, n a = (n0.get a).getD 0 := by
  unfold checkNonce Wallet.checkNonce
  simp only [embedTx, embed_view, h.1, h.2]
  by_cases hn : t.nonce = Wallet.nonceOf s0 t.who
  · rw [if_pos hn, if_pos hn]
    refine .inr ⟨_, _, rfl, rfl, fun a => ?_⟩
    split
    · exact h.2 a
    · rw [SMap.get_insert]
      simp only [put]
      split
      · rename_i e; rw [if_pos e.symm]; rfl
      · rename_i e; rw [if_neg (fun e' => e e'.symm)]; exact h.2 a
  · rw [if_neg hn, if_neg hn]
    exact .inl ⟨rfl, rfl⟩

theorem embed_done (cfg : Config) (w : World) (t : Wallet.Signed) :
    ((exec cfg t.env (base cfg) t.who (embed t.call) w).getD w).tokens =
      (Wallet.exec cfg.wallet t.env (Runtime.contains cfg.wallet.mainnet) t.who t.call w.tokens).getD w.tokens := by
  rw [← embed_exec cfg t.env (Runtime.contains cfg.wallet.mainnet) (base cfg) (fun _ => rfl) t.who t.call w]
  cases exec cfg t.env (base cfg) t.who (embed t.call) w <;> rfl

theorem after_steps (cfg : Wallet.Config) (s : Tokens.State) (t : Wallet.Signed) :
    ∃ h, Wallet.settle ((Wallet.exec cfg t.env (Runtime.contains cfg.mainnet) t.who t.call s).getD s) t =
      Tokens.run cfg.tokens s h ∧ ∀ x ∈ h, Wallet.By t.who x := by
  obtain ⟨b, hb, hbb⟩ := Wallet.settle_steps cfg
    ((Wallet.exec cfg t.env (Runtime.contains cfg.mainnet) t.who t.call s).getD s) t
  cases he : Wallet.exec cfg t.env (Runtime.contains cfg.mainnet) t.who t.call s with
  | none => rw [he] at hb; exact ⟨b, hb, hbb⟩
  | some s' =>
    rw [he] at hb
    obtain ⟨h, e, hh, -⟩ := Wallet.exec_steps _ _ _ _ _ _ _ he
    refine ⟨h ++ b, by rw [Wallet.run_append, ← e]; exact hb, fun x hx => ?_⟩
    rcases List.mem_append.1 hx with hx | hx
    · exact .does (hh x hx)
    · exact hbb x hx

theorem agree_submit (cfg : Config) {s : State} {s0 : Wallet.State} (h : Agree s s0) (t : Wallet.Signed) :
    Agree (submit cfg s (embedTx t)) (Wallet.submit cfg.wallet s0 t) := by
  rcases checkNonce_agree h t with ⟨h1, h2⟩ | ⟨n, n0, h1, h2, h3⟩
  · simpa [submit, Wallet.submit, takeIn, Wallet.takeIn, h1, h2] using h
  · unfold submit Wallet.submit takeIn Wallet.takeIn
    rw [h1, h2, embed_pay, h.1]
    simp only [Option.bind_eq_bind, Option.bind_some]
    cases hp : Wallet.pay cfg.wallet s0.tokens t with
    | none => simpa using h
    | some tok =>
      simp only [Option.bind_some]
      have e1 : extensions cfg tok.chain (embedTx t).who (embedTx t).call = Wallet.extensions cfg.wallet tok.chain t.who t.call :=
        embed_extensions ..
      rw [e1]
      by_cases hext : Wallet.extensions cfg.wallet tok.chain t.who t.call = true
      · rw [if_pos hext, if_pos hext]
        dsimp only
        have key : settle ((exec cfg (embedTx t).env (base cfg) (embedTx t).who (embedTx t).call
            { s.world with tokens := tok, extrinsic := s.world.extrinsic + 1 }).getD
            { s.world with tokens := tok, extrinsic := s.world.extrinsic + 1 }).tokens (embedTx t) =
            Wallet.settle ((Wallet.exec cfg.wallet t.env (Runtime.contains cfg.wallet.mainnet) t.who t.call tok).getD tok) t := by
          rw [embed_settle]
          exact congrArg (Wallet.settle · t)
            (embed_done cfg { s.world with tokens := tok, extrinsic := s.world.extrinsic + 1 } t)
        refine ⟨key, fun a => ?_⟩
        dsimp only
        rw [key]
        obtain ⟨q, hq, hqb⟩ := after_steps cfg.wallet tok t
        have kept : ∀ a, a ≠ t.who → Tokens.total tok a ≤ Tokens.total (Wallet.settle ((Wallet.exec cfg.wallet t.env
            (Runtime.contains cfg.wallet.mainnet) t.who t.call tok).getD tok) t) a := by
          intro a ha
          rw [hq]
          exact run_total _ _ q (fun x hx => ⟨t.who, fun e => ha e.symm, hqb x hx⟩)
        generalize Wallet.settle ((Wallet.exec cfg.wallet t.env (Runtime.contains cfg.wallet.mainnet) t.who t.call
          tok).getD tok) t = after at kept
        unfold Wallet.nonceOf Wallet.forget
        by_cases ha : a = t.who
        · subst ha
          unfold forget
          split
          · simp [SMap.get_erase]
          · exact h3 _
        · rw [forget_kept (kept a ha), h3]
          split
          · rw [SMap.get_erase, if_neg (fun e => ha e.symm)]
          · rfl
      · rw [if_neg hext, if_neg hext]
        exact h

/-! ## Theorem -/

/-- C135, transactions whose calls act for nobody but the signer: on every history of such transactions, blocks and the
time of the relay chain, the chain has the same pallets, tokens and numbers as that of C133. -/
theorem C135_agree (cfg : Config) (n : Nat) (l : TimeRelease.State) (es : List Event) (es0 : List Wallet.Event)
    (h : List.Forall₂ Same es0 es) : Agree (run cfg (genesis n l) es) (Wallet.run cfg.wallet (Wallet.genesis n l) es0) := by
  have start : Agree (genesis n l) (Wallet.genesis n l) := ⟨rfl, fun a => rfl⟩
  revert start
  generalize genesis n l = s, Wallet.genesis n l = s0
  induction h generalizing s s0 with
  | nil => exact id
  | @cons e0 e es0 es he _ ih =>
    intro hs
    refine ih _ _ ?_
    cases he with
    | newBlock => exact ⟨by simp only [apply, Wallet.apply, hs.1], hs.2⟩
    | tick m => exact ⟨by simp only [apply, Wallet.apply, hs.1], hs.2⟩
    | submit t => exact agree_submit cfg hs t

/-- Hypotheses met: the history of C133. -/
example : ∃ es, List.Forall₂ Same (Wallet.exHist.take 8) es ∧
    (run exCfg (genesis 1024 Tokens.exLedger) es).nonces 30 = 3 ∧
    Tokens.total (run exCfg (genesis 1024 Tokens.exLedger) es).world.tokens 30 = 628 := by
  refine ⟨[.newBlock] ++ ((Wallet.exHist.take 8).drop 1).filterMap (fun e => match e with
    | .submit t => some (.submit (embedTx t))
    | _ => none), ?_, by decide +kernel, by decide +kernel⟩
  exact .cons .newBlock (.cons (.submit _) (.cons (.submit _) (.cons (.submit _) (.cons (.submit _) (.cons (.submit _)
    (.cons (.submit _) (.cons (.submit _) .nil)))))))

end Verif.Wrapped
