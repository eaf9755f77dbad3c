import Verif.Pool.PropsMissing
/-!
# The pool and the blocks agree

C150: a node takes a transaction in its pool just when a block would take it.
-/

namespace Verif.Pool

/-! ## Specification -/

/-- A submission in a block. -/
def Submission.event (env : TimeRelease.Env) : Submission → Whole.Event
  | .signed _ _ t => .signed (.submit t)
  | .passkey _ _ fee p => .passkey env fee p

/-- A block that is being made takes the transaction: it has one more afterwards. -/
def InBlock (cfg : Whole.Config) (env : TimeRelease.Env) (s : Wrapped.State) (x : Submission) : Prop :=
  (Whole.apply cfg s (x.event env)).world.extrinsic = s.world.extrinsic + 1

/-- The state in which the number of an account has come. -/
def whenNext (s : Wrapped.State) (who : AccountId) (n : Nat) : Wrapped.State :=
  { s with nonces := fun w => if w = who then n else s.nonces w }

/-! ## Lemmas -/

theorem extrinsic_guarded (cfg : Wrapped.Config) (env : TimeRelease.Env) (n : Nat) :
    Wrapped.Guarded cfg env (fun w => w.extrinsic = n) (fun _ _ _ => True) where
  step := by
    rintro flt who c w w' - - hi h
    exact (Wrapped.step_log h).2.trans hi
  proxy := by intros; trivial
  announced := by
    rintro w w' delegate real force c d hi - he
    rw [(Wrapped.editAnns_some he).2]
    exact ⟨hi, trivial⟩
  batch := by intros; trivial
  derive := by intros; trivial
  pay := by intros; trivial
  payAll := by intros; trivial
  multi1 := by intros; trivial
  multi := by
    rintro flt who threshold others c w w' id now - hi ho
    obtain ⟨-, -, -, -, h⟩ := Wrapped.operate_frame ho
    exact ⟨h.trans hi, fun _ => trivial⟩

theorem exec_extrinsic (cfg : Wrapped.Config) (env : TimeRelease.Env) (flt : Wrapped.Filter) (who : AccountId)
    (c : Wrapped.Call) (w : Wrapped.World) : ((Wrapped.exec cfg env flt who c w).getD w).extrinsic = w.extrinsic := by
  cases h : Wrapped.exec cfg env flt who c w with
  | none => rfl
  | some w' => exact (extrinsic_guarded cfg env w.extrinsic).exec _ _ _ _ _ trivial rfl h

/-- What happens before the call of a transaction is executed. -/
def entered (cfg : Whole.Config) (s : Wrapped.State) : Submission → Option Wrapped.State
  | .signed _ _ t => Wrapped.takeIn cfg.wrapped s t
  | .passkey _ _ fee p => Whole.preDispatch cfg s fee p

theorem entered_none {cfg : Whole.Config} {env : TimeRelease.Env} {s : Wrapped.State} {x : Submission}
    (h : entered cfg s x = none) : Whole.apply cfg s (x.event env) = s := by
  cases x with
  | signed m q t =>
    have h : Wrapped.takeIn cfg.wrapped s t = none := h
    show Wrapped.submit cfg.wrapped s t = s
    simp only [Wrapped.submit, h]
  | passkey m q fee p =>
    have h : Whole.preDispatch cfg s fee p = none := h
    show Whole.passkey cfg s env fee p = s
    simp only [Whole.passkey, h]

theorem inBlock_iff (cfg : Whole.Config) (env : TimeRelease.Env) (s : Wrapped.State) (x : Submission) :
    InBlock cfg env s x ↔ (entered cfg s x).isSome = true := by
  unfold InBlock
  cases he : entered cfg s x with
  | none =>
    rw [entered_none he]
    simp
  | some s1 =>
    simp only [Option.isSome_some, iff_true]
    cases x with
    | signed m q t =>
      have he : Wrapped.takeIn cfg.wrapped s t = some s1 := he
      show (Wrapped.submit cfg.wrapped s t).world.extrinsic = _
      simp only [Wrapped.submit, he, exec_extrinsic]
      rw [(Wrapped.takeIn_some he).2.2]
    | passkey m q fee p =>
      have he : Whole.preDispatch cfg s fee p = some s1 := he
      show (Whole.passkey cfg s env fee p).world.extrinsic = _
      simp only [Whole.passkey, he, exec_extrinsic]
      simp only [Whole.preDispatch] at he
      split at he
      · cases he
      · split at he
        · split at he
          · simp only [Option.bind_eq_bind, Option.bind_eq_some_iff, Option.some.injEq] at he
            obtain ⟨_, _, _, _, rfl⟩ := he
            rfl
          · cases he
        · cases he

/-! ## C150 -/

/-- C150: the pool takes a transaction just when its number is not used up and a block would take it, in the present
state, if its number had come. -/
theorem C150_agree (cfg : Whole.Config) (env : TimeRelease.Env) (s : Wrapped.State) (x : Submission) :
    (check cfg s x).isSome = true ↔ s.nonces x.account ≤ x.number ∧
      InBlock cfg env (whenNext s x.account x.number) x := by
  rw [inBlock_iff]
  cases x with
  | signed m q t =>
    show (validate cfg.wrapped s m q t).isSome = true ↔ s.nonces t.who ≤ t.nonce ∧
      (Wrapped.takeIn cfg.wrapped (whenNext s t.who t.nonce) t).isSome = true
    unfold validate Wrapped.takeIn Wrapped.checkNonce
    have e : (whenNext s t.who t.nonce).nonces t.who = t.nonce := if_pos rfl
    by_cases h : s.nonces t.who ≤ t.nonce
    · rw [if_pos h, e, if_pos rfl]
      simp only [h, true_and]
      cases hp : Wrapped.pay cfg.wrapped s.world.tokens t with
      | none => simp [whenNext, hp]
      | some tok =>
        simp only [whenNext, hp, Option.bind_eq_bind, Option.bind_some]
        split <;> rfl
    · rw [if_neg h]
      simp [h]
  | passkey m q fee p =>
    show (validatePasskey cfg s m q fee p).isSome = true ↔ s.nonces p.account ≤ p.nonce ∧
      (Whole.preDispatch cfg (whenNext s p.account p.nonce) fee p).isSome = true
    unfold validatePasskey Whole.preDispatch Whole.checkNonce
    have e : (whenNext s p.account p.nonce).nonces p.account = p.nonce := if_pos rfl
    by_cases h : s.nonces p.account ≤ p.nonce
    · rw [e, if_pos rfl]
      simp only [h, true_and, if_true]
      split
      · simp
      · split
        · split
          · cases hp : Tokens.fee cfg.wrapped.wallet.tokens s.world.tokens p.account fee <;> simp [whenNext, hp]
          · simp
        · simp
    · simp only [h, if_false, false_and, iff_false]
      split
      · simp
      · split
        · split <;> simp
        · simp

/-- C150: a transaction with the next number is taken by the pool just when a block takes it now. -/
theorem C150_next (cfg : Whole.Config) (env : TimeRelease.Env) (s : Wrapped.State) (x : Submission)
    (hn : x.number = s.nonces x.account) : (check cfg s x).isSome = true ↔ InBlock cfg env s x := by
  have e : whenNext s x.account x.number = s := by
    unfold whenNext
    have : (fun w => if w = x.account then x.number else s.nonces w) = s.nonces := by
      funext w
      split
      · rename_i h
        rw [h, hn]
      · rfl
    rw [this]
  have h := C150_agree cfg env s x
  rw [e, hn] at h
  rw [h]
  exact ⟨fun h => h.2, fun h => ⟨Nat.le_refl _, h⟩⟩

/-- C150: what a block does not take leaves no trace, and a block takes nothing but the next number. -/
theorem C150_else (cfg : Whole.Config) (env : TimeRelease.Env) (s : Wrapped.State) (x : Submission) :
    (¬ InBlock cfg env s x → Whole.apply cfg s (x.event env) = s) ∧ (InBlock cfg env s x → x.number = s.nonces x.account) := by
  rw [inBlock_iff]
  refine ⟨fun h => ?_, fun h => ?_⟩
  · cases he : entered cfg s x with
    | none => exact entered_none he
    | some _ => rw [he] at h; exact absurd rfl h
  · obtain ⟨s1, he⟩ := Option.isSome_iff_exists.1 h
    cases x with
    | signed m q t =>
      have h1 := (Wrapped.takeIn_some he).1
      unfold Wrapped.checkNonce at h1
      split at h1
      · assumption
      · cases h1
    | passkey m q fee p =>
      have he : Whole.preDispatch cfg s fee p = some s1 := he
      simp only [Whole.preDispatch] at he
      split at he
      · cases he
      · split at he
        · split at he
          · simp only [Option.bind_eq_bind, Option.bind_eq_some_iff] at he
            obtain ⟨_, h1, _⟩ := he
            unfold Whole.checkNonce at h1
            split at h1
            · assumption
            · cases h1
          · cases he
        · cases he

/-! ## Concrete cases -/

/-- Key 20 retires its handle: taken, now and later. Key 30 has none: the transaction costs nothing, and is refused. -/
example : (check Whole.exCfg exState (exRetire 1 0)).isSome = true ∧ (check Whole.exCfg exState (exRetire 1 7)).isSome = true ∧
    (check Whole.exCfg exState (exTx 30 1 0 0 (.leaf (.handles .retire)))).isSome = false ∧
    (Whole.apply Whole.exCfg exState ((exRetire 1 0).event Wallet.exEnv)).world.extrinsic = 1 ∧
    (Whole.apply Whole.exCfg exState ((exRetire 1 7).event Wallet.exEnv)).world.extrinsic = 0 := by decide +kernel

end Verif.Pool
