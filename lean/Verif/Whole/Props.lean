import Verif.Whole.Model
import Verif.Wrapped.PropsTokens
/-!
# C138: tokens and passkeys
-/

namespace Verif.Whole
open Wrapped (State World Closed Circle Plain genesis)
open TimeRelease (acct)
open Tokens (total)

/-! ## Specification -/

/-- The payload carries a signature of its account on the public key of the passkey. -/
def Endorsed (cfg : Config) (p : Payload) : Prop := cfg.verify p.proof p.account (Msa.wrap p.publicKey) = true

/-- No account of the set signs a transaction. -/
def NoneSigns (D : AccountId → Prop) (es : List Event) : Prop := ∀ t, .signed (.submit t) ∈ es → ¬ D t.who

/-- No passkey signs a transaction for an account of the set. -/
def NoPasskeySigns (cfg : Config) (D : AccountId → Prop) (es : List Event) : Prop :=
  ∀ env fee p, .passkey env fee p ∈ es → Endorsed cfg p → cfg.passkeyValid p = true → ¬ D p.account

/-- No account of the set is in a passkey transaction with a signature of its own on the public key in it. -/
def NoneEndorsed (cfg : Config) (D : AccountId → Prop) (es : List Event) : Prop :=
  ∀ env fee p, .passkey env fee p ∈ es → Endorsed cfg p → ¬ D p.account

/-- Root does not replace the schedules of an account. -/
def SchedulesStay (x : AccountId) (es : List Event) : Prop := ∀ env l, .root env (.update x l) ∉ es

/-- The call transfers tokens. -/
def Transfers (c : Wrapped.Call) : Prop :=
  (∃ keep dest amount, c = .transfer keep dest amount) ∨ ∃ keep dest, c = .transferAll keep dest

/-- What the chain asks of a passkey transaction. -/
structure Accepted (cfg : Config) (s : State) (fee : Balance) (p : Payload) : Prop where
  testnet : cfg.wrapped.wallet.mainnet = false
  transfers : Transfers p.call
  endorsed : Endorsed cfg p
  next : p.nonce = s.nonces p.account
  pays : Wallet.CanPay cfg.wrapped.wallet s.world.tokens p.account fee

/-- The account exists after each event. -/
def Lives (cfg : Config) (x : AccountId) (s : State) : List Event → Prop
  | [] => True
  | e :: es => 0 < total (apply cfg s e).world.tokens x ∧ Lives cfg x (apply cfg s e) es

/-- What a transfer of an account does to the tokens: all of it or nothing. -/
def Moves (cfg : Tokens.Config) (env : TimeRelease.Env) (keep : Bool) (t t' : Tokens.State) (src dest : AccountId)
    (amount : Balance) : Prop :=
  (Tokens.MayLeave cfg env keep t src amount ∧ Tokens.MayArrive cfg t dest amount ∧
    ∀ w, acct t'.ledger w = { acct t.ledger w with free := Tokens.freeAfter cfg t src dest amount w }) ∨
  (¬ (Tokens.MayLeave cfg env keep t src amount ∧ Tokens.MayArrive cfg t dest amount) ∧
    ∀ w, acct t'.ledger w = acct t.ledger w)

/-- C138 in full: tokens of accounts that only they have power over leave them only if one of them signs a transaction,
or its passkey does. -/
def C138_full : Prop :=
  ∀ (cfg : Config) (_ : ∀ l k l' k', cfg.wrapped.multi l k = cfg.wrapped.multi l' k' → l = l' ∧ k = k') (n : Nat)
    (l : TimeRelease.State) (_ : Tokens.Start cfg.wrapped.wallet.tokens l) (es es' : List Event) (D : AccountId → Prop)
    (_ : Closed cfg.wrapped D) (_ : Circle cfg.wrapped D (run cfg (genesis n l) es).world)
    (_ : NoneSigns D es') (_ : NoPasskeySigns cfg D es') (x : AccountId) (_ : D x),
    total (run cfg (genesis n l) es).world.tokens x ≤ total (run cfg (run cfg (genesis n l) es) es').world.tokens x

/-! ## What a passkey transaction does -/

/-- What happens to the tokens: time passes, governance decides, or accounts with a property act. -/
inductive Of (P : AccountId → Prop) : Tokens.Step → Prop
  | newBlock : Of P .newBlock
  | tick (n) : Of P (.tick n)
  | upgrade (known) : Of P (.upgrade known)
  | council (c) : Of P (.call .council c)
  | root (env c) : Of P (.release env none c)
  | by_ {a x} : P a → Wallet.By a x → Of P x

theorem leaf_refused (c : Chain.Call) : Runtime.passkeyContains (Tx.view c) = false := by
  cases c <;> rename_i c <;> cases c <;> rfl

/-- Calls that the pallet accepts are transfers; they execute nothing else. -/
theorem exec_accepted {cfg : Wrapped.Config} {env : TimeRelease.Env} {flt : Wrapped.Filter} {who : AccountId}
    {c : Wrapped.Call} {w w' : World} (hc : Runtime.passkeyContains c.view = true)
    (h : Wrapped.exec cfg env flt who c w = some w') :
    ∃ w1, Wrapped.step cfg env who w c = some w1 ∧ w' = w1.done who c ∧ w1.log = w.log ∧ w1.defs = w.defs ∧
      w1.anns = w.anns ∧ w1.multis = w.multis := by
  rw [Wrapped.exec.eq_def] at h
  split at h
  · cases c with
    | transfer keep dest amount =>
      obtain ⟨w1, h1, rfl⟩ := Option.map_eq_some_iff.1 h
      refine ⟨w1, h1, rfl, ?_⟩
      obtain ⟨t, _, rfl⟩ := Option.map_eq_some_iff.1 h1
      exact ⟨rfl, rfl, rfl, rfl⟩
    | transferAll keep dest =>
      obtain ⟨w1, h1, rfl⟩ := Option.map_eq_some_iff.1 h
      refine ⟨w1, h1, rfl, ?_⟩
      obtain ⟨t, _, rfl⟩ := Option.map_eq_some_iff.1 h1
      exact ⟨rfl, rfl, rfl, rfl⟩
    | other f size =>
      obtain ⟨w1, h1, rfl⟩ := Option.map_eq_some_iff.1 h
      refine ⟨w1, h1, rfl, ?_⟩
      cases h1
      exact ⟨rfl, rfl, rfl, rfl⟩
    | leaf c =>
      rw [Wrapped.Call.view, leaf_refused] at hc
      cases hc
    | release c => cases c <;> simp [Wrapped.Call.view, Runtime.passkeyContains] at hc
    | _ => simp [Wrapped.Call.view, Runtime.passkeyContains] at hc
  · cases h

theorem preDispatch_some {cfg : Config} {s s1 : State} {fee : Balance} {p : Payload}
    (h : preDispatch cfg s fee p = some s1) :
    cfg.wrapped.wallet.mainnet = false ∧ Runtime.passkeyContains p.call.view = true ∧ Endorsed cfg p ∧
    checkNonce s p = some s1.nonces ∧
    ∃ t, Tokens.fee cfg.wrapped.wallet.tokens s.world.tokens p.account fee = some t ∧
      s1.world = { s.world with tokens := t, extrinsic := s.world.extrinsic + 1 } := by
  unfold preDispatch at h
  split at h
  · cases h
  · rename_i hm
    split at h
    · rename_i hc
      split at h
      · rename_i hv
        simp only [Option.bind_eq_bind, Option.bind_eq_some_iff, Option.some.injEq] at h
        obtain ⟨n, hn, t, ht, rfl⟩ := h
        exact ⟨by simpa using hm, hc, hv, hn, t, ht, rfl⟩
      · cases h
    · cases h

/-- A passkey transaction changes nothing, or is endorsed by its account and changes the world by its payment and by
calls of that account. -/
theorem passkey_steps (cfg : Config) (s : State) (env : TimeRelease.Env) (fee : Balance) (p : Payload) :
    passkey cfg s env fee p = s ∨ (Endorsed cfg p ∧ cfg.wrapped.wallet.mainnet = false ∧
      ∃ q l, (passkey cfg s env fee p).world.tokens = Tokens.run cfg.wrapped.wallet.tokens s.world.tokens q ∧
        (∀ y ∈ q, Wallet.By p.account y) ∧ (passkey cfg s env fee p).world.log = s.world.log ++ l ∧
        (∀ e ∈ l, e.1 = p.account) ∧ (passkey cfg s env fee p).world.defs = s.world.defs ∧
        (passkey cfg s env fee p).world.anns = s.world.anns ∧ (passkey cfg s env fee p).world.multis = s.world.multis ∧
        ∀ x, x ≠ p.account → (passkey cfg s env fee p).nonces x = s.nonces x) := by
  unfold passkey
  split
  · exact .inl rfl
  · rename_i s1 h1
    obtain ⟨hm, hc, hv, hn, t, ht, hw⟩ := preDispatch_some h1
    refine .inr ⟨hv, hm, ?_⟩
    dsimp only
    have ht' : t = Tokens.run cfg.wrapped.wallet.tokens s.world.tokens [.fee p.account fee] := by
      simp [Tokens.run, Tokens.apply, ht]
    have hrest : ∃ q l, ((Wrapped.exec cfg.wrapped env (Wrapped.base cfg.wrapped) p.account p.call s1.world).getD
          s1.world).tokens = Tokens.run cfg.wrapped.wallet.tokens s1.world.tokens q ∧
        (∀ y ∈ q, Wallet.By p.account y) ∧ ((Wrapped.exec cfg.wrapped env (Wrapped.base cfg.wrapped) p.account p.call
          s1.world).getD s1.world).log = s1.world.log ++ l ∧ (∀ e ∈ l, e.1 = p.account) ∧
        ((Wrapped.exec cfg.wrapped env (Wrapped.base cfg.wrapped) p.account p.call s1.world).getD s1.world).defs =
          s1.world.defs ∧
        ((Wrapped.exec cfg.wrapped env (Wrapped.base cfg.wrapped) p.account p.call s1.world).getD s1.world).anns =
          s1.world.anns ∧
        ((Wrapped.exec cfg.wrapped env (Wrapped.base cfg.wrapped) p.account p.call s1.world).getD s1.world).multis =
          s1.world.multis := by
      cases he : Wrapped.exec cfg.wrapped env (Wrapped.base cfg.wrapped) p.account p.call s1.world with
      | none => exact ⟨[], [], rfl, by simp, by simp, by simp, rfl, rfl, rfl⟩
      | some w' =>
        obtain ⟨w1, hs, rfl, e1, e2, e3, e4⟩ := exec_accepted hc he
        refine ⟨_, [(p.account, p.call)], (show w1.tokens = _ from Wrapped.step_tokens hs), fun y hy => ?_, ?_, by simp, e2, e3, e4⟩
        · rw [Option.mem_toList] at hy
          exact Wrapped.deed_by hy
        · show w1.log ++ _ = _
          rw [e1]
    generalize (Wrapped.exec cfg.wrapped env (Wrapped.base cfg.wrapped) p.account p.call s1.world).getD s1.world = w at *
    obtain ⟨q, l, h2, h3, h4, h5, h6, h7, h8⟩ := hrest
    refine ⟨[.fee p.account fee] ++ q, l, ?_, fun y hy => ?_, ?_, h5, ?_, ?_, ?_, fun x hx => ?_⟩
    · rw [Wallet.run_append, ← ht', h2, hw]
    · rcases List.mem_append.1 hy with hy | hy
      · rw [List.mem_singleton.1 hy]; exact .fee _
      · exact h3 y hy
    · rw [h4, hw]
    · rw [h6, hw]
    · rw [h7, hw]
    · rw [h8, hw]
    · rw [Wrapped.forget_kept]
      · unfold checkNonce at hn
        split at hn
        · rw [← Option.some.inj hn]
          split
          · rfl
          · exact Wrapped.put_other _ _ hx
        · cases hn
      · rw [h2]
        exact Wrapped.run_total _ _ _ (fun y hy => ⟨p.account, fun e => hx e.symm, h3 y hy⟩)

/-! ## C138 -/

/-- C138, what is missing is that the passkey has to sign: as long as nobody in a circle of accounts signs a transaction,
and no passkey transaction comes with a signature of one of them on a public key, no call is executed for any of them,
their proxies and numbers stay, and tokens and pallets change by what others and governance do. They remain a circle. -/
theorem C138_circle_partial (cfg : Config)
    (hinj : ∀ l k l' k', cfg.wrapped.multi l k = cfg.wrapped.multi l' k' → l = l' ∧ k = k')
    (D : AccountId → Prop) (hs : Closed cfg.wrapped D) (s : State) (hc : Circle cfg.wrapped D s.world) (h : List Event)
    (hn : NoneSigns D h) (hp : NoneEndorsed cfg D h) :
    (∃ l, (run cfg s h).world.log = s.world.log ++ l ∧ ∀ e ∈ l, ¬ D e.1) ∧
    (∀ x, D x → (run cfg s h).world.defs x = s.world.defs x ∧ (run cfg s h).nonces x = s.nonces x) ∧
    (∃ q, (run cfg s h).world.tokens = Tokens.run cfg.wrapped.wallet.tokens s.world.tokens q ∧
      ∀ y ∈ q, Of (fun a => ¬ D a) y ∧ ∀ x env l, y = .release env none (.update x l) → .root env (.update x l) ∈ h) ∧
    Circle cfg.wrapped D (run cfg s h).world := by
  induction h generalizing s with
  | nil => exact ⟨⟨[], by simp [run], by simp⟩, fun x _ => ⟨rfl, rfl⟩, ⟨[], rfl, by simp⟩, hc⟩
  | cons e h ih =>
    have gov : ∀ y, Of (fun a => ¬ D a) y → (∀ x env l, y = .release env none (.update x l) → e = .root env (.update x l)) →
        (∃ l, (onTokens cfg s y).world.log = s.world.log ++ l ∧ ∀ e ∈ l, ¬ D e.1) ∧
        (∀ x, D x → (onTokens cfg s y).world.defs x = s.world.defs x ∧ (onTokens cfg s y).nonces x = s.nonces x) ∧
        (∃ q, (onTokens cfg s y).world.tokens = Tokens.run cfg.wrapped.wallet.tokens s.world.tokens q ∧
          ∀ y ∈ q, Of (fun a => ¬ D a) y ∧ ∀ x env l, y = .release env none (.update x l) → e = .root env (.update x l)) ∧
        Circle cfg.wrapped D (onTokens cfg s y).world := by
      intro y hy hr
      refine ⟨⟨[], by simp [onTokens], by simp⟩, fun x _ => ⟨rfl, rfl⟩, ⟨[y], rfl, ?_⟩,
        ⟨hc.delegates, hc.announced, hc.pending⟩⟩
      intro z hz
      rw [List.mem_singleton.1 hz]
      exact ⟨hy, hr⟩
    have hby : ∀ {a y}, Wallet.By a y → ∀ x env l, y = .release env none (.update x l) → e = .root env (.update x l) := by
      intro a y hy x env l e1
      subst e1
      cases hy with
      | does hd => cases hd
    have hstep : (∃ l, (apply cfg s e).world.log = s.world.log ++ l ∧ ∀ e ∈ l, ¬ D e.1) ∧
        (∀ x, D x → (apply cfg s e).world.defs x = s.world.defs x ∧ (apply cfg s e).nonces x = s.nonces x) ∧
        (∃ q, (apply cfg s e).world.tokens = Tokens.run cfg.wrapped.wallet.tokens s.world.tokens q ∧
          ∀ y ∈ q, Of (fun a => ¬ D a) y ∧ ∀ x env l, y = .release env none (.update x l) → e = .root env (.update x l)) ∧
        Circle cfg.wrapped D (apply cfg s e).world := by
      cases e with
      | signed e =>
        obtain ⟨h1, h2, ⟨q, h3, h4⟩, h5⟩ := Wrapped.C127_circle cfg.wrapped hinj D hs s hc [e] (by
          intro t ht
          exact hn t (by rw [List.mem_singleton.1 ht]; simp))
        refine ⟨h1, h2, ⟨q, h3, fun y hy => ?_⟩, h5⟩
        cases h4 y hy with
        | newBlock => exact ⟨.newBlock, by simp⟩
        | tick n => exact ⟨.tick n, by simp⟩
        | by_ ha hb => exact ⟨.by_ ha hb, hby hb⟩
      | passkey env fee p =>
        rcases passkey_steps cfg s env fee p with e | ⟨hv, -, q, l, h1, h2, h3, h4, h5, h6, h7, h8⟩
        · show (∃ l, (passkey cfg s env fee p).world.log = _ ∧ _) ∧ _
          have e' : apply cfg s (.passkey env fee p) = s := e
          rw [e', e]
          exact ⟨⟨[], by simp, by simp⟩, fun x _ => ⟨rfl, rfl⟩, ⟨[], rfl, by simp⟩, hc⟩
        · have hd : ¬ D p.account := hp env fee p (by simp) hv
          refine ⟨⟨l, h3, fun e he => by rw [h4 e he]; exact hd⟩,
            fun x hx => ⟨congrFun h5 x, h8 x (fun e => hd (e ▸ hx))⟩,
            ⟨q, h1, fun y hy => ⟨.by_ hd (h2 y hy), hby (h2 y hy)⟩⟩, ⟨?_, ?_, ?_⟩⟩
          · show ∀ x, D x → ∀ d ∈ (passkey cfg s env fee p).world.defs x, _
            rw [h5]; exact hc.delegates
          · show ∀ x, D x → ∀ d ∈ (passkey cfg s env fee p).world.anns x, _
            rw [h6]; exact hc.announced
          · show ∀ l k, _ → ∀ h m, (passkey cfg s env fee p).world.multis (cfg.wrapped.multi l k) h = some m → _
            rw [h7]; exact hc.pending
      | council c => exact gov _ (.council c) (by simp)
      | root env c => exact gov _ (.root env c) (by
          intro x env' l e
          cases e; rfl)
      | upgrade known => exact gov _ (.upgrade known) (by simp)
    obtain ⟨⟨l1, a1, a2⟩, b, ⟨q1, c1, c2⟩, d⟩ := hstep
    obtain ⟨⟨l2, a1', a2'⟩, b', ⟨q2, c1', c2'⟩, d'⟩ := ih (apply cfg s e) d (fun t ht => hn t (List.mem_cons_of_mem _ ht))
      (fun env fee p hm => hp env fee p (List.mem_cons_of_mem _ hm))
    have hr : run cfg s (e :: h) = run cfg (apply cfg s e) h := rfl
    rw [hr]
    refine ⟨⟨l1 ++ l2, by rw [a1', a1, List.append_assoc], fun e he => ?_⟩,
      fun x hx => ⟨(b' x hx).1.trans (b x hx).1, (b' x hx).2.trans (b x hx).2⟩,
      ⟨q1 ++ q2, by rw [c1', c1, Wallet.run_append], fun y hy => ?_⟩, d'⟩
    · rcases List.mem_append.1 he with he | he
      · exact a2 e he
      · exact a2' e he
    · rcases List.mem_append.1 hy with hy | hy
      · obtain ⟨g1, g2⟩ := c2 y hy
        exact ⟨g1, fun x env l hy => by rw [g2 x env l hy]; simp⟩
      · obtain ⟨g1, g2⟩ := c2' y hy
        exact ⟨g1, fun x env l hy => List.mem_cons_of_mem _ (g2 x env l hy)⟩

/-- All that happens to the tokens are steps of the chain with its tokens. -/
theorem tokens_history (cfg : Config) (s : State) (h : List Event) :
    ∃ q, (run cfg s h).world.tokens = Tokens.run cfg.wrapped.wallet.tokens s.world.tokens q := by
  induction h generalizing s with
  | nil => exact ⟨[], rfl⟩
  | cons e h ih =>
    have : ∃ q, (apply cfg s e).world.tokens = Tokens.run cfg.wrapped.wallet.tokens s.world.tokens q := by
      cases e with
      | signed e => exact Wrapped.tokens_history cfg.wrapped s [e]
      | passkey env fee p =>
        rcases passkey_steps cfg s env fee p with e | ⟨-, -, q, l, h1, -⟩
        · exact ⟨[], by simp only [apply, e]; rfl⟩
        · exact ⟨q, h1⟩
      | council c => exact ⟨[.call .council c], rfl⟩
      | root env c => exact ⟨[.release env none c], rfl⟩
      | upgrade known => exact ⟨[.upgrade known], rfl⟩
    obtain ⟨q1, h1⟩ := this
    obtain ⟨q2, h2⟩ := ih (apply cfg s e)
    refine ⟨q1 ++ q2, ?_⟩
    show (run cfg (apply cfg s e) h).world.tokens = _
    rw [h2, h1, Wallet.run_append]

theorem good_reach {cfg : Config} {n : Nat} {l : TimeRelease.State} (hs : Tokens.Start cfg.wrapped.wallet.tokens l)
    (es : List Event) : Tokens.Good cfg.wrapped.wallet.tokens n l (run cfg (genesis n l) es).world.tokens := by
  obtain ⟨q, e⟩ := tokens_history cfg (genesis n l) es
  rw [e]
  exact Wallet.good_run_from hs (Tokens.good_genesis n hs) q

/-- A step of others or governance, in the words of `Wallet`. -/
theorem of_wallet {P : AccountId → Prop} {x : Tokens.Step} (h : Of P x) {w : AccountId} (hw : ¬ P w) :
    ∃ e, Wallet.Of e x ∧ (∀ t, e = .submit t → t.who ≠ w) ∧
      ∀ env l, e = .root env (.update w l) → x = .release env none (.update w l) := by
  cases h with
  | newBlock => exact ⟨.newBlock, .newBlock, by simp, by simp⟩
  | tick n => exact ⟨.tick n, .tick n, by simp, by simp⟩
  | upgrade k => exact ⟨.upgrade k, .upgrade k, by simp, by simp⟩
  | council c => exact ⟨.council c, .council c, by simp, by simp⟩
  | root env c => exact ⟨.root env c, .root env c, by simp, fun env' l e => by cases e; rfl⟩
  | @by_ a _ hp hb =>
    refine ⟨.submit ⟨a, 0, .transferAll true 0, 0, 0, 0, ⟨true, true⟩⟩, .submit hb, fun t e => ?_, by simp⟩
    cases e
    exact fun e => hw (e ▸ hp)

/-- C138, what is missing is that the passkey has to sign: as long as nobody in a circle of accounts signs a transaction,
and no passkey transaction comes with a signature of one of them on a public key, none of them has fewer tokens than
before; and what an account may transfer does not get less unless root replaces its schedules. -/
theorem C138_kept_partial (cfg : Config)
    (hinj : ∀ l k l' k', cfg.wrapped.multi l k = cfg.wrapped.multi l' k' → l = l' ∧ k = k') (n : Nat)
    (l : TimeRelease.State) (hs : Tokens.Start cfg.wrapped.wallet.tokens l) (es es' : List Event) (D : AccountId → Prop)
    (hcl : Closed cfg.wrapped D) (hc : Circle cfg.wrapped D (run cfg (genesis n l) es).world)
    (hn : NoneSigns D es') (hp : NoneEndorsed cfg D es') (x : AccountId) (hx : D x) :
    let s := (run cfg (genesis n l) es).world.tokens
    let s' := (run cfg (run cfg (genesis n l) es) es').world.tokens
    total s x ≤ total s' x ∧ (SchedulesStay x es' → Wallet.spendable s x ≤ Wallet.spendable s' x) := by
  intro s s'
  obtain ⟨-, -, ⟨q, hq, ho⟩, -⟩ := C138_circle_partial cfg hinj D hcl _ hc es' hn hp
  have g : Tokens.Good cfg.wrapped.wallet.tokens n l s := good_reach hs es
  have key := Wallet.steps_kept hs x q g (fun y hy => by
    obtain ⟨e, h1, h2, -⟩ := of_wallet (ho y hy).1 (w := x) (by simpa using hx)
    exact ⟨e, h1, h2⟩)
  have e : s' = Tokens.run cfg.wrapped.wallet.tokens s q := hq
  rw [e]
  refine ⟨key.1, fun hst => key.2 (fun y hy => ?_)⟩
  obtain ⟨e, h1, h2, h3⟩ := of_wallet (ho y hy).1 (w := x) (by simpa using hx)
  exact ⟨e, h1, h2, fun env l he => hst env l ((ho y hy).2 x env l (h3 env l he))⟩

/-- C138 for a single account with a key of its own that has no proxies. -/
theorem C138_alone_partial (cfg : Config)
    (hinj : ∀ l k l' k', cfg.wrapped.multi l k = cfg.wrapped.multi l' k' → l = l' ∧ k = k') (n : Nat)
    (l : TimeRelease.State) (hs : Tokens.Start cfg.wrapped.wallet.tokens l) (es es' : List Event) (x : AccountId)
    (hp : Plain cfg.wrapped x) (hd : (run cfg (genesis n l) es).world.defs x = [])
    (hn : NoneSigns (· = x) es') (he : NoneEndorsed cfg (· = x) es') :
    let s := (run cfg (genesis n l) es).world.tokens
    let s' := (run cfg (run cfg (genesis n l) es) es').world.tokens
    total s x ≤ total s' x ∧ (SchedulesStay x es' → Wallet.spendable s x ≤ Wallet.spendable s' x) := by
  have ha : Wrapped.Apart x (run cfg (genesis n l) es).world := by
    have h0 : Wrapped.Apart x (genesis n l).world := ⟨by simp [genesis], by simp [genesis]⟩
    generalize genesis n l = s0 at h0
    clear hd
    induction es generalizing s0 with
    | nil => exact h0
    | cons e es ih =>
      refine ih (apply cfg s0 e) ?_
      cases e with
      | signed e => exact Wrapped.apart_run cfg.wrapped x hp s0 [e] h0
      | passkey env fee p =>
        show Wrapped.Apart x (passkey cfg s0 env fee p).world
        rcases passkey_steps cfg s0 env fee p with e | ⟨-, -, q, l, -, -, -, -, h5, h6, -⟩
        · rw [e]; exact h0
        · unfold Wrapped.Apart
          rw [h5, h6]
          exact h0
      | council c => exact h0
      | root env c => exact h0
      | upgrade known => exact h0
  refine C138_kept_partial cfg hinj n l hs es es' (· = x) ⟨?_, ?_, ?_⟩ ⟨?_, ?_, ?_⟩ hn he x rfl
  · exact fun a i h => absurd h (hp.derived a i)
  · exact fun a t i b e h => absurd h (hp.pure a t i b e)
  · exact fun l k h => absurd h (hp.multi l k)
  · rintro y rfl d hdm
    rw [hd] at hdm
    simp at hdm
  · rintro y rfl a hm
    exact ha.2 a hm
  · exact fun l k h => absurd h (hp.multi l k)

theorem transfers_iff {c : Wrapped.Call} (h : ∀ f k, c ≠ .other f k) :
    Runtime.passkeyContains c.view = true ↔ Transfers c := by
  unfold Transfers
  cases c with
  | transfer keep dest amount => cases keep <;> simp [Wrapped.Call.view, Runtime.passkeyContains]
  | transferAll keep dest => simp [Wrapped.Call.view, Runtime.passkeyContains]
  | other f k => exact absurd rfl (h f k)
  | leaf c => simp [Wrapped.Call.view, leaf_refused]
  | release c => cases c <;> simp [Wrapped.Call.view, Runtime.passkeyContains]
  | _ => simp [Wrapped.Call.view, Runtime.passkeyContains]

theorem transfers_paid {c : Wrapped.Call} (h : Transfers c) : Runtime.paysNo c.view = false := by
  obtain ⟨keep, dest, amount, rfl⟩ | ⟨keep, dest, rfl⟩ := h
  · cases keep <;> rfl
  · rfl

theorem transfers_allowed {m : Bool} {c : Wrapped.Call} (h : Transfers c) : Runtime.contains m c.view = true := by
  obtain ⟨keep, dest, amount, rfl⟩ | ⟨keep, dest, rfl⟩ := h
  · cases keep <;> rfl
  · rfl

theorem accepted_iff (cfg : Config) (n : Nat) (l : TimeRelease.State) (s : State) (fee : Balance) (p : Payload)
    (g : Tokens.Good cfg.wrapped.wallet.tokens n l s.world.tokens) (ho : ∀ f k, p.call ≠ .other f k) :
    (preDispatch cfg s fee p).isSome = true ↔ Accepted cfg s fee p := by
  constructor
  · intro h
    obtain ⟨s1, h1⟩ := Option.isSome_iff_exists.1 h
    obtain ⟨hm, hc, hv, hn, t, ht, -⟩ := preDispatch_some h1
    refine ⟨hm, (transfers_iff ho).1 hc, hv, ?_, (Wallet.fee_iff g p.account fee).1 (by rw [ht]; rfl)⟩
    unfold checkNonce at hn
    split at hn
    · assumption
    · cases hn
  · rintro ⟨hm, hc, hv, hn, hp⟩
    obtain ⟨t, ht⟩ := Option.isSome_iff_exists.1 ((Wallet.fee_iff g p.account fee).2 hp)
    have hv' : cfg.verify p.proof p.account (Msa.wrap p.publicKey) = true := hv
    simp [preDispatch, hm, (transfers_iff ho).2 hc, hv', checkNonce, hn, ht]

/-- A transfer in a good state, in the words of the specification. -/
theorem moves (cfg : Tokens.Config) (n : Nat) (l : TimeRelease.State) (hs : Tokens.Start cfg l) (h : List Tokens.Step)
    (env : TimeRelease.Env) (keep : Bool) (src dest : AccountId) (amount : Balance) :
    let t := Tokens.run cfg (Tokens.genesis n l) h
    let t' := (Tokens.transfer cfg env keep t src dest amount).getD t
    Moves cfg env keep t t' src dest amount ∧ t'.chain = t.chain ∧ t'.locks = t.locks ∧
      t'.ledger.schedules = t.ledger.schedules := by
  obtain ⟨h1, h2⟩ := Tokens.C131_transfer cfg n l hs h env keep src dest amount
  intro t t'
  cases e : Tokens.transfer cfg env keep t src dest amount with
  | none =>
    have e' : t' = t := by simp only [t', e]; rfl
    rw [e']
    refine ⟨.inr ⟨fun hm => ?_, fun _ => rfl⟩, rfl, rfl, rfl⟩
    obtain ⟨s', h⟩ := h1.2 hm
    rw [e] at h
    cases h
  | some t2 =>
    have e' : t' = t2 := by simp only [t', e]; rfl
    obtain ⟨a1, a2, a3, a4, a5⟩ := h2 t2 e
    rw [e']
    obtain ⟨b1, b2⟩ := h1.1 ⟨t2, e⟩
    exact ⟨.inl ⟨b1, b2, a1⟩, a2, a3, a5⟩

/-- C138, what a passkey transaction does: it is taken in just if the chain is not the main network, its call is a transfer
of tokens, it carries a signature of its account on its public key, it has the next number of the account, and the account
can pay; the passkey's own signature is not asked for. Otherwise nothing happens. If it is taken in the account pays, and
then the transfer happens just as if the account had signed it; the number is used up, unless the account is closed, and
numbers and everything else of other accounts stay. -/
theorem C138_effect (cfg : Config) (n : Nat) (l : TimeRelease.State) (hs : Tokens.Start cfg.wrapped.wallet.tokens l)
    (es : List Event) (env : TimeRelease.Env) (fee : Balance) (p : Payload) (ho : ∀ f k, p.call ≠ .other f k) :
    let s := run cfg (genesis n l) es
    let s' := passkey cfg s env fee p
    (¬ Accepted cfg s fee p → s' = s) ∧
    (Accepted cfg s fee p → ∃ t,
      (∀ w, acct t.ledger w =
        { acct s.world.tokens.ledger w with free := (acct s.world.tokens.ledger w).free - if w = p.account then fee else 0 }) ∧
      t.chain = s.world.tokens.chain ∧ t.locks = s.world.tokens.locks ∧
      t.ledger.schedules = s.world.tokens.ledger.schedules ∧
      (∀ keep dest amount, p.call = .transfer keep dest amount →
        Moves cfg.wrapped.wallet.tokens env keep t s'.world.tokens p.account dest amount) ∧
      (∀ keep dest, p.call = .transferAll keep dest → ∃ all,
        Tokens.MayLeave cfg.wrapped.wallet.tokens env keep t p.account all ∧
        (∀ amount, Tokens.MayLeave cfg.wrapped.wallet.tokens env keep t p.account amount → amount ≤ all) ∧
        Moves cfg.wrapped.wallet.tokens env keep t s'.world.tokens p.account dest all) ∧
      s'.world.tokens.chain = t.chain ∧ s'.world.tokens.locks = t.locks ∧
      s'.world.tokens.ledger.schedules = t.ledger.schedules ∧ s'.world.defs = s.world.defs ∧
      s'.world.anns = s.world.anns ∧ s'.world.multis = s.world.multis ∧
      (∀ x, x ≠ p.account → s'.nonces x = s.nonces x) ∧
      s'.nonces p.account = if 0 < total t p.account ∧ total s'.world.tokens p.account = 0 then 0 else p.nonce + 1) := by
  intro s s'
  have g : Tokens.Good cfg.wrapped.wallet.tokens n l s.world.tokens := good_reach hs es
  have hiff := accepted_iff cfg n l s fee p g ho
  refine ⟨fun h => ?_, fun h => ?_⟩
  · have : preDispatch cfg s fee p = none := by
      cases e : preDispatch cfg s fee p with
      | none => rfl
      | some s1 => exact absurd (hiff.1 (by rw [e]; rfl)) h
    show passkey cfg s env fee p = s
    unfold passkey
    rw [this]
  · obtain ⟨s1, h1⟩ := Option.isSome_iff_exists.1 (hiff.2 h)
    obtain ⟨hm, hc, hv, hn, t, ht, hw⟩ := preDispatch_some h1
    have ht1 : t = Tokens.run cfg.wrapped.wallet.tokens s.world.tokens [.fee p.account fee] := by
      simp [Tokens.run, Tokens.apply, ht]
    obtain ⟨q, hq⟩ := tokens_history cfg (genesis n l) es
    have ht2 : t = Tokens.run cfg.wrapped.wallet.tokens (Tokens.genesis n l) (q ++ [.fee p.account fee]) := by
      rw [Wallet.run_append, ht1]
      exact congrArg (Tokens.run _ · _) hq
    have hs' : s' = ⟨(Wrapped.exec cfg.wrapped env (Wrapped.base cfg.wrapped) p.account p.call s1.world).getD s1.world,
        Wrapped.forget s1.world.tokens ((Wrapped.exec cfg.wrapped env (Wrapped.base cfg.wrapped) p.account p.call
          s1.world).getD s1.world).tokens s1.nonces⟩ := by
      show passkey cfg s env fee p = _
      unfold passkey
      rw [h1]
    have hx : ∀ keep dest amount, Wrapped.step cfg.wrapped env p.account s1.world p.call =
        (Tokens.transfer cfg.wrapped.wallet.tokens env keep s1.world.tokens p.account dest amount).map
          (fun u => { s1.world with tokens := u }) → (∀ w, ∃ c, p.call = c ∧ Wrapped.exec cfg.wrapped env
            (Wrapped.base cfg.wrapped) p.account p.call w = (Wrapped.step cfg.wrapped env p.account w p.call).map
              (·.done p.account p.call)) →
        s'.world.tokens = (Tokens.transfer cfg.wrapped.wallet.tokens env keep t p.account dest amount).getD t ∧
        s'.world.defs = s.world.defs ∧ s'.world.anns = s.world.anns ∧ s'.world.multis = s.world.multis := by
      intro keep dest amount e1 e2
      obtain ⟨-, -, e2⟩ := e2 s1.world
      have e3 : s1.world.tokens = t := by rw [hw]
      rw [hs', e2, e1, e3]
      dsimp only
      cases Tokens.transfer cfg.wrapped.wallet.tokens env keep t p.account dest amount with
      | none => exact ⟨e3, by rw [Option.map_none, Option.map_none, Option.getD_none, hw],
          by rw [Option.map_none, Option.map_none, Option.getD_none, hw],
          by rw [Option.map_none, Option.map_none, Option.getD_none, hw]⟩
      | some u => exact ⟨rfl, (show s1.world.defs = _ by rw [hw]), (show s1.world.anns = _ by rw [hw]),
          (show s1.world.multis = _ by rw [hw])⟩
    have hx2 : ∀ w, ∃ c, p.call = c ∧ Wrapped.exec cfg.wrapped env
            (Wrapped.base cfg.wrapped) p.account p.call w = (Wrapped.step cfg.wrapped env p.account w p.call).map
              (·.done p.account p.call) := by
      intro w
      refine ⟨_, rfl, ?_⟩
      have hb : Wrapped.base cfg.wrapped p.call = true := transfers_allowed h.transfers
      obtain ⟨keep, dest, amount, e⟩ | ⟨keep, dest, e⟩ := h.transfers <;>
      · rw [e] at hb ⊢
        rw [Wrapped.exec.eq_def, if_pos hb]
    have hfee : ∀ w, acct t.ledger w = { acct s.world.tokens.ledger w with
        free := (acct s.world.tokens.ledger w).free - if w = p.account then fee else 0 } := by
      intro w
      unfold Tokens.fee at ht
      dsimp only at ht
      split at ht
      · cases ht
        dsimp only
        rw [TimeRelease.acct_setAcct]
        by_cases e : w = p.account
        · subst e; simp
        · simp [e]
      · cases ht
    have hfee2 : t.chain = s.world.tokens.chain ∧ t.locks = s.world.tokens.locks ∧
        t.ledger.schedules = s.world.tokens.ledger.schedules := by
      unfold Tokens.fee at ht
      dsimp only at ht
      split at ht
      · cases ht; exact ⟨rfl, rfl, rfl⟩
      · cases ht
    have hnon : ∀ x, x ≠ p.account → s'.nonces x = s.nonces x := by
      rcases passkey_steps cfg s env fee p with e | ⟨-, -, q, l, -, -, -, -, -, -, -, h8⟩
      · intro x _
        exact congrArg (·.nonces x) e
      · exact h8
    have hnon2 : s'.nonces p.account =
        if 0 < total t p.account ∧ total s'.world.tokens p.account = 0 then 0 else p.nonce + 1 := by
      have e1 : s1.nonces p.account = p.nonce + 1 := by
        unfold checkNonce at hn
        rw [if_pos h.next, transfers_paid h.transfers] at hn
        rw [← Option.some.inj hn]
        simp [Wrapped.put]
      have e2 : s'.nonces = Wrapped.forget t s'.world.tokens s1.nonces := by
        rw [hs', hw]
      rw [e2]
      unfold Wrapped.forget Wallet.existing total
      rw [e1]
      simp only [Bool.and_eq_true, decide_eq_true_eq, Bool.not_eq_true', decide_eq_false_iff_not, Nat.not_lt, Nat.le_zero]
    refine ⟨t, hfee, hfee2.1, hfee2.2.1, hfee2.2.2, ?_⟩
    obtain ⟨keep, dest, amount, e⟩ | ⟨keep, dest, e⟩ := h.transfers
    · obtain ⟨k1, k2, k3, k4⟩ := hx keep dest amount (by rw [e]; rfl) hx2
      obtain ⟨m1, m2, m3, m4⟩ := moves cfg.wrapped.wallet.tokens n l hs (q ++ [.fee p.account fee]) env keep p.account dest
        amount
      rw [← ht2, ← k1] at m1 m2 m3 m4
      refine ⟨fun keep' dest' amount' e' => ?_, fun keep' dest' e' => ?_, m2, m3, m4, k2, k3, k4, hnon, hnon2⟩
      · rw [e] at e'; cases e'; exact m1
      · rw [e] at e'; cases e'
    · obtain ⟨k1, k2, k3, k4⟩ := hx keep dest
        (Tokens.reducible cfg.wrapped.wallet.tokens env keep (acct t.ledger p.account)) (by rw [e, hw]; rfl) hx2
      obtain ⟨m1, m2, m3, m4⟩ := moves cfg.wrapped.wallet.tokens n l hs (q ++ [.fee p.account fee]) env keep p.account dest
        (Tokens.reducible cfg.wrapped.wallet.tokens env keep (acct t.ledger p.account))
      have ha := Tokens.C131_transfer_all cfg.wrapped.wallet.tokens n l hs (q ++ [.fee p.account fee]) env keep p.account
      dsimp only at ha
      rw [← ht2] at ha
      rw [← ht2, ← k1] at m1 m2 m3 m4
      refine ⟨fun keep' dest' amount' e' => ?_, fun keep' dest' e' => ?_, m2, m3, m4, k2, k3, k4, hnon, hnon2⟩
      · rw [e] at e'; cases e'
      · rw [e] at e'; cases e'; exact ⟨_, ha.1, ha.2, m1⟩

/-! ## Numbers -/

theorem forget_alive {before after : Tokens.State} {nonces : AccountId → Nat} {x : AccountId} (h : 0 < total after x) :
    Wrapped.forget before after nonces x = nonces x := by
  unfold Wrapped.forget
  rw [if_neg]
  have : Wallet.existing after x = true := by simpa [Wallet.existing, total] using h
  simp [this]

theorem put_mono (nonces : AccountId → Nat) (y : AccountId) {k : Nat} (h : k = nonces y) (b : Bool) (x : AccountId) :
    nonces x ≤ (if b = true then nonces else Wrapped.put nonces y (k + 1)) x := by
  split
  · exact Nat.le_refl _
  · unfold Wrapped.put
    split
    · rename_i e; subst e; omega
    · exact Nat.le_refl _

/-- The number of an account that exists does not get smaller. -/
theorem nonces_mono (cfg : Config) (s : State) (e : Event) (x : AccountId)
    (h : 0 < total (apply cfg s e).world.tokens x) : s.nonces x ≤ (apply cfg s e).nonces x := by
  cases e with
  | signed e =>
    cases e with
    | newBlock => exact Nat.le_refl _
    | tick n => exact Nat.le_refl _
    | submit t =>
      show s.nonces x ≤ (Wrapped.submit cfg.wrapped s t).nonces x
      change 0 < total (Wrapped.submit cfg.wrapped s t).world.tokens x at h
      revert h
      unfold Wrapped.submit
      split
      · exact fun _ => Nat.le_refl _
      · rename_i s1 h1
        dsimp only
        intro h
        rw [forget_alive h]
        simp only [Wrapped.takeIn, Option.bind_eq_bind, Option.bind_eq_some_iff] at h1
        obtain ⟨m, hm, t', -, h1⟩ := h1
        split at h1
        · rw [← Option.some.inj h1]
          unfold Wrapped.checkNonce at hm
          split at hm
          · rename_i he
            rw [← Option.some.inj hm]
            exact put_mono s.nonces t.who he _ x
          · cases hm
        · cases h1
  | passkey env fee p =>
    show s.nonces x ≤ (passkey cfg s env fee p).nonces x
    change 0 < total (passkey cfg s env fee p).world.tokens x at h
    revert h
    unfold passkey
    split
    · exact fun _ => Nat.le_refl _
    · rename_i s1 h1
      dsimp only
      intro h
      rw [forget_alive h]
      obtain ⟨-, -, -, hn, -⟩ := preDispatch_some h1
      unfold checkNonce at hn
      split at hn
      · rename_i he
        rw [← Option.some.inj hn]
        exact put_mono s.nonces p.account he _ x
      · cases hn
  | council c => exact Nat.le_refl _
  | root env c => exact Nat.le_refl _
  | upgrade known => exact Nat.le_refl _

theorem nonces_lives (cfg : Config) (s : State) (es : List Event) (x : AccountId) (h : Lives cfg x s es) :
    s.nonces x ≤ (run cfg s es).nonces x := by
  induction es generalizing s with
  | nil => exact Nat.le_refl _
  | cons e es ih => exact Nat.le_trans (nonces_mono cfg s e x h.1) (ih _ h.2)

/-- C138, a passkey transaction takes effect once: while its account exists neither it nor another transaction of the
account, with the passkey or signed by the account, takes effect with the same or a lower number. -/
theorem C138_once (cfg : Config) (n : Nat) (l : TimeRelease.State) (hs : Tokens.Start cfg.wrapped.wallet.tokens l)
    (es es' : List Event) (env : TimeRelease.Env) (fee : Balance) (p : Payload) (ho : ∀ f k, p.call ≠ .other f k)
    (ha : Accepted cfg (run cfg (genesis n l) es) fee p)
    (hl : Lives cfg p.account (run cfg (genesis n l) es) (.passkey env fee p :: es')) :
    let s := run cfg (run cfg (genesis n l) es) (.passkey env fee p :: es')
    (∀ env' fee' p', p'.account = p.account → p'.nonce ≤ p.nonce → apply cfg s (.passkey env' fee' p') = s) ∧
    (∀ t, t.who = p.account → t.nonce ≤ p.nonce → apply cfg s (.signed (.submit t)) = s) := by
  intro s
  have h1 : p.nonce + 1 ≤ s.nonces p.account := by
    obtain ⟨-, he⟩ := C138_effect cfg n l hs es env fee p ho
    obtain ⟨t, -, -, -, -, -, -, -, -, -, -, -, -, -, hn⟩ := he ha
    have hpos : 0 < total (passkey cfg (run cfg (genesis n l) es) env fee p).world.tokens p.account := hl.1
    have := nonces_lives cfg _ es' p.account hl.2
    refine Nat.le_trans ?_ this
    show _ ≤ (passkey cfg (run cfg (genesis n l) es) env fee p).nonces p.account
    rw [hn, if_neg (by omega)]
  refine ⟨fun env' fee' p' e1 e2 => ?_, fun t e1 e2 => ?_⟩
  · show passkey cfg s env' fee' p' = s
    have hn : checkNonce s p' = none := by
      unfold checkNonce
      rw [if_neg]
      rw [e1]; omega
    have : preDispatch cfg s fee' p' = none := by
      unfold preDispatch
      rw [hn]
      split
      · rfl
      · split
        · split <;> rfl
        · rfl
    unfold passkey
    rw [this]
  · show Wrapped.submit cfg.wrapped s t = s
    have hn : Wrapped.checkNonce s t = none := by
      unfold Wrapped.checkNonce
      rw [if_neg]
      rw [e1]; omega
    unfold Wrapped.submit Wrapped.takeIn
    rw [hn]
    rfl

/-! ## Examples -/

/-- Key 30 has signed the passkey with public key `[1]`, and the passkey the transaction with number 0. -/
def exCfg : Config :=
  ⟨Wrapped.exCfg, fun _ who b => decide (who = 30) && decide (b = Msa.wrap [1]), fun p => decide (p.nonce = 0)⟩

/-- A passkey transaction: account 30 transfers 50 tokens. -/
def exPasskey (nonce : Nat) (dest : AccountId) : Event :=
  .passkey Wallet.exEnv 10 ⟨[1], [], [], [], 30, nonce, 0, .transfer false dest 50⟩

/-- Key 30 has used its passkey once. -/
def exUsed : List Event := [.signed .newBlock, exPasskey 0 40]

/-- C138 in full is false: key 30 has used its passkey once, and the transaction shows the signature of key 30 on its
public key. With that anyone transfers its tokens, without any signature of the passkey. -/
theorem C138_full_false : ¬ C138_full := by
  intro hf
  have hp : Plain Wrapped.exCfg 30 := Wrapped.exPlain 30 (by decide)
  have h := hf exCfg Wrapped.exMulti 1024 Tokens.exLedger Wrapped.exStart exUsed [exPasskey 1 20] (· = 30)
    ⟨fun a i h => absurd h (hp.derived a i), fun a t i b e h => absurd h (hp.pure a t i b e),
      fun l k h => absurd h (hp.multi l k)⟩ ⟨?_, ?_, fun l k h => absurd h (hp.multi l k)⟩ ?_ ?_ 30 rfl
  · exact absurd h (by decide +kernel)
  · rintro x rfl d hd
    have : (run exCfg (genesis 1024 Tokens.exLedger) exUsed).world.defs 30 = [] := by decide +kernel
    rw [this] at hd
    simp at hd
  · rintro x rfl d hd
    have : (run exCfg (genesis 1024 Tokens.exLedger) exUsed).world.anns 30 = [] := by decide +kernel
    rw [this] at hd
    simp at hd
  · intro t ht
    simp [exPasskey] at ht
  · intro env fee p hm _ hv
    simp only [exPasskey, List.mem_singleton, Event.passkey.injEq] at hm
    obtain ⟨-, -, rfl⟩ := hm
    simp [exCfg] at hv

/-- Hypotheses of `C138_effect` and `C138_once` met: the passkey transaction takes 50 tokens and the fee of 10 from key 30
and uses up its number 0, also for transactions that key 30 signs. -/
example :
    let s := run exCfg (genesis 1024 Tokens.exLedger) [.signed .newBlock]
    let s' := run exCfg s [exPasskey 0 40]
    let t' := run exCfg s' [exPasskey 0 40, .signed (Wrapped.exPay 30 0 (.transfer false 20 90))]
    total s.world.tokens 30 = 1000 ∧ total s'.world.tokens 30 = 940 ∧
    total s'.world.tokens 40 = total s.world.tokens 40 + 50 ∧ s'.nonces 30 = 1 ∧ total t'.world.tokens 30 = 940 ∧
    Lives exCfg 30 s [exPasskey 0 40, exPasskey 0 40, .signed (Wrapped.exPay 30 0 (.transfer false 20 90))] := by
  refine ⟨?_, ?_, ?_, ?_, ?_, ?_, ?_, ?_, trivial⟩ <;> decide +kernel

/-- Hypotheses of `C138_kept_partial` and `C138_alone_partial` met: no passkey is endorsed for account 40, and it keeps its
tokens whatever is tried, and gets some; on the main network key 30 does, too. -/
example :
    let tries := [exPasskey 1 20, .passkey Wallet.exEnv 10 ⟨[1], [], [], [], 40, 0, 0, .transferAll false 20⟩,
      .signed (Wrapped.exPay 20 0 (.transfer false 40 7)), .root Wallet.exEnv (.update 50 [])]
    let s := run exCfg (genesis 1024 Tokens.exLedger) exUsed
    let main : Config := { exCfg with wrapped := { Wrapped.exCfg with wallet := { Wallet.exCfg with mainnet := true } } }
    let m := run main (genesis 1024 Tokens.exLedger) exUsed
    Plain Wrapped.exCfg 40 ∧ NoneSigns (· = 40) tries ∧ NoneEndorsed exCfg (· = 40) tries ∧ SchedulesStay 40 tries ∧
    s.world.defs 40 = [] ∧ total (run exCfg s tries).world.tokens 40 = total s.world.tokens 40 + 7 ∧
    total (run exCfg s tries).world.tokens 30 = 880 ∧ total m.world.tokens 30 = 1000 := by
  refine ⟨Wrapped.exPlain 40 (by decide), ?_, ?_, ?_, by decide +kernel, by decide +kernel, by decide +kernel,
    by decide +kernel⟩
  · intro t ht
    simp [exPasskey, Wrapped.exPay] at ht
    rw [ht]
    decide
  · intro env fee p hm hv
    simp [exPasskey, Wrapped.exPay] at hm
    obtain ⟨-, -, rfl⟩ | ⟨-, -, rfl⟩ := hm
    · decide
    · simp [Endorsed, exCfg] at hv
  · intro env l hm
    simp [exPasskey, Wrapped.exPay] at hm

end Verif.Whole
