import Verif.Wrapped.Ledger
import Verif.Chain.PropsRetire
import Verif.Tx.PropsSignUp
import Mathlib.Logic.Encodable.Basic
import Mathlib.Logic.Equiv.List
/-!
# Who acts in whose name
-/

namespace Verif.Wrapped
open Verif.Runtime (ProxyType BatchKind Fn)

/-! ## Specification -/

/-- Steps of the chain with its tokens that accounts with property `P` cause, new blocks, and the time of the relay chain. -/
inductive Of (P : AccountId → Prop) : Tokens.Step → Prop
  | newBlock : Of P .newBlock
  | tick (n) : Of P (.tick n)
  | by_ {a x} : P a → Wallet.By a x → Of P x

/-- A set of accounts that only its members have power over, as far as the numbers of the accounts tell: derived and pure
accounts of the set are those of members; the members outside the set of a multisig account in it are fewer than its
threshold. -/
structure Closed (cfg : Config) (D : AccountId → Prop) : Prop where
  derived : ∀ a i, D (cfg.derive a i) → D a
  pure : ∀ a ty i b e, D (cfg.pure a ty i b e) → D a
  multi : ∀ l k, D (cfg.multi l k) → ∀ l' : List AccountId, l'.Nodup → (∀ a ∈ l', a ∈ l ∧ ¬ D a) → l'.length < k

/-- As far as the storage tells: proxies of members are members; members have no announcements for members pending; and
what is pending for a multisig account in the set was approved by different members of it, outside the set. -/
structure Circle (cfg : Config) (D : AccountId → Prop) (w : World) : Prop where
  delegates : ∀ x, D x → ∀ d ∈ w.defs x, D d.delegate
  announced : ∀ x, D x → ∀ a ∈ w.anns x, ¬ D a.real
  pending : ∀ l k, D (cfg.multi l k) → ∀ h m, w.multis (cfg.multi l k) h = some m →
    m.approvals.Nodup ∧ ∀ a ∈ m.approvals, a ∈ l ∧ ¬ D a

/-- An account with a key of its own: not derived, no multisig, not pure. -/
structure Plain (cfg : Config) (x : AccountId) : Prop where
  derived : ∀ a i, cfg.derive a i ≠ x
  pure : ∀ a ty i b e, cfg.pure a ty i b e ≠ x
  multi : ∀ l k, cfg.multi l k ≠ x

/-- The calls that are executed by the same caller when a call is executed. -/
inductive Part : Call → Call → Prop
  | refl (c) : Part c c
  | batch (k cs c b) : b ∈ cs → Part c b → Part c (.batch k cs)
  | pay (c b) : Part c b → Part c (.payWithCapacity b)
  | payAll (cs c b) : b ∈ cs → Part c b → Part c (.payWithCapacityBatchAll cs)

/-- In world `w` somebody is registered as proxy of `x` such that `c` can be executed for `x`: without delay, or `c` was
announced and the delay is over. -/
def Via (cfg : Config) (w : World) (x : AccountId) (d : Def) (c : Call) : Prop :=
  d ∈ w.defs x ∧ (d.delay = 0 ∨
    ∃ a ∈ w.anns d.delegate, a.real = x ∧ a.hash = cfg.hash c ∧ a.height + d.delay ≤ w.chain.block)

/-- The call is part of a call that some proxy of `x` can have executed for `x`, and allowed for the type of the proxy. -/
def Allowed (cfg : Config) (w : World) (x : AccountId) (c : Call) : Prop :=
  ∃ d c0, Via cfg w x d c0 ∧ Part c c0 ∧ d.ty.filter c.view = true

/-! ## The log tells what happened to the chain -/

theorem deed_by {env : TimeRelease.Env} {e : AccountId × Call} {x : Tokens.Step} (h : deed env e = some x) :
    Wallet.By e.1 x := by
  obtain ⟨a, c⟩ := e
  cases c <;> simp only [deed, reduceCtorEq, Option.some.injEq] at h <;> subst h
  · exact .does (.call _)
  · exact .does (.release _ _)
  · exact .does (.transfer _ _ _ _)
  · exact .does (.transferAll _ _ _)

theorem by_block {a : AccountId} {x : Tokens.Step} (h : Wallet.By a x) : x ≠ .newBlock := by
  cases h with
  | does h => cases h <;> simp
  | _ => simp

theorem step_block {cfg : Config} {env : TimeRelease.Env} {who : AccountId} {w w' : World} {c : Call}
    (h : step cfg env who w c = some w') : w'.chain.block = w.chain.block := by
  show w'.tokens.chain.block = w.tokens.chain.block
  rw [step_tokens h]
  refine run_tokens_block _ _ _ (fun hm => ?_)
  rw [Option.mem_toList] at hm
  exact by_block (deed_by hm) rfl

/-- Chain and log go together. -/
def Logged (cfg : Config) (env : TimeRelease.Env) (w0 w : World) : Prop :=
  ∃ l, w.log = w0.log ++ l ∧ w.tokens = Tokens.run cfg.wallet.tokens w0.tokens (l.filterMap (deed env))

theorem logged_guarded (cfg : Config) (env : TimeRelease.Env) (w0 : World) :
    Guarded cfg env (Logged cfg env w0) (fun _ _ _ => True) where
  step := by
    rintro flt who c w w' - - ⟨l, hl, hc⟩ h
    refine ⟨l ++ [(who, c)], by simp [World.done, (step_log h).1, hl], ?_⟩
    rw [List.filterMap_append, Wallet.run_append, ← hc]
    show w'.tokens = _
    rw [step_tokens h]
    cases hd : deed env (who, c) <;> simp [hd]
  proxy := by intros; trivial
  announced := by
    rintro w w' delegate real force c d hi - he
    rw [(editAnns_some he).2]
    exact ⟨hi, trivial⟩
  batch := by intros; trivial
  derive := by intros; trivial
  pay := by intros; trivial
  payAll := by intros; trivial
  multi1 := by intros; trivial
  multi := by
    rintro flt who threshold others c w w' id now - ⟨l, hl, hc⟩ ho
    obtain ⟨h1, -, -, h2, -⟩ := operate_frame ho
    exact ⟨⟨l, by rw [h2, hl], by rw [h1, hc]⟩, fun _ => trivial⟩

/-- What is paid for a transaction. -/
def Paid (t : Signed) (p : List Tokens.Step) : Prop := p = [] ∨ (∃ n, p = [.charge t.who n]) ∨ p = [.fee t.who t.fee]

theorem pay_steps {cfg : Config} {s s1 : Tokens.State} {t : Signed} (h : pay cfg s t = some s1) :
    ∃ p, Paid t p ∧ s1 = Tokens.run cfg.wallet.tokens s p := by
  unfold pay at h
  split at h
  · rename_i r hr
    obtain ⟨k, hk, rfl⟩ := Option.map_eq_some_iff.1 h
    have : ∃ calls, r = TxPayment.withdrawCapacityFee cfg.wallet.payment s.chain.msa (Tokens.bal s t.who) s.chain.capacity
        t.who calls t.len := by
      unfold TxPayment.charge at hr
      split at hr
      · exact ⟨_, (Option.some.inj hr).symm⟩
      · exact ⟨_, (Option.some.inj hr).symm⟩
      · simp at hr
    obtain ⟨calls, rfl⟩ := this
    have hk' : TxPayment.withdrawCapacityFee cfg.wallet.payment s.chain.msa (Tokens.bal s t.who) s.chain.capacity t.who calls
        t.len = .ok k := by
      revert hk
      cases TxPayment.withdrawCapacityFee cfg.wallet.payment s.chain.msa (Tokens.bal s t.who) s.chain.capacity t.who calls
        t.len with
      | error e => intro h; cases h
      | ok q => intro h; cases h; rfl
    obtain ⟨_, _, m, hm, hw⟩ := (TxPayment.withdraw_iff ..).1 hk'
    refine ⟨[.charge t.who (TxPayment.fee cfg.wallet.payment calls t.len)], .inr (.inl ⟨_, rfl⟩), ?_⟩
    have hm' : Chain.msaOf s.chain t.who = some m := hm
    simp [Tokens.run, Tokens.apply, Chain.apply, Chain.charge, hm', hw, Except.toOption]
  · split at h
    · exact ⟨[], .inl rfl, (Option.some.inj h).symm⟩
    · exact ⟨[.fee t.who t.fee], .inr (.inr rfl), by simp [Tokens.run, Tokens.apply, h]⟩

theorem Paid.by_ {t : Signed} {p : List Tokens.Step} (h : Paid t p) {x : Tokens.Step} (hx : x ∈ p) : Wallet.By t.who x := by
  rcases h with rfl | ⟨n, rfl⟩ | rfl
  · simp at hx
  · rw [List.mem_singleton.1 hx]; exact .charge n
  · rw [List.mem_singleton.1 hx]; exact .fee _

/-- What is paid back. -/
def PaidBack (t : Signed) (p : List Tokens.Step) : Prop := p = [] ∨ p = [.refund t.who (min t.back t.fee)]

theorem settle_steps (cfg : Config) (s : Tokens.State) (t : Signed) :
    ∃ p, PaidBack t p ∧ settle s t = Tokens.run cfg.wallet.tokens s p := by
  unfold settle
  split
  · exact ⟨_, .inr rfl, rfl⟩
  · exact ⟨_, .inl rfl, rfl⟩

theorem PaidBack.by_ {t : Signed} {p : List Tokens.Step} (h : PaidBack t p) {x : Tokens.Step} (hx : x ∈ p) :
    Wallet.By t.who x := by
  rcases h with rfl | rfl
  · simp at hx
  · rw [List.mem_singleton.1 hx]; exact .refund _

theorem takeIn_some {cfg : Config} {s s1 : State} {t : Signed} (h : takeIn cfg s t = some s1) :
    checkNonce s t = some s1.nonces ∧ pay cfg s.world.tokens t = some s1.world.tokens ∧
    s1.world = { s.world with tokens := s1.world.tokens, extrinsic := s.world.extrinsic + 1 } := by
  unfold takeIn at h
  simp only [Option.bind_eq_bind, Option.bind_eq_some_iff] at h
  obtain ⟨a, ha, ch, hc, h⟩ := h
  split at h
  · simp only [Option.some.injEq] at h
    subst h
    exact ⟨ha, hc, rfl⟩
  · simp at h

/-- What is executed for a transaction that is included. -/
theorem exec_logged (cfg : Config) (s1 : State) (t : Signed) :
    ∃ l b, PaidBack t b ∧ ((exec cfg t.env (base cfg) t.who t.call s1.world).getD s1.world).log = s1.world.log ++ l ∧
      settle ((exec cfg t.env (base cfg) t.who t.call s1.world).getD s1.world).tokens t =
        Tokens.run cfg.wallet.tokens s1.world.tokens (l.filterMap (deed t.env) ++ b) := by
  obtain ⟨b, hb, hbr⟩ := settle_steps cfg ((exec cfg t.env (base cfg) t.who t.call s1.world).getD s1.world).tokens t
  cases he : exec cfg t.env (base cfg) t.who t.call s1.world with
  | none =>
    rw [he] at hbr
    exact ⟨[], b, hb, by simp, hbr⟩
  | some w' =>
    rw [he] at hbr
    obtain ⟨l, h1, h2⟩ := (logged_guarded cfg t.env s1.world).exec _ _ _ _ _ trivial ⟨[], by simp, by simp [Tokens.run]⟩ he
    refine ⟨l, b, hb, by simpa using h1, ?_⟩
    rw [hbr, Wallet.run_append, ← h2]
    rfl

/-- Every transaction: the log grows by the calls executed. Pallets and tokens change by these calls, in their order,
each in the name of the account in the log, after the payment of the signer if there is one, before what is paid back to
the signer. -/
theorem C127_log (cfg : Config) (s : State) (t : Signed) :
    ∃ p l b, Paid t p ∧ PaidBack t b ∧ (submit cfg s t).world.log = s.world.log ++ l ∧
      (submit cfg s t).world.tokens =
        Tokens.run cfg.wallet.tokens s.world.tokens (p ++ l.filterMap (deed t.env) ++ b) := by
  unfold submit
  split
  · exact ⟨[], [], [], .inl rfl, .inl rfl, by simp, rfl⟩
  · rename_i s1 hs
    obtain ⟨-, hp, hw⟩ := takeIn_some hs
    have hlog : s1.world.log = s.world.log := by rw [hw]
    obtain ⟨p, hpp, hpr⟩ := pay_steps hp
    obtain ⟨l, b, hb, h1, h2⟩ := exec_logged cfg s1 t
    refine ⟨p, l, b, hpp, hb, by rw [h1, hlog], ?_⟩
    dsimp only
    rw [h2, hpr, List.append_assoc, Wallet.run_append _ _ p]

/-! ## A circle of accounts -/

/-- What stays while nobody of the circle acts. -/
def Untouched (cfg : Config) (D : AccountId → Prop) (w0 w : World) : Prop :=
  Circle cfg D w ∧ (∀ x, D x → w.defs x = w0.defs x) ∧ ∃ l, w.log = w0.log ++ l ∧ ∀ e ∈ l, ¬ D e.1

theorem circle_multis {cfg : Config} (hinj : ∀ l k l' k', cfg.multi l k = cfg.multi l' k' → l = l' ∧ k = k')
    {D : AccountId → Prop} {w w' : World} {who : AccountId} (hc : Circle cfg D w) (hw : ¬ D who)
    (h : MultiStep cfg who w w') (l : List AccountId) (k : Nat) (hd : D (cfg.multi l k)) (hash : Nat) (m : Multi)
    (hm : w'.multis (cfg.multi l k) hash = some m) : m.approvals.Nodup ∧ ∀ a ∈ m.approvals, a ∈ l ∧ ¬ D a := by
  rcases h _ _ _ hm with h | ⟨all, threshold, ha, e, h⟩
  · exact hc.pending l k hd hash m h
  · obtain ⟨rfl, rfl⟩ := hinj _ _ _ _ e
    rcases h with h | ⟨m0, h0, h1, h2⟩
    · rw [h]
      exact ⟨by simp, by simp [ha, hw]⟩
    · obtain ⟨g1, g2⟩ := hc.pending l k hd hash m0 h0
      rw [h2]
      refine ⟨List.nodup_cons.2 ⟨h1, g1⟩, fun a ha' => ?_⟩
      rcases List.mem_cons.1 ha' with rfl | ha'
      · exact ⟨ha, hw⟩
      · exact g2 a ha'

theorem untouched_guarded (cfg : Config) (env : TimeRelease.Env)
    (hinj : ∀ l k l' k', cfg.multi l k = cfg.multi l' k' → l = l' ∧ k = k') (D : AccountId → Prop) (hs : Closed cfg D) (w0 : World) :
    Guarded cfg env (Untouched cfg D w0) (fun _ who _ => ¬ D who) where
  step := by
    rintro flt who c w w' hw - ⟨hc, hd, l, hl, hn⟩ h
    have hdefs : ∀ x, D x → w'.defs x = w.defs x := by
      intro x hx
      by_contra hne
      rcases step_defs h x hne with ⟨e, _⟩ | ⟨ty, delay, i, _, e, _⟩
      · exact hw (e ▸ hx)
      · exact hw (hs.pure _ _ _ _ _ (e ▸ hx))
    refine ⟨⟨?_, ?_, ?_⟩, ?_, l ++ [(who, c)], ?_, ?_⟩
    · intro x hx d hdm
      exact hc.delegates x hx d (hdefs x hx ▸ hdm)
    · intro x hx a ha
      rcases step_anns h x a ha with ha | ⟨e, _⟩
      · exact hc.announced x hx a ha
      · exact absurd (e ▸ hx) hw
    · intro l k hd hash m hm
      exact circle_multis hinj hc hw (step_multis h) l k hd hash m hm
    · exact fun x hx => (hdefs x hx).trans (hd x hx)
    · simp [World.done, (step_log h).1, hl]
    · intro e he
      rcases List.mem_append.1 he with he | he
      · exact hn e he
      · rw [List.mem_singleton.1 he]; exact hw
  proxy := by
    rintro flt who real force c w d hw - ⟨hc, -⟩ hf -
    intro hr
    obtain ⟨h1, h2⟩ := findProxy_some hf
    exact hw (h2 ▸ hc.delegates real hr d h1)
  announced := by
    rintro w w' delegate real force c d ⟨hc, hd, hl⟩ hf he
    refine ⟨⟨⟨?_, ?_, ?_⟩, ?_, ?_⟩, ?_⟩
    · rw [(editAnns_some he).2]; exact hc.delegates
    · exact fun x hx a ha => hc.announced x hx a (editAnns_mem he a ha)
    · rw [(editAnns_some he).2]; exact hc.pending
    · rw [(editAnns_some he).2]; exact hd
    · rw [(editAnns_some he).2]; exact hl
    · intro hr
      obtain ⟨h1, h2⟩ := findProxy_some hf
      obtain ⟨⟨a, ha, hk⟩, -⟩ := editAnns_some he
      simp only [decide_eq_false_iff_not, not_or, not_not] at hk
      exact hc.announced delegate (h2 ▸ hc.delegates real hr d h1) a ha (hk.1 ▸ hr)
  batch := fun h _ => h
  derive := by
    rintro flt who i c hw hd
    exact hw (hs.derived _ _ hd)
  pay := fun h => h
  payAll := fun h _ => h
  multi1 := by
    rintro flt who others c all hw ha hd
    have := hs.multi all 1 hd [who] (by simp) (by simp [members_mem ha, hw])
    simp at this
  multi := by
    rintro flt who threshold others c w w' id now hw ⟨hc, hd, hl⟩ ho
    obtain ⟨h1, h2, h3, h4, -⟩ := operate_frame ho
    refine ⟨⟨⟨?_, ?_, circle_multis hinj hc hw (operate_multis ho)⟩, ?_, ?_⟩, ?_⟩
    · rw [h2]; exact hc.delegates
    · rw [h3]; exact hc.announced
    · rw [h2]; exact hd
    · rw [h4]; exact hl
    · rintro rfl hid
      obtain ⟨all, ha, -, e, hcs⟩ := operate_some ho
      rcases hcs with ⟨_, hn, _⟩ | ⟨m, hm, _, hk, _⟩ | ⟨m, _, hn, _⟩
      · simp at hn
      · subst e
        obtain ⟨g1, g2⟩ := hc.pending all threshold hid _ m hm
        rcases hk with hk | ⟨hk1, hk2⟩
        · exact absurd (hs.multi all threshold hid _ g1 g2) (by omega)
        · have := hs.multi all threshold hid (who :: m.approvals) (List.nodup_cons.2 ⟨hk1, g1⟩) (fun a ha' => by
            rcases List.mem_cons.1 ha' with rfl | ha'
            · exact ⟨members_mem ha, hw⟩
            · exact g2 a ha')
          simp only [List.length_cons] at this
          omega
      · simp at hn

theorem nonce_other {s : State} {t : Signed} {n : AccountId → Nat} {x : AccountId} (h : checkNonce s t = some n)
    (hx : x ≠ t.who) : n x = s.nonces x := by
  unfold checkNonce at h
  split at h
  · simp only [Option.some.injEq] at h
    rw [← h]
    split
    · rfl
    · exact put_other _ _ hx
  · simp at h

theorem existing_iff (s : Tokens.State) (x : AccountId) : Wallet.existing s x = true ↔ 0 < Tokens.total s x := by
  unfold Wallet.existing Tokens.total
  simp

theorem forget_kept {a b : Tokens.State} {n : AccountId → Nat} {x : AccountId} (h : Tokens.total a x ≤ Tokens.total b x) :
    forget a b n x = n x := by
  unfold forget
  split
  · rename_i hc
    simp only [Bool.and_eq_true, Bool.not_eq_true'] at hc
    have h1 := (existing_iff a x).1 hc.1
    have h2 : Wallet.existing b x = true := (existing_iff b x).2 (by omega)
    rw [hc.2] at h2
    cases h2
  · rfl

/-- C127: as long as nobody in a circle of accounts signs a transaction, nothing is done in the name of any of them. No
call is executed for them, their proxies and numbers stay as they are, pallets and tokens change only by calls and
payments of other accounts; and they remain such a circle. -/
theorem C127_circle (cfg : Config) (hinj : ∀ l k l' k', cfg.multi l k = cfg.multi l' k' → l = l' ∧ k = k')
    (D : AccountId → Prop) (hs : Closed cfg D) (s : State) (hc : Circle cfg D s.world) (h : List Event)
    (hn : ∀ t, .submit t ∈ h → ¬ D t.who) :
    (∃ l, (run cfg s h).world.log = s.world.log ++ l ∧ ∀ e ∈ l, ¬ D e.1) ∧
    (∀ x, D x → (run cfg s h).world.defs x = s.world.defs x ∧ (run cfg s h).nonces x = s.nonces x) ∧
    (∃ l, (run cfg s h).world.tokens = Tokens.run cfg.wallet.tokens s.world.tokens l ∧ ∀ x ∈ l, Of (fun a => ¬ D a) x) ∧
    Circle cfg D (run cfg s h).world := by
  induction h generalizing s with
  | nil => exact ⟨⟨[], by simp [run], by simp⟩, fun x _ => ⟨rfl, rfl⟩, ⟨[], rfl, by simp⟩, hc⟩
  | cons e h ih =>
    have hstep : (∃ l, (apply cfg s e).world.log = s.world.log ++ l ∧ ∀ e ∈ l, ¬ D e.1) ∧
        (∀ x, D x → (apply cfg s e).world.defs x = s.world.defs x ∧ (apply cfg s e).nonces x = s.nonces x) ∧
        (∃ l, (apply cfg s e).world.tokens = Tokens.run cfg.wallet.tokens s.world.tokens l ∧
          ∀ x ∈ l, Of (fun a => ¬ D a) x) ∧
        Circle cfg D (apply cfg s e).world := by
      cases e with
      | newBlock =>
        exact ⟨⟨[], by simp [apply], by simp⟩, fun x _ => ⟨rfl, rfl⟩,
          ⟨[.newBlock], rfl, by simpa using Of.newBlock⟩, ⟨hc.delegates, hc.announced, hc.pending⟩⟩
      | tick n =>
        exact ⟨⟨[], by simp [apply], by simp⟩, fun x _ => ⟨rfl, rfl⟩,
          ⟨[.tick n], rfl, by simpa using Of.tick n⟩, ⟨hc.delegates, hc.announced, hc.pending⟩⟩
      | submit t =>
        have hw : ¬ D t.who := hn t (by simp)
        have hu : (∃ l, (submit cfg s t).world.log = s.world.log ++ l ∧ ∀ e ∈ l, ¬ D e.1) ∧
            (∀ x, D x → (submit cfg s t).world.defs x = s.world.defs x ∧ (submit cfg s t).nonces x = s.nonces x) ∧
            Circle cfg D (submit cfg s t).world := by
          unfold submit
          split
          · exact ⟨⟨[], by simp, by simp⟩, fun _ _ => ⟨rfl, rfl⟩, hc⟩
          · rename_i s1 hs1
            obtain ⟨ha, -, hw1⟩ := takeIn_some hs1
            have h1 : Untouched cfg D s.world s1.world := by
              rw [hw1]
              exact ⟨⟨hc.delegates, hc.announced, hc.pending⟩, fun _ _ => rfl, [], by simp, by simp⟩
            have h2 : Untouched cfg D s.world ((exec cfg t.env (base cfg) t.who t.call s1.world).getD s1.world) := by
              cases he : exec cfg t.env (base cfg) t.who t.call s1.world with
              | none => exact h1
              | some w' => exact (untouched_guarded cfg t.env hinj D hs s.world).exec _ _ _ _ _ hw h1 he
            obtain ⟨l, b, hb, hl, hr⟩ := exec_logged cfg s1 t
            dsimp only
            generalize (exec cfg t.env (base cfg) t.who t.call s1.world).getD s1.world = w' at h2 hl hr
            obtain ⟨hc', hd', l', hl', hln⟩ := h2
            have hl0 : s1.world.log = s.world.log := by rw [hw1]
            rw [hl0] at hl
            have : l' = l := List.append_cancel_left (hl'.symm.trans hl)
            subst this
            refine ⟨⟨l', hl', hln⟩, fun x hx => ⟨hd' x hx, ?_⟩, ⟨hc'.delegates, hc'.announced, hc'.pending⟩⟩
            have hne : x ≠ t.who := fun e => hw (e ▸ hx)
            rw [forget_kept, nonce_other ha hne]
            rw [hr]
            refine run_total _ _ _ (fun y hy => ?_)
            rcases List.mem_append.1 hy with hy | hy
            · obtain ⟨e, he, hy⟩ := List.mem_filterMap.1 hy
              exact ⟨e.1, fun h => hln e he (h ▸ hx), deed_by hy⟩
            · exact ⟨t.who, fun e => hne e.symm, hb.by_ hy⟩
        obtain ⟨⟨l, hl, hln⟩, hd, hc'⟩ := hu
        refine ⟨⟨l, hl, hln⟩, hd, ?_, hc'⟩
        obtain ⟨p, l', b, hp, hb, hl', hch⟩ := C127_log cfg s t
        have : l = l' := List.append_cancel_left (hl.symm.trans hl')
        subst this
        refine ⟨_, hch, fun x hx => ?_⟩
        rcases List.mem_append.1 hx with hx | hx
        · rcases List.mem_append.1 hx with hx | hx
          · exact .by_ hw (hp.by_ hx)
          · obtain ⟨e, he, hx⟩ := List.mem_filterMap.1 hx
            exact .by_ (hln e he) (deed_by hx)
        · exact .by_ hw (hb.by_ hx)
    obtain ⟨⟨l1, a1, a2⟩, b, ⟨l2, c1, c2⟩, d⟩ := hstep
    obtain ⟨⟨l1', a1', a2'⟩, b', ⟨l2', c1', c2'⟩, d'⟩ := ih (apply cfg s e) d (fun t ht => hn t (List.mem_cons_of_mem _ ht))
    have hr : run cfg s (e :: h) = run cfg (apply cfg s e) h := rfl
    rw [hr]
    refine ⟨⟨l1 ++ l1', by rw [a1', a1, List.append_assoc], fun e he => ?_⟩,
      fun x hx => ⟨(b' x hx).1.trans (b x hx).1, (b' x hx).2.trans (b x hx).2⟩,
      ⟨l2 ++ l2', by rw [c1', c1, Wallet.run_append], fun x hx => ?_⟩, d'⟩
    · rcases List.mem_append.1 he with he | he
      · exact a2 e he
      · exact a2' e he
    · rcases List.mem_append.1 hx with hx | hx
      · exact c2 x hx
      · exact c2' x hx

/-- Calls in the steps of a set of accounts are theirs. -/
theorem of_sends {P : AccountId → Prop} {x : Tokens.Step} (h : Of P x) {y : Chain.Step} (hy : ChainOf x y)
    {o : Chain.Origin} {c : Chain.Call} (hx : y.sends = some (o, c)) : ∃ a, o = .signed a ∧ P a := by
  cases h with
  | newBlock => cases hy; simp [Chain.Step.sends] at hx
  | tick n => cases hy
  | @by_ a x hp hb =>
    cases hb with
    | does hd =>
      cases hd with
      | call c =>
        cases hy
        simp only [Chain.Step.sends, Option.some.injEq, Prod.mk.injEq] at hx
        exact ⟨a, hx.1.symm, hp⟩
      | _ => cases hy
    | charge n => cases hy; simp [Chain.Step.sends] at hx
    | _ => cases hy

/-- C127, tokens: what the accounts of a circle have staked, unlocking and frozen for staking, and for whom, stays as it
is as long as none of them signs a transaction. -/
theorem C127_stake (cfg : Config) (hinj : ∀ l k l' k', cfg.multi l k = cfg.multi l' k' → l = l' ∧ k = k')
    (D : AccountId → Prop) (hs : Closed cfg D) (s : State) (hc : Circle cfg D s.world) (h : List Event)
    (hn : ∀ t, .submit t ∈ h → ¬ D t.who) (x : AccountId) (hx : D x) :
    let a := s.world.chain.capacity
    let b := (run cfg s h).world.chain.capacity
    Capacity.actOf b x = Capacity.actOf a x ∧ Capacity.chunksOf b x = Capacity.chunksOf a x ∧
      Capacity.frozenOf b x = Capacity.frozenOf a x ∧ ∀ t, Capacity.tgtOf b x t = Capacity.tgtOf a x t := by
  obtain ⟨-, -, ⟨l0, hl0, ho0⟩, -⟩ := C127_circle cfg hinj D hs s hc h hn
  obtain ⟨l, hl, hof⟩ := run_chain cfg.wallet.tokens s.world.tokens l0
  simp only
  show _ ∧ _
  unfold World.chain
  rw [hl0, hl]
  generalize s.world.tokens.chain = c
  clear hl hl0
  have ho : ∀ y ∈ l, ∀ o c, y.sends = some (o, c) → ∃ a, o = .signed a ∧ ¬ D a := by
    intro y hy o c hc
    obtain ⟨z, hz, h⟩ := hof y hy
    exact of_sends (ho0 z hz) h hc
  clear hof ho0
  induction l generalizing c with
  | nil => simp
  | cons y l ih =>
    rw [Chain.run_cons]
    have hi := ih (Chain.apply cfg.wallet.tokens.chain c y) (fun z hz => ho z (List.mem_cons_of_mem _ hz))
    have : ¬ (Capacity.actOf (Chain.apply cfg.wallet.tokens.chain c y).capacity x ≠ Capacity.actOf c.capacity x ∨
      Capacity.chunksOf (Chain.apply cfg.wallet.tokens.chain c y).capacity x ≠ Capacity.chunksOf c.capacity x ∨
      Capacity.frozenOf (Chain.apply cfg.wallet.tokens.chain c y).capacity x ≠ Capacity.frozenOf c.capacity x ∨
      ∃ t, Capacity.tgtOf (Chain.apply cfg.wallet.tokens.chain c y).capacity x t ≠ Capacity.tgtOf c.capacity x t) := by
      intro hch
      obtain ⟨cc, hcc⟩ := Chain.C95_stake_changed_by_owner cfg.wallet.tokens.chain c y x hch
      obtain ⟨a, e, ha⟩ := ho y (by simp) _ _ hcc
      cases e
      exact ha hx
    simp only [not_or, not_not, not_exists] at this
    obtain ⟨h1, h2, h3, h4⟩ := this
    exact ⟨hi.1.trans h1, hi.2.1.trans h2, hi.2.2.1.trans h3, fun t => (hi.2.2.2 t).trans (h4 t)⟩

/-! ## Proxies of limited type, and proxies with delay -/

theorem limited_registers {d : Def} (hd : d.ty ≠ .any) {c : Call} (hc : c.registers = true) : d.filter c = false := by
  obtain ⟨k, ty, n⟩ := d
  cases c <;> simp [Call.registers] at hc <;> cases ty <;>
    simp_all [Def.filter, Call.view, ProxyType.filter, Fn.pallet]

theorem filter_type {d : Def} {c : Call} (h : d.filter c = true) : d.ty.filter c.view = true := by
  unfold Def.filter at h
  split at h
  · exact (Bool.and_eq_true _ _ ▸ h).2
  · exact (Bool.and_eq_true _ _ ▸ h).2
  · exact (Bool.and_eq_true _ _ ▸ h).2
  · exact (Bool.and_eq_true _ _ ▸ h).2
  · exact h

/-- What holds of an account during a transaction it has not signed. -/
def Kept (cfg : Config) (x : AccountId) (w0 w : World) : Prop :=
  w.defs x = w0.defs x ∧ w.chain.block = w0.chain.block ∧
  (∀ k a, a ∈ w.anns k → a ∈ w0.anns k ∨ a.height = w0.chain.block) ∧
  ∃ l, w.log = w0.log ++ l ∧ ∀ e ∈ l, e.1 = x → Allowed cfg w0 x e.2

/-- What is known of a caller during such a transaction. -/
def Acting (cfg : Config) (x : AccountId) (w0 : World) (flt : Filter) (who : AccountId) (c : Call) : Prop :=
  who = x → ∃ d c0, Via cfg w0 x d c0 ∧ Part c c0 ∧ ∀ c', flt c' = true → d.filter c' = true

theorem batchFilter_imp {k : BatchKind} {flt : Filter} {c : Call} (h : batchFilter k flt c = true) : flt c = true := by
  unfold batchFilter at h
  split at h
  · simp only [Bool.and_eq_true] at h; exact h.1
  · exact h

theorem Part.trans {a b c : Call} (h1 : Part a b) (h2 : Part b c) : Part a c := by
  induction h2 with
  | refl => exact h1
  | batch k cs b b' hm _ ih => exact .batch k cs a b' hm (ih h1)
  | pay b b' _ ih => exact .pay a b' (ih h1)
  | payAll cs b b' hm _ ih => exact .payAll cs a b' hm (ih h1)

theorem kept_guarded (cfg : Config) (env : TimeRelease.Env) (x : AccountId) (hp : Plain cfg x) (w0 : World)
    (hlim : ∀ d c0 c, Via cfg w0 x d c0 → Part c c0 → d.filter c = true → c.registers = false) :
    Guarded cfg env (Kept cfg x w0) (Acting cfg x w0) where
  step := by
    rintro flt who c w w' hg hf ⟨h1, h2, h3, l, hl, hn⟩ h
    refine ⟨?_, (step_block h).trans h2, ?_, l ++ [(who, c)], by simp [World.done, (step_log h).1, hl], ?_⟩
    · refine Eq.trans ?_ h1
      by_contra hne
      rcases step_defs h x hne with ⟨e, hr⟩ | ⟨ty, delay, i, _, e, _⟩
      · obtain ⟨d, c0, hv, hpt, hi⟩ := hg e.symm
        rw [hlim d c0 c hv hpt (hi c hf)] at hr
        simp at hr
      · exact hp.pure _ _ _ _ _ e.symm
    · intro k a ha
      rcases step_anns h k a ha with ha | ⟨_, e, _⟩
      · exact h3 k a ha
      · exact .inr (e.trans h2)
    · intro e he hx
      rcases List.mem_append.1 he with he | he
      · exact hn e he hx
      · rw [List.mem_singleton.1 he] at hx ⊢
        obtain ⟨d, c0, hv, hpt, hi⟩ := hg hx
        exact ⟨d, c0, hv, hpt, filter_type (hi c hf)⟩
  proxy := by
    rintro flt who real force c w d - - ⟨h1, -⟩ hf h0 rfl
    refine ⟨d, c, ⟨h1 ▸ (findProxy_some hf).1, .inl h0⟩, .refl c, fun c' hc' => ?_⟩
    simp only [Bool.and_eq_true] at hc'
    exact hc'.2
  announced := by
    rintro w w' delegate real force c d ⟨h1, h2, h3, hl⟩ hf he
    obtain ⟨⟨a, ha, hk⟩, e⟩ := editAnns_some he
    refine ⟨⟨by rw [e]; exact h1, by rw [e]; exact h2, fun k b hb => h3 k b (editAnns_mem he b hb), by rw [e]; exact hl⟩, ?_⟩
    rintro rfl
    simp only [decide_eq_false_iff_not, not_or, not_not, Nat.not_lt] at hk
    obtain ⟨k1, k2, k3⟩ := hk
    obtain ⟨f1, f2⟩ := findProxy_some hf
    refine ⟨d, c, ⟨h1 ▸ f1, ?_⟩, .refl c, fun c' hc' => ?_⟩
    · by_cases h0 : d.delay = 0
      · exact .inl h0
      · right
        rw [h2] at k3
        rcases h3 _ a ha with h | h
        · exact ⟨a, f2 ▸ h, k1, k2, by omega⟩
        · omega
    · simp only [Bool.and_eq_true] at hc'
      exact hc'.2
  batch := by
    rintro flt who k cs c hg hm e
    obtain ⟨d, c0, hv, hpt, hi⟩ := hg e
    exact ⟨d, c0, hv, (Part.batch k cs c c hm (.refl c)).trans hpt, fun c' h => hi c' (batchFilter_imp h)⟩
  derive := fun _ e => absurd e (hp.derived _ _)
  pay := by
    rintro flt who c hg e
    obtain ⟨d, c0, hv, hpt, hi⟩ := hg e
    exact ⟨d, c0, hv, (Part.pay c c (.refl c)).trans hpt, hi⟩
  payAll := by
    rintro flt who cs c hg hm e
    obtain ⟨d, c0, hv, hpt, hi⟩ := hg e
    exact ⟨d, c0, hv, (Part.payAll cs c c hm (.refl c)).trans hpt, fun c' h => hi c' (batchFilter_imp h)⟩
  multi1 := fun _ _ e => absurd e (hp.multi _ _)
  multi := by
    rintro flt who threshold others c w w' id now - ⟨h1, h2, h3, hl⟩ ho
    obtain ⟨e1, e2, e3, e4, -⟩ := operate_frame ho
    refine ⟨⟨by rw [e2]; exact h1, (congrArg (·.chain.block) e1).trans h2, by rw [e3]; exact h3, by rw [e4]; exact hl⟩,
      fun _ e => ?_⟩
    obtain ⟨all, -, -, hid, -⟩ := operate_some ho
    exact absurd (hid.symm.trans e) (hp.multi _ _)

theorem pay_block {cfg : Config} {s s1 : Tokens.State} {t : Signed} (h : pay cfg s t = some s1) :
    s1.chain.block = s.chain.block := by
  obtain ⟨p, hp, rfl⟩ := pay_steps h
  exact run_tokens_block _ _ _ (fun hm => by_block (hp.by_ hm) rfl)

theorem settle_block (cfg : Config) (s : Tokens.State) (t : Signed) : (settle s t).chain.block = s.chain.block := by
  obtain ⟨p, hp, e⟩ := settle_steps cfg s t
  rw [e]
  exact run_tokens_block _ _ _ (fun hm => by_block (hp.by_ hm) rfl)

theorem submit_kept (cfg : Config) (x : AccountId) (hp : Plain cfg x) (s : State) (t : Signed) (ht : t.who ≠ x)
    (hlim : ∀ d c0 c, Via cfg s.world x d c0 → Part c c0 → d.filter c = true → c.registers = false) :
    Kept cfg x s.world (submit cfg s t).world := by
  have h0 : Kept cfg x s.world s.world := ⟨rfl, rfl, fun _ _ h => .inl h, [], by simp, by simp⟩
  unfold submit
  split
  · exact h0
  · rename_i s1 hs1
    obtain ⟨-, hpay, hw1⟩ := takeIn_some hs1
    have h1 : Kept cfg x s.world s1.world := by
      refine ⟨by rw [hw1], pay_block hpay, ?_, [], by rw [hw1]; simp, by simp⟩
      rw [hw1]; exact fun _ _ h => .inl h
    have h2 : Kept cfg x s.world ((exec cfg t.env (base cfg) t.who t.call s1.world).getD s1.world) := by
      cases he : exec cfg t.env (base cfg) t.who t.call s1.world with
      | none => exact h1
      | some w' =>
        exact (kept_guarded cfg t.env x hp s.world hlim).exec _ _ _ _ _ (fun e => absurd e ht) h1 he
    exact ⟨h2.1, (settle_block cfg _ t).trans h2.2.1, h2.2.2.1, h2.2.2.2⟩

/-- C127, limited proxies: a transaction that the account has not signed executes in its name only calls that one of its
proxies can have executed (without delay, or announced before and after the delay), and only such as the type of this
proxy lets pass; and the proxies of the account stay as they are. -/
theorem C127_limited (cfg : Config) (x : AccountId) (hp : Plain cfg x) (s : State) (t : Signed) (ht : t.who ≠ x)
    (hl : ∀ d ∈ s.world.defs x, d.ty ≠ .any) :
    (∃ l, (submit cfg s t).world.log = s.world.log ++ l ∧ ∀ e ∈ l, e.1 = x → Allowed cfg s.world x e.2) ∧
    (submit cfg s t).world.defs x = s.world.defs x := by
  have h := submit_kept cfg x hp s t ht (fun d c0 c hv _ hf => by
    cases hr : c.registers with
    | false => rfl
    | true => rw [limited_registers (hl d hv.1) hr] at hf; simp at hf)
  exact ⟨h.2.2.2, h.1⟩

/-- C127, limited proxies over time: an account whose proxies are of limited types keeps exactly these proxies until it
signs a transaction. -/
theorem C127_limited_stays (cfg : Config) (x : AccountId) (hp : Plain cfg x) (s : State) (h : List Event)
    (hn : ∀ t, .submit t ∈ h → t.who ≠ x) (hl : ∀ d ∈ s.world.defs x, d.ty ≠ .any) :
    (run cfg s h).world.defs x = s.world.defs x := by
  induction h generalizing s with
  | nil => rfl
  | cons e h ih =>
    have hr : run cfg s (e :: h) = run cfg (apply cfg s e) h := rfl
    have he : (apply cfg s e).world.defs x = s.world.defs x := by
      cases e with
      | newBlock => rfl
      | tick n => rfl
      | submit t => exact (C127_limited cfg x hp s t (hn t (by simp)) hl).2
    rw [hr, ih _ (fun t ht => hn t (List.mem_cons_of_mem _ ht)) (by rw [he]; exact hl), he]

theorem newBlock_block (cfg : Chain.Config) (s : Chain.State) : (Chain.newBlock cfg s).block = s.block + 1 := rfl

theorem chain_block (cfg : Chain.Config) (q : List Chain.Step) (s : Chain.State) : s.block ≤ (Chain.run cfg s q).block := by
  induction q generalizing s with
  | nil => simp
  | cons y q ih =>
    rw [Chain.run_cons]
    refine Nat.le_trans ?_ (ih _)
    rcases Chain.apply_block cfg s y with ⟨_, e⟩ | ⟨_, e⟩ <;> omega

theorem run_block (cfg : Config) (s : State) (h : List Event) : s.world.chain.block ≤ (run cfg s h).world.chain.block := by
  induction h generalizing s with
  | nil => exact Nat.le_refl _
  | cons e h ih =>
    refine Nat.le_trans ?_ (ih (apply cfg s e))
    cases e with
    | newBlock => exact Nat.le_succ _
    | tick n => exact Nat.le_refl _
    | submit t =>
      obtain ⟨p, l, b, -, -, -, hc⟩ := C127_log cfg s t
      obtain ⟨q, hq, -⟩ := run_chain cfg.wallet.tokens s.world.tokens (p ++ l.filterMap (deed t.env) ++ b)
      show _ ≤ (submit cfg s t).world.tokens.chain.block
      rw [hc, hq]
      exact chain_block ..

/-- C127, delays: if all proxies of an account have a delay of `n` blocks or more and no announcement for the account is
pending, then for `n` blocks nothing is executed in its name that it has not signed, whatever the types. -/
theorem C127_delay (cfg : Config) (x : AccountId) (hp : Plain cfg x) (s : State) (n : Nat) (h : List Event)
    (hn : ∀ t, .submit t ∈ h → t.who ≠ x) (hd : ∀ d ∈ s.world.defs x, n ≤ d.delay)
    (ha : ∀ d ∈ s.world.defs x, ∀ a ∈ s.world.anns d.delegate, a.real ≠ x)
    (hb : (run cfg s h).world.chain.block < s.world.chain.block + n) :
    (∃ l, (run cfg s h).world.log = s.world.log ++ l ∧ ∀ e ∈ l, e.1 ≠ x) ∧
    (run cfg s h).world.defs x = s.world.defs x := by
  suffices H : ∀ (h : List Event) (s' : State), (∀ t, .submit t ∈ h → t.who ≠ x) →
      s.world.chain.block ≤ s'.world.chain.block → s'.world.defs x = s.world.defs x →
      (∀ d ∈ s.world.defs x, ∀ a ∈ s'.world.anns d.delegate, a.real = x → s.world.chain.block ≤ a.height) →
      (run cfg s' h).world.chain.block < s.world.chain.block + n →
      (∃ l, (run cfg s' h).world.log = s'.world.log ++ l ∧ ∀ e ∈ l, e.1 ≠ x) ∧
      (run cfg s' h).world.defs x = s.world.defs x by
    exact H h s hn (Nat.le_refl _) rfl (fun d hd' a ha' e => absurd e (ha d hd' a ha')) hb
  intro h
  induction h with
  | nil => exact fun s' _ _ e _ _ => ⟨⟨[], by simp [run], by simp⟩, e⟩
  | cons e h ih =>
    intro s' hn h1 h2 h3 h4
    have hr : run cfg s' (e :: h) = run cfg (apply cfg s' e) h := rfl
    rw [hr] at h4 ⊢
    have hlt : (apply cfg s' e).world.chain.block < s.world.chain.block + n := Nat.lt_of_le_of_lt (run_block cfg _ h) h4
    have hle : s'.world.chain.block ≤ (apply cfg s' e).world.chain.block := run_block cfg s' [e]
    have hstep : (∃ l, (apply cfg s' e).world.log = s'.world.log ++ l ∧ ∀ e ∈ l, e.1 ≠ x) ∧
        (apply cfg s' e).world.defs x = s.world.defs x ∧
        ∀ d ∈ s.world.defs x, ∀ a ∈ (apply cfg s' e).world.anns d.delegate, a.real = x → s.world.chain.block ≤ a.height := by
      cases e with
      | newBlock => exact ⟨⟨[], by simp [apply], by simp⟩, h2, h3⟩
      | tick n => exact ⟨⟨[], by simp [apply], by simp⟩, h2, h3⟩
      | submit t =>
        have none : ∀ d c0, ¬ Via cfg s'.world x d c0 := by
          rintro d c0 ⟨hm, hv⟩
          rw [h2] at hm
          have := hd d hm
          rcases hv with hv | ⟨a, ha1, ha2, _, ha3⟩
          · omega
          · have := h3 d hm a ha1 ha2
            omega
        obtain ⟨k1, k2, k3, l, k4, k5⟩ := submit_kept cfg x hp s' t (hn t (by simp)) (fun d c0 c hv => absurd hv (none d c0))
        refine ⟨⟨l, k4, fun e he hx => ?_⟩, k1.trans h2, fun d hm a ha1 ha2 => ?_⟩
        · obtain ⟨d, c0, hv, _⟩ := k5 e he hx
          exact none d c0 hv
        · rcases k3 _ a ha1 with h | h
          · exact h3 d hm a h ha2
          · omega
    obtain ⟨⟨l, g1, g1'⟩, g2, g3⟩ := hstep
    obtain ⟨⟨l', i1, i1'⟩, i2⟩ := ih (apply cfg s' e) (fun t ht => hn t (List.mem_cons_of_mem _ ht)) (by omega) g2 g3 h4
    refine ⟨⟨l ++ l', by rw [i1, g1, List.append_assoc], fun e he => ?_⟩, i2⟩
    rcases List.mem_append.1 he with he | he
    · exact g1' e he
    · exact i1' e he

/-! ## A concrete chain -/

/-- Derived, multisig and pure accounts have large numbers. -/
def exCfg : Config where
  wallet := Wallet.exCfg
  hash := fun c => match c with
    | .leaf _ => 1
    | _ => 2
  derive := fun a i => 1000 + 3 * Nat.pair a i
  multi := fun l k => 1001 + 3 * Encodable.encode (l, k)
  pure := fun a _ i b e => 1002 + 3 * Nat.pair a (Nat.pair i (Nat.pair b e))

/-- Some keys have 1000 tokens. -/
def exLedger : TimeRelease.State :=
  ⟨100, (((SMap.empty.insert 20 ⟨1000, 0, 0, 0⟩).insert 30 ⟨1000, 0, 500, 0⟩).insert 40 ⟨1000, 0, 0, 0⟩).insert 50
    ⟨1000, 0, 0, 0⟩, SMap.empty, 0⟩

/-- Key 30 has a stake with account 1; the proxies are given. -/
def exState (defs : List Def) : State :=
  ⟨⟨⟨Tx.exState.chain, exLedger, ∅, 0⟩, fun a => if a = 30 then defs else [], fun _ => [], fun _ _ => none, 0, []⟩,
   fun _ => 0⟩

/-- Key 20 wants something done for key 30. -/
def exTx (n : Nat) (c : Call) : Signed := ⟨20, n, c, 100, 0, 0, Wallet.exEnv⟩

/-- A stake of 500 is added. -/
def exStake : Call := .leaf (.capacity (.stake 1 500))

theorem exMulti (l k l' k') (h : exCfg.multi l k = exCfg.multi l' k') : l = l' ∧ k = k' := by
  have : Encodable.encode (l, k) = Encodable.encode (l', k') := by
    simp only [exCfg] at h; omega
  simpa using Encodable.encode_injective this

theorem exPlain (x : AccountId) (hx : x < 1000) : Plain exCfg x :=
  ⟨fun a i => by simp only [exCfg]; omega, fun a t i b e => by simp only [exCfg]; omega,
   fun l k => by simp only [exCfg]; omega⟩

/-- Hypotheses of `C127_circle` and `C127_stake` met: key 30 alone, without proxies; and keys 30 and 20 together, where 20
is the proxy of 30. In the first case key 20 gets nothing done for key 30, in the second it does. -/
example : Closed exCfg (· = 30) ∧ Circle exCfg (· = 30) (exState []).world ∧
    Closed exCfg (fun a => a = 30 ∨ a = 20) ∧ Circle exCfg (fun a => a = 30 ∨ a = 20) (exState [⟨20, .any, 0⟩]).world ∧
    (run exCfg (exState []) [.submit (exTx 0 (.proxy 30 none exStake))]).world.log.length = 0 ∧
    Capacity.actOf (run exCfg (exState []) [.submit (exTx 0 (.proxy 30 none exStake))]).world.chain.capacity 30 = 500 ∧
    Capacity.actOf (run exCfg (exState [⟨20, .any, 0⟩]) [.submit (exTx 0 (.proxy 30 none exStake))]).world.chain.capacity 30
      = 1000 := by
  refine ⟨⟨fun a i => ?_, fun a t i b e => ?_, fun l k => ?_⟩, ⟨?_, ?_, ?_⟩,
    ⟨fun a i => ?_, fun a t i b e => ?_, fun l k => ?_⟩, ⟨?_, ?_, ?_⟩, by decide +kernel, by decide +kernel, by decide +kernel⟩
  all_goals first
    | (simp only [exCfg]; omega)
    | simp [exState]

/-- Hypotheses of `C127_limited` met: key 20 is registered for stakes. It can stake for key 30, also within a batch or
directly as the announced delay is none; it can neither take the stake back nor register proxies. -/
example :
    let s := exState [⟨20, .staking, 0⟩]
    Plain exCfg 30 ∧ (∀ d ∈ s.world.defs 30, d.ty ≠ .any) ∧
    ((submit exCfg s (exTx 0 (.proxy 30 none exStake))).world.log.map Prod.fst) = [30] ∧
    (submit exCfg s (exTx 0 (.batch .batchAll [.proxy 30 none exStake, .proxy 30 none exStake]))).world.log.length = 2 ∧
    (submit exCfg s (exTx 0 (.proxy 30 none (.batch .batch [exStake])))).world.log.length = 0 ∧
    (submit exCfg s (exTx 0 (.proxy 30 none (.leaf (.capacity (.unstake 1 500)))))).world.log.length = 0 ∧
    (submit exCfg s (exTx 0 (.proxy 30 none (.addProxy 20 .any 0)))).world.log.length = 0 :=
  ⟨exPlain 30 (by decide), by decide +kernel, by decide +kernel, by decide +kernel, by decide +kernel, by decide +kernel,
   by decide +kernel⟩

/-- Hypotheses of `C127_delay` met: key 20 is registered with a delay of two blocks. What it announces can be executed two
blocks later, not before, and by anybody. -/
example :
    let s := exState [⟨20, .any, 2⟩]
    let a : Event := .submit (exTx 0 (.announce 30 1))
    let p : Event := .submit ⟨40, 0, .proxyAnnounced 20 30 none exStake, 100, 0, 0, Wallet.exEnv⟩
    Plain exCfg 30 ∧ (∀ d ∈ s.world.defs 30, 2 ≤ d.delay) ∧
    (∀ d ∈ s.world.defs 30, ∀ a ∈ s.world.anns d.delegate, a.real ≠ 30) ∧
    (run exCfg s [a, .newBlock, p]).world.log.map Prod.fst = [20] ∧
    (run exCfg s [a, .newBlock, .newBlock, p]).world.log.map Prod.fst = [20, 30] ∧
    (run exCfg s [.submit (exTx 0 (.proxy 30 none exStake))]).world.log.length = 0 ∧
    (run exCfg s [a, .submit ⟨30, 0, .rejectAnnouncement 20 1, 100, 0, 0, Wallet.exEnv⟩, .newBlock, .newBlock, p]).world.log.map
      Prod.fst = [20, 30] :=
  ⟨exPlain 30 (by decide), by decide +kernel, by decide +kernel, by decide +kernel, by decide +kernel, by decide +kernel,
   by decide +kernel⟩

/-- The multisig account of keys 20, 40 and 50 with threshold 2, and keys 20 and 40, form a circle: key 50 alone gets
nothing done for the multisig account. With key 20, who does not belong to a smaller circle, it does. -/
example :
    let m := exCfg.multi [20, 40, 50] 2
    let p : Call := .other .remark 0
    let a : Event := .submit ⟨50, 0, .multi 2 [20, 40] p, 100, 0, 0, Wallet.exEnv⟩
    Closed exCfg (fun x => x = m ∨ x = 20 ∨ x = 40) ∧ Circle exCfg (fun x => x = m ∨ x = 20 ∨ x = 40) (exState []).world ∧
    (run exCfg (exState []) [a, a]).world.log.length = 0 ∧
    (run exCfg (exState []) [a, .submit ⟨20, 0, .multi 2 [40, 50] p, 100, 0, 0, Wallet.exEnv⟩]).world.log.map Prod.fst = [m] := by
  refine ⟨⟨fun a i => ?_, fun a t i b e => ?_, fun l k h => ?_⟩, ⟨?_, ?_, ?_⟩, by decide +kernel, by decide +kernel⟩
  · simp only [exCfg]; omega
  · simp only [exCfg]; omega
  · rcases h with h | h | h
    · obtain ⟨rfl, rfl⟩ := exMulti _ _ _ _ h
      intro l' hn hl
      have : ∀ a ∈ l', a = 50 := by
        intro a ha
        obtain ⟨h1, h2⟩ := hl a ha
        simp only [List.mem_cons, List.not_mem_nil, or_false] at h1
        simp only [not_or] at h2
        rcases h1 with h1 | h1 | h1
        · exact absurd h1 h2.2.1
        · exact absurd h1 h2.2.2
        · exact h1
      match l', hn, this with
      | [], _, _ => simp
      | [_], _, _ => simp
      | a :: b :: r, hn, this =>
        have ha := this a (by simp)
        have hb := this b (by simp)
        simp [ha, hb] at hn
    · simp only [exCfg] at h; omega
    · simp only [exCfg] at h; omega
  · intro x _ d hd
    simp [exState] at hd
  · simp [exState]
  · simp [exState]

/-! ## Calls without other accounts are those of `Wallet` -/

mutual
/-- A call of `Wallet` as a call here. -/
def embed : Wallet.Call → Call
  | .chain c => .leaf c
  | .release c => .release c
  | .transfer keep dest amount => .transfer keep dest amount
  | .transferAll keep dest => .transferAll keep dest
  | .batch k calls => .batch k (embedL calls)
  | .payWithCapacity c => .payWithCapacity (embed c)
  | .payWithCapacityBatchAll calls => .payWithCapacityBatchAll (embedL calls)
/-- The same for lists of calls. -/
def embedL : List Wallet.Call → List Call
  | [] => []
  | c :: cs => embed c :: embedL cs
end

mutual
theorem embed_view (c : Wallet.Call) : (embed c).view = c.view := by
  match c with
  | .chain c => simp [embed, Call.view, Wallet.Call.view]
  | .release c => cases c <;> simp [embed, Call.view, Wallet.Call.view]
  | .transfer keep _ _ => simp [embed, Call.view, Wallet.Call.view]
  | .transferAll _ _ => simp [embed, Call.view, Wallet.Call.view]
  | .batch k calls => simp [embed, Call.view, Wallet.Call.view, embed_viewL calls]
  | .payWithCapacity c => simp [embed, Call.view, Wallet.Call.view, embed_view c]
  | .payWithCapacityBatchAll calls => simp [embed, Call.view, Wallet.Call.view, embed_viewL calls]
theorem embed_viewL (cs : List Wallet.Call) : viewL (embedL cs) = Wallet.viewL cs := by
  match cs with
  | [] => simp [embedL, viewL, Wallet.viewL]
  | c :: cs => simp [embedL, viewL, Wallet.viewL, embed_view c, embed_viewL cs]
end

theorem embedL_length (cs : List Wallet.Call) : (embedL cs).length = cs.length := by
  induction cs with
  | nil => simp [embedL]
  | cons c cs ih => simp [embedL, ih]

theorem batch_view (k : BatchKind) (f : Runtime.Filter) (flt : Filter) (hf : ∀ c, flt c = f c.view) (c : Call) :
    batchFilter k flt c = k.filter f c.view := by
  unfold batchFilter BatchKind.filter
  split <;> simp [hf]

theorem done_tokens (a : Option World) (who : AccountId) (c : Call) :
    (a.map (fun w => w.done who c)).map World.tokens = a.map World.tokens := by
  cases a <;> rfl

mutual
theorem embed_exec (cfg : Config) (env : TimeRelease.Env) (f : Runtime.Filter) (flt : Filter)
    (hf : ∀ c, flt c = f c.view) (who : AccountId) (c : Wallet.Call) (w : World) :
    (exec cfg env flt who (embed c) w).map World.tokens = Wallet.exec cfg.wallet env f who c w.tokens := by
  match c with
  | .chain c =>
    rw [exec.eq_def, Wallet.exec.eq_def, hf, embed_view]
    split
    · simp only [embed, step, Option.map_map]; rfl
    · rfl
  | .release c =>
    rw [exec.eq_def, Wallet.exec.eq_def, hf, embed_view]
    split
    · simp only [embed, step, Option.map_map]; rfl
    · rfl
  | .transfer keep dest amount =>
    rw [exec.eq_def, Wallet.exec.eq_def, hf, embed_view]
    split
    · simp only [embed, step, Option.map_map]
      exact Option.map_id'
    · rfl
  | .transferAll keep dest =>
    rw [exec.eq_def, Wallet.exec.eq_def, hf, embed_view]
    split
    · simp only [embed, step, Option.map_map]
      exact Option.map_id'
    · rfl
  | .batch k calls =>
    rw [exec.eq_def, Wallet.exec.eq_def, hf, embed_view]
    split
    · simp only [embed]
      exact embed_execL cfg env k _ _ (batch_view k f flt hf) who calls w
    · rfl
  | .payWithCapacity c =>
    rw [exec.eq_def, Wallet.exec.eq_def, hf, embed_view]
    split
    · simp only [embed]
      exact embed_exec cfg env f flt hf who c w
    · rfl
  | .payWithCapacityBatchAll calls =>
    rw [exec.eq_def, Wallet.exec.eq_def, hf, embed_view]
    split
    · simp only [embed, embedL_length]
      split
      · exact embed_execL cfg env .batchAll _ _ (batch_view .batchAll f flt hf) who calls w
      · rfl
    · rfl
theorem embed_execL (cfg : Config) (env : TimeRelease.Env) (k : BatchKind) (f : Runtime.Filter) (flt : Filter)
    (hf : ∀ c, flt c = f c.view) (who : AccountId) (cs : List Wallet.Call) (w : World) :
    (execL cfg env k flt who (embedL cs) w).map World.tokens = Wallet.execL cfg.wallet env k f who cs w.tokens := by
  match cs with
  | [] => simp [embedL, execL, Wallet.execL]
  | c :: cs =>
    rw [embedL, execL.eq_def, Wallet.execL.eq_def]
    simp only
    rw [← embed_exec cfg env f flt hf who c w]
    cases exec cfg env flt who (embed c) w with
    | some w' => exact embed_execL cfg env k f flt hf who cs w'
    | none =>
      cases k with
      | batch => rfl
      | batchAll => rfl
      | forceBatch => exact embed_execL cfg env .forceBatch f flt hf who cs w
end

end Verif.Wrapped
