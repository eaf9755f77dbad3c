import Verif.Wrapped.PropsQuiet
import Verif.Wallet.Props
/-!
# Tokens of accounts that others may act for
-/

namespace Verif.Wrapped
open Runtime
open TimeRelease (acct)
open Tokens (total)

/-! ## Specification -/

/-- Like `Circle`, but members may also have proxies outside the set, as long as these are not of type `Any`. -/
structure Limited (cfg : Config) (D : AccountId → Prop) (w : World) : Prop where
  delegates : ∀ x, D x → ∀ d ∈ w.defs x, D d.delegate ∨ d.ty ≠ .any
  announced : ∀ x, D x → ∀ a ∈ w.anns x, ¬ D a.real
  pending : ∀ l k, D (cfg.multi l k) → ∀ h m, w.multis (cfg.multi l k) h = some m →
    m.approvals.Nodup ∧ ∀ a ∈ m.approvals, a ∈ l ∧ ¬ D a

/-- Calls that move tokens of the caller. -/
inductive Moves : Call → Prop
  | transfer (keep dest amount) : Moves (.transfer keep dest amount)
  | transferAll (keep dest) : Moves (.transferAll keep dest)
  | schedule (dest sched) : Moves (.release (.transfer dest sched))

/-! ## C135 -/

/-- All that happens to the tokens are steps of the chain with its tokens. -/
theorem tokens_history (cfg : Config) (s : State) (h : List Event) :
    ∃ q, (run cfg s h).world.tokens = Tokens.run cfg.wallet.tokens s.world.tokens q := by
  induction h generalizing s with
  | nil => exact ⟨[], rfl⟩
  | cons e h ih =>
    have : ∃ q, (apply cfg s e).world.tokens = Tokens.run cfg.wallet.tokens s.world.tokens q := by
      cases e with
      | newBlock => exact ⟨[.newBlock], rfl⟩
      | tick n => exact ⟨[.tick n], rfl⟩
      | submit t =>
        obtain ⟨p, l, b, -, -, -, hc⟩ := C127_log cfg s t
        exact ⟨_, hc⟩
    obtain ⟨q, hq⟩ := this
    obtain ⟨q', hq'⟩ := ih (apply cfg s e)
    have hr : run cfg s (e :: h) = run cfg (apply cfg s e) h := rfl
    exact ⟨q ++ q', by rw [hr, hq', hq, Wallet.run_append]⟩

theorem good_reach {cfg : Config} {n : Nat} {l : TimeRelease.State} (hs : Tokens.Start cfg.wallet.tokens l)
    (es : List Event) : Tokens.Good cfg.wallet.tokens n l (run cfg (genesis n l) es).world.tokens := by
  obtain ⟨q, e⟩ := tokens_history cfg (genesis n l) es
  rw [e]
  exact Wallet.good_run_from hs (Tokens.good_genesis n hs) q

/-- A step of others is one of a transaction of others. -/
theorem of_wallet {P : AccountId → Prop} {x : Tokens.Step} (h : Of P x) {w : AccountId} (hw : ¬ P w) :
    ∃ e, Wallet.Of e x ∧ (∀ t, e = .submit t → t.who ≠ w) ∧ ∀ env l, e ≠ .root env (.update w l) := by
  cases h with
  | newBlock => exact ⟨.newBlock, .newBlock, by simp, by simp⟩
  | tick n => exact ⟨.tick n, .tick n, by simp, by simp⟩
  | @by_ a _ hp hb =>
    refine ⟨.submit ⟨a, 0, .transferAll true 0, 0, 0, 0, ⟨true, true⟩⟩, .submit hb, fun t e => ?_, by simp⟩
    cases e
    exact fun e => hw (e ▸ hp)

/-- C135: tokens of a circle of accounts leave it only by signatures of the circle. As long as none of them signs a
transaction, no account in the circle has less tokens than before, nor can it transfer less, whatever others do with
proxies, announcements, multisig operations, derived accounts, payments and calls of all pallets of the model. -/
theorem C135_kept (cfg : Config) (hinj : ∀ l k l' k', cfg.multi l k = cfg.multi l' k' → l = l' ∧ k = k') (n : Nat)
    (l : TimeRelease.State) (hs : Tokens.Start cfg.wallet.tokens l) (es es' : List Event) (D : AccountId → Prop)
    (hcl : Closed cfg D) (hc : Circle cfg D (run cfg (genesis n l) es).world)
    (hn : ∀ t, .submit t ∈ es' → ¬ D t.who) (x : AccountId) (hx : D x) :
    let s := (run cfg (genesis n l) es).world.tokens
    let s' := (run cfg (run cfg (genesis n l) es) es').world.tokens
    total s x ≤ total s' x ∧ Wallet.spendable s x ≤ Wallet.spendable s' x := by
  intro s s'
  obtain ⟨-, -, ⟨q, hq, ho⟩, -⟩ := C127_circle cfg hinj D hcl _ hc es' hn
  have g : Tokens.Good cfg.wallet.tokens n l s := good_reach hs es
  have key := Wallet.steps_kept hs x q g (fun y hy => by
    obtain ⟨e, h1, h2, -⟩ := of_wallet (ho y hy) (w := x) (by simpa using hx)
    exact ⟨e, h1, h2⟩)
  have e : s' = Tokens.run cfg.wallet.tokens s q := hq
  rw [e]
  exact ⟨key.1, key.2 (fun y hy => of_wallet (ho y hy) (by simpa using hx))⟩

/-! ## An account that has no proxies -/

/-- An account is not its own proxy and has not announced anything for itself. -/
def Apart (x : AccountId) (w : World) : Prop := (∀ d ∈ w.defs x, d.delegate ≠ x) ∧ ∀ a ∈ w.anns x, a.real ≠ x

theorem mem_insertDef {d e : Def} {l : List Def} (h : e ∈ insertDef d l) : e = d ∨ e ∈ l := by
  induction l with
  | nil => simpa [insertDef] using h
  | cons y l ih =>
    unfold insertDef at h
    split at h
    · simpa using h
    · rcases List.mem_cons.1 h with rfl | h
      · simp
      · rcases ih h with h | h
        · exact .inl h
        · simp [h]

theorem step_self {cfg : Config} {env : TimeRelease.Env} {who x : AccountId} {w w' : World} {c : Call} (hp : Plain cfg x)
    (h : step cfg env who w c = some w') (h1 : ∀ d ∈ w.defs x, d.delegate ≠ x) : ∀ d ∈ w'.defs x, d.delegate ≠ x := by
  by_cases hd : w'.defs x = w.defs x
  · rw [hd]; exact h1
  · rcases step_defs h x hd with ⟨rfl, hr⟩ | ⟨ty, delay, i, -, e, -⟩
    · cases c <;> simp only [Call.registers, reduceCtorEq, Bool.false_eq_true] at hr <;>
        simp only [step, addProxy, removeProxy, Option.some.injEq] at h
      case addProxy =>
        split at h <;> simp at h; subst h
        rename_i hg
        intro d hd
        simp only [put, if_true] at hd
        rcases mem_insertDef hd with rfl | hd
        · simp only [not_or] at hg
          exact fun e => hg.1 e.symm
        · exact h1 d hd
      case removeProxy =>
        split at h <;> simp at h; subst h
        intro d hd
        simp only [put, if_true] at hd
        exact h1 d (List.mem_of_mem_erase hd)
      case removeProxies => subst h; simp [put]
      case killPure => split at h <;> simp at h; subst h; simp [put]
    · exact absurd e.symm (hp.pure _ _ _ _ _)

theorem apart_guarded (cfg : Config) (env : TimeRelease.Env) (x : AccountId) (hp : Plain cfg x) :
    Guarded cfg env (Apart x) (fun _ _ _ => True) where
  step := by
    rintro flt who c w w' - - ⟨h1, h2⟩ h
    refine ⟨show ∀ d ∈ w'.defs x, _ from step_self hp h h1, fun a ha => ?_⟩
    rcases step_anns h x a ha with ha | ⟨e, -, -, d, hd, e'⟩
    · exact h2 a ha
    · intro hr
      rw [hr] at hd
      exact h1 d hd (e'.trans e.symm)
  proxy := by intros; trivial
  announced := by
    rintro w w' delegate real force c d ⟨h1, h2⟩ - he
    refine ⟨⟨?_, fun a ha => h2 a (editAnns_mem he a ha)⟩, trivial⟩
    rw [(editAnns_some he).2]
    exact h1
  batch := by intros; trivial
  derive := by intros; trivial
  pay := by intros; trivial
  payAll := by intros; trivial
  multi1 := by intros; trivial
  multi := by
    rintro flt who threshold others c w w' id now - ⟨h1, h2⟩ ho
    obtain ⟨-, e2, e3, -⟩ := operate_frame ho
    exact ⟨⟨by rw [e2]; exact h1, by rw [e3]; exact h2⟩, fun _ => trivial⟩

theorem apart_run (cfg : Config) (x : AccountId) (hp : Plain cfg x) (s : State) (h : List Event) (hs : Apart x s.world) :
    Apart x (run cfg s h).world := by
  induction h generalizing s with
  | nil => exact hs
  | cons e h ih =>
    refine ih (apply cfg s e) ?_
    cases e with
    | newBlock => exact hs
    | tick n => exact hs
    | submit t =>
      show Apart x (submit cfg s t).world
      unfold submit
      split
      · exact hs
      · rename_i s1 hs1
        obtain ⟨-, -, hw⟩ := takeIn_some hs1
        have h1 : Apart x s1.world := by rw [hw]; exact hs
        have h2 : Apart x ((exec cfg t.env (base cfg) t.who t.call s1.world).getD s1.world) := by
          cases he : exec cfg t.env (base cfg) t.who t.call s1.world with
          | none => exact h1
          | some w' => exact (apart_guarded cfg t.env x hp).exec _ _ _ _ _ trivial h1 he
        exact h2

/-- C135 for a single account: an account with a key of its own that has no proxies loses no tokens, and can transfer no
less, before it signs the next transaction. -/
theorem C135_alone (cfg : Config) (hinj : ∀ l k l' k', cfg.multi l k = cfg.multi l' k' → l = l' ∧ k = k') (n : Nat)
    (l : TimeRelease.State) (hs : Tokens.Start cfg.wallet.tokens l) (es es' : List Event) (x : AccountId)
    (hp : Plain cfg x) (hd : (run cfg (genesis n l) es).world.defs x = [])
    (hn : ∀ t, .submit t ∈ es' → t.who ≠ x) :
    let s := (run cfg (genesis n l) es).world.tokens
    let s' := (run cfg (run cfg (genesis n l) es) es').world.tokens
    total s x ≤ total s' x ∧ Wallet.spendable s x ≤ Wallet.spendable s' x := by
  have ha : Apart x (run cfg (genesis n l) es).world := apart_run cfg x hp _ es ⟨by simp [genesis], by simp [genesis]⟩
  refine C135_kept cfg hinj n l hs es es' (· = x) ⟨?_, ?_, ?_⟩ ⟨?_, ?_, ?_⟩ hn x rfl
  · exact fun a i h => absurd h (hp.derived a i)
  · exact fun a t i b e h => absurd h (hp.pure a t i b e)
  · exact fun l k h => absurd h (hp.multi l k)
  · rintro y rfl d hdm
    rw [hd] at hdm
    simp at hdm
  · rintro y rfl a hm
    exact ha.2 a hm
  · exact fun l k h => absurd h (hp.multi l k)

/-! ## C136 -/

/-- C136 in full: proxies that may not transfer do not move tokens. A set of accounts is given of which only members are
proxies of type `Any`, and over which only members have power otherwise. As long as none of them signs a transaction no
account in the set has less tokens than before. -/
def C136_full : Prop :=
  ∀ (cfg : Config) (_ : ∀ l k l' k', cfg.multi l k = cfg.multi l' k' → l = l' ∧ k = k') (n : Nat)
    (l : TimeRelease.State) (_ : Tokens.Start cfg.wallet.tokens l) (es es' : List Event) (D : AccountId → Prop)
    (_ : Closed cfg D) (_ : Limited cfg D (run cfg (genesis n l) es).world)
    (_ : ∀ t, .submit t ∈ es' → ¬ D t.who) (x : AccountId) (_ : D x),
    total (run cfg (genesis n l) es).world.tokens x ≤ total (run cfg (run cfg (genesis n l) es) es').world.tokens x

/-- What limited proxies cannot have executed. -/
theorem limited_calls {d : Def} (hd : d.ty ≠ .any) {c : Call} (h : d.filter c = true) :
    c.registers = false ∧ (∀ ty delay i, c ≠ .createPure ty delay i) ∧ (∀ real hash, c ≠ .announce real hash) ∧ ¬ Moves c ∧
    ∀ real force b, c ≠ .proxy real force b := by
  refine ⟨?_, ?_, ?_, ?_, ?_⟩
  · cases hr : c.registers with
    | false => rfl
    | true => rw [limited_registers hd hr] at h; cases h
  all_goals obtain ⟨k, ty, m⟩ := d
  · rintro ty' delay i rfl
    cases ty <;> simp_all [Def.filter, Call.view, ProxyType.filter, Fn.pallet]
  · rintro real hash rfl
    cases ty <;> simp_all [Def.filter, Call.view, ProxyType.filter, Fn.pallet]
  · intro hm
    cases hm with
    | transfer keep dest amount =>
      cases keep <;> cases ty <;> simp_all [Def.filter, Call.view, ProxyType.filter, Fn.pallet]
    | transferAll keep dest => cases ty <;> simp_all [Def.filter, Call.view, ProxyType.filter, Fn.pallet]
    | schedule dest sched => cases ty <;> simp_all [Def.filter, Call.view, ProxyType.filter, Fn.pallet]
  · rintro real force b rfl
    cases ty <;> simp_all [Def.filter, Call.view, ProxyType.filter]

/-- Calls that move no tokens. -/
theorem deed_total (cfg : Tokens.Config) (s : Tokens.State) {env : TimeRelease.Env} {e : AccountId × Call}
    {y : Tokens.Step} (hy : deed env e = some y) (hm : ¬ Moves e.2) (w : AccountId) :
    total (Tokens.apply cfg s y) w = total s w := by
  obtain ⟨a, c⟩ := e
  cases c <;> simp only [deed, reduceCtorEq, Option.some.injEq] at hy <;> subst hy
  case leaf c =>
    have e := fun t => Tokens.syncSigner_balances t (some a) w
    unfold total
    simp only [Tokens.apply, Chain.Origin.signer]
    rw [(e _).1, (e _).2]
  case release c =>
    simp only [Tokens.apply, TimeRelease.apply]
    cases hd : TimeRelease.dispatch cfg.release env s.ledger (some a) c with
    | error e => rfl
    | ok p =>
      unfold total
      dsimp only
      cases c with
      | claim =>
        simp only [TimeRelease.dispatch, TimeRelease.doClaim, okOr, bind_eq_ok_iff, Except.ok.injEq, pure_eq_ok_iff] at hd
        obtain ⟨_, rfl, _, ⟨q, hq, s1, h1, rfl⟩, rfl⟩ := hd
        have := setFreeze_total h1 w
        rw [pruneAndGet_acct hq] at this
        rw [this.1, this.2]
      | claimFor dest =>
        simp only [TimeRelease.dispatch, TimeRelease.doClaim, okOr, bind_eq_ok_iff, Except.ok.injEq, pure_eq_ok_iff] at hd
        obtain ⟨_, rfl, _, ⟨q, hq, s1, h1, rfl⟩, rfl⟩ := hd
        have := setFreeze_total h1 w
        rw [pruneAndGet_acct hq] at this
        rw [this.1, this.2]
      | update who l => simp [TimeRelease.dispatch, bind_eq_ok_iff, ensure_eq_ok_iff] at hd
      | transfer dest c => exact absurd (.schedule _ _) hm
  case transfer keep dest amount => exact absurd (.transfer _ _ _) hm
  case transferAll keep dest => exact absurd (.transferAll _ _) hm

/-- What holds of the set during a transaction that none of them signed. -/
def Confined (cfg : Config) (D : AccountId → Prop) (w0 w : World) : Prop :=
  Limited cfg D w ∧ (∀ x, D x → w.defs x = w0.defs x) ∧ ∃ l, w.log = w0.log ++ l ∧ ∀ e ∈ l, D e.1 → ¬ Moves e.2

/-- Calls of members go through the filter of a limited proxy. -/
def Filtered (D : AccountId → Prop) (flt : Filter) (who : AccountId) (_ : Call) : Prop :=
  D who → ∀ c, flt c = true → ∃ d : Def, d.ty ≠ .any ∧ d.filter c = true

theorem confined_guarded (cfg : Config) (env : TimeRelease.Env) (D : AccountId → Prop) (hcl : Closed cfg D)
    (hm : ∀ l k, ¬ D (cfg.multi l k)) (w0 : World) : Guarded cfg env (Confined cfg D w0) (Filtered D) where
  step := by
    rintro flt who c w w' hg hf ⟨hc, hd, l, hl, hn⟩ h
    have hdefs : ∀ x, D x → w'.defs x = w.defs x := by
      intro x hx
      by_contra hne
      rcases step_defs h x hne with ⟨e, hr⟩ | ⟨ty, delay, i, e', e, _⟩
      · obtain ⟨d, h1, h2⟩ := hg (e ▸ hx) c hf
        rw [(limited_calls h1 h2).1] at hr
        cases hr
      · obtain ⟨d, h1, h2⟩ := hg (hcl.pure _ _ _ _ _ (e ▸ hx)) c hf
        exact (limited_calls h1 h2).2.1 _ _ _ e'
    refine ⟨⟨?_, ?_, ?_⟩, ?_, l ++ [(who, c)], ?_, ?_⟩
    · intro x hx d hdm
      exact hc.delegates x hx d (hdefs x hx ▸ hdm)
    · intro x hx a ha
      rcases step_anns h x a ha with ha | ⟨e, _, e', _⟩
      · exact hc.announced x hx a ha
      · obtain ⟨d, h1, h2⟩ := hg (e ▸ hx) c hf
        exact absurd e' ((limited_calls h1 h2).2.2.1 _ _)
    · exact fun l k hd => absurd hd (hm l k)
    · exact fun x hx => (hdefs x hx).trans (hd x hx)
    · simp [World.done, (step_log h).1, hl]
    · intro e he hD
      rcases List.mem_append.1 he with he | he
      · exact hn e he hD
      · rw [List.mem_singleton.1 he] at hD ⊢
        obtain ⟨d, h1, h2⟩ := hg hD c hf
        exact (limited_calls h1 h2).2.2.2.1
  proxy := by
    rintro flt who real force c w d hg hf ⟨hc, -⟩ hp - hr c' hc'
    obtain ⟨h1, h2⟩ := findProxy_some hp
    rcases hc.delegates real hr d h1 with h | h
    · obtain ⟨d', k1, k2⟩ := hg (h2 ▸ h) _ hf
      exact absurd rfl ((limited_calls k1 k2).2.2.2.2 _ _ _)
    · exact ⟨d, h, (Bool.and_eq_true _ _ ▸ hc').2⟩
  announced := by
    rintro w w' delegate real force c d ⟨hc, hd, hl⟩ hp he
    refine ⟨⟨⟨?_, ?_, ?_⟩, ?_, ?_⟩, ?_⟩
    · rw [(editAnns_some he).2]; exact hc.delegates
    · exact fun x hx a ha => hc.announced x hx a (editAnns_mem he a ha)
    · rw [(editAnns_some he).2]; exact hc.pending
    · rw [(editAnns_some he).2]; exact hd
    · rw [(editAnns_some he).2]; exact hl
    · intro hr c' hc'
      obtain ⟨h1, h2⟩ := findProxy_some hp
      rcases hc.delegates real hr d h1 with h | h
      · obtain ⟨⟨a, ha, hk⟩, -⟩ := editAnns_some he
        simp only [decide_eq_false_iff_not, not_or, not_not] at hk
        exact absurd (hk.1 ▸ hr) (hc.announced delegate (h2 ▸ h) a ha)
      · exact ⟨d, h, (Bool.and_eq_true _ _ ▸ hc').2⟩
  batch := fun h _ hD c hc => h hD c (batchFilter_imp hc)
  derive := fun h hD => h (hcl.derived _ _ hD)
  pay := fun h => h
  payAll := fun h _ hD c hc => h hD c (batchFilter_imp hc)
  multi1 := fun _ _ hD => absurd hD (hm _ _)
  multi := by
    rintro flt who threshold others c w w' id now - ⟨hc, hd, hl⟩ ho
    obtain ⟨-, e2, e3, e4, -⟩ := operate_frame ho
    refine ⟨⟨⟨by rw [e2]; exact hc.delegates, by rw [e3]; exact hc.announced, fun l k h => absurd h (hm l k)⟩,
      by rw [e2]; exact hd, by rw [e4]; exact hl⟩, fun _ hD => ?_⟩
    obtain ⟨all, -, -, hid, -⟩ := operate_some ho
    exact absurd (hid ▸ hD) (hm _ _)

theorem confined_submit (cfg : Config) (D : AccountId → Prop) (hcl : Closed cfg D) (hm : ∀ l k, ¬ D (cfg.multi l k))
    (s : State) (t : Signed) (ht : ¬ D t.who) (hc : Limited cfg D s.world) :
    Confined cfg D s.world (submit cfg s t).world := by
  have h0 : Confined cfg D s.world s.world := ⟨hc, fun _ _ => rfl, [], by simp, by simp⟩
  unfold submit
  split
  · exact h0
  · rename_i s1 hs1
    obtain ⟨-, -, hw⟩ := takeIn_some hs1
    have h1 : Confined cfg D s.world s1.world := by
      rw [hw]
      exact ⟨⟨hc.delegates, hc.announced, hc.pending⟩, fun _ _ => rfl, [], by simp, by simp⟩
    have h2 : Confined cfg D s.world ((exec cfg t.env (base cfg) t.who t.call s1.world).getD s1.world) := by
      cases he : exec cfg t.env (base cfg) t.who t.call s1.world with
      | none => exact h1
      | some w' => exact (confined_guarded cfg t.env D hcl hm s.world).exec _ _ _ _ _ (fun h => absurd h ht) h1 he
    exact ⟨⟨h2.1.delegates, h2.1.announced, h2.1.pending⟩, h2.2⟩

/-- C136, what holds: so it is if there are no multisig accounts in the set, in every state; no call that moves tokens is
executed in the name of a member, and the members keep their proxies. Missing: sets with multisig accounts. -/
theorem C136_limited_partial (cfg : Config) (D : AccountId → Prop) (hcl : Closed cfg D) (hm : ∀ l k, ¬ D (cfg.multi l k))
    (s : State) (hc : Limited cfg D s.world) (h : List Event) (hn : ∀ t, .submit t ∈ h → ¬ D t.who) :
    (∀ x, D x → total s.world.tokens x ≤ total (run cfg s h).world.tokens x ∧ (run cfg s h).world.defs x = s.world.defs x) ∧
    ∃ l, (run cfg s h).world.log = s.world.log ++ l ∧ ∀ e ∈ l, D e.1 → ¬ Moves e.2 := by
  induction h generalizing s with
  | nil => exact ⟨fun x _ => ⟨Nat.le_refl _, rfl⟩, [], by simp [run], by simp⟩
  | cons e h ih =>
    have hr : run cfg s (e :: h) = run cfg (apply cfg s e) h := rfl
    have hstep : (∀ x, D x → total s.world.tokens x ≤ total (apply cfg s e).world.tokens x ∧
        (apply cfg s e).world.defs x = s.world.defs x) ∧
        (∃ l, (apply cfg s e).world.log = s.world.log ++ l ∧ ∀ e ∈ l, D e.1 → ¬ Moves e.2) ∧
        Limited cfg D (apply cfg s e).world := by
      cases e with
      | newBlock =>
        exact ⟨fun x _ => ⟨Nat.le_refl _, rfl⟩, ⟨[], by simp [apply], by simp⟩, ⟨hc.delegates, hc.announced, hc.pending⟩⟩
      | tick n =>
        exact ⟨fun x _ => ⟨Nat.le_refl _, rfl⟩, ⟨[], by simp [apply], by simp⟩, ⟨hc.delegates, hc.announced, hc.pending⟩⟩
      | submit t =>
        have ht := hn t (by simp)
        obtain ⟨h1, h2, l, hl, hlm⟩ := confined_submit cfg D hcl hm s t ht hc
        refine ⟨fun x hx => ⟨?_, h2 x hx⟩, ⟨l, hl, hlm⟩, h1⟩
        obtain ⟨p, l', b, hp, hb, hl', ht'⟩ := C127_log cfg s t
        have := List.append_cancel_left (hl'.symm.trans hl); subst this
        show _ ≤ total (submit cfg s t).world.tokens x
        have hne : t.who ≠ x := fun e => ht (e ▸ hx)
        rw [ht', Wallet.run_append, Wallet.run_append]
        refine Nat.le_trans (run_total cfg.wallet.tokens _ p (fun y hy => ⟨_, hne, hp.by_ hy⟩)) (Nat.le_trans ?_
          (run_total cfg.wallet.tokens _ b (fun y hy => ⟨_, hne, hb.by_ hy⟩)))
        generalize Tokens.run cfg.wallet.tokens s.world.tokens p = s1
        clear hl hl' ht'
        induction l' generalizing s1 with
        | nil => exact Nat.le_refl _
        | cons e l' ih' =>
          rw [List.filterMap_cons]
          have hi := fun s1 => ih' (fun e he => hlm e (by simp [he])) s1
          cases hd : deed t.env e with
          | none => exact hi s1
          | some y =>
            dsimp only
            refine Nat.le_trans ?_ (hi (Tokens.apply cfg.wallet.tokens s1 y))
            by_cases hD : e.1 = x
            · exact Nat.le_of_eq (deed_total _ _ hd (hlm e (by simp) (hD ▸ hx)) x).symm
            · exact by_total _ _ (deed_by hd) (fun e => hD e.symm)
    obtain ⟨a1, ⟨l, a2, a3⟩, a4⟩ := hstep
    obtain ⟨b1, l', b2, b3⟩ := ih (apply cfg s e) a4 (fun t ht => hn t (List.mem_cons_of_mem _ ht))
    rw [hr]
    refine ⟨fun x hx => ⟨Nat.le_trans (a1 x hx).1 (b1 x hx).1, (b1 x hx).2.trans (a1 x hx).2⟩, l ++ l',
      by rw [b2, a2, List.append_assoc], fun e he => ?_⟩
    rcases List.mem_append.1 he with he | he
    · exact a3 e he
    · exact b3 e he

/-! ## A concrete chain -/

/-- A transaction with a fee of 6, of which 2 are paid back. -/
def exPay (who : AccountId) (nonce : Nat) (c : Call) : Event := .submit ⟨who, nonce, c, 100, 6, 2, Wallet.exEnv⟩

/-- The multisig account of keys 30 and 50, where one of them suffices. -/
def exJoint : AccountId := exCfg.multi [30, 50] 1

/-- Key 30 transfers 100 to the joint account and 50 to a derived account of its own, and makes key 20 its proxy, which
may not transfer. -/
def exBegin : List Event :=
  [.newBlock, exPay 30 0 (.transfer false exJoint 100), exPay 30 1 (.transfer false (exCfg.derive 30 7) 50),
   exPay 30 2 (.addProxy 20 .nonTransfer 0)]

/-- Key 20 tries to have tokens of key 30 and of the derived account transferred, in several ways. -/
def exTries : List Event :=
  [exPay 20 0 (.proxy 30 none (.transfer false 20 90)), exPay 20 1 (.proxy 30 none (.batch .batch [.transferAll false 20])),
   exPay 20 2 (.proxy 30 none (.release (.transfer 20 ⟨100, 5, 2, 20⟩))),
   exPay 20 3 (.proxy 30 none (.asDerivative 7 (.transfer false 20 40))), exPay 20 4 (.proxy 30 none (.leaf (.msa .create)))]

/-- Key 20 transfers tokens of the joint account. -/
def exTake : List Event := [exPay 20 0 (.proxy 30 none (.multiThreshold1 [50] (.transfer false 20 90)))]

theorem exStart : Tokens.Start exCfg.wallet.tokens Tokens.exLedger := Tokens.exStart

/-- Calls that leave the multisig pallet alone. -/
def apartFromMulti : Call → Bool
  | .transfer .. | .addProxy .. => true
  | _ => false

theorem submit_multis (cfg : Config) (s : State) (t : Signed) (h : apartFromMulti t.call = true) :
    (submit cfg s t).world.multis = s.world.multis := by
  unfold submit
  split
  · rfl
  · rename_i s1 hs1
    obtain ⟨-, -, hw⟩ := takeIn_some hs1
    have e1 : s1.world.multis = s.world.multis := by rw [hw]
    dsimp only
    cases he : exec cfg t.env (base cfg) t.who t.call s1.world with
    | none => exact e1
    | some w' =>
      rw [← e1]
      obtain ⟨who, nonce, call, len, fee, back, env⟩ := t
      rw [exec.eq_def] at he
      split at he
      · cases call <;> simp only [apartFromMulti, Bool.false_eq_true] at h
        case transfer =>
          simp only [step, Option.map_map, Option.map_eq_some_iff] at he
          obtain ⟨_, _, rfl⟩ := he
          rfl
        case addProxy =>
          simp only [step, addProxy] at he
          split at he <;> simp only [Option.map_none, Option.map_some, reduceCtorEq, Option.some.injEq] at he
          subst he
          rfl
      · cases he

theorem exBegin_multis : (run exCfg (genesis 1024 Tokens.exLedger) exBegin).world.multis = fun _ _ => none := by
  simp only [exBegin, exPay, run, List.foldl_cons, List.foldl_nil, apply]
  rw [submit_multis _ _ _ rfl, submit_multis _ _ _ rfl, submit_multis _ _ _ rfl]
  rfl

/-- C136 in full is false of the code: calls of the multisig pallet pass the filter of proxies that may not transfer, and
what a multisig account executes does not go through that filter. -/
theorem C136_full_false : ¬ C136_full := by
  intro hf
  have h := hf exCfg exMulti 1024 Tokens.exLedger exStart exBegin exTake (fun a => a = 30 ∨ a = 50 ∨ a = exJoint)
    ⟨fun a i => ?_, fun a t i b e => ?_, fun l k h l' hn hl => ?_⟩ ⟨?_, ?_, ?_⟩ ?_ exJoint (.inr (.inr rfl))
  · exact absurd h (by decide +kernel)
  · simp only [exJoint, exCfg]; omega
  · simp only [exJoint, exCfg]; omega
  · rcases h with h | h | h
    · simp only [exCfg] at h; omega
    · simp only [exCfg] at h; omega
    · obtain ⟨rfl, rfl⟩ := exMulti _ _ _ _ h
      cases l' with
      | nil => simp
      | cons a l' =>
        obtain ⟨h1, h2⟩ := hl a (by simp)
        simp only [List.mem_cons, List.not_mem_nil, or_false] at h1
        rcases h1 with h1 | h1
        · exact absurd (.inl h1) h2
        · exact absurd (.inr (.inl h1)) h2
  · rintro x (rfl | rfl | rfl)
    · have : (run exCfg (genesis 1024 Tokens.exLedger) exBegin).world.defs 30 = [⟨20, .nonTransfer, 0⟩] := by decide +kernel
      rw [this]
      simp
    · have : (run exCfg (genesis 1024 Tokens.exLedger) exBegin).world.defs 50 = [] := by decide +kernel
      rw [this]
      simp
    · have : (run exCfg (genesis 1024 Tokens.exLedger) exBegin).world.defs exJoint = [] := by decide +kernel
      rw [this]
      simp
  · rintro x (rfl | rfl | rfl)
    · have : (run exCfg (genesis 1024 Tokens.exLedger) exBegin).world.anns 30 = [] := by decide +kernel
      rw [this]
      simp
    · have : (run exCfg (genesis 1024 Tokens.exLedger) exBegin).world.anns 50 = [] := by decide +kernel
      rw [this]
      simp
    · have : (run exCfg (genesis 1024 Tokens.exLedger) exBegin).world.anns exJoint = [] := by decide +kernel
      rw [this]
      simp
  · intro l k _ h m hm
    rw [exBegin_multis] at hm
    cases hm
  · intro t ht
    simp only [exTake, exPay, List.mem_singleton, Event.submit.injEq] at ht
    subst ht
    simp only [exJoint, exCfg]
    omega

/-- Hypotheses of `C136_limited_partial` met: key 30 and its derived accounts are a set whose proxies are limited. Key 20
gets an account created for key 30, and no tokens. -/
example : Closed exCfg (fun a => a = 30 ∨ a = exCfg.derive 30 7) ∧
    (run exCfg (genesis 1024 Tokens.exLedger) exBegin).world.defs 30 = [⟨20, .nonTransfer, 0⟩] ∧
    (∀ l k, ¬ (exCfg.multi l k = 30 ∨ exCfg.multi l k = exCfg.derive 30 7)) ∧
    total (run exCfg (genesis 1024 Tokens.exLedger) exBegin).world.tokens 30 = 838 ∧
    total (run exCfg (genesis 1024 Tokens.exLedger) (exBegin ++ exTries)).world.tokens 30 = 838 ∧
    total (run exCfg (genesis 1024 Tokens.exLedger) (exBegin ++ exTries)).world.tokens (exCfg.derive 30 7) = 50 ∧
    total (run exCfg (genesis 1024 Tokens.exLedger) (exBegin ++ exTries)).world.tokens 20 = 280 ∧
    Chain.msaOf (run exCfg (genesis 1024 Tokens.exLedger) (exBegin ++ exTries)).world.chain 30 = some 1 := by
  refine ⟨⟨fun a i => ?_, fun a t i b e => ?_, fun l k => ?_⟩, by decide +kernel, fun l k => ?_, by decide +kernel,
    by decide +kernel, by decide +kernel, by decide +kernel, by decide +kernel⟩
  · simp only [exCfg]
    rintro (h | h)
    · omega
    · have : Nat.pair a i = Nat.pair 30 7 := by omega
      exact .inl (Nat.pair_eq_pair.1 this).1
  all_goals simp only [exCfg]; omega

/-- Hypotheses of `C135_kept` and `C135_alone` met: with a proxy of type `Any` key 20 takes tokens of key 30, which then
is no circle without key 20; without a proxy it does not, and key 30 may also get tokens while it signs nothing. -/
example :
    let s := run exCfg (genesis 1024 Tokens.exLedger) [.newBlock]
    let s2 := run exCfg s [exPay 30 0 (.addProxy 20 .any 0)]
    let take := [exPay 20 0 (.proxy 30 none (.transfer false 20 90)), exPay 40 0 (.transfer false 30 20)]
    Plain exCfg 30 ∧ s.world.defs 30 = [] ∧ total s.world.tokens 30 = 1000 ∧ total (run exCfg s take).world.tokens 30 = 1020 ∧
    Wallet.spendable s.world.tokens 30 = 600 ∧ Wallet.spendable (run exCfg s take).world.tokens 30 = 620 ∧
    s2.world.defs 30 = [⟨20, .any, 0⟩] ∧ total s2.world.tokens 30 = 996 ∧
    total (run exCfg s2 take).world.tokens 30 = 926 ∧ total (run exCfg s2 take).world.tokens 20 = 386 :=
  ⟨exPlain 30 (by decide), by decide +kernel⟩

end Verif.Wrapped
