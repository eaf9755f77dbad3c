import Verif.Wallet.Model
import Verif.Tokens.Props
import Verif.Tx.PropsOutcome
/-!
# Lemmas about transactions on the chain with its tokens

A transaction is a run of steps of `Tokens/Model.lean`, all of them steps of its signer.
-/

namespace Verif.Wallet
open TimeRelease (acct setAcct acct_setAcct)
open Tokens (Start Good Still total everything)

/-! ## Steps of a signer -/

/-- What calls of a signer do. -/
inductive Does (who : AccountId) : Tokens.Step → Prop
  | call (c) : Does who (.call (.signed who) c)
  | release (env c) : Does who (.release env (some who) c)
  | transfer (env keep dest amount) : Does who (.transfer env keep who dest amount)
  | transferAll (env keep dest) : Does who (.transferAll env keep who dest)

/-- What transactions of a signer do: their calls, and the payment. -/
inductive By (who : AccountId) : Tokens.Step → Prop
  | does {x} : Does who x → By who x
  | charge (n) : By who (.charge who n)
  | fee (n) : By who (.fee who n)
  | refund (n) : By who (.refund who n)

mutual
/-- Whether a call may move tokens: a transfer, with or without a schedule, is among its calls. -/
def Call.moves : Call → Bool
  | .chain _ => false
  | .release (.transfer ..) => true
  | .release _ => false
  | .transfer .. => true
  | .transferAll .. => true
  | .batch _ calls => movesL calls
  | .payWithCapacity c => c.moves
  | .payWithCapacityBatchAll calls => movesL calls
/-- The same for lists of calls. -/
def movesL : List Call → Bool
  | [] => false
  | c :: cs => c.moves || movesL cs
end

theorem run_append (cfg : Tokens.Config) (s : Tokens.State) (a b : List Tokens.Step) :
    Tokens.run cfg s (a ++ b) = Tokens.run cfg (Tokens.run cfg s a) b := by
  simp [Tokens.run]

/-- A run of steps for calls, which move tokens only if they may. -/
def Steps (cfg : Config) (who : AccountId) (mv : Bool) (s s' : Tokens.State) : Prop :=
  ∃ h, s' = Tokens.run cfg.tokens s h ∧ (∀ x ∈ h, Does who x) ∧ (mv = false → ∀ x ∈ h, Still x)

theorem Steps.refl (cfg : Config) (who : AccountId) (mv : Bool) (s : Tokens.State) : Steps cfg who mv s s :=
  ⟨[], rfl, by simp, by simp⟩

theorem Steps.trans {cfg : Config} {who : AccountId} {a b mv : Bool} {s s1 s2 : Tokens.State}
    (h1 : Steps cfg who a s s1) (h2 : Steps cfg who b s1 s2) (ha : mv = false → a = false) (hb : mv = false → b = false) :
    Steps cfg who mv s s2 := by
  obtain ⟨x, rfl, x1, x2⟩ := h1
  obtain ⟨y, rfl, y1, y2⟩ := h2
  refine ⟨x ++ y, (run_append ..).symm, fun z hz => ?_, fun hm z hz => ?_⟩
  · rcases List.mem_append.1 hz with hz | hz
    · exact x1 z hz
    · exact y1 z hz
  · rcases List.mem_append.1 hz with hz | hz
    · exact x2 (ha hm) z hz
    · exact y2 (hb hm) z hz

theorem Steps.single {cfg : Config} {who : AccountId} {mv : Bool} {s s' : Tokens.State} (x : Tokens.Step)
    (h : s' = Tokens.apply cfg.tokens s x) (hd : Does who x) (hm : mv = false → Still x) : Steps cfg who mv s s' :=
  ⟨[x], h, by simpa using hd, fun h => by simpa using hm h⟩

mutual
theorem exec_steps (cfg : Config) (env : TimeRelease.Env) (flt : Runtime.Filter) (who : AccountId) (c : Call)
    (s s' : Tokens.State) (h : exec cfg env flt who c s = some s') : Steps cfg who c.moves s s' := by
  match c with
  | .chain c =>
    rw [exec.eq_def] at h
    dsimp only at h
    split at h
    · obtain ⟨ch, h1, rfl⟩ := Option.map_eq_some_iff.1 h
      refine .single (.call (.signed who) c) ?_ (.call c) (fun _ => trivial)
      simp only [Tokens.apply, Chain.apply, h1]
      rfl
    · cases h
  | .release c =>
    rw [exec.eq_def] at h
    dsimp only at h
    split at h
    · obtain ⟨p, h1, rfl⟩ := Option.map_eq_some_iff.1 h
      have h2 : TimeRelease.dispatch cfg.tokens.release env s.ledger (some who) c = .ok p := by
        revert h1
        cases TimeRelease.dispatch cfg.tokens.release env s.ledger (some who) c with
        | error e => intro h; cases h
        | ok q => intro h; cases h; rfl
      refine .single (.release env (some who) c) ?_ (.release env c) (fun hm => ?_)
      · simp only [Tokens.apply, TimeRelease.apply, h2]
      · cases c <;> first | trivial | simp [Call.moves] at hm
    · cases h
  | .transfer keep dest amount =>
    rw [exec.eq_def] at h
    dsimp only at h
    split at h
    · refine .single (.transfer env keep who dest amount) ?_ (.transfer ..) (by simp [Call.moves])
      simp [Tokens.apply, h]
    · cases h
  | .transferAll keep dest =>
    rw [exec.eq_def] at h
    dsimp only at h
    split at h
    · refine .single (.transferAll env keep who dest) ?_ (.transferAll ..) (by simp [Call.moves])
      simp [Tokens.apply, h]
    · cases h
  | .batch k calls =>
    rw [exec.eq_def] at h
    dsimp only at h
    split at h
    · rw [Call.moves]
      exact execL_steps cfg env k _ who calls s s' h
    · cases h
  | .payWithCapacity c =>
    rw [exec.eq_def] at h
    dsimp only at h
    split at h
    · rw [Call.moves]
      exact exec_steps cfg env flt who c s s' h
    · cases h
  | .payWithCapacityBatchAll calls =>
    rw [exec.eq_def] at h
    dsimp only at h
    split at h
    · split at h
      · rw [Call.moves]
        exact execL_steps cfg env .batchAll _ who calls s s' h
      · cases h
    · cases h
theorem execL_steps (cfg : Config) (env : TimeRelease.Env) (k : Runtime.BatchKind) (flt : Runtime.Filter)
    (who : AccountId) (calls : List Call) (s s' : Tokens.State) (h : execL cfg env k flt who calls s = some s') :
    Steps cfg who (movesL calls) s s' := by
  match calls with
  | [] =>
    rw [execL.eq_def] at h
    cases h
    exact .refl ..
  | c :: cs =>
    rw [execL.eq_def] at h
    dsimp only at h
    rw [movesL]
    have ha : (c.moves || movesL cs) = false → c.moves = false := by cases c.moves <;> simp
    have hb : (c.moves || movesL cs) = false → movesL cs = false := by cases c.moves <;> simp
    split at h
    · rename_i s1 h1
      exact (exec_steps cfg env flt who c s s1 h1).trans (execL_steps cfg env k flt who cs s1 s' h) ha hb
    · cases k with
      | batch => cases h; exact .refl ..
      | batchAll => cases h
      | forceBatch =>
        exact (Steps.refl cfg who false s).trans (execL_steps cfg env .forceBatch flt who cs s s' h) (fun _ => rfl) hb
end

/-! ## Payment -/

/-- How a transaction is paid. -/
inductive Payment where
  | free | capacity | tokens
  deriving DecidableEq

open Classical in
/-- The five free calls by themselves are free, the calls of the payment pallet are paid with capacity, everything else
with tokens. -/
noncomputable def payment : Call → Payment
  | .chain c => if Tx.Free c then .free else .tokens
  | .payWithCapacity _ | .payWithCapacityBatchAll _ => .capacity
  | _ => .tokens

theorem view_free (c : Call) : Runtime.paysNo c.view = true ↔ payment c = .free := by
  cases c with
  | chain c =>
    rw [Call.view, Tx.free_iff, payment]
    split <;> simp [*]
  | release c => cases c <;> simp [Call.view, Runtime.paysNo, payment]
  | transfer keep dest amount => cases keep <;> simp [Call.view, Runtime.paysNo, payment]
  | transferAll keep dest => simp [Call.view, Runtime.paysNo, payment]
  | batch k calls => simp [Call.view, Runtime.paysNo, payment]
  | payWithCapacity c => simp [Call.view, Runtime.paysNo, payment]
  | payWithCapacityBatchAll calls => simp [Call.view, Runtime.paysNo, payment]

theorem inTokens_iff (c : Call) : inTokens c = true ↔ payment c = .tokens := by
  have h := view_free c
  cases c with
  | chain c =>
    simp only [inTokens, Bool.not_eq_true']
    rw [← Bool.not_eq_true, h, payment]
    split <;> simp
  | payWithCapacity c => simp [inTokens, payment]
  | payWithCapacityBatchAll calls => simp [inTokens, payment]
  | release c => cases c <;> simp [inTokens, Call.view, Runtime.paysNo, payment]
  | transfer keep dest amount => cases keep <;> simp [inTokens, Call.view, Runtime.paysNo, payment]
  | transferAll keep dest => simp [inTokens, Call.view, Runtime.paysNo, payment]
  | batch k calls => simp [inTokens, Call.view, Runtime.paysNo, payment]

/-- Only the calls of the payment pallet are paid with capacity. -/
theorem charge_none (cfg : TxPayment.Config) (keys : Msa.State) (b : Balance) (k : Capacity.State) (who : AccountId)
    (len : Nat) (c : Call) (h : payment c ≠ .capacity) : TxPayment.charge cfg keys b k who len c.view = none := by
  cases c with
  | chain c =>
    rw [Call.view]
    cases c with
    | msa c => rfl
    | schemas c => cases c <;> rfl
    | messages c => cases c <;> rfl
    | handles c => cases c <;> rfl
    | storage c => cases c <;> rfl
    | capacity c => cases c <;> rfl
  | release c => cases c <;> rfl
  | transfer keep dest amount => rfl
  | transferAll keep dest => rfl
  | batch k calls => rfl
  | payWithCapacity c => simp [payment] at h
  | payWithCapacityBatchAll calls => simp [payment] at h

theorem pay_free (cfg : Config) (s : Tokens.State) (t : Signed) (h : payment t.call = .free) : pay cfg s t = some s := by
  unfold pay
  rw [charge_none _ _ _ _ _ _ _ (by rw [h]; simp)]
  simp [(view_free t.call).2 h]

theorem pay_tokens (cfg : Config) (s : Tokens.State) (t : Signed) (h : payment t.call = .tokens) :
    pay cfg s t = Tokens.fee cfg.tokens s t.who t.fee := by
  unfold pay
  rw [charge_none _ _ _ _ _ _ _ (by rw [h]; simp)]
  have : ¬ Runtime.paysNo t.call.view = true := by rw [view_free, h]; simp
  simp [this]

theorem pay_capacity (cfg : Config) (s s' : Tokens.State) (t : Signed) (h : payment t.call = .capacity)
    (hp : pay cfg s t = some s') : ∃ n ch, Chain.charge s.chain t.who n = some ch ∧ s' = { s with chain := ch } := by
  have hc : ∃ calls, TxPayment.Paid t.call.view calls := by
    generalize t.call = c at *
    cases c with
    | chain c => rw [payment] at h; split at h <;> cases h
    | release c => cases h
    | transfer keep dest amount => cases h
    | transferAll keep dest => cases h
    | batch k calls => cases h
    | payWithCapacity c => rw [Call.view]; exact ⟨_, .single _⟩
    | payWithCapacityBatchAll calls => rw [Call.view]; exact ⟨_, .batch _⟩
  obtain ⟨calls, hc⟩ := hc
  unfold pay at hp
  rw [TxPayment.charge_paid _ _ _ _ _ _ hc] at hp
  dsimp only at hp
  obtain ⟨k, hk, rfl⟩ := Option.map_eq_some_iff.1 hp
  have hk' : TxPayment.withdrawCapacityFee cfg.payment s.chain.msa (Tokens.bal s t.who) s.chain.capacity t.who calls
      t.len = .ok k := by
    revert hk
    cases TxPayment.withdrawCapacityFee cfg.payment s.chain.msa (Tokens.bal s t.who) s.chain.capacity t.who calls t.len with
    | error e => intro h; cases h
    | ok q => intro h; cases h; rfl
  obtain ⟨_, _, m, hm, hw⟩ := (TxPayment.withdraw_iff ..).1 hk'
  refine ⟨TxPayment.fee cfg.payment calls t.len, { s.chain with capacity := k }, ?_, rfl⟩
  unfold Chain.charge
  have hm' : Chain.msaOf s.chain t.who = some m := hm
  simp [hm', hw, Except.toOption]

/-- A payment is a step of the signer, or none. -/
theorem pay_steps (cfg : Config) (s s' : Tokens.State) (t : Signed) (hp : pay cfg s t = some s') :
    ∃ h, s' = Tokens.run cfg.tokens s h ∧ ∀ x ∈ h, By t.who x := by
  cases h : payment t.call with
  | free => rw [pay_free cfg s t h] at hp; cases hp; exact ⟨[], rfl, by simp⟩
  | tokens =>
    rw [pay_tokens cfg s t h] at hp
    exact ⟨[.fee t.who t.fee], by simp [Tokens.run, Tokens.apply, hp], by simpa using By.fee _⟩
  | capacity =>
    obtain ⟨n, ch, h1, rfl⟩ := pay_capacity cfg s s' t h hp
    exact ⟨[.charge t.who n], by simp [Tokens.run, Tokens.apply, Chain.apply, h1], by simpa using By.charge _⟩

theorem settle_steps (cfg : Config) (s : Tokens.State) (t : Signed) :
    ∃ h, settle s t = Tokens.run cfg.tokens s h ∧ ∀ x ∈ h, By t.who x := by
  unfold settle
  split
  · exact ⟨[.refund t.who (min t.back t.fee)], rfl, by simpa using By.refund _⟩
  · exact ⟨[], rfl, by simp⟩

theorem takeIn_iff (cfg : Config) (s s1 : State) (t : Signed) : takeIn cfg s t = some s1 ↔
    t.nonce = nonceOf s t.who ∧ pay cfg s.tokens t = some s1.tokens ∧
    extensions cfg s1.tokens.chain t.who t.call = true ∧
    s1.nonces = if payment t.call = .free ∧ existing s.tokens t.who = false then s.nonces
      else s.nonces.insert t.who (t.nonce + 1) := by
  unfold takeIn checkNonce
  by_cases hn : t.nonce = nonceOf s t.who
  · rw [if_pos hn]
    simp only [Option.bind_eq_bind, Option.bind_some, hn, true_and]
    have he : (Runtime.paysNo t.call.view && !existing s.tokens t.who) = true ↔
        payment t.call = .free ∧ existing s.tokens t.who = false := by
      rw [Bool.and_eq_true, view_free, Bool.not_eq_true']
    cases hp : pay cfg s.tokens t with
    | none => simp
    | some p =>
      simp only [Option.bind_some, Option.some.injEq]
      obtain ⟨s1t, s1n⟩ := s1
      dsimp only
      simp only [he]
      constructor
      · intro h
        split at h
        · rename_i hx
          cases h
          exact ⟨rfl, hx, rfl⟩
        · cases h
      · rintro ⟨rfl, hx, rfl⟩
        rw [if_pos hx]
  · rw [if_neg hn]
    simp [hn]

/-! ## Transactions and histories -/

/-- A transaction is a run of steps of its signer. -/
theorem submit_steps (cfg : Config) (s : State) (t : Signed) :
    ∃ h, (submit cfg s t).tokens = Tokens.run cfg.tokens s.tokens h ∧ ∀ x ∈ h, By t.who x := by
  unfold submit
  cases h : takeIn cfg s t with
  | none => exact ⟨[], rfl, by simp⟩
  | some s1 =>
    obtain ⟨_, hp, _, _⟩ := (takeIn_iff ..).1 h
    obtain ⟨a, ha, hab⟩ := pay_steps cfg _ _ t hp
    have he : ∃ b, (exec cfg t.env (Runtime.contains cfg.mainnet) t.who t.call s1.tokens).getD s1.tokens =
        Tokens.run cfg.tokens s1.tokens b ∧ ∀ x ∈ b, By t.who x := by
      cases hx : exec cfg t.env (Runtime.contains cfg.mainnet) t.who t.call s1.tokens with
      | none => exact ⟨[], rfl, by simp⟩
      | some s2 =>
        obtain ⟨b, hb, hd, _⟩ := exec_steps cfg _ _ _ _ _ _ hx
        exact ⟨b, hb, fun x hx => .does (hd x hx)⟩
    obtain ⟨b, hb, hbb⟩ := he
    obtain ⟨c, hc, hcb⟩ := settle_steps cfg
      ((exec cfg t.env (Runtime.contains cfg.mainnet) t.who t.call s1.tokens).getD s1.tokens) t
    refine ⟨a ++ (b ++ c), ?_, ?_⟩
    · dsimp only
      rw [hc, hb, ha, run_append, run_append]
    · intro x hx
      rcases List.mem_append.1 hx with hx | hx
      · exact hab x hx
      · rcases List.mem_append.1 hx with hx | hx
        · exact hbb x hx
        · exact hcb x hx

/-- Steps of an event. -/
inductive Of : Event → Tokens.Step → Prop
  | newBlock : Of .newBlock .newBlock
  | tick (n) : Of (.tick n) (.tick n)
  | upgrade (known) : Of (.upgrade known) (.upgrade known)
  | council (c) : Of (.council c) (.call .council c)
  | root (env c) : Of (.root env c) (.release env none c)
  | submit {t x} : By t.who x → Of (.submit t) x

theorem apply_steps (cfg : Config) (s : State) (e : Event) :
    ∃ h, (apply cfg s e).tokens = Tokens.run cfg.tokens s.tokens h ∧ ∀ x ∈ h, Of e x := by
  cases e with
  | newBlock => exact ⟨[.newBlock], rfl, by simpa using Of.newBlock⟩
  | tick n => exact ⟨[.tick n], rfl, by simpa using Of.tick n⟩
  | upgrade known => exact ⟨[.upgrade known], rfl, by simpa using Of.upgrade known⟩
  | council c => exact ⟨[.call .council c], rfl, by simpa using Of.council c⟩
  | root env c => exact ⟨[.release env none c], rfl, by simpa using Of.root env c⟩
  | submit t =>
    obtain ⟨h, h1, h2⟩ := submit_steps cfg s t
    exact ⟨h, h1, fun x hx => .submit (h2 x hx)⟩

theorem run_steps (cfg : Config) (s : State) (es : List Event) :
    ∃ h, (run cfg s es).tokens = Tokens.run cfg.tokens s.tokens h ∧ ∀ x ∈ h, ∃ e ∈ es, Of e x := by
  induction es generalizing s with
  | nil => exact ⟨[], rfl, by simp⟩
  | cons e es ih =>
    obtain ⟨a, ha, hab⟩ := apply_steps cfg s e
    obtain ⟨b, hb, hbb⟩ := ih (apply cfg s e)
    refine ⟨a ++ b, ?_, ?_⟩
    · show (run cfg (apply cfg s e) es).tokens = _
      rw [hb, ha, run_append]
    · intro x hx
      rcases List.mem_append.1 hx with hx | hx
      · exact ⟨e, by simp, hab x hx⟩
      · obtain ⟨e', h1, h2⟩ := hbb x hx
        exact ⟨e', by simp [h1], h2⟩

theorem good_run_from {cfg : Config} {n : Nat} {l : TimeRelease.State} {s : Tokens.State} (hs : Start cfg.tokens l)
    (g : Good cfg.tokens n l s) (h : List Tokens.Step) : Good cfg.tokens n l (Tokens.run cfg.tokens s h) := by
  induction h generalizing s with
  | nil => exact g
  | cons x h ih => exact ih (Tokens.good_step hs g x)

theorem good_reach {cfg : Config} {n : Nat} {l : TimeRelease.State} (hs : Start cfg.tokens l) (es : List Event) :
    Good cfg.tokens n l (run cfg (genesis n l) es).tokens := by
  obtain ⟨h, e, _⟩ := run_steps cfg (genesis n l) es
  rw [e]
  exact Tokens.good_run hs h

/-- Still steps of any kind leave the balances. -/
theorem still_step {cfg : Config} {n : Nat} {l : TimeRelease.State} {s : Tokens.State} (hs : Start cfg.tokens l)
    (g : Good cfg.tokens n l s) (x : Tokens.Step) (hx : Still x) (who : AccountId) :
    (acct (Tokens.apply cfg.tokens s x).ledger who).free = (acct s.ledger who).free ∧
    (acct (Tokens.apply cfg.tokens s x).ledger who).reserved = (acct s.ledger who).reserved := by
  cases x with
  | newBlock => exact ⟨rfl, rfl⟩
  | tick m => exact ⟨rfl, rfl⟩
  | call o c => exact Tokens.syncSigner_balances _ _ who
  | submit w c => exact Tokens.sync_balances _ _ who
  | charge key fee => exact ⟨rfl, rfl⟩
  | upgrade known => exact ⟨rfl, rfl⟩
  | lock w amount => exact Tokens.sync_balances _ _ who
  | release env origin c =>
    simp only [Tokens.apply, TimeRelease.apply]
    cases hd : TimeRelease.dispatch cfg.tokens.release env s.ledger origin c with
    | error e => exact ⟨rfl, rfl⟩
    | ok p =>
      obtain ⟨env0, l0, items, h0, _, h2⟩ := hs.built
      obtain ⟨h', e⟩ := g.ledger
      have hp := hd
      rw [e] at hp
      have h3 := (TimeRelease.C88_effect cfg.tokens.release env0 l0 l items h0 h2 h' env origin c p.1 p.2 hp).2.2.1 who
      rw [← e] at h3
      dsimp only
      rw [h3]
      dsimp only
      cases c with
      | transfer dest c => exact hx.elim
      | claim => exact ⟨rfl, rfl⟩
      | claimFor who => exact ⟨rfl, rfl⟩
      | update who l => exact ⟨rfl, rfl⟩
  | transfer => exact hx.elim
  | transferAll => exact hx.elim
  | fee => exact hx.elim
  | refund => exact hx.elim
  | reserve => exact hx.elim
  | unreserve => exact hx.elim

theorem still_run {cfg : Config} {n : Nat} {l : TimeRelease.State} {s : Tokens.State} (hs : Start cfg.tokens l)
    (g : Good cfg.tokens n l s) (h : List Tokens.Step) (hx : ∀ x ∈ h, Still x) (who : AccountId) :
    (acct (Tokens.run cfg.tokens s h).ledger who).free = (acct s.ledger who).free ∧
    (acct (Tokens.run cfg.tokens s h).ledger who).reserved = (acct s.ledger who).reserved := by
  induction h generalizing s with
  | nil => exact ⟨rfl, rfl⟩
  | cons x h ih =>
    have h1 := ih (Tokens.good_step hs g x) (fun y hy => hx y (by simp [hy]))
    have h2 := still_step hs g x (hx x (by simp)) who
    exact ⟨h1.1.trans h2.1, h1.2.trans h2.2⟩

end Verif.Wallet
