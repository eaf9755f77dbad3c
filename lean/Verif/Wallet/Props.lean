import Verif.Wallet.Lemmas
/-!
# C133: tokens leave a wallet only by its own signature; C134: a transaction takes effect once

The specification speaks of the tokens of accounts, of how a transaction is paid, `payment`, and of whether a transfer
is among its calls, `moves`, both in `Wallet/Lemmas.lean`.
-/

namespace Verif.Wallet
open TimeRelease (acct setAcct acct_setAcct)
open Tokens (Start Good Still total everything MayLeave MayArrive staked lockOf unclaimed)

/-! ## Specification -/

/-- What an account may transfer of its tokens, but for the existential deposit: the largest of what is held back for
staking, by locks and for schedules stays, on what is reserved first. -/
def spendable (s : Tokens.State) (who : AccountId) : Balance :=
  (acct s.ledger who).free -
    (max (max (lockOf s who) (staked s who)) (unclaimed s who) - (acct s.ledger who).reserved)

/-- A history in which an account signs no transaction. -/
def Silent (who : AccountId) (es : List Event) : Prop := ∀ t, .submit t ∈ es → t.who ≠ who

/-- A history in which root does not replace the schedules of an account. -/
def SchedulesStay (who : AccountId) (es : List Event) : Prop := ∀ env l, .root env (.update who l) ∉ es

/-- What a transaction paid with capacity carries. -/
inductive Carries : Call → List Chain.Call → Prop
  | single (c) : Carries (.payWithCapacity (.chain c)) [c]
  | batch (cs : List Chain.Call) : Carries (.payWithCapacityBatchAll (cs.map .chain)) cs

/-- The account of a signer can pay a fee in tokens: what is held back for each reason stays in the free balance, and
so does the existential deposit. -/
def CanPay (cfg : Config) (s : Tokens.State) (who : AccountId) (fee : Balance) : Prop :=
  fee = 0 ∨ (staked s who + fee ≤ (acct s.ledger who).free ∧ lockOf s who + fee ≤ (acct s.ledger who).free ∧
    unclaimed s who + fee ≤ (acct s.ledger who).free ∧ cfg.tokens.release.ed + fee ≤ (acct s.ledger who).free)

/-- The account of a signer can pay with capacity. -/
def CanSpend (cfg : Config) (s : Tokens.State) (t : Signed) : Prop :=
  ∃ cs, Carries t.call cs ∧ (∀ c ∈ cs, TxPayment.Eligible (Tx.view c)) ∧
    cfg.payment.minBalance ≤ (acct s.ledger t.who).free ∧ ∃ m d, Msa.resolves s.chain.msa t.who m ∧
      s.chain.capacity.capacity.get m = some d ∧
      TxPayment.fee cfg.payment (cs.map Tx.view) t.len ≤ TxPayment.available s.chain.capacity d

/-! ## Steps of the proofs -/

section
variable {cfg : Config} {n : Nat} {l : TimeRelease.State} {s : Tokens.State}

theorem spendable_eq (g : Good cfg.tokens n l s) (who : AccountId) :
    spendable s who = (acct s.ledger who).free - ((acct s.ledger who).frozen - (acct s.ledger who).reserved) := by
  rw [g.frozen]; rfl

/-- Steps of others and of governance. -/
theorem step_kept (hs : Start cfg.tokens l) (g : Good cfg.tokens n l s) {e : Event} {x : Tokens.Step} (hx : Of e x)
    (w : AccountId) (hw : ∀ t, e = .submit t → t.who ≠ w) :
    (acct s.ledger w).free ≤ (acct (Tokens.apply cfg.tokens s x).ledger w).free ∧
    (acct (Tokens.apply cfg.tokens s x).ledger w).reserved = (acct s.ledger w).reserved ∧
    (acct (Tokens.apply cfg.tokens s x).ledger w).other = (acct s.ledger w).other ∧
    ((∀ env l, e ≠ .root env (.update w l)) → (acct (Tokens.apply cfg.tokens s x).ledger w).freeze + (acct s.ledger w).free ≤
      (acct s.ledger w).freeze + (acct (Tokens.apply cfg.tokens s x).ledger w).free) := by
  have same : ∀ {t : Tokens.State}, acct t.ledger w = acct s.ledger w →
      (acct s.ledger w).free ≤ (acct t.ledger w).free ∧ (acct t.ledger w).reserved = (acct s.ledger w).reserved ∧
      (acct t.ledger w).other = (acct s.ledger w).other ∧
      ((∀ env l, e ≠ .root env (.update w l)) → (acct t.ledger w).freeze + (acct s.ledger w).free ≤
        (acct s.ledger w).freeze + (acct t.ledger w).free) := by
    intro t h
    rw [h]
    exact ⟨Nat.le_refl _, rfl, rfl, fun _ => Nat.le_refl _⟩
  have rel : ∀ env origin c, origin ≠ some w → ((∀ env l, e ≠ .root env (.update w l)) → ∀ l, c ≠ .update w l) →
      (acct s.ledger w).free ≤ (acct (Tokens.apply cfg.tokens s (.release env origin c)).ledger w).free ∧
      (acct (Tokens.apply cfg.tokens s (.release env origin c)).ledger w).reserved = (acct s.ledger w).reserved ∧
      (acct (Tokens.apply cfg.tokens s (.release env origin c)).ledger w).other = (acct s.ledger w).other ∧
      ((∀ env l, e ≠ .root env (.update w l)) →
        (acct (Tokens.apply cfg.tokens s (.release env origin c)).ledger w).freeze + (acct s.ledger w).free ≤
        (acct s.ledger w).freeze + (acct (Tokens.apply cfg.tokens s (.release env origin c)).ledger w).free) := by
    intro env origin c ho hu
    simp only [Tokens.apply, TimeRelease.apply]
    cases hd : TimeRelease.dispatch cfg.tokens.release env s.ledger origin c with
    | error e => exact ⟨Nat.le_refl _, rfl, rfl, fun _ => Nat.le_refl _⟩
    | ok p =>
      obtain ⟨env0, l0, items, h0, _, h2⟩ := hs.built
      obtain ⟨h', e'⟩ := g.ledger
      have hp := hd
      rw [e'] at hp
      have h3 := (TimeRelease.C88_effect cfg.tokens.release env0 l0 l items h0 h2 h' env origin c p.1 p.2 hp).2.2.1 w
      rw [← e'] at h3
      have hk : TimeRelease.kept s.ledger w ≤ (acct s.ledger w).freeze := (g.covered hs w).covers
      dsimp only
      rw [h3]
      dsimp only
      cases c with
      | transfer dest c =>
        have hw : some w ≠ origin := fun h => ho h.symm
        refine ⟨?_, rfl, rfl, fun _ => ?_⟩ <;> simp only [TimeRelease.freeAfter, TimeRelease.freezeAfter] <;>
          by_cases hd : w = dest
        · subst hd
          rw [if_neg ho, if_pos rfl]
          omega
        · simp [hd, hw]
        · subst hd
          rw [if_neg ho, if_pos rfl, if_pos rfl]
          omega
        · simp [hd, hw]
      | claim =>
        refine ⟨Nat.le_refl _, rfl, rfl, fun _ => ?_⟩
        simp only [TimeRelease.freeAfter, TimeRelease.freezeAfter]
        split <;> omega
      | claimFor who =>
        refine ⟨Nat.le_refl _, rfl, rfl, fun _ => ?_⟩
        simp only [TimeRelease.freeAfter, TimeRelease.freezeAfter]
        split <;> omega
      | update who l =>
        refine ⟨Nat.le_refl _, rfl, rfl, fun h => ?_⟩
        simp only [TimeRelease.freeAfter, TimeRelease.freezeAfter]
        rw [if_neg (fun e => hu h l (by rw [e]))]
  have tra : ∀ env keep src dest amount, src ≠ w → ∀ t, t = (Tokens.transfer cfg.tokens env keep s src dest amount).getD s →
      (acct s.ledger w).free ≤ (acct t.ledger w).free ∧ (acct t.ledger w).reserved = (acct s.ledger w).reserved ∧
      (acct t.ledger w).other = (acct s.ledger w).other ∧
      ((∀ env l, e ≠ .root env (.update w l)) → (acct t.ledger w).freeze + (acct s.ledger w).free ≤
        (acct s.ledger w).freeze + (acct t.ledger w).free) := by
    intro env keep src dest amount hne t ht
    cases h : Tokens.transfer cfg.tokens env keep s src dest amount with
    | none => rw [h] at ht; subst ht; exact same rfl
    | some s' =>
      rw [h] at ht
      change t = s' at ht
      subst ht
      obtain ⟨_, _, _, ⟨_, rfl⟩ | ⟨_, rfl⟩⟩ := Tokens.transfer_ok h
      · exact same rfl
      · dsimp only
        rw [acct_setAcct]
        by_cases hd : w = dest
        · rw [if_pos hd, hd]
          exact ⟨Nat.le_add_right _ _, rfl, rfl, fun _ => by dsimp only; omega⟩
        · rw [if_neg hd, acct_setAcct, if_neg (fun h => hne h.symm)]
          exact ⟨Nat.le_refl _, rfl, rfl, fun _ => Nat.le_refl _⟩
  have syn : ∀ (t : Tokens.State) who, who ≠ w → t.ledger = s.ledger → acct (Tokens.sync t who).ledger w = acct s.ledger w := by
    intro t who hne ht
    unfold Tokens.sync
    dsimp only
    rw [acct_setAcct, if_neg (fun h => hne h.symm), ht]
  have one : ∀ (a : TimeRelease.Account) who, who ≠ w → acct (setAcct s.ledger who a) w = acct s.ledger w := by
    intro a who hne
    rw [acct_setAcct, if_neg (fun h => hne h.symm)]
  cases hx with
  | newBlock => exact same rfl
  | tick m => exact same rfl
  | upgrade known => exact same rfl
  | council c => exact same rfl
  | root env c => exact rel env none c (by simp) (fun h l hc => h env l (by rw [hc]))
  | @submit t x hx =>
    have hne := hw t rfl
    cases hx with
    | charge m => exact same rfl
    | fee m =>
      refine same ?_
      simp only [Tokens.apply, Tokens.fee]
      split
      · exact one _ _ hne
      · rfl
    | refund m =>
      refine same ?_
      simp only [Tokens.apply, Tokens.refund]
      split
      · exact one _ _ hne
      · rfl
    | does hx =>
      cases hx with
      | call c => exact same (syn _ _ hne rfl)
      | release env c =>
        by_cases hu : ∃ l, c = .update w l
        · obtain ⟨l', rfl⟩ := hu
          exact same rfl
        · exact rel env _ c (by simpa using hne) (fun _ l h => hu ⟨l, h⟩)
      | transfer env keep dest amount => exact tra _ _ _ _ _ hne _ rfl
      | transferAll env keep dest => exact tra _ _ _ _ _ hne _ rfl

theorem steps_kept (hs : Start cfg.tokens l) (w : AccountId) (h : List Tokens.Step) (g : Good cfg.tokens n l s)
    (hh : ∀ x ∈ h, ∃ e, Of e x ∧ ∀ t, e = .submit t → t.who ≠ w) :
    total s w ≤ total (Tokens.run cfg.tokens s h) w ∧
    ((∀ x ∈ h, ∃ e, Of e x ∧ (∀ t, e = .submit t → t.who ≠ w) ∧ ∀ env l, e ≠ .root env (.update w l)) →
      spendable s w ≤ spendable (Tokens.run cfg.tokens s h) w) := by
  induction h generalizing s with
  | nil => exact ⟨Nat.le_refl _, fun _ => Nat.le_refl _⟩
  | cons x h ih =>
    have g' := Tokens.good_step hs g x
    obtain ⟨h1, h2⟩ := ih g' (fun y hy => hh y (by simp [hy]))
    refine ⟨Nat.le_trans ?_ h1, fun hu => Nat.le_trans ?_ (h2 (fun y hy => hu y (by simp [hy])))⟩
    · obtain ⟨e, he, hw⟩ := hh x (by simp)
      obtain ⟨k1, k2, _⟩ := step_kept hs g he w hw
      unfold total
      omega
    · obtain ⟨e, he, hw, hr⟩ := hu x (by simp)
      obtain ⟨k1, k2, k3, k4⟩ := step_kept hs g he w hw
      have k4 := k4 hr
      rw [spendable_eq g, spendable_eq g']
      unfold TimeRelease.Account.frozen
      rw [k2, k3]
      omega

end

theorem fee_iff {cfg : Config} {n : Nat} {l : TimeRelease.State} {s : Tokens.State} (g : Good cfg.tokens n l s)
    (who : AccountId) (m : Balance) : (Tokens.fee cfg.tokens s who m).isSome = true ↔ CanPay cfg s who m := by
  have hf := g.frozen who
  unfold Tokens.fee CanPay
  dsimp only
  rw [hf]
  split
  · rename_i h
    simp only [Option.isSome_some, true_iff]
    rcases h with h | ⟨h1, h2, h3⟩
    · exact .inl h
    · exact .inr ⟨by omega, by omega, by omega, by omega⟩
  · rename_i h
    simp only [Option.isSome_none, Bool.false_eq_true, false_iff]
    rintro (h0 | ⟨h1, h2, h3, h4⟩)
    · exact h (.inl h0)
    · exact h (.inr ⟨by omega, by omega, by omega⟩)

theorem fee_ok {cfg : Tokens.Config} {s s' : Tokens.State} {who : AccountId} {m : Balance}
    (h : Tokens.fee cfg s who m = some s') :
    s' = { s with ledger := setAcct s.ledger who { acct s.ledger who with free := (acct s.ledger who).free - m }
                  burned := s.burned + m } ∧
    (m = 0 ∨ (m ≤ (acct s.ledger who).free ∧ cfg.release.ed ≤ (acct s.ledger who).free - m)) := by
  unfold Tokens.fee at h
  dsimp only at h
  split at h
  · rename_i hc
    refine ⟨(Option.some.inj h).symm, ?_⟩
    rcases hc with hc | ⟨h1, _, h2⟩
    · exact .inl hc
    · exact .inr ⟨h1, h2⟩
  · cases h

theorem chain_view {c : Call} (h : TxPayment.Eligible c.view) : ∃ c', c = .chain c' ∧ TxPayment.Eligible (Tx.view c') := by
  cases c with
  | chain c => exact ⟨c, rfl, by simpa [Call.view] using h⟩
  | release c => cases c <;> simp only [Call.view] at h <;> cases h
  | transfer keep dest amount => cases keep <;> simp [Call.view] at h <;> cases h
  | transferAll keep dest => simp only [Call.view] at h; cases h
  | batch k calls => simp only [Call.view] at h; cases h
  | payWithCapacity c => simp only [Call.view] at h; cases h
  | payWithCapacityBatchAll calls => simp only [Call.view] at h; cases h

theorem chains_view (cs : List Call) (h : ∀ c ∈ viewL cs, TxPayment.Eligible c) :
    ∃ ls : List Chain.Call, cs = ls.map .chain ∧ ∀ c ∈ ls, TxPayment.Eligible (Tx.view c) := by
  induction cs with
  | nil => exact ⟨[], rfl, by simp⟩
  | cons c cs ih =>
    rw [viewL] at h
    obtain ⟨c', rfl, h1⟩ := chain_view (h c.view (by simp))
    obtain ⟨ls, rfl, h2⟩ := ih (fun c hc => h c (by simp [hc]))
    exact ⟨c' :: ls, rfl, by simpa using ⟨h1, h2⟩⟩

theorem viewL_chain (cs : List Chain.Call) : viewL (cs.map .chain) = cs.map Tx.view := by
  induction cs with
  | nil => simp [viewL]
  | cons c cs ih => simp [viewL, Call.view, ih]

theorem carries_paid {c : Call} {cs : List Chain.Call} (h : Carries c cs) : TxPayment.Paid c.view (cs.map Tx.view) := by
  cases h with
  | single c => simp only [Call.view]; exact .single _
  | batch cs => simp only [Call.view, viewL_chain]; exact .batch _

theorem movesL_chain (cs : List Chain.Call) : movesL (cs.map .chain) = false := by
  induction cs with
  | nil => simp [movesL]
  | cons c cs ih => simp [movesL, Call.moves, ih]

theorem carries_moves {c : Call} {cs : List Chain.Call} (h : Carries c cs) : c.moves = false := by
  cases h with
  | single c => simp [Call.moves]
  | batch cs => rw [Call.moves]; exact movesL_chain cs

theorem pay_capacity_iff (cfg : Config) (s : Tokens.State) (t : Signed) (h : payment t.call = .capacity) :
    (pay cfg s t).isSome = true ↔ CanSpend cfg s t := by
  constructor
  · intro hp
    obtain ⟨s', hp⟩ := Option.isSome_iff_exists.1 hp
    have key : ∀ calls : List Call, TxPayment.Paid t.call.view (viewL calls) →
        (∀ cs : List Chain.Call, calls = cs.map .chain → Carries t.call cs) → CanSpend cfg s t := by
      intro calls hc hcar
      unfold pay at hp
      rw [TxPayment.charge_paid _ _ _ _ _ _ hc] at hp
      dsimp only at hp
      obtain ⟨k, hk, rfl⟩ := Option.map_eq_some_iff.1 hp
      have hk' : TxPayment.withdrawCapacityFee cfg.payment s.chain.msa (Tokens.bal s t.who) s.chain.capacity t.who
          (viewL calls) t.len = .ok k := by
        revert hk
        cases TxPayment.withdrawCapacityFee cfg.payment s.chain.msa (Tokens.bal s t.who) s.chain.capacity t.who
          (viewL calls) t.len with
        | error e => intro h; cases h
        | ok q => intro h; cases h; rfl
      obtain ⟨ls, rfl, hel⟩ := chains_view calls ((TxPayment.withdraw_iff ..).1 hk').1
      have hcar := hcar ls rfl
      obtain ⟨_, hb, m, d, hm⟩ := (TxPayment.C63_accepted_iff cfg.payment s.chain.msa (Tokens.bal s t.who)
        s.chain.capacity t.who t.len _ _ (carries_paid hcar)).1 ⟨k, by
          rw [TxPayment.charge_paid _ _ _ _ _ _ (carries_paid hcar), ← viewL_chain, hk']⟩
      exact ⟨ls, hcar, hel, hb, m, d, hm⟩
    generalize hc : t.call = c at *
    cases c with
    | chain c => rw [payment] at h; split at h <;> cases h
    | release c => cases h
    | transfer keep dest amount => cases h
    | transferAll keep dest => cases h
    | batch k calls => cases h
    | payWithCapacity c =>
      refine key [c] ?_ ?_
      · simp only [Call.view, viewL]; exact .single _
      · intro cs hcs
        cases cs with
        | nil => simp at hcs
        | cons c' cs =>
          simp only [List.map_cons, List.cons.injEq] at hcs
          obtain ⟨rfl, h2⟩ := hcs
          cases cs with
          | nil => exact .single _
          | cons _ _ => simp at h2
    | payWithCapacityBatchAll calls =>
      refine key calls ?_ ?_
      · simp only [Call.view]; exact .batch _
      · rintro cs rfl; exact .batch _
  · rintro ⟨cs, hcar, hel, hb, m, d, hm⟩
    obtain ⟨k, hk⟩ := (TxPayment.C63_accepted_iff cfg.payment s.chain.msa (Tokens.bal s t.who) s.chain.capacity t.who
      t.len _ _ (carries_paid hcar)).2 ⟨by simpa using hel, hb, m, d, hm⟩
    unfold pay
    rw [hk]
    rfl

theorem pay_chain (cfg : Config) (s s' : Tokens.State) (t : Signed) (h : payment t.call ≠ .capacity)
    (hp : pay cfg s t = some s') : s'.chain = s.chain := by
  cases hc : payment t.call with
  | free => rw [pay_free cfg s t hc] at hp; cases hp; rfl
  | tokens =>
    rw [pay_tokens cfg s t hc] at hp
    obtain ⟨rfl, _⟩ := fee_ok hp
    rfl
  | capacity => exact absurd hc h

/-- The tokens after the payment. -/
theorem paid_accounts (cfg : Config) (s s' : Tokens.State) (t : Signed) (hp : pay cfg s t = some s') (w : AccountId) :
    acct s'.ledger w = (if w = t.who ∧ payment t.call = .tokens then
      { acct s.ledger w with free := (acct s.ledger w).free - t.fee } else acct s.ledger w) ∧
    (payment t.call = .tokens → s'.burned = s.burned + t.fee ∧ t.fee ≤ (acct s.ledger t.who).free) := by
  cases hc : payment t.call with
  | free => rw [pay_free cfg s t hc] at hp; cases hp; simp
  | tokens =>
    rw [pay_tokens cfg s t hc] at hp
    obtain ⟨rfl, hf⟩ := fee_ok hp
    refine ⟨?_, fun _ => ⟨rfl, by omega⟩⟩
    dsimp only
    rw [acct_setAcct]
    by_cases hw : w = t.who
    · subst hw; simp
    · simp [hw]
  | capacity =>
    obtain ⟨m, ch, _, rfl⟩ := pay_capacity cfg s s' t hc hp
    simp

/-- Calls burn tokens, but bring none back. -/
theorem does_burned (cfg : Config) (who : AccountId) (s : Tokens.State) (x : Tokens.Step) (hx : Does who x) :
    s.burned ≤ (Tokens.apply cfg.tokens s x).burned := by
  have tra : ∀ env keep src dest amount,
      s.burned ≤ ((Tokens.transfer cfg.tokens env keep s src dest amount).getD s).burned := by
    intro env keep src dest amount
    cases h : Tokens.transfer cfg.tokens env keep s src dest amount with
    | none => exact Nat.le_refl _
    | some s' =>
      obtain ⟨_, _, _, ⟨_, rfl⟩ | ⟨_, rfl⟩⟩ := Tokens.transfer_ok h
      · exact Nat.le_refl _
      · exact Nat.le_add_right _ _
  cases hx with
  | call c => exact Nat.le_refl _
  | release env c => exact Nat.le_refl _
  | transfer env keep dest amount => exact tra ..
  | transferAll env keep dest => exact tra ..

theorem steps_burned {cfg : Config} {who : AccountId} {mv : Bool} {s s' : Tokens.State} (h : Steps cfg who mv s s') :
    s.burned ≤ s'.burned := by
  obtain ⟨h, rfl, hd, _⟩ := h
  induction h generalizing s with
  | nil => exact Nat.le_refl _
  | cons x h ih =>
    exact Nat.le_trans (does_burned cfg who s x (hd x (by simp)))
      (ih (s := Tokens.apply cfg.tokens s x) (fun y hy => hd y (by simp [hy])) (by simp_all))

/-- What is paid back. -/
theorem settle_accounts (s : Tokens.State) (t : Signed) (hb : payment t.call = .tokens → t.fee ≤ s.burned) (w : AccountId) :
    acct (settle s t).ledger w = if w = t.who ∧ payment t.call = .tokens ∧ 0 < total s w then
      { acct s.ledger w with free := (acct s.ledger w).free + min t.back t.fee } else acct s.ledger w := by
  unfold settle
  by_cases hp : payment t.call = .tokens
  · rw [if_pos ((inTokens_iff _).2 hp)]
    have := hb hp
    unfold Tokens.refund
    dsimp only
    by_cases he : 0 < total s t.who
    · have he' : 0 < (acct s.ledger t.who).free + (acct s.ledger t.who).reserved := he
      rw [if_pos ⟨he', by omega⟩]
      simp only [Option.getD_some]
      rw [acct_setAcct]
      by_cases hw : w = t.who
      · subst hw; simp [hp, he]
      · simp [hw]
    · have he' : ¬ 0 < (acct s.ledger t.who).free + (acct s.ledger t.who).reserved := he
      rw [if_neg (fun h => he' h.1)]
      by_cases hw : w = t.who
      · subst hw; simp [he]
      · simp [hw]
  · have : ¬ inTokens t.call = true := fun h => hp ((inTokens_iff _).1 h)
    rw [if_neg this]
    simp [hp]

theorem submit_some {cfg : Config} {s s1 : State} {t : Signed} (h : takeIn cfg s t = some s1) : (submit cfg s t).tokens =
    settle ((exec cfg t.env (Runtime.contains cfg.mainnet) t.who t.call s1.tokens).getD s1.tokens) t := by
  unfold submit
  rw [h]

/-! ## Theorems -/

/-- C133, histories: whatever happens is a run of steps of the chain with its tokens, and those of transactions are
steps of their signers: what is proved of all such runs, C131, is true here. -/
theorem C133_by_signer (cfg : Config) (s : State) (es : List Event) :
    ∃ h, (run cfg s es).tokens = Tokens.run cfg.tokens s.tokens h ∧ ∀ x ∈ h, ∃ e ∈ es, Of e x :=
  run_steps cfg s es

/-- C133: whatever others and governance do, an account that signs nothing keeps its tokens; and what it may transfer
does not get less unless root replaces its schedules. -/
theorem C133_kept (cfg : Config) (n : Nat) (l : TimeRelease.State) (hs : Start cfg.tokens l) (es es' : List Event)
    (who : AccountId) (hq : Silent who es') :
    let s := run cfg (genesis n l) es
    let s' := run cfg s es'
    total s.tokens who ≤ total s'.tokens who ∧
    (SchedulesStay who es' → spendable s.tokens who ≤ spendable s'.tokens who) := by
  intro s s'
  have g : Good cfg.tokens n l s.tokens := good_reach hs es
  obtain ⟨h, e, ho⟩ := run_steps cfg s es'
  show total s.tokens who ≤ total (run cfg s es').tokens who ∧
    (SchedulesStay who es' → spendable s.tokens who ≤ spendable (run cfg s es').tokens who)
  rw [e]
  obtain ⟨h1, h2⟩ := steps_kept hs who h g (fun x hx => by
    obtain ⟨ev, hm, hof⟩ := ho x hx
    exact ⟨ev, hof, fun t ht => hq t (ht ▸ hm)⟩)
  refine ⟨h1, fun hst => h2 (fun x hx => ?_)⟩
  obtain ⟨ev, hm, hof⟩ := ho x hx
  exact ⟨ev, hof, fun t ht => hq t (ht ▸ hm), fun env l hr => hst env l (hr ▸ hm)⟩

/-- C133, inclusion: a transaction is included just if it has the next number of its signer, who can pay for it, and
the extensions for free calls accept it. -/
theorem C133_included (cfg : Config) (n : Nat) (l : TimeRelease.State) (hs : Start cfg.tokens l) (es : List Event)
    (t : Signed) :
    let s := run cfg (genesis n l) es
    (takeIn cfg s t).isSome = true ↔ t.nonce = nonceOf s t.who ∧
      (payment t.call = .tokens → CanPay cfg s.tokens t.who t.fee) ∧
      (payment t.call = .capacity → CanSpend cfg s.tokens t) ∧
      ∀ c, t.call = .chain c → Chain.extensions cfg.tokens.chain s.tokens.chain t.who c = true := by
  intro s
  have g : Good cfg.tokens n l s.tokens := good_reach hs es
  clear_value s
  have hx : ∀ p, pay cfg s.tokens t = some p → (extensions cfg p.chain t.who t.call = true ↔
      ∀ c, t.call = .chain c → Chain.extensions cfg.tokens.chain s.tokens.chain t.who c = true) := by
    intro p hp
    by_cases hc : payment t.call = .capacity
    · generalize t.call = c at *
      cases c with
      | chain c => rw [payment] at hc; split at hc <;> cases hc
      | _ => simp [extensions]
    · rw [pay_chain cfg _ _ t hc hp]
      cases t.call with
      | chain c => simp [extensions]
      | _ => simp [extensions]
  have hp : (pay cfg s.tokens t).isSome = true ↔ (payment t.call = .tokens → CanPay cfg s.tokens t.who t.fee) ∧
      (payment t.call = .capacity → CanSpend cfg s.tokens t) := by
    cases hc : payment t.call with
    | free => rw [pay_free cfg _ t hc]; simp
    | tokens => rw [pay_tokens cfg _ t hc, fee_iff g]; simp
    | capacity => rw [pay_capacity_iff cfg _ t hc]; simp
  rw [Option.isSome_iff_exists]
  constructor
  · rintro ⟨s1, h⟩
    obtain ⟨h1, h2, h3, _⟩ := (takeIn_iff ..).1 h
    obtain ⟨h4, h5⟩ := hp.1 (by rw [h2]; rfl)
    exact ⟨h1, h4, h5, (hx _ h2).1 h3⟩
  · rintro ⟨h1, h4, h5, h3⟩
    obtain ⟨p, h2⟩ := Option.isSome_iff_exists.1 (hp.2 ⟨h4, h5⟩)
    exact ⟨⟨p, _⟩, (takeIn_iff ..).2 ⟨h1, h2, (hx _ h2).2 h3, rfl⟩⟩

/-- A transaction that is not included changes nothing. -/
theorem C133_refused (cfg : Config) (s : State) (t : Signed) (h : (takeIn cfg s t).isSome = false) :
    submit cfg s t = s := by
  unfold submit
  cases ht : takeIn cfg s t with
  | none => rfl
  | some s1 => rw [ht] at h; cases h

/-- C133, cost: a transaction without transfers, or one paid with capacity, or one whose call fails, costs its signer
just the fee less what is paid back, if it is paid with tokens, and nothing otherwise. Nobody else loses or gains. -/
theorem C133_cost (cfg : Config) (n : Nat) (l : TimeRelease.State) (hs : Start cfg.tokens l)
    (hed : 0 < cfg.tokens.release.ed) (es : List Event) (t : Signed) (s1 : State)
    (hin : takeIn cfg (run cfg (genesis n l) es) t = some s1)
    (hm : t.call.moves = false ∨ payment t.call = .capacity ∨
      exec cfg t.env (Runtime.contains cfg.mainnet) t.who t.call s1.tokens = none) (w : AccountId) :
    let s := run cfg (genesis n l) es
    let s' := run cfg (genesis n l) (es ++ [.submit t])
    (acct s'.tokens.ledger w).reserved = (acct s.tokens.ledger w).reserved ∧
    (w = t.who ∧ payment t.call = .tokens → (acct s'.tokens.ledger w).free + t.fee =
      (acct s.tokens.ledger w).free + min t.back t.fee) ∧
    (¬ (w = t.who ∧ payment t.call = .tokens) → (acct s'.tokens.ledger w).free = (acct s.tokens.ledger w).free) := by
  intro s s'
  have g : Good cfg.tokens n l s.tokens := good_reach hs es
  have e' : s'.tokens = settle ((exec cfg t.env (Runtime.contains cfg.mainnet) t.who t.call s1.tokens).getD s1.tokens) t := by
    have : s' = submit cfg s t := by
      show run cfg (genesis n l) (es ++ [.submit t]) = _
      unfold run
      rw [List.foldl_append]
      rfl
    rw [this]
    exact submit_some hin
  obtain ⟨_, hp, _, _⟩ := (takeIn_iff ..).1 hin
  change pay cfg s.tokens t = some s1.tokens at hp
  have hpa := paid_accounts cfg _ _ t hp
  obtain ⟨ph, pe, pb⟩ := pay_steps cfg _ _ t hp
  have g1 : Good cfg.tokens n l s1.tokens := by rw [pe]; exact good_run_from hs g ph
  -- the call
  obtain ⟨s2, e2⟩ : ∃ s2, (exec cfg t.env (Runtime.contains cfg.mainnet) t.who t.call s1.tokens).getD s1.tokens = s2 := ⟨_, rfl⟩
  rw [e2] at e'
  have hmv : t.call.moves = false ∨ exec cfg t.env (Runtime.contains cfg.mainnet) t.who t.call s1.tokens = none := by
    rcases hm with h | h | h
    · exact .inl h
    · left
      obtain ⟨cs, hcar, _⟩ := (pay_capacity_iff cfg s.tokens t h).1 (by rw [hp]; rfl)
      exact carries_moves hcar
    · exact .inr h
  have h2 : s1.tokens.burned ≤ s2.burned ∧ ∀ w, (acct s2.ledger w).free = (acct s1.tokens.ledger w).free ∧
      (acct s2.ledger w).reserved = (acct s1.tokens.ledger w).reserved := by
    cases hx : exec cfg t.env (Runtime.contains cfg.mainnet) t.who t.call s1.tokens with
    | none =>
      rw [hx] at e2
      change s1.tokens = s2 at e2
      rw [← e2]
      exact ⟨Nat.le_refl _, fun _ => ⟨rfl, rfl⟩⟩
    | some s3 =>
      rw [hx] at e2
      change s3 = s2 at e2
      subst e2
      have hst := exec_steps cfg _ _ _ _ _ _ hx
      refine ⟨steps_burned hst, ?_⟩
      obtain ⟨h, rfl, _, hq⟩ := hst
      rcases hmv with hmv | hmv
      · exact still_run hs g1 h (hq hmv)
      · rw [hx] at hmv; cases hmv
  clear_value s'
  obtain ⟨hbu, hac⟩ := h2
  have hse := settle_accounts s2 t (fun hc => by have := ((hpa w).2 hc).1; omega) w
  rw [e', hse]
  have hw := (hpa w).1
  obtain ⟨a1, a2⟩ := hac w
  by_cases hc : w = t.who ∧ payment t.call = .tokens
  · rw [if_pos hc] at hw
    have hfee := ((hpa w).2 hc.2).2
    have hex : 0 < total s2 w ∨ t.fee = 0 := by
      rw [pay_tokens cfg _ t hc.2] at hp
      rcases (fee_ok hp).2 with h0 | ⟨h0, h1⟩
      · exact .inr h0
      · left
        unfold total
        rw [a1, hw, hc.1]
        dsimp only
        omega
    rw [hw] at a1 a2
    dsimp only at a1 a2
    rw [← hc.1] at hfee
    by_cases hx : 0 < total s2 w
    · rw [if_pos ⟨hc.1, hc.2, hx⟩]
      dsimp only
      exact ⟨a2, fun _ => by omega, fun h => absurd hc h⟩
    · rw [if_neg (fun h => hx h.2.2)]
      have h0 : t.fee = 0 := hex.resolve_left hx
      exact ⟨a2, fun _ => by omega, fun h => absurd hc h⟩
  · rw [if_neg hc] at hw
    rw [if_neg (fun h => hc ⟨h.1, h.2.1⟩)]
    rw [hw] at a1 a2
    exact ⟨a2, fun h => absurd h hc, fun _ => a1⟩

/-- C133, transfers: what an included transfer does. It is paid first; then it is made just if the rest may leave the
account and arrive; otherwise only the fee is gone. `s1` is the state after the payment, see `C133_paid`. An account
that is closed by the transfer gets nothing back. -/
theorem C133_transfer (cfg : Config) (n : Nat) (l : TimeRelease.State) (hs : Start cfg.tokens l) (es : List Event)
    (t : Signed) (s1 : State) (keep : Bool) (dest : AccountId) (amount : Balance)
    (hin : takeIn cfg (run cfg (genesis n l) es) t = some s1)
    (hc : t.call = .transfer keep dest amount ∨ t.call = .transferAll keep dest ∧
      MayLeave cfg.tokens t.env keep s1.tokens t.who amount ∧
      ∀ m, MayLeave cfg.tokens t.env keep s1.tokens t.who m → m ≤ amount) (w : AccountId) :
    let s' := run cfg (genesis n l) (es ++ [.submit t])
    let back (b : Balance) : Balance := if w = t.who ∧ 0 < b + (acct s1.tokens.ledger w).reserved then min t.back t.fee else 0
    let moved := Tokens.freeAfter cfg.tokens s1.tokens t.who dest amount w
    let stays := (acct s1.tokens.ledger w).free
    (MayLeave cfg.tokens t.env keep s1.tokens t.who amount ∧ MayArrive cfg.tokens s1.tokens dest amount →
      acct s'.tokens.ledger w = { acct s1.tokens.ledger w with free := moved + back moved }) ∧
    (¬ (MayLeave cfg.tokens t.env keep s1.tokens t.who amount ∧ MayArrive cfg.tokens s1.tokens dest amount) →
      acct s'.tokens.ledger w = { acct s1.tokens.ledger w with free := stays + back stays }) := by
  intro s' back moved stays
  have hpay : payment t.call = .tokens := by rcases hc with h | ⟨h, _⟩ <;> rw [h] <;> rfl
  obtain ⟨_, hp, _, _⟩ := (takeIn_iff ..).1 hin
  obtain ⟨h0, e0, _⟩ := run_steps cfg (genesis n l) es
  obtain ⟨ph, pe, _⟩ := pay_steps cfg _ _ t hp
  have er : s1.tokens = Tokens.run cfg.tokens (Tokens.genesis n l) (h0 ++ ph) := by
    rw [pe, e0, run_append]; rfl
  have htr := Tokens.C131_transfer cfg.tokens n l hs (h0 ++ ph) t.env keep t.who dest amount
  have hall := Tokens.C131_transfer_all cfg.tokens n l hs (h0 ++ ph) t.env keep t.who
  rw [← er] at htr
  dsimp only at hall
  rw [← er] at hall
  obtain ⟨hiff, heff⟩ := htr
  have hex : exec cfg t.env (Runtime.contains cfg.mainnet) t.who t.call s1.tokens =
      Tokens.transfer cfg.tokens t.env keep s1.tokens t.who dest amount := by
    rcases hc with h | ⟨h, h1, h2⟩
    · rw [h, exec.eq_def]
      dsimp only
      rw [if_pos (by cases keep <;> rfl)]
    · rw [h, exec.eq_def]
      dsimp only
      rw [if_pos (by rfl), Nat.le_antisymm (h2 _ hall.1) (hall.2 _ h1)]
  have e' : s'.tokens = settle ((Tokens.transfer cfg.tokens t.env keep s1.tokens t.who dest amount).getD s1.tokens) t := by
    have : s' = submit cfg (run cfg (genesis n l) es) t := by
      show run cfg (genesis n l) (es ++ [.submit t]) = _
      unfold run
      rw [List.foldl_append]
      rfl
    rw [this, ← hex]
    exact submit_some hin
  clear_value s'
  have hb1 := ((paid_accounts cfg _ _ t hp w).2 hpay).1
  constructor
  · intro hok
    obtain ⟨s2, h2⟩ := hiff.2 hok
    have ha := (heff s2 h2).1
    have hbu : s1.tokens.burned ≤ s2.burned := by
      have := does_burned cfg t.who s1.tokens _ (.transfer t.env keep dest amount)
      simpa [Tokens.apply, h2] using this
    rw [e', h2, Option.getD_some, settle_accounts s2 t (fun _ => by omega) w]
    have hw := ha w
    have htot : total s2 w = moved + (acct s1.tokens.ledger w).reserved := by
      unfold total; rw [hw]
    rw [htot, hw]
    by_cases hx : w = t.who ∧ 0 < moved + (acct s1.tokens.ledger w).reserved
    · rw [if_pos ⟨hx.1, hpay, hx.2⟩]
      simp only [back, if_pos hx]
      rfl
    · rw [if_neg (fun h => hx ⟨h.1, h.2.2⟩)]
      simp only [back, if_neg hx]
      rfl
  · intro hno
    have h2 : Tokens.transfer cfg.tokens t.env keep s1.tokens t.who dest amount = none := by
      cases hx : Tokens.transfer cfg.tokens t.env keep s1.tokens t.who dest amount with
      | none => rfl
      | some s2 => exact absurd (hiff.1 ⟨s2, hx⟩) hno
    rw [e', h2, Option.getD_none, settle_accounts s1.tokens t (fun _ => by omega) w]
    by_cases hx : w = t.who ∧ 0 < stays + (acct s1.tokens.ledger w).reserved
    · rw [if_pos ⟨hx.1, hpay, hx.2⟩]
      simp only [back, if_pos hx]
      rfl
    · rw [if_neg (fun h => hx ⟨h.1, h.2.2⟩)]
      simp only [back, if_neg hx]
      rfl

/-- C133, payment: when the call is dispatched, a fee in tokens is taken from the signer, and nothing else. -/
theorem C133_paid (cfg : Config) (s s1 : State) (t : Signed) (hin : takeIn cfg s t = some s1) (w : AccountId) :
    (w = t.who ∧ payment t.call = .tokens → t.fee ≤ (acct s.tokens.ledger w).free ∧
      acct s1.tokens.ledger w = { acct s.tokens.ledger w with free := (acct s.tokens.ledger w).free - t.fee }) ∧
    (¬ (w = t.who ∧ payment t.call = .tokens) → acct s1.tokens.ledger w = acct s.tokens.ledger w) := by
  obtain ⟨_, hp, _, _⟩ := (takeIn_iff ..).1 hin
  obtain ⟨h1, h2⟩ := paid_accounts cfg _ _ t hp w
  refine ⟨fun h => ?_, fun h => ?_⟩
  · rw [if_pos h] at h1
    exact ⟨by rw [h.1]; exact (h2 h.2).2, h1⟩
  · rw [if_neg h] at h1
    exact h1

/-- C133: no tokens come out of nothing, and none get lost: all tokens and all that were burned stay the same. -/
theorem C133_conserved (cfg : Config) (n : Nat) (l : TimeRelease.State) (es : List Event) :
    everything (run cfg (genesis n l) es).tokens = everything (Tokens.genesis n l) := by
  obtain ⟨h, e, _⟩ := run_steps cfg (genesis n l) es
  rw [e]
  exact Tokens.C131_conserved cfg.tokens n l h

/-! ## C134 -/

/-- A transaction is included after a history. -/
def Included (cfg : Config) (n : Nat) (l : TimeRelease.State) (es : List Event) (t : Signed) : Prop :=
  (takeIn cfg (run cfg (genesis n l) es) t).isSome = true

/-- The full claim: a transaction that was included once is not included again. -/
def C134_full : Prop :=
  ∀ (cfg : Config) (n : Nat) (l : TimeRelease.State), Start cfg.tokens l → ∀ (es es' : List Event) (t : Signed),
    Included cfg n l es t → ¬ Included cfg n l (es ++ .submit t :: es') t

/-- An account has tokens now and after each event. -/
def Lives (cfg : Config) (who : AccountId) : State → List Event → Prop
  | s, [] => 0 < total s.tokens who
  | s, e :: es => 0 < total s.tokens who ∧ Lives cfg who (apply cfg s e) es

theorem existing_iff (s : Tokens.State) (who : AccountId) : existing s who = true ↔ 0 < total s who := by
  unfold existing total
  simp

theorem Lives.now {cfg : Config} {who : AccountId} {s : State} {es : List Event} (h : Lives cfg who s es) :
    0 < total s.tokens who := by
  cases es with
  | nil => exact h
  | cons e es => exact h.1

theorem nonce_insert (nonces : SMap AccountId Nat) (tok : Tokens.State) (who w : AccountId) (m : Nat) :
    nonceOf ⟨tok, nonces.insert who m⟩ w = if who = w then m else nonceOf ⟨tok, nonces⟩ w := by
  unfold nonceOf
  rw [SMap.get_insert]
  split <;> rfl

/-- The number of an account with tokens before and after a transaction. -/
theorem nonce_submit (cfg : Config) (s : State) (t : Signed) (who : AccountId)
    (h' : 0 < total (submit cfg s t).tokens who) :
    nonceOf s who ≤ nonceOf (submit cfg s t) who ∧
    (0 < total s.tokens who → t.who = who → (takeIn cfg s t).isSome = true →
      nonceOf (submit cfg s t) who = t.nonce + 1) := by
  unfold submit at *
  cases ht : takeIn cfg s t with
  | none => exact ⟨Nat.le_refl _, fun _ _ h => by simp at h⟩
  | some s1 =>
    rw [ht] at h'
    dsimp only at h' ⊢
    obtain ⟨h1, _, _, h2⟩ := (takeIn_iff ..).1 ht
    have hkeep : ∀ a : Tokens.State, 0 < total a who →
        nonceOf ⟨a, forget s1.tokens a t.who s1.nonces⟩ who = nonceOf ⟨s.tokens, s1.nonces⟩ who := by
      intro a ha
      unfold forget nonceOf
      split
      · rename_i hf
        dsimp only
        rw [SMap.get_erase]
        split
        · rename_i e
          rw [Bool.and_eq_true, Bool.not_eq_true', e, ← Bool.not_eq_true, existing_iff] at hf
          exact absurd ((existing_iff a who).2 ha) hf.2
        · rfl
      · rfl
    rw [hkeep _ h', h2]
    have hins : nonceOf ⟨s.tokens, s.nonces⟩ who = nonceOf s who := rfl
    split
    · rename_i hf
      refine ⟨Nat.le_refl _, fun h0 he _ => ?_⟩
      have := (existing_iff s.tokens who).2 h0
      rw [← he, hf.2] at this
      cases this
    · rw [nonce_insert, hins]
      refine ⟨?_, fun _ he _ => by rw [if_pos he]⟩
      split
      · rename_i e
        rw [← e, ← h1]
        exact Nat.le_succ _
      · exact Nat.le_refl _

theorem nonce_apply (cfg : Config) (s : State) (e : Event) (who : AccountId)
    (h' : 0 < total (apply cfg s e).tokens who) : nonceOf s who ≤ nonceOf (apply cfg s e) who := by
  cases e with
  | submit t => exact (nonce_submit cfg s t who h').1
  | _ => exact Nat.le_refl _

theorem nonce_lives (cfg : Config) (who : AccountId) (es : List Event) (s : State) (h : Lives cfg who s es) :
    nonceOf s who ≤ nonceOf (run cfg s es) who := by
  induction es generalizing s with
  | nil => exact Nat.le_refl _
  | cons e es ih =>
    obtain ⟨_, h⟩ := h
    exact Nat.le_trans (nonce_apply cfg s e who h.now) (ih _ h)

/-- C134, what holds: an included transaction is not included again, nor any with its number or a lower one, as long as
the account of its signer had tokens when it was included and has not been without tokens since. Missing: accounts that
were emptied in between, and free transactions of accounts without tokens. -/
theorem C134_once_partial (cfg : Config) (n : Nat) (l : TimeRelease.State) (es es' : List Event) (t t' : Signed)
    (hi : Included cfg n l es t) (hl : Lives cfg t.who (run cfg (genesis n l) es) (.submit t :: es'))
    (hw : t'.who = t.who) (hn : t'.nonce ≤ t.nonce) : ¬ Included cfg n l (es ++ .submit t :: es') t' := by
  intro h
  unfold Included at h hi
  have e : run cfg (genesis n l) (es ++ .submit t :: es') = run cfg (submit cfg (run cfg (genesis n l) es) t) es' := by
    simp [run, apply]
  rw [e] at h
  generalize run cfg (genesis n l) es = s at *
  obtain ⟨h0, hl⟩ := hl
  change Lives cfg t.who (submit cfg s t) es' at hl
  have h1 := (nonce_submit cfg s t t.who hl.now).2 h0 rfl hi
  have h2 := nonce_lives cfg t.who es' _ hl
  obtain ⟨s2, h⟩ := Option.isSome_iff_exists.1 h
  have h3 := ((takeIn_iff ..).1 h).1
  rw [hw] at h3
  omega

/-- C134, what others can do: nobody but the signer changes the number of an account. -/
theorem C134_others (cfg : Config) (s : State) (e : Event) (who : AccountId) (hw : ∀ t, e = .submit t → t.who ≠ who) :
    nonceOf (apply cfg s e) who = nonceOf s who := by
  cases e with
  | submit t =>
    have hne := hw t rfl
    show nonceOf (submit cfg s t) who = _
    unfold submit
    cases ht : takeIn cfg s t with
    | none => rfl
    | some s1 =>
      obtain ⟨_, _, _, h2⟩ := (takeIn_iff ..).1 ht
      unfold nonceOf forget
      dsimp only
      rw [h2]
      split <;> split <;> simp [SMap.get_erase, SMap.get_insert, hne]
  | _ => rfl

/-! ## A concrete chain -/

/-- Existential deposit 10; every weight costs one. -/
def exCfg : Config := ⟨Tokens.exCfg, ⟨0, 0, ⟨500000000000, 5242880⟩, fun _ => 1, 0, 10, 2 ^ 128 - 1⟩, false⟩

/-- Nothing else keeps accounts alive. -/
def exEnv : TimeRelease.Env := ⟨true, true⟩

/-- A transaction with a fee of 6, of which 2 are paid back. -/
def exTx (who : AccountId) (nonce : Nat) (c : Call) : Event := .submit ⟨who, nonce, c, 100, 6, 2, exEnv⟩

/-- Key 10 creates account 1, a provider. Key 30, with 1000 tokens of which 400 are not vested, stakes 500 of them. The
provider signs somebody up, with capacity. Key 30 cannot transfer 600 to key 20, and can transfer 400; both in a batch
that goes on are one transfer. Key 20 pays key 30 with a schedule, and claims for key 30. -/
def exHist : List Event :=
  [.newBlock, exTx 10 0 (.chain (.msa .create)), exTx 10 1 (.chain (.msa (.createProvider [65]))),
   exTx 30 0 (.chain (.capacity (.stake 1 500))),
   exTx 10 2 (.payWithCapacityBatchAll [.chain (.msa (.createSponsoredAccountWithDelegation 50 50 ⟨1, [], 50⟩)),
     .chain (.handles (.claim 50 50 (Handles.pl "alice" 30)))]),
   exTx 30 1 (.transfer false 20 600),
   exTx 30 2 (.batch .forceBatch [.transfer false 20 600, .transfer false 20 400]),
   exTx 20 0 (.release (.transfer 30 ⟨100, 5, 2, 20⟩)), .tick 200, exTx 20 1 (.release (.claimFor 30)),
   exTx 10 3 (.chain (.msa .retireMsa))]

/-- The state after some events. -/
def exAt (k : Nat) : State := run exCfg (genesis 1024 Tokens.exLedger) (exHist.take k)

/-- Hypotheses met: creating the account cost key 10 four tokens, and signing somebody up none; the stake left key 30
its tokens but for the fee, as did the transfer that failed. -/
example : total (exAt 1).tokens 10 = 500 ∧ total (exAt 2).tokens 10 = 496 ∧ total (exAt 5).tokens 10 = 492 ∧
    Chain.msaOf (exAt 5).tokens.chain 50 = some 2 ∧ nonceOf (exAt 5) 10 = 3 ∧
    total (exAt 3).tokens 30 = 1000 ∧ spendable (exAt 3).tokens 30 = 600 ∧ total (exAt 4).tokens 30 = 996 ∧
    spendable (exAt 4).tokens 30 = 496 ∧ total (exAt 6).tokens 30 = 992 ∧ total (exAt 6).tokens 20 = 300 := by
  decide +kernel

/-- Hypotheses met: the batch moved 400; the schedule added 40 to the tokens of key 30, which can spend them, and all
but the stake, after the claim, without having signed anything since. The free call that is refused changes nothing. -/
example : total (exAt 7).tokens 30 = 588 ∧ total (exAt 7).tokens 20 = 700 ∧ spendable (exAt 7).tokens 30 = 88 ∧
    total (exAt 8).tokens 30 = 628 ∧ spendable (exAt 8).tokens 30 = 128 ∧ total (exAt 8).tokens 20 = 656 ∧
    (acct (exAt 8).tokens.ledger 30).freeze = 440 ∧ (acct (exAt 10).tokens.ledger 30).freeze = 0 ∧
    spendable (exAt 10).tokens 30 = 128 ∧ total (exAt 11).tokens 10 = 492 ∧ nonceOf (exAt 11) 10 = 3 ∧
    everything (exAt 11).tokens = 1855 := by
  decide +kernel

/-- Key 30 signs nothing after the seventh event. -/
example : Silent 30 (exHist.drop 7) ∧ SchedulesStay 30 (exHist.drop 7) := by
  constructor
  · intro t h
    simp only [exHist, exTx, List.drop_succ_cons, List.drop_zero, List.mem_cons, Event.submit.injEq, reduceCtorEq,
      List.not_mem_nil, or_false, false_or] at h
    rcases h with rfl | rfl | rfl <;> decide
  · intro env l h
    simp [exHist, exTx] at h

/-- A transfer of five tokens by key 40. -/
def exPaid : Signed := ⟨40, 0, .transfer false 20 5, 100, 6, 2, exEnv⟩

/-- Hypotheses of `C134_once_partial` met: key 40 transfers, and still has tokens. -/
example : Included exCfg 1024 Tokens.exLedger [] exPaid ∧
    Lives exCfg 40 (run exCfg (genesis 1024 Tokens.exLedger) []) [.submit exPaid] := by
  refine ⟨?_, ?_, ?_⟩
  · unfold Included; decide +kernel
  · decide +kernel
  · show 0 < _
    decide +kernel

/-- Key 40 transfers everything, and its account is closed. Then it gets new tokens. -/
def exAgain : List Event := [exTx 40 1 (.transferAll false 20), exTx 20 0 (.transfer false 40 100)]

/-- The full claim is false of the code: with the account its number is forgotten. The transfer of key 40 is included
once more when the account is there again, without a new signature, and takes tokens from it. -/
theorem C134_full_false : ¬ C134_full := by
  intro h
  refine h exCfg 1024 Tokens.exLedger Tokens.exStart [] exAgain exPaid ?_ ?_ <;> unfold Included <;> decide +kernel

/-- The tokens it takes. -/
example : total (run exCfg (genesis 1024 Tokens.exLedger) ([] ++ .submit exPaid :: exAgain)).tokens 40 = 100 ∧
    total (run exCfg (genesis 1024 Tokens.exLedger) ([] ++ .submit exPaid :: exAgain ++ [.submit exPaid])).tokens 40 =
      91 := by
  decide +kernel

end Verif.Wallet
