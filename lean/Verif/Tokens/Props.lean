import Verif.Tokens.Lemmas
/-!
# C131: held-back tokens stay where they are

Tokens staked or thawing, tokens not vested and locked tokens stay on their account: every change that takes tokens
from an account leaves as many as are held back for each reason. Staking and claiming move nothing, no tokens come out
of nothing, and everything not held back can be transferred.
-/

namespace Verif.Tokens
open TimeRelease (Account acct setAcct acct_setAcct Fresh schedulesOf unvestedAll)

/-! ## Specification -/

/-- What an account has staked, and what it has unstaked but not withdrawn. -/
def staked (s : State) (who : AccountId) : Balance :=
  (s.chain.capacity.active.get who).getD 0 + (((s.chain.capacity.unlocks.get who).getD []).map (·.value)).sum

/-- What the schedules of an account keep back now. -/
def notVested (s : State) (who : AccountId) : Balance := unvestedAll (schedulesOf s.ledger who) s.ledger.block

/-- The freeze for schedules: what was not vested when it was last claimed or changed. -/
def unclaimed (s : State) (who : AccountId) : Balance := (acct s.ledger who).freeze

/-- The tokens of an account. -/
def total (s : State) (who : AccountId) : Balance := (acct s.ledger who).free + (acct s.ledger who).reserved

/-- All tokens, and all that were burned. -/
def everything (s : State) : Balance := TimeRelease.tokens s.ledger + s.ledger.burned + s.burned

/-- `n` tokens may leave an account: it has them free, what is held back for each reason stays, and the account keeps
the existential deposit or, if it may, is closed. -/
def MayLeave (cfg : Config) (env : TimeRelease.Env) (keep : Bool) (s : State) (who : AccountId) (n : Balance) : Prop :=
  n = 0 ∨ (n ≤ (acct s.ledger who).free ∧ staked s who + n ≤ total s who ∧ lockOf s who + n ≤ total s who ∧
    unclaimed s who + n ≤ total s who ∧
    (cfg.release.ed + n ≤ (acct s.ledger who).free ∨ (keep = false ∧ staked s who = 0 ∧ lockOf s who = 0 ∧
      unclaimed s who = 0 ∧ (acct s.ledger who).reserved = 0 ∧ env.canDie = true)))

/-- `n` tokens may arrive on an account. -/
def MayArrive (cfg : Config) (s : State) (who : AccountId) (n : Balance) : Prop :=
  n = 0 ∨ (cfg.release.ed ≤ (acct s.ledger who).free + n ∧ total s who + n < 2 ^ 128)

/-- The free balance of an account after a transfer. -/
def freeAfter (cfg : Config) (s : State) (src dest : AccountId) (n : Balance) (w : AccountId) : Balance :=
  let a := acct s.ledger w
  if src = dest then a.free
  else if w = dest then a.free + n
  else if w = src then (if a.free < cfg.release.ed + n ∧ a.reserved = 0 then 0 else a.free - n)
  else a.free

/-- No account stakes more than it has free besides what it has staked. -/
def Prudent (s : State) : Step → Prop
  | .call (.signed who) (.capacity (.stake _ a)) => staked s who + a ≤ (acct s.ledger who).free
  | .submit who (.capacity (.stake _ a)) => staked s who + a ≤ (acct s.ledger who).free
  | _ => True

/-- Steps that move no tokens: blocks, calls of the six pallets, payments with capacity, upgrades, locks, and all calls
of the time-release pallet but transfers. -/
def Still : Step → Prop
  | .newBlock | .tick _ | .call .. | .submit .. | .charge .. | .upgrade _ | .lock .. => True
  | .release _ _ (.transfer ..) => False
  | .release .. => True
  | _ => False

/-! ## Steps of the proofs -/

section
variable {cfg : Config} {n : Nat} {l : TimeRelease.State} {s : State}

theorem Good.staked (g : Good cfg n l s) (who : AccountId) :
    staked s who = (s.chain.capacity.frozen.get who).getD 0 := (g.capacity.frozen who).symm

theorem Good.other (g : Good cfg n l s) (who : AccountId) :
    (acct s.ledger who).other = max (lockOf s who) (Tokens.staked s who) := by
  rw [g.synced, g.staked]; rfl

theorem Good.frozen (g : Good cfg n l s) (who : AccountId) :
    (acct s.ledger who).frozen = max (max (lockOf s who) (Tokens.staked s who)) (unclaimed s who) := by
  show max (acct s.ledger who).other _ = _
  rw [g.other]; rfl

theorem sync_balances (t : State) (who w : AccountId) :
    (acct (sync t who).ledger w).free = (acct t.ledger w).free ∧
    (acct (sync t who).ledger w).reserved = (acct t.ledger w).reserved := by
  unfold sync
  rw [acct_setAcct]
  split
  · rename_i e; rw [e]; exact ⟨rfl, rfl⟩
  · exact ⟨rfl, rfl⟩

theorem syncSigner_balances (t : State) (o : Option AccountId) (w : AccountId) :
    (acct (syncSigner t o).ledger w).free = (acct t.ledger w).free ∧
    (acct (syncSigner t o).ledger w).reserved = (acct t.ledger w).reserved := by
  cases o with
  | none => exact ⟨rfl, rfl⟩
  | some who => exact sync_balances t who w

theorem tokens_set_same (t : TimeRelease.State) (who : AccountId) (a : Account) (h : a.total = (acct t who).total) :
    TimeRelease.tokens (setAcct t who a) = TimeRelease.tokens t := by
  have := TimeRelease.tokens_setAcct t who a
  omega

theorem everything_sync (t : State) (who : AccountId) : everything (sync t who) = everything t := by
  unfold everything sync
  dsimp only
  rw [tokens_set_same]
  · rfl
  · rfl

theorem debited_total (a : Account) (amount : Balance) (h : amount ≤ a.free) :
    (debited cfg a amount).1.total + amount + (debited cfg a amount).2 = a.total := by
  unfold debited TimeRelease.Account.total
  split <;> simp only <;> omega

theorem everything_transfer {env : TimeRelease.Env} {keep : Bool} {src dest : AccountId} {amount : Balance} {s' : State}
    (h : transfer cfg env keep s src dest amount = some s') : everything s' = everything s := by
  obtain ⟨h1, _, _, ⟨_, rfl⟩ | ⟨hne, rfl⟩⟩ := transfer_ok h
  · rfl
  have hle : amount ≤ (acct s.ledger src).free := by
    rcases canWithdraw_frozen h1 with h0 | ⟨h0, _⟩ <;> omega
  have e1 := TimeRelease.tokens_setAcct s.ledger src (debited cfg (acct s.ledger src) amount).1
  have e2 := TimeRelease.tokens_setAcct (setAcct s.ledger src (debited cfg (acct s.ledger src) amount).1) dest
    { acct s.ledger dest with free := (acct s.ledger dest).free + amount }
  rw [acct_setAcct, if_neg (fun e => hne e.symm)] at e2
  have e3 := debited_total (cfg := cfg) (acct s.ledger src) amount hle
  have e4 : ({ acct s.ledger dest with free := (acct s.ledger dest).free + amount } : Account).total =
      (acct s.ledger dest).total + amount := by
    unfold TimeRelease.Account.total
    simp only
    omega
  rw [e4] at e2
  unfold everything
  dsimp only at e2 ⊢
  have e5 : (setAcct (setAcct s.ledger src (debited cfg (acct s.ledger src) amount).1) dest
    { acct s.ledger dest with free := (acct s.ledger dest).free + amount }).burned = s.ledger.burned := rfl
  rw [e5]
  omega

/-- Tokens leave an account only if what is held back stays. -/
theorem transfer_held (hs : Start cfg l) (g : Good cfg n l s) {env : TimeRelease.Env} {keep : Bool}
    {src dest : AccountId} {amount : Balance} {s' : State} (h : transfer cfg env keep s src dest amount = some s')
    (w : AccountId) : total s w ≤ total s' w ∨ held s' w ≤ total s' w := by
  obtain ⟨h1, _, _, ⟨_, rfl⟩ | ⟨hne, rfl⟩⟩ := transfer_ok h
  · exact .inl (Nat.le_refl _)
  have hb := (g.backed hs src).dust
  have hf : held s src ≤ (acct s.ledger src).frozen := by
    rw [← g.synced]; exact Nat.le_max_left _ _
  unfold total
  dsimp only
  rw [acct_setAcct]
  by_cases hd : w = dest
  · rw [if_pos hd, hd]
    left
    simp only
    omega
  · rw [if_neg hd, acct_setAcct]
    by_cases hw : w = src
    · rw [if_pos hw, hw]
      show _ ∨ held s src ≤ _
      unfold debited
      split
      · rename_i hc
        simp only
        rcases canWithdraw_frozen h1 with h0 | ⟨h3, h4, h5 | h5⟩
        · left; rcases hb with h6 | h6 | h6 <;> omega
        · omega
        · right; omega
      · simp only
        rcases canWithdraw_frozen h1 with h0 | ⟨h3, h4, _⟩
        · left; omega
        · right; omega
    · rw [if_neg hw]
      exact .inl (Nat.le_refl _)

/-- Whatever happens, tokens leave an account only if what is held back stays. -/
theorem step_held (hs : Start cfg l) (g : Good cfg n l s) (x : Step) (w : AccountId) :
    total s w ≤ total (apply cfg s x) w ∨ held (apply cfg s x) w ≤ total (apply cfg s x) w := by
  have gdt : ∀ {o : Option State}, (∀ s', o = some s' → total s w ≤ total s' w ∨ held s' w ≤ total s' w) →
      total s w ≤ total (o.getD s) w ∨ held (o.getD s) w ≤ total (o.getD s) w := by
    intro o ho
    cases o with
    | none => exact .inl (Nat.le_refl _)
    | some s' => exact ho s' rfl
  cases x with
  | newBlock => exact .inl (Nat.le_refl _)
  | tick m => exact .inl (Nat.le_refl _)
  | call o c =>
    left
    simp only [apply, total]
    rw [(syncSigner_balances _ _ w).1, (syncSigner_balances _ _ w).2]
  | submit who c =>
    left
    simp only [apply, total]
    rw [(sync_balances _ _ w).1, (sync_balances _ _ w).2]
  | charge key fee => exact .inl (Nat.le_refl _)
  | upgrade known => exact .inl (Nat.le_refl _)
  | release env origin c =>
    have hb := (g.backed hs w).dust
    have hf : held s w ≤ max (acct s.ledger w).other (acct s.ledger w).freeze := by
      rw [← g.synced]; exact Nat.le_max_left _ _
    show _ ∨ held s w ≤ _
    simp only [total, apply, TimeRelease.apply]
    cases hd : TimeRelease.dispatch cfg.release env s.ledger origin c with
    | error e => exact .inl (Nat.le_refl _)
    | ok p =>
      obtain ⟨env0, l0, items, h0, _, h2⟩ := hs.built
      obtain ⟨h, e⟩ := g.ledger
      have hp := hd
      rw [e] at hp
      have h3 := (TimeRelease.C88_effect cfg.release env0 l0 l items h0 h2 h env origin c p.1 p.2 hp).2.2.1 w
      have h4 := (TimeRelease.C88_accepted_iff cfg.release env0 l0 l items h0 h2 h env origin c).1 ⟨_, hp⟩
      rw [← e] at h3 h4
      dsimp only
      rw [h3]
      dsimp only
      cases c with
      | transfer dest c =>
        obtain ⟨src, rfl, _, hpay, _⟩ := h4
        simp only [TimeRelease.freeAfter]
        split
        · exact .inl (Nat.le_refl _)
        · split
          · left; omega
          · split
            · rename_i hw
              rw [Option.some.injEq] at hw
              subst hw
              unfold TimeRelease.Payable at hpay
              generalize TimeRelease.payout c = k at *
              by_cases hdd : TimeRelease.Dust cfg.release (acct s.ledger w) k
              · rw [if_pos hdd]
                unfold TimeRelease.Dust at hdd
                rcases hpay with h5 | ⟨h5, h6, h7 | ⟨h7, h8, h9, _⟩⟩
                · left; rcases hb with h6 | h6 | h6 <;> omega
                · omega
                · right; omega
              · rw [if_neg hdd]
                rcases hpay with h5 | ⟨h5, h6, _⟩
                · left; omega
                · right; omega
            · exact .inl (Nat.le_refl _)
      | claim => exact .inl (Nat.le_refl _)
      | claimFor who => exact .inl (Nat.le_refl _)
      | update who l => exact .inl (Nat.le_refl _)
  | transfer env keep src dest amount => exact gdt fun s' h => transfer_held hs g h w
  | transferAll env keep src dest => exact gdt fun s' h => transfer_held hs g h w
  | fee who amount =>
    refine gdt fun s' h => ?_
    have hf : held s who ≤ (acct s.ledger who).frozen := by
      rw [← g.synced]; exact Nat.le_max_left _ _
    unfold fee at h
    dsimp only at h
    split at h
    · rename_i hc
      cases h
      show _ ∨ held s w ≤ _
      unfold total
      dsimp only
      rw [acct_setAcct]
      split
      · rename_i e
        rw [e]
        dsimp only
        rcases hc with rfl | ⟨h1, h2, _⟩
        · left; omega
        · right; omega
      · exact .inl (Nat.le_refl _)
    · cases h
  | refund who amount =>
    refine gdt fun s' h => .inl ?_
    unfold refund at h
    dsimp only at h
    split at h
    · cases h
      unfold total
      dsimp only
      rw [acct_setAcct]
      split
      · rename_i e; rw [e]; dsimp only; omega
      · exact Nat.le_refl _
    · cases h
  | reserve who amount =>
    refine gdt fun s' h => .inl ?_
    unfold reserve at h
    dsimp only at h
    split at h
    · cases h
      unfold total
      dsimp only
      rw [acct_setAcct]
      split
      · rename_i e; rw [e]; dsimp only; omega
      · exact Nat.le_refl _
    · cases h
  | unreserve who amount =>
    refine gdt fun s' h => .inl ?_
    unfold unreserve at h
    dsimp only at h
    split at h
    · cases h
      unfold total
      dsimp only
      rw [acct_setAcct]
      split
      · rename_i e; rw [e]; dsimp only; omega
      · exact Nat.le_refl _
    · cases h
  | lock who amount =>
    left
    simp only [apply, total]
    rw [(sync_balances _ _ w).1, (sync_balances _ _ w).2]

theorem everything_step (x : Step) : everything (apply cfg s x) = everything s := by
  have gdt : ∀ {o : Option State}, (∀ s', o = some s' → everything s' = everything s) →
      everything (o.getD s) = everything s := by
    intro o ho
    cases o with
    | none => rfl
    | some s' => exact ho s' rfl
  cases x with
  | newBlock => rfl
  | tick m => rfl
  | call o c =>
    simp only [apply]
    cases o.signer with
    | none => rfl
    | some who => exact everything_sync _ who
  | submit who c => exact everything_sync _ who
  | charge key fee => rfl
  | upgrade known => rfl
  | release env origin c =>
    have := TimeRelease.C62_conserved_partial cfg.release s.ledger env origin c
    simp only [everything, apply]
    dsimp only at this
    omega
  | transfer env keep src dest amount => exact gdt fun s' h => everything_transfer h
  | transferAll env keep src dest => exact gdt fun s' h => everything_transfer h
  | fee who amount =>
    refine gdt fun s' h => ?_
    unfold fee at h
    dsimp only at h
    split at h
    · rename_i hc
      cases h
      have hle : amount ≤ (acct s.ledger who).free := by rcases hc with rfl | ⟨h1, _⟩ <;> omega
      have e := TimeRelease.tokens_setAcct s.ledger who
        { acct s.ledger who with free := (acct s.ledger who).free - amount }
      unfold TimeRelease.Account.total at e
      dsimp only at e
      unfold everything
      dsimp only
      have e2 : (setAcct s.ledger who
        { acct s.ledger who with free := (acct s.ledger who).free - amount }).burned = s.ledger.burned := rfl
      rw [e2]
      omega
    · cases h
  | refund who amount =>
    refine gdt fun s' h => ?_
    unfold refund at h
    dsimp only at h
    split at h
    · rename_i hc
      cases h
      have e := TimeRelease.tokens_setAcct s.ledger who
        { acct s.ledger who with free := (acct s.ledger who).free + amount }
      unfold TimeRelease.Account.total at e
      dsimp only at e
      unfold everything
      dsimp only
      have e2 : (setAcct s.ledger who
        { acct s.ledger who with free := (acct s.ledger who).free + amount }).burned = s.ledger.burned := rfl
      rw [e2]
      omega
    · cases h
  | reserve who amount =>
    refine gdt fun s' h => ?_
    unfold reserve at h
    dsimp only at h
    split at h
    · rename_i hc
      cases h
      unfold everything
      dsimp only
      rw [tokens_set_same]
      · rfl
      · unfold TimeRelease.Account.total; dsimp only; omega
    · cases h
  | unreserve who amount =>
    refine gdt fun s' h => ?_
    unfold unreserve at h
    dsimp only at h
    split at h
    · rename_i hc
      cases h
      unfold everything
      dsimp only
      rw [tokens_set_same]
      · rfl
      · unfold TimeRelease.Account.total; dsimp only; omega
    · cases h
  | lock who amount => exact everything_sync { s with locks := s.locks.insert who amount } who

theorem sum_filter_le (p : Capacity.Chunk → Bool) (k : List Capacity.Chunk) :
    Capacity.sumChunks (k.filter p) ≤ Capacity.sumChunks k := by
  induction k with
  | nil => exact Nat.le_refl _
  | cons c k ih =>
    unfold Capacity.sumChunks at ih ⊢
    rw [List.filter_cons]
    split <;> simp only [List.map_cons, List.sum_cons] <;> omega

/-- What an account has staked grows only by its stakes, and by no more than it asks for. -/
theorem staked_chain (g : Good cfg n l s) (y : Chain.Step) (w : AccountId)
    (g' : ∃ h, (Chain.apply cfg.chain s.chain y) = Chain.run cfg.chain (.init n) h) :
    ((Chain.apply cfg.chain s.chain y).capacity.frozen.get w).getD 0 ≤ (s.chain.capacity.frozen.get w).getD 0 ∨
    ∃ t a, y.sends = some (.signed w, .capacity (.stake t a)) ∧
      ((Chain.apply cfg.chain s.chain y).capacity.frozen.get w).getD 0 ≤ (s.chain.capacity.frozen.get w).getD 0 + a := by
  show Capacity.frozenOf _ w ≤ Capacity.frozenOf _ w ∨
    ∃ t a, _ ∧ Capacity.frozenOf _ w ≤ Capacity.frozenOf _ w + a
  have hi := g.capacity
  have hi' : Capacity.Inv cfg.chain.capacity (Chain.apply cfg.chain s.chain y).capacity := by
    obtain ⟨h, e⟩ := g'
    obtain ⟨k, hk⟩ := Chain.capacity_run cfg.chain h (.init n)
    rw [e, hk]
    exact Capacity.inv_run k (Capacity.inv_init _)
  rcases Chain.apply_capacity cfg.chain s.chain y with e | ⟨bal, o, c, op, hx, ho, e⟩ | ⟨key, fee, m', hx, hm, e⟩ | ⟨_, e⟩
  · rw [e]; exact .inl (Nat.le_refl _)
  · rw [e] at hi' ⊢
    have he := Capacity.apply_eff cfg.chain.capacity s.chain.capacity ⟨Chain.capacityEnv bal s.chain, op⟩
    generalize Chain.capacityEnv bal s.chain = env at he hi' ⊢
    generalize Capacity.apply cfg.chain.capacity s.chain.capacity ⟨env, op⟩ = t at he hi' ⊢
    cases o with
    | signed key =>
      cases c with
      | stake t' a =>
        cases ho
        cases he with
        | fail => exact .inl (Nat.le_refl _)
        | stake hk =>
          by_cases hw : key = w
          · subst hw
            refine .inr ⟨t', a, hx, ?_⟩
            rw [hi.frozen, hi'.frozen, hk.active, if_pos rfl]
            have h1 := hk.actual
            have h2 : Capacity.chunksOf t key = Capacity.chunksOf s.chain.capacity key := by
              simp [Capacity.chunksOf, hk.unlocks]
            rw [h2]
            omega
          · left; rw [hk.frozen, if_neg hw]
      | unstake t' a =>
        cases ho
        cases he with
        | fail => exact .inl (Nat.le_refl _)
        | unstake hk =>
          left
          simp [Capacity.frozenOf, hk.frozen]
      | withdrawUnstaked =>
        cases ho
        cases he with
        | fail => exact .inl (Nat.le_refl _)
        | withdraw hk =>
          left
          rw [hi.frozen, hi'.frozen]
          have h1 : Capacity.actOf t w = Capacity.actOf s.chain.capacity w := by simp [Capacity.actOf, hk.active]
          rw [h1, hk.chunks]
          split
          · rename_i e
            subst e
            exact Nat.add_le_add_left (sum_filter_le _ _) _
          · exact Nat.le_refl _
      | setEpochLength n => cases ho
    | root =>
      cases c <;> cases ho
      cases he <;> exact .inl (Nat.le_refl _)
    | council => cases c <;> cases ho
    | member => cases c <;> cases ho
  · left
    have hq : y.sends = none := by rw [hx]; rfl
    exact Nat.le_of_eq (frozen_same y w (fun c h => by rw [hq] at h; cases h))
  · rename_i hx
    left
    have hq : y.sends = none := by rw [hx]; rfl
    exact Nat.le_of_eq (frozen_same y w (fun c h => by rw [hq] at h; cases h))

theorem mayLeave_iff (g : Good cfg n l s) {env : TimeRelease.Env} {keep : Bool} {who : AccountId} {amount : Balance} :
    (TimeRelease.canWithdraw cfg.release env (acct s.ledger who) amount ∧
      (keep = true → amount = 0 ∨ cfg.release.ed ≤ (acct s.ledger who).free - amount)) ↔
    MayLeave cfg env keep s who amount := by
  rw [TimeRelease.payable_iff]
  unfold TimeRelease.Payable MayLeave
  rw [g.other]
  show (_ ∨ (_ ∧ max (max (lockOf s who) (staked s who)) (unclaimed s who) + amount ≤ total s who ∧ _)) ∧ _ ↔ _
  change (_ ∨ (_ ∧ _ ∧ (_ ∨ (_ ∧ unclaimed s who = 0 ∧ _)))) ∧ _ ↔ _
  generalize lockOf s who = a
  generalize staked s who = b
  generalize unclaimed s who = c
  generalize total s who = d
  constructor
  · rintro ⟨h | ⟨h1, h2, h3⟩, hk⟩
    · exact .inl h
    · by_cases h0 : amount = 0
      · exact .inl h0
      · refine .inr ⟨h1, by omega, by omega, by omega, ?_⟩
        cases keep with
        | true =>
          rcases hk rfl with h | h
          · exact absurd h h0
          · left; omega
        | false =>
          rcases h3 with h3 | ⟨h3, h4, h5, h6⟩
          · exact .inl h3
          · exact .inr ⟨rfl, by omega, by omega, h4, h5, h6⟩
  · rintro (h | ⟨h1, h2, h3, h4, h5⟩)
    · exact ⟨.inl h, fun _ => .inl h⟩
    · refine ⟨.inr ⟨h1, by omega, ?_⟩, fun hk => ?_⟩
      · rcases h5 with h5 | ⟨_, h5, h6, h7, h8, h9⟩
        · exact .inl h5
        · exact .inr ⟨by omega, h7, h8, h9⟩
      · rcases h5 with h5 | ⟨h5, _⟩
        · right; omega
        · rw [hk] at h5; cases h5

theorem transfer_iff (g : Good cfg n l s) {env : TimeRelease.Env} {keep : Bool} {src dest : AccountId} {amount : Balance} :
    (∃ s', transfer cfg env keep s src dest amount = some s') ↔
    MayLeave cfg env keep s src amount ∧ MayArrive cfg s dest amount := by
  rw [← mayLeave_iff g]
  have : MayArrive cfg s dest amount ↔ TimeRelease.canDeposit cfg.release (acct s.ledger dest) amount :=
    TimeRelease.receivable_iff.symm
  rw [this]
  unfold transfer
  split
  · rename_i h
    refine ⟨fun _ => ⟨⟨h.1, h.2.1⟩, h.2.2⟩, fun _ => ?_⟩
    split <;> exact ⟨_, rfl⟩
  · rename_i h
    exact ⟨fun ⟨_, h'⟩ => (nomatch h'), fun h' => absurd ⟨h'.1.1, h'.1.2, h'.2⟩ h⟩

end

/-! ## C131 -/

/-- The chain and the time-release pallet with the balances are each one of their histories, whatever happens on the
chain with its tokens: what is proved of their histories holds here. The capacity pallet sees the balances themselves:
of all locks on an account, only those outside these pallets are given. -/
theorem C131_histories (cfg : Config) (n : Nat) (l : TimeRelease.State) (hs : Start cfg l) (h : List Step) :
    let s := run cfg (genesis n l) h
    (∃ h', s.chain = Chain.run cfg.chain (.init n) h') ∧ (∃ h', s.ledger = TimeRelease.run cfg.release l h') ∧
    ∀ who, (acct s.ledger who).other = max (lockOf s who) (staked s who) :=
  have g := good_run hs h
  ⟨g.chain, g.ledger, g.other⟩

/-- The full claim on what is on an account: at any time as much as is staked, and as is not vested. -/
def C131_full : Prop :=
  ∀ (cfg : Config) (n : Nat) (l : TimeRelease.State), Start cfg l → ∀ (h : List Step) (who : AccountId),
    let s := run cfg (genesis n l) h
    staked s who ≤ total s who ∧ notVested s who ≤ total s who

/-- What is not vested is on the account at any time. -/
theorem C131_not_vested (cfg : Config) (n : Nat) (l : TimeRelease.State) (hs : Start cfg l) (h : List Step)
    (who : AccountId) :
    let s := run cfg (genesis n l) h
    notVested s who ≤ unclaimed s who ∧ unclaimed s who ≤ total s who :=
  have g := good_run (n := n) hs h
  ⟨(g.covered hs who).covers, (g.backed hs who).backed⟩

/-- Whatever takes tokens from an account leaves as many as are staked or thawing, as many as are not vested, and as
many as are locked. -/
theorem C131_held_back_stays (cfg : Config) (n : Nat) (l : TimeRelease.State) (hs : Start cfg l) (h : List Step)
    (x : Step) (who : AccountId) :
    let s := run cfg (genesis n l) h
    let s' := run cfg (genesis n l) (h ++ [x])
    total s' who < total s who → staked s' who ≤ total s' who ∧ notVested s' who ≤ total s' who ∧
      lockOf s' who ≤ total s' who := by
  intro s s' hlt
  have g := good_run (n := n) hs h
  have g' := good_run (n := n) hs (h ++ [x])
  have h1 := C131_not_vested cfg n l hs (h ++ [x]) who
  have h2 : total s who ≤ total s' who ∨ held s' who ≤ total s' who := by
    have := step_held hs g x who
    rw [← run_snoc] at this
    exact this
  have h3 : held s' who = max (lockOf s' who) (staked s' who) := by
    rw [g'.staked]; rfl
  dsimp only at h1
  have h4 : notVested s' who ≤ total s' who := Nat.le_trans h1.1 h1.2
  omega

/-- If no account stakes more than it has free besides what it has staked, then all that is staked or thawing is on
the accounts at any time. Missing from the full claim: histories where the same tokens are staked twice, which the
code allows (C58). -/
theorem C131_staked_partial (cfg : Config) (n : Nat) (l : TimeRelease.State) (hs : Start cfg l) (h : List Step)
    (hp : ∀ p x r, h = p ++ x :: r → Prudent (run cfg (genesis n l) p) x) (who : AccountId) :
    let s := run cfg (genesis n l) h
    staked s who ≤ total s who := by
  induction h using List.reverseRecOn with
  | nil => exact Nat.zero_le _
  | append_singleton h x ih =>
    have ih := ih (fun p y r e => hp p y (r ++ [x]) (by rw [e]; simp))
    have hx := hp h x [] rfl
    have g := good_run (n := n) hs h
    have g' := good_run (n := n) hs (h ++ [x])
    intro s'
    have hst : total (run cfg (genesis n l) h) who ≤ total s' who ∨ staked s' who ≤ total s' who := by
      have := step_held hs g x who
      rw [← run_snoc] at this
      refine this.imp_right fun h1 => Nat.le_trans ?_ h1
      rw [g'.staked]
      exact Nat.le_max_right _ _
    rcases hst with hle | hst
    swap
    · exact hst
    have hgrow : ∀ y : Chain.Step, s'.chain = Chain.apply cfg.chain (run cfg (genesis n l) h).chain y →
        staked s' who ≤ staked (run cfg (genesis n l) h) who ∨ ∃ t a, y.sends = some (.signed who, .capacity (.stake t a)) ∧
          staked s' who ≤ staked (run cfg (genesis n l) h) who + a := by
      intro y hy
      have := staked_chain g y who (by rw [← hy]; exact g'.chain)
      rw [← hy] at this
      rw [g'.staked, g.staked]
      exact this
    have hsame : s'.chain = (run cfg (genesis n l) h).chain → staked s' who ≤ total s' who := by
      intro e
      have : staked s' who = staked (run cfg (genesis n l) h) who := by unfold staked; rw [e]
      rw [this]
      exact Nat.le_trans ih hle
    have hqu : ∀ y : Chain.Step, y.sends = none → s'.chain = Chain.apply cfg.chain (run cfg (genesis n l) h).chain y →
        staked s' who ≤ total s' who := by
      intro y hq hy
      rcases hgrow y hy with h1 | ⟨t, a, h1, _⟩
      · exact Nat.le_trans h1 (Nat.le_trans ih hle)
      · rw [hq] at h1; cases h1
    have hgetD : ∀ (o : Option State), s' = o.getD (run cfg (genesis n l) h) →
        (∀ t, o = some t → t.chain = (run cfg (genesis n l) h).chain) → s'.chain = (run cfg (genesis n l) h).chain := by
      intro o e ho
      rw [e]
      cases o with
      | none => rfl
      | some t => exact ho t rfl
    have htr : ∀ {env keep src dest amount t}, transfer cfg env keep (run cfg (genesis n l) h) src dest amount = some t →
        t.chain = (run cfg (genesis n l) h).chain := by
      intro env keep src dest amount t ht
      obtain ⟨_, _, _, ⟨_, rfl⟩ | ⟨_, rfl⟩⟩ := transfer_ok ht <;> rfl
    have hs' : s' = apply cfg (run cfg (genesis n l) h) x := run_snoc ..
    clear_value s'
    have hfr : (acct (run cfg (genesis n l) h).ledger who).free ≤ total (run cfg (genesis n l) h) who := Nat.le_add_right _ _
    cases x with
    | newBlock => exact hqu .newBlock rfl (by rw [hs']; rfl)
    | tick m => exact hsame (by rw [hs']; rfl)
    | call o c =>
      rcases hgrow (.call (bal (run cfg (genesis n l) h)) o c) (by
          rw [hs']; simp only [apply]; cases o.signer <;> rfl) with h1 | ⟨t, a, h1, h2⟩
      · exact Nat.le_trans h1 (Nat.le_trans ih hle)
      · simp only [Chain.Step.sends, Option.some.injEq, Prod.mk.injEq] at h1
        obtain ⟨rfl, rfl⟩ := h1
        simp only [Prudent] at hx
        omega
    | submit w c =>
      rcases hgrow (.submit (bal (run cfg (genesis n l) h)) w c) (by rw [hs']; rfl) with h1 | ⟨t, a, h1, h2⟩
      · exact Nat.le_trans h1 (Nat.le_trans ih hle)
      · simp only [Chain.Step.sends, Option.some.injEq, Prod.mk.injEq, Chain.Origin.signed.injEq] at h1
        obtain ⟨rfl, rfl⟩ := h1
        simp only [Prudent] at hx
        omega
    | charge key fee => exact hqu (.charge key fee) rfl (by rw [hs']; rfl)
    | upgrade known => exact hqu (.upgrade known) rfl (by rw [hs']; rfl)
    | release env origin c => exact hsame (by rw [hs']; rfl)
    | transfer env keep src dest amount => exact hsame (hgetD _ hs' (fun t ht => htr ht))
    | transferAll env keep src dest => exact hsame (hgetD _ hs' (fun t ht => htr ht))
    | fee w amount =>
      refine hsame (hgetD _ hs' (fun t ht => ?_))
      unfold fee at ht
      dsimp only at ht
      split at ht <;> cases ht
      rfl
    | refund w amount =>
      refine hsame (hgetD _ hs' (fun t ht => ?_))
      unfold refund at ht
      dsimp only at ht
      split at ht <;> cases ht
      rfl
    | reserve w amount =>
      refine hsame (hgetD _ hs' (fun t ht => ?_))
      unfold reserve at ht
      dsimp only at ht
      split at ht <;> cases ht
      rfl
    | unreserve w amount =>
      refine hsame (hgetD _ hs' (fun t ht => ?_))
      unfold unreserve at ht
      dsimp only at ht
      split at ht <;> cases ht
      rfl
    | lock w amount => exact hsame (by rw [hs']; rfl)

/-- Staking, unstaking, withdrawing, claiming, and everything else the pallets of this repository do, except transfers
with a schedule, moves no tokens: every account keeps what it has, free and reserved. -/
theorem C131_nothing_moves (cfg : Config) (n : Nat) (l : TimeRelease.State) (hs : Start cfg l) (h : List Step)
    (x : Step) (hx : Still x) (who : AccountId) :
    let s := run cfg (genesis n l) h
    let s' := run cfg (genesis n l) (h ++ [x])
    (acct s'.ledger who).free = (acct s.ledger who).free ∧
    (acct s'.ledger who).reserved = (acct s.ledger who).reserved := by
  have g := good_run (n := n) hs h
  intro s s'
  have hs' : s' = apply cfg s x := run_snoc ..
  clear_value s'
  have e0 : s = run cfg (genesis n l) h := rfl
  clear_value s
  rw [← e0] at g
  subst hs'
  cases x with
  | newBlock => exact ⟨rfl, rfl⟩
  | tick m => exact ⟨rfl, rfl⟩
  | call o c => exact syncSigner_balances _ _ who
  | submit w c => exact sync_balances _ _ who
  | charge key fee => exact ⟨rfl, rfl⟩
  | upgrade known => exact ⟨rfl, rfl⟩
  | lock w amount => exact sync_balances _ _ who
  | release env origin c =>
    simp only [apply, TimeRelease.apply]
    cases hd : TimeRelease.dispatch cfg.release env s.ledger origin c with
    | error e => exact ⟨rfl, rfl⟩
    | ok p =>
      obtain ⟨env0, l0, items, h0, _, h2⟩ := hs.built
      obtain ⟨h', e⟩ := g.ledger
      have hp := hd
      rw [e] at hp
      have h3 := (TimeRelease.C88_effect cfg.release env0 l0 l items h0 h2 h' env origin c p.1 p.2 hp).2.2.1 who
      rw [← e] at h3
      dsimp only
      rw [h3]
      dsimp only
      cases c with
      | transfer dest c => exact hx.elim
      | claim => exact ⟨rfl, rfl⟩
      | claimFor who => exact ⟨rfl, rfl⟩
      | update who l => exact ⟨rfl, rfl⟩
  | transfer => exact hx.elim
  | transferAll => exact hx.elim
  | fee => exact hx.elim
  | refund => exact hx.elim
  | reserve => exact hx.elim
  | unreserve => exact hx.elim

/-- No tokens come out of nothing, and none get lost: all tokens and all that were burned stay the same. -/
theorem C131_conserved (cfg : Config) (n : Nat) (l : TimeRelease.State) (h : List Step) :
    everything (run cfg (genesis n l) h) = everything (genesis n l) := by
  induction h using List.reverseRecOn with
  | nil => rfl
  | append_singleton h x ih => rw [run_snoc, everything_step, ih]

/-- When a transfer is made, and what it does: the sender needs the tokens free, what is held back for each reason has
to stay, and the sender keeps the existential deposit or is closed. Nothing else changes. -/
theorem C131_transfer (cfg : Config) (n : Nat) (l : TimeRelease.State) (hs : Start cfg l) (h : List Step)
    (env : TimeRelease.Env) (keep : Bool) (src dest : AccountId) (amount : Balance) :
    let s := run cfg (genesis n l) h
    ((∃ s', transfer cfg env keep s src dest amount = some s') ↔
      MayLeave cfg env keep s src amount ∧ MayArrive cfg s dest amount) ∧
    ∀ s', transfer cfg env keep s src dest amount = some s' →
      (∀ w, acct s'.ledger w = { acct s.ledger w with free := freeAfter cfg s src dest amount w }) ∧
      s'.chain = s.chain ∧ s'.locks = s.locks ∧ s'.ledger.block = s.ledger.block ∧
      s'.ledger.schedules = s.ledger.schedules := by
  have g := good_run (n := n) hs h
  intro s
  refine ⟨transfer_iff g, fun s' hs' => ?_⟩
  clear_value s
  obtain ⟨h1, _, _, ⟨rfl, rfl⟩ | ⟨hne, rfl⟩⟩ := transfer_ok hs'
  · refine ⟨fun w => ?_, rfl, rfl, rfl, rfl⟩
    simp [freeAfter]
  · refine ⟨fun w => ?_, rfl, rfl, rfl, rfl⟩
    have hle : amount ≤ (acct s.ledger src).free := by
      rcases canWithdraw_frozen h1 with h0 | ⟨h0, _⟩ <;> omega
    dsimp only
    rw [acct_setAcct]
    simp only [freeAfter]
    rw [if_neg hne]
    split
    · rename_i e; rw [e]
    · rw [acct_setAcct]
      split
      · rename_i e
        rw [e]
        unfold debited
        by_cases hc : (acct s.ledger src).free < cfg.release.ed + amount ∧ (acct s.ledger src).reserved = 0
        · rw [if_pos hc, if_pos ⟨by omega, hc.2⟩]
        · rw [if_neg hc, if_neg (fun h => hc ⟨by omega, h.2⟩)]
      · rfl

/-- Transferring everything transfers the most that may leave the account. -/
theorem C131_transfer_all (cfg : Config) (n : Nat) (l : TimeRelease.State) (hs : Start cfg l) (h : List Step)
    (env : TimeRelease.Env) (keep : Bool) (src : AccountId) :
    let s := run cfg (genesis n l) h
    let all := reducible cfg env keep (acct s.ledger src)
    MayLeave cfg env keep s src all ∧ ∀ amount, MayLeave cfg env keep s src amount → amount ≤ all := by
  have g := good_run (n := n) hs h
  intro s all
  constructor
  · refine (mayLeave_iff g).1 ?_
    show TimeRelease.canWithdraw _ _ (acct s.ledger src) all ∧ _
    have hall : all = reducible cfg env keep (acct s.ledger src) := rfl
    clear_value all
    unfold reducible at hall
    unfold TimeRelease.canWithdraw
    by_cases hk : keep = true ∨ ¬ TimeRelease.closable env (acct s.ledger src)
    · rw [if_pos hk] at hall
      by_cases h0 : all = 0
      · exact ⟨.inl h0, fun _ => .inl h0⟩
      · exact ⟨.inr ⟨by omega, by omega, fun h => by omega, by omega⟩, fun _ => .inr (show _ ≤ (acct s.ledger src).free - all by omega)⟩
    · rw [if_neg hk] at hall
      have hc : TimeRelease.closable env (acct s.ledger src) := Classical.not_not.1 fun h => hk (.inr h)
      by_cases h0 : all = 0
      · exact ⟨.inl h0, fun _ => .inl h0⟩
      · exact ⟨.inr ⟨by omega, by omega, fun _ => hc, by omega⟩, fun h => absurd (.inl h) hk⟩
  · intro amount ha
    obtain ⟨h1, h2⟩ := (mayLeave_iff g).2 ha
    unfold TimeRelease.canWithdraw at h1
    show amount ≤ reducible cfg env keep (acct s.ledger src)
    unfold reducible
    rcases h1 with h0 | ⟨h1, _, h3, h4⟩
    · omega
    by_cases h0 : amount = 0
    · omega
    split
    · rename_i hk
      have : cfg.release.ed ≤ (acct s.ledger src).free - amount := by
        rcases hk with hk | hk
        · rcases h2 hk with h | h
          · exact absurd h h0
          · exact h
        · exact Nat.le_of_not_lt fun h => hk (h3 h)
      change (acct s.ledger src).frozen ≤ (acct s.ledger src).free - amount + (acct s.ledger src).reserved at h4
      change amount ≤ (acct s.ledger src).free at h1
      change cfg.release.ed ≤ (acct s.ledger src).free - amount at this
      omega
    · change (acct s.ledger src).frozen ≤ (acct s.ledger src).free - amount + (acct s.ledger src).reserved at h4
      change amount ≤ (acct s.ledger src).free at h1
      omega

/-! ## A concrete chain -/

/-- Existential deposit 10, two schedules for each account. -/
def exCfg : Config := ⟨Chain.exCfg, ⟨0, 2, 10⟩⟩

/-- Four accounts at the genesis. -/
def exBefore : TimeRelease.State :=
  ⟨100, (((SMap.empty.insert 10 ⟨500, 0, 0, 0⟩).insert 20 ⟨300, 0, 0, 0⟩).insert 30 ⟨1000, 0, 0, 0⟩).insert 40
    ⟨55, 0, 0, 0⟩, SMap.empty, 0⟩

/-- Key 30 gets a hundred tokens after each of four periods. -/
def exItems : List (AccountId × TimeRelease.Sched) := [(30, ⟨100, 5, 4, 100⟩)]

/-- After the genesis. -/
def exLedger : TimeRelease.State := (TimeRelease.genesis exCfg.release ⟨true, true⟩ exBefore exItems).getD exBefore

theorem exStart : Start exCfg exLedger := by
  refine ⟨⟨true, true⟩, exBefore, exItems, ?_, ?_, ?_⟩
  · have : ∀ who, acct exBefore who = if who = 40 then ⟨55, 0, 0, 0⟩ else if who = 30 then ⟨1000, 0, 0, 0⟩ else
        if who = 20 then ⟨300, 0, 0, 0⟩ else if who = 10 then ⟨500, 0, 0, 0⟩ else .empty := by
      intro who
      unfold acct exBefore
      simp only [SMap.get_insert, eq_comm (a := who)]
      split
      · rfl
      · split
        · rfl
        · split
          · rfl
          · split <;> rfl
    refine ⟨rfl, fun who => ?_, fun who => ?_⟩
    · rw [this]; split_ifs <;> rfl
    · rw [this]; split_ifs <;> decide
  · intro who
    unfold acct exBefore
    simp only [SMap.get_insert]
    split_ifs <;> rfl
  · have : (TimeRelease.genesis exCfg.release ⟨true, true⟩ exBefore exItems).isSome = true := by decide +kernel
    unfold exLedger
    obtain ⟨l, hl⟩ := Option.isSome_iff_exists.1 this
    rw [hl]; rfl

/-- Key 10 creates account 1, a provider. Key 30 stakes 900 of its tokens, 400 of them not vested. It cannot transfer
200, it can transfer 100. It unstakes 850 and pays a deposit of 60 and a fee of 20. -/
def exHist : List Step :=
  [.newBlock, .submit 10 (.msa .create), .submit 10 (.msa (.createProvider [65])),
   .submit 30 (.capacity (.stake 1 900)),
   .transfer ⟨true, true⟩ false 30 20 200,
   .transfer ⟨true, true⟩ false 30 20 100,
   .submit 30 (.capacity (.unstake 1 850)),
   .reserve 30 60, .lock 20 350, .fee 20 20,
   .transferAll ⟨true, true⟩ false 40 20,
   .release ⟨true, true⟩ (some 20) (.transfer 10 ⟨100, 5, 2, 20⟩),
   .tick 200, .release ⟨true, true⟩ (some 10) (.claimFor 30)]

/-- The state after some steps. -/
def exAt (k : Nat) : State := run exCfg (genesis 1024 exLedger) (exHist.take k)

/-- Hypotheses met: 900 staked, 400 not vested, 100 of the 1000 tokens leave the account, and no more. -/
example : staked (exAt 4) 30 = 900 ∧ notVested (exAt 4) 30 = 400 ∧ total (exAt 4) 30 = 1000 ∧
    total (exAt 5) 30 = 1000 ∧ total (exAt 6) 30 = 900 ∧ staked (exAt 6) 30 = 900 ∧
    total (exAt 6) 20 = 400 := by
  decide +kernel

/-- Hypotheses met: thawing tokens stay too; the lock of account 20 leaves 50 for fees; account 40 is closed; and
after its claim account 30 keeps only what is thawing. -/
example : staked (exAt 7) 30 = 900 ∧ (exAt 7).chain.capacity.active.get 30 = some 50 ∧
    acct (exAt 8).ledger 30 = ⟨840, 60, 900, 400⟩ ∧ acct (exAt 10).ledger 20 = ⟨380, 0, 350, 0⟩ ∧
    total (exAt 11) 40 = 0 ∧ total (exAt 11) 20 = 435 ∧ acct (exAt 12).ledger 10 = ⟨540, 0, 0, 40⟩ ∧
    total (exAt 12) 20 = 395 ∧ acct (exAt 14).ledger 30 = ⟨840, 60, 900, 0⟩ ∧
    everything (exAt 14) = 1855 := by
  decide +kernel

/-- Hypotheses of `C131_staked_partial` met: the only stake is of 900 out of 1000 free tokens. -/
example : ∀ p x r, exHist.take 6 = p ++ x :: r → Prudent (run exCfg (genesis 1024 exLedger) p) x := by
  intro p x r h
  rcases p with _ | ⟨a, _ | ⟨b, _ | ⟨c, _ | ⟨d, _ | ⟨e, _ | ⟨f, p⟩⟩⟩⟩⟩⟩ <;>
    simp only [exHist, List.take_succ_cons, List.take_zero, List.nil_append, List.cons_append, List.cons.injEq,
      List.nil_eq, List.append_eq_nil_iff, reduceCtorEq, and_false] at h
  · rw [← h.1]; trivial
  · rw [← h.2.1]; trivial
  · rw [← h.2.2.1]; trivial
  · obtain ⟨rfl, rfl, rfl, rfl, _⟩ := h
    show staked _ 30 + 900 ≤ _
    decide +kernel
  · rw [← h.2.2.2.2.1]; trivial
  · rw [← h.2.2.2.2.2.1]; trivial

/-- Steps that stake the same tokens twice. -/
def exTwice : List Step :=
  [.newBlock, .submit 10 (.msa .create), .submit 10 (.msa (.createProvider [65])),
   .submit 30 (.capacity (.stake 1 900)), .submit 30 (.capacity (.stake 1 900))]

/-- The full claim is false of the code: an account stakes 1800 with 1000 tokens. -/
theorem C131_full_false : ¬ C131_full := by
  intro h
  have := (h exCfg 1024 exLedger exStart exTwice 30).1
  revert this
  decide +kernel

end Verif.Tokens
