import Verif.Tokens.Model
import Verif.Chain.PropsRetire
import Verif.TimeRelease.PropsAccept
/-!
# Lemmas about the chain with its tokens

Every history of it is a history of the chain and one of the time-release pallet.
-/

namespace Verif.Tokens
open TimeRelease (Account acct setAcct acct_setAcct Fresh)

theorem run_snoc (cfg : Config) (s : State) (h : List Step) (x : Step) :
    run cfg s (h ++ [x]) = apply cfg (run cfg s h) x := by
  simp [run, List.foldl_append]

/-- What another part of the runtime does to an account, as a step of the time-release model. -/
theorem elsewhere_eq {cfg : TimeRelease.Config} {l : TimeRelease.State} {who : AccountId} {a : Account}
    (hf : a.freeze = (acct l who).freeze) (h1 : a.freeze ≤ a.free + a.reserved)
    (h2 : a.free = 0 ∨ cfg.ed ≤ a.free ∨ 0 < a.reserved) :
    setAcct l who a = TimeRelease.apply cfg l (.elsewhere who a.free a.reserved a.other) := by
  simp only [TimeRelease.apply]
  rw [if_pos ⟨by rw [← hf]; exact h1, h2⟩, ← hf]

/-- The genesis leaves the other locks alone. -/
theorem genesis_other {cfg : TimeRelease.Config} {env : TimeRelease.Env} (items : List (AccountId × TimeRelease.Sched)) :
    ∀ {l l1 : TimeRelease.State}, TimeRelease.genesis cfg env l items = some l1 → ∀ w, (acct l1 w).other = (acct l w).other := by
  induction items with
  | nil => intro l l1 h w; cases h; rfl
  | cons x xs ih =>
    intro l l1 h w
    rw [TimeRelease.genesis, Option.bind_eq_some_iff] at h
    obtain ⟨l2, h2, h⟩ := h
    rw [ih h w]
    unfold TimeRelease.genesisItem at h2
    cases hd : TimeRelease.doUpdate cfg env l x.1 (TimeRelease.schedulesOf l x.1 ++ [x.2]) with
    | error e => rw [hd] at h2; cases h2
    | ok l3 =>
      rw [hd] at h2
      cases h2
      simp only [TimeRelease.doUpdate, bind_eq_ok_iff, ensure_eq_ok_iff] at hd
      obtain ⟨_, _, hd⟩ := hd
      rw [if_neg (by simp)] at hd
      simp only [TimeRelease.setFreeze, bind_eq_ok_iff, ensure_eq_ok_iff, pure_eq_ok_iff] at hd
      obtain ⟨t, _, _, _, l4, ⟨_, _, rfl⟩, rfl⟩ := hd
      show (acct (setAcct l x.1 _) w).other = _
      rw [acct_setAcct]
      split
      · rename_i e; rw [e]
      · rfl

/-- A genesis: balances without schedules, freezes and locks, and the schedules of the genesis. -/
structure Start (cfg : Config) (ledger : TimeRelease.State) : Prop where
  built : ∃ env l0 items, Fresh cfg.release l0 ∧ (∀ who, (acct l0 who).other = 0) ∧
    TimeRelease.genesis cfg.release env l0 items = some ledger

/-- What holds of every reachable state. -/
structure Good (cfg : Config) (n : Nat) (l : TimeRelease.State) (s : State) : Prop where
  chain : ∃ h, s.chain = Chain.run cfg.chain (.init n) h
  ledger : ∃ h, s.ledger = TimeRelease.run cfg.release l h
  synced : ∀ who, (acct s.ledger who).other = held s who

theorem good_genesis {cfg : Config} (n : Nat) {l : TimeRelease.State} (hs : Start cfg l) : Good cfg n l (genesis n l) := by
  obtain ⟨env, l0, items, _, h1, h2⟩ := hs.built
  refine ⟨⟨[], rfl⟩, ⟨[], rfl⟩, fun who => ?_⟩
  show (acct l who).other = _
  rw [genesis_other items h2, h1]
  rfl

section
variable {cfg : Config} {n : Nat} {l : TimeRelease.State} {s : State}

theorem Good.covered (hs : Start cfg l) (g : Good cfg n l s) (who : AccountId) : TimeRelease.Covered cfg.release s.ledger who := by
  obtain ⟨env, l0, items, h0, _, h2⟩ := hs.built
  obtain ⟨h, e⟩ := g.ledger
  rw [e]
  exact TimeRelease.reach_covered h0 h2 h who

theorem Good.backed (hs : Start cfg l) (g : Good cfg n l s) (who : AccountId) : TimeRelease.Backed cfg.release s.ledger who := by
  obtain ⟨env, l0, items, h0, _, h2⟩ := hs.built
  obtain ⟨h, e⟩ := g.ledger
  obtain ⟨h', e'⟩ := TimeRelease.genesis_run items h2
  rw [e, e']
  have hb : ∀ who, TimeRelease.Backed cfg.release l0 who :=
    fun who => ⟨by rw [h0.freeze]; exact Nat.zero_le _, h0.dust who⟩
  exact TimeRelease.backed_run h (TimeRelease.covered_run h' (TimeRelease.start_covered h0))
    (TimeRelease.backed_run h' (TimeRelease.start_covered h0) hb) who

theorem Good.capacity (g : Good cfg n l s) : Capacity.Inv cfg.chain.capacity s.chain.capacity := by
  obtain ⟨h, e⟩ := g.chain
  obtain ⟨k, hk⟩ := Chain.capacity_run cfg.chain h (.init n)
  rw [e, hk]
  exact Capacity.inv_run k (Capacity.inv_init _)

/-- More of the chain. -/
theorem chain_more (x : Chain.Step) (h : ∃ h, s.chain = Chain.run cfg.chain (.init n) h) :
    ∃ h, Chain.apply cfg.chain s.chain x = Chain.run cfg.chain (.init n) h := by
  obtain ⟨h, e⟩ := h
  exact ⟨h ++ [x], by rw [Chain.run_snoc, e]⟩

/-- More of the time-release pallet. -/
theorem ledger_more {t : TimeRelease.State} (x : TimeRelease.Step) (h : ∃ h, t = TimeRelease.run cfg.release l h) :
    ∃ h, TimeRelease.apply cfg.release t x = TimeRelease.run cfg.release l h := by
  obtain ⟨h, e⟩ := h
  exact ⟨h ++ [x], by rw [e]; simp [TimeRelease.run, List.foldl_append]⟩

/-- Another part of the runtime changes an account. -/
theorem ledger_set {t : TimeRelease.State} {who : AccountId} {a : Account} (h : ∃ h, t = TimeRelease.run cfg.release l h)
    (hf : a.freeze = (acct t who).freeze) (h1 : a.freeze ≤ a.free + a.reserved)
    (h2 : a.free = 0 ∨ cfg.release.ed ≤ a.free ∨ 0 < a.reserved) :
    ∃ h, setAcct t who a = TimeRelease.run cfg.release l h := by
  rw [elsewhere_eq hf h1 h2]
  exact ledger_more _ h

/-- A step of the chain changes freezes of the sender of a call only. -/
theorem frozen_same (x : Chain.Step) (w : AccountId) (h : ∀ c, x.sends ≠ some (.signed w, c)) :
    ((Chain.apply cfg.chain s.chain x).capacity.frozen.get w).getD 0 = (s.chain.capacity.frozen.get w).getD 0 := by
  by_contra hne
  obtain ⟨c, hc⟩ := Chain.C95_stake_changed_by_owner cfg.chain s.chain x w (.inr (.inr (.inl hne)))
  exact h _ hc

theorem held_chain (x : Chain.Step) (w : AccountId) (h : ∀ c, x.sends ≠ some (.signed w, c)) :
    held { s with chain := Chain.apply cfg.chain s.chain x } w = held s w := by
  unfold held
  show max (lockOf s w) ((Chain.apply cfg.chain s.chain x).capacity.frozen.get w |>.getD 0) = _
  rw [frozen_same x w h]

/-- Bringing an account up to date. -/
theorem good_sync (hs : Start cfg l) {t : State} {who : AccountId} (hc : ∃ h, t.chain = Chain.run cfg.chain (.init n) h)
    (hl : t.ledger = s.ledger) (g : Good cfg n l s) (hw : ∀ w, w ≠ who → held t w = held s w) :
    Good cfg n l (sync t who) := by
  refine ⟨hc, ?_, fun w => ?_⟩
  · show ∃ h, setAcct t.ledger who _ = _
    have hb := g.backed hs who
    rw [hl]
    exact ledger_set g.ledger rfl hb.backed hb.dust
  · show (acct (setAcct t.ledger who _) w).other = held t w
    rw [acct_setAcct]
    split
    · rename_i e; rw [e]
    · rename_i e; rw [hl, g.synced, hw w e]

/-- Only balances change, and stay within the limits. -/
theorem good_ledger (g : Good cfg n l s) {t : TimeRelease.State} {b : Balance}
    (ht : ∃ h, t = TimeRelease.run cfg.release l h) (ho : ∀ w, (acct t w).other = (acct s.ledger w).other) :
    Good cfg n l { s with ledger := t, burned := b } :=
  ⟨g.chain, ht, fun w => (ho w).trans (g.synced w)⟩

theorem canWithdraw_frozen {c : TimeRelease.Config} {env : TimeRelease.Env} {a : Account} {amount : Balance}
    (h : TimeRelease.canWithdraw c env a amount) :
    amount = 0 ∨ (amount ≤ a.free ∧ a.frozen ≤ a.free - amount + a.reserved ∧
      (c.ed ≤ a.free - amount ∨ (a.frozen = 0 ∧ a.reserved = 0))) := by
  rcases h with h | ⟨h1, _, h3, h4⟩
  · exact .inl h
  · refine .inr ⟨h1, h4, ?_⟩
    by_cases hd : a.free - amount < c.ed
    · exact .inr ⟨(h3 hd).1, (h3 hd).2.1⟩
    · exact .inl (Nat.le_of_not_lt hd)

/-- What a transfer does to the accounts. -/
theorem transfer_ok {env : TimeRelease.Env} {keep : Bool} {src dest : AccountId} {amount : Balance} {s' : State}
    (h : transfer cfg env keep s src dest amount = some s') :
    TimeRelease.canWithdraw cfg.release env (acct s.ledger src) amount ∧
    TimeRelease.canDeposit cfg.release (acct s.ledger dest) amount ∧
    (keep = true → amount = 0 ∨ cfg.release.ed ≤ (acct s.ledger src).free - amount) ∧
    ((src = dest ∧ s' = s) ∨ (src ≠ dest ∧ s' = { s with
        ledger := setAcct (setAcct s.ledger src (debited cfg (acct s.ledger src) amount).1) dest
          { acct s.ledger dest with free := (acct s.ledger dest).free + amount }
        burned := s.burned + (debited cfg (acct s.ledger src) amount).2 })) := by
  unfold transfer at h
  split at h
  · rename_i hc
    refine ⟨hc.1, hc.2.2, hc.2.1, ?_⟩
    split at h
    · rename_i e
      exact .inl ⟨e, (Option.some.inj h).symm⟩
    · rename_i e
      refine .inr ⟨e, ?_⟩
      have h2 := (Option.some.inj h).symm
      dsimp only at h2
      rw [acct_setAcct, if_neg (fun e' => e e'.symm)] at h2
      exact h2
  · cases h

theorem good_transfer (hs : Start cfg l) (g : Good cfg n l s) {env : TimeRelease.Env} {keep : Bool}
    {src dest : AccountId} {amount : Balance} {s' : State} (h : transfer cfg env keep s src dest amount = some s') :
    Good cfg n l s' := by
  obtain ⟨h1, h2, _, ⟨_, rfl⟩ | ⟨hne, rfl⟩⟩ := transfer_ok h
  · exact g
  have hb := g.backed hs src
  have hd := g.backed hs dest
  have hfr : (acct s.ledger src).freeze ≤ (acct s.ledger src).frozen := Nat.le_max_right _ _
  refine good_ledger g ?_ fun w => ?_
  · refine ledger_set (ledger_set g.ledger ?_ ?_ ?_) ?_ ?_ ?_
    · unfold debited; split <;> rfl
    · have := hb.backed
      unfold TimeRelease.Account.total at this
      unfold debited
      split
      · rename_i hc
        show (acct s.ledger src).freeze ≤ 0 + (acct s.ledger src).reserved
        rcases canWithdraw_frozen h1 with h0 | ⟨h3, h4, h5 | h5⟩
        · rcases hb.dust with h6 | h6 | h6 <;> omega
        · omega
        · omega
      · show (acct s.ledger src).freeze ≤ (acct s.ledger src).free - amount + (acct s.ledger src).reserved
        rcases canWithdraw_frozen h1 with h0 | ⟨h3, h4, _⟩ <;> omega
    · unfold debited
      split
      · exact .inl rfl
      · rename_i hc
        show (acct s.ledger src).free - amount = 0 ∨ cfg.release.ed ≤ (acct s.ledger src).free - amount ∨
          0 < (acct s.ledger src).reserved
        by_cases h6 : (acct s.ledger src).reserved = 0
        · exact .inr (.inl (Nat.le_of_not_lt fun h7 => hc ⟨h7, h6⟩))
        · exact .inr (.inr (Nat.pos_of_ne_zero h6))
    · show (acct s.ledger dest).freeze = _
      rw [acct_setAcct, if_neg (fun e => hne e.symm)]
    · have := hd.backed
      unfold TimeRelease.Account.total at this
      show (acct s.ledger dest).freeze ≤ (acct s.ledger dest).free + amount + (acct s.ledger dest).reserved
      omega
    · show (acct s.ledger dest).free + amount = 0 ∨ cfg.release.ed ≤ (acct s.ledger dest).free + amount ∨
          0 < (acct s.ledger dest).reserved
      rcases h2 with h0 | ⟨h3, _⟩
      · rcases hd.dust with h6 | h6 | h6 <;> omega
      · exact .inr (.inl h3)
  · rw [acct_setAcct]
    split
    · rename_i e; rw [e]
    · rw [acct_setAcct]
      split
      · rename_i e
        rw [e]
        unfold debited
        split <;> rfl
      · rfl

theorem other_set {t : TimeRelease.State} {who : AccountId} {a : Account} (h : a.other = (acct t who).other) (w : AccountId) :
    (acct (setAcct t who a) w).other = (acct t w).other := by
  rw [acct_setAcct]
  split
  · rename_i e; rw [e, h]
  · rfl

theorem good_step (hs : Start cfg l) (g : Good cfg n l s) (x : Step) : Good cfg n l (apply cfg s x) := by
  have gdt : ∀ {o : Option State}, (∀ s', o = some s' → Good cfg n l s') → Good cfg n l (o.getD s) := by
    intro o ho
    cases o with
    | none => exact g
    | some s' => exact ho s' rfl
  have hquiet : ∀ x : Chain.Step, x.sends = none → Good cfg n l { s with chain := Chain.apply cfg.chain s.chain x } :=
    fun x hx => ⟨chain_more x g.chain, g.ledger, fun w =>
      (g.synced w).trans (held_chain x w (fun c h => by rw [hx] at h; cases h)).symm⟩
  cases x with
  | newBlock => exact hquiet _ rfl
  | tick m => exact ⟨g.chain, ledger_more (.tick m) g.ledger, g.synced⟩
  | call o c =>
    show Good cfg n l (syncSigner _ o.signer)
    cases ho : o.signer with
    | none =>
      refine ⟨chain_more (.call (bal s) o c) g.chain, g.ledger, fun w => (g.synced w).trans ?_⟩
      refine (held_chain (.call (bal s) o c) w (fun c h => ?_)).symm
      simp only [Chain.Step.sends, Option.some.injEq, Prod.mk.injEq] at h
      rw [h.1] at ho
      cases ho
    | some who =>
      have : o = .signed who := by cases o <;> simp_all [Chain.Origin.signer]
      subst this
      refine good_sync (s := s) hs (chain_more (.call (bal s) (.signed who) c) g.chain) rfl g (fun w hw => ?_)
      refine held_chain (.call (bal s) (.signed who) c) w (fun c h => ?_)
      simp only [Chain.Step.sends, Option.some.injEq, Prod.mk.injEq, Chain.Origin.signed.injEq] at h
      exact hw h.1.symm
  | submit who c =>
    refine good_sync (s := s) hs (chain_more (.submit (bal s) who c) g.chain) rfl g (fun w hw => ?_)
    refine held_chain (.submit (bal s) who c) w (fun c h => ?_)
    simp only [Chain.Step.sends, Option.some.injEq, Prod.mk.injEq, Chain.Origin.signed.injEq] at h
    exact hw h.1.symm
  | charge key fee => exact hquiet _ rfl
  | upgrade known => exact hquiet _ rfl
  | release env origin c =>
    refine ⟨g.chain, ledger_more (.call env origin c) g.ledger, fun w => ?_⟩
    refine Eq.trans ?_ (g.synced w)
    show (acct (TimeRelease.apply cfg.release s.ledger (.call env origin c)) w).other = _
    simp only [TimeRelease.apply]
    cases hd : TimeRelease.dispatch cfg.release env s.ledger origin c with
    | error e => rfl
    | ok p =>
      obtain ⟨env0, l0, items, h0, _, h2⟩ := hs.built
      obtain ⟨h, e⟩ := g.ledger
      rw [e] at hd ⊢
      rw [(TimeRelease.C88_effect cfg.release env0 l0 l items h0 h2 h env origin c p.1 p.2 hd).2.2.1 w]
  | transfer env keep src dest amount => exact gdt fun s' h => good_transfer hs g h
  | transferAll env keep src dest => exact gdt fun s' h => good_transfer hs g h
  | fee who amount =>
    refine gdt fun s' h => ?_
    have hb := g.backed hs who
    have hfr : (acct s.ledger who).freeze ≤ (acct s.ledger who).frozen := Nat.le_max_right _ _
    unfold fee at h
    dsimp only at h
    split at h
    · rename_i hc
      cases h
      refine good_ledger g (ledger_set g.ledger rfl ?_ ?_) (other_set rfl)
      · have := hb.backed
        unfold TimeRelease.Account.total at this
        show (acct s.ledger who).freeze ≤ (acct s.ledger who).free - amount + (acct s.ledger who).reserved
        rcases hc with rfl | ⟨_, h2, _⟩ <;> omega
      · rcases hc with rfl | ⟨_, _, h3⟩
        · exact hb.dust
        · exact .inr (.inl h3)
    · cases h
  | refund who amount =>
    refine gdt fun s' h => ?_
    have hb := g.backed hs who
    unfold refund at h
    dsimp only at h
    split at h
    · rename_i hc
      cases h
      refine good_ledger g (ledger_set g.ledger rfl ?_ ?_) (other_set rfl)
      · have := hb.backed
        unfold TimeRelease.Account.total at this
        show (acct s.ledger who).freeze ≤ (acct s.ledger who).free + amount + (acct s.ledger who).reserved
        omega
      · show (acct s.ledger who).free + amount = 0 ∨ cfg.release.ed ≤ (acct s.ledger who).free + amount ∨
          0 < (acct s.ledger who).reserved
        rcases hb.dust with h0 | h0 | h0 <;> omega
    · cases h
  | reserve who amount =>
    refine gdt fun s' h => ?_
    have hb := g.backed hs who
    unfold reserve at h
    dsimp only at h
    split at h
    · rename_i hc
      cases h
      refine good_ledger g (ledger_set g.ledger rfl ?_ (.inr (.inl hc.2))) (other_set rfl)
      have := hb.backed
      unfold TimeRelease.Account.total at this
      show (acct s.ledger who).freeze ≤ (acct s.ledger who).free - amount + ((acct s.ledger who).reserved + amount)
      omega
    · cases h
  | unreserve who amount =>
    refine gdt fun s' h => ?_
    have hb := g.backed hs who
    unfold unreserve at h
    dsimp only at h
    split at h
    · rename_i hc
      cases h
      refine good_ledger g (ledger_set g.ledger rfl ?_ (.inr (.inl hc.2))) (other_set rfl)
      have := hb.backed
      unfold TimeRelease.Account.total at this
      show (acct s.ledger who).freeze ≤ (acct s.ledger who).free + amount + ((acct s.ledger who).reserved - amount)
      omega
    · cases h
  | lock who amount =>
    refine good_sync (s := s) hs g.chain rfl g (fun w hw => ?_)
    unfold held
    congr 1
    show ((s.locks.insert who amount).get w).getD 0 = _
    rw [SMap.get_insert_ne _ (fun e => hw e.symm)]
    rfl

theorem good_run (hs : Start cfg l) (h : List Step) : Good cfg n l (run cfg (genesis n l) h) := by
  induction h using List.reverseRecOn with
  | nil => exact good_genesis n hs
  | append_singleton h x ih => rw [run_snoc]; exact good_step hs ih x

end

end Verif.Tokens
