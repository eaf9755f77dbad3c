import Verif.Deposits.Props
/-!
# C162: who removes what deposits were made for
-/

namespace Verif.Deposits
open Verif.Runtime (ProxyType)
open Verif.Wrapped (Def Ann insertDef members put maxProxies)

/-! ## Specification -/

/-- The announcement is carried out: a proxy of the account it is for, with a delay that has passed, is found. -/
def CarriedOut (block : Nat) (s : State) (p : AccountId) (a : Ann) (c : Call) : Prop :=
  ∃ force d, c = .proxyAnnounced p a.real force a.hash ∧ d ∈ (defsOf s a.real).1 ∧ d.delegate = p ∧ d.delay ≤ block - a.height

/-- The operation is executed by a member, with as many approvals as needed. -/
def Executed (cfg : Config) (who : AccountId) (k : AccountId × Nat) (m : Opened) (c : Call) : Prop :=
  ∃ n others all, c = .multi n others (some m.when) k.2 true ∧ members who others = some all ∧ cfg.multi all n = k.1 ∧
    n ≤ m.approvals.length + (if who ∈ m.approvals then 0 else 1)

/-! ## Proof -/

/-- Tokens change, registrations do not. -/
structure Kept (s t : State) : Prop where
  proxies : t.proxies = s.proxies
  anns : t.anns = s.anns
  multis : t.multis = s.multis

theorem reserve_kept {s t : State} {a : AccountId} {v : Balance} (h : reserve s a v = .ok t) : Kept s t := by
  unfold reserve at h
  dsimp only at h
  split_ifs at h <;> cases h <;> exact ⟨rfl, rfl, rfl⟩

theorem rejig_kept {s t : State} {a : AccountId} {v w : Balance} (h : rejig s a v w = .ok t) : Kept s t := by
  unfold rejig at h
  split_ifs at h
  · exact reserve_kept h
  · cases h; exact ⟨rfl, rfl, rfl⟩
  · cases h; exact ⟨rfl, rfl, rfl⟩

theorem editAnns_anns {s t : State} {p : AccountId} {keep : Ann → Bool} {e : Err} (h : editAnns s p keep e = .ok t) :
    t.proxies = s.proxies ∧ t.multis = s.multis ∧ ∀ q a, a ∈ (annsOf s q).1 → a ∉ (annsOf t q).1 → q = p ∧ keep a = false := by
  simp only [editAnns, bind_eq_ok_iff, okOr_eq_ok_iff, pure_eq_ok_iff] at h
  obtain ⟨x, hx, _, _, s1, hs, rfl⟩ := h
  have hk := rejig_kept hs
  refine ⟨hk.proxies, hk.multis, fun q a h1 h2 => ?_⟩
  by_cases hq : q = p
  · subst hq
    refine ⟨rfl, ?_⟩
    simp only [annsOf, hx, Option.getD_some] at h1
    by_cases hkeep : keep a = true
    · exfalso
      have hm : a ∈ x.1.filter keep := List.mem_filter.2 ⟨h1, hkeep⟩
      have hne : x.1.filter keep ≠ [] := fun e => by rw [e] at hm; cases hm
      apply h2
      simp only [annsOf, if_neg hne, SMap.get_insert_self, Option.getD_some]
      exact hm
    · simpa using hkeep
  · exfalso
    apply h2
    have : (if x.1.filter keep = [] then s1.anns.erase p else
        s1.anns.insert p (x.1.filter keep, annDeposit (x.1.filter keep).length)).get q = s.anns.get q := by
      rw [hk.anns]
      split_ifs
      · exact SMap.get_erase_ne _ (Ne.symm hq)
      · exact SMap.get_insert_ne _ (Ne.symm hq) _
    simp only [annsOf, this]
    exact h1

/-- What may be gone after a call. -/
structure Gone (cfg : Config) (block : Nat) (s t : State) (who : AccountId) (c : Call) : Prop where
  proxies : ∀ p d, d ∈ (defsOf s p).1 → d ∉ (defsOf t p).1 → p = who
  anns : ∀ p a, a ∈ (annsOf s p).1 → a ∉ (annsOf t p).1 → p = who ∨ a.real = who ∨ CarriedOut block s p a c
  multis : ∀ k m, s.multis.get k = some m → t.multis.get k = none → m.depositor = who ∨ Executed cfg who k m c

theorem dispatch_gone {cfg : Config} {b e : Nat} {s t : State} {who : AccountId} {c : Call}
    (h : dispatch cfg b e s who c = .ok t) : Gone cfg b s t who c := by
  have hA : t.anns = s.anns → ∀ p a, a ∈ (annsOf s p).1 → a ∉ (annsOf t p).1 →
      p = who ∨ a.real = who ∨ CarriedOut b s p a c := by
    intro e p a h1 h2; exact absurd h1 (by simpa [annsOf, e] using h2)
  have hP : t.proxies = s.proxies → ∀ p d, d ∈ (defsOf s p).1 → d ∉ (defsOf t p).1 → p = who := by
    intro e p a h1 h2; exact absurd h1 (by simpa [defsOf, e] using h2)
  have hM : t.multis = s.multis → ∀ k m, s.multis.get k = some m → t.multis.get k = none →
      m.depositor = who ∨ Executed cfg who k m c := by
    intro e k m h1 h2; rw [e, h1] at h2; cases h2
  have hPw : (∀ p, p ≠ who → t.proxies.get p = s.proxies.get p) → ∀ p d, d ∈ (defsOf s p).1 → d ∉ (defsOf t p).1 → p = who := by
    intro e p d h1 h2
    by_contra hp
    exact absurd h1 (by simpa [defsOf, e p hp] using h2)
  cases c with
  | addProxy delegate ty delay =>
    simp only [dispatch, addProxy, bind_eq_ok_iff, pure_eq_ok_iff] at h
    obtain ⟨_, _, _, _, _, _, s1, hs, rfl⟩ := h
    have hk := rejig_kept hs
    exact ⟨hPw fun p hp => by rw [hk.proxies]; exact SMap.get_insert_ne _ (Ne.symm hp) _, hA hk.anns, hM hk.multis⟩
  | removeProxy delegate ty delay =>
    simp only [dispatch, removeProxy, bind_eq_ok_iff, pure_eq_ok_iff] at h
    obtain ⟨_, _, _, _, s1, hs, rfl⟩ := h
    have hk := rejig_kept hs
    refine ⟨hPw fun p hp => ?_, hA hk.anns, hM hk.multis⟩
    rw [hk.proxies]
    dsimp only
    split_ifs
    · exact SMap.get_erase_ne _ (Ne.symm hp)
    · exact SMap.get_insert_ne _ (Ne.symm hp) _
  | removeProxies =>
    simp only [dispatch, Except.ok.injEq] at h
    subst h
    exact ⟨hPw fun p hp => SMap.get_erase_ne _ (Ne.symm hp), hA rfl, hM rfl⟩
  | createPure ty delay index =>
    simp only [dispatch, bind_eq_ok_iff, pure_eq_ok_iff, ensure_eq_ok_iff] at h
    obtain ⟨_, hn, s1, hs, rfl⟩ := h
    have hk := reserve_kept hs
    refine ⟨fun p d h1 h2 => ?_, hA hk.anns, hM hk.multis⟩
    exfalso
    by_cases hp : cfg.pure who ty index b e = p
    · subst hp
      simp [defsOf, hn] at h1
    · apply h2
      have : (s1.proxies.insert (cfg.pure who ty index b e) ([⟨who, ty, delay⟩], proxyBase + proxyFactor)).get p =
          s.proxies.get p := by rw [hk.proxies]; exact SMap.get_insert_ne _ hp _
      simp only [defsOf, this]
      exact h1
  | killPure spawner ty index height ext =>
    simp only [dispatch, bind_eq_ok_iff, pure_eq_ok_iff] at h
    obtain ⟨_, _, rfl⟩ := h
    exact ⟨hPw fun p hp => SMap.get_erase_ne _ (Ne.symm hp), hA rfl, hM rfl⟩
  | announce real hash =>
    simp only [dispatch, bind_eq_ok_iff, pure_eq_ok_iff] at h
    obtain ⟨_, _, _, _, s1, hs, rfl⟩ := h
    have hk := rejig_kept hs
    refine ⟨hP hk.proxies, fun p a h1 h2 => ?_, hM hk.multis⟩
    by_cases hp : p = who
    · exact .inl hp
    · exfalso
      apply h2
      have e : ∀ v, (s1.anns.insert who v).get p = s.anns.get p := fun v => by
        rw [hk.anns]; exact SMap.get_insert_ne _ (Ne.symm hp) _
      have h1' : a ∈ ((s.anns.get p).getD ([], 0)).1 := h1
      show a ∈ ((SMap.get _ p).getD ([], 0)).1
      rw [e]
      exact h1'
  | removeAnnouncement real hash =>
    obtain ⟨h1, h2, h3⟩ := editAnns_anns h
    exact ⟨hP h1, fun p a g1 g2 => .inl (h3 p a g1 g2).1, hM h2⟩
  | rejectAnnouncement delegate hash =>
    obtain ⟨h1, h2, h3⟩ := editAnns_anns h
    refine ⟨hP h1, fun p a g1 g2 => .inr (.inl ?_), hM h2⟩
    have := (h3 p a g1 g2).2
    simp only [decide_eq_false_iff_not, not_or, not_not] at this
    exact this.1
  | proxyAnnounced delegate real force hash =>
    simp only [dispatch, bind_eq_ok_iff, okOr_eq_ok_iff] at h
    obtain ⟨d, hd, h⟩ := h
    obtain ⟨h1, h2, h3⟩ := editAnns_anns h
    refine ⟨hP h1, fun p a g1 g2 => .inr (.inr ?_), hM h2⟩
    obtain ⟨rfl, g3⟩ := h3 p a g1 g2
    simp only [decide_eq_false_iff_not, not_or, not_not, Nat.not_lt] at g3
    obtain ⟨rfl, rfl, g5⟩ := g3
    have hm := List.mem_of_find?_eq_some hd
    have hs := List.find?_some hd
    simp only [Bool.and_eq_true, decide_eq_true_eq] at hs
    exact ⟨force, d, rfl, hm, hs.1, g5⟩
  | multi n others tp hash ex =>
    simp only [dispatch, operate, bind_eq_ok_iff, okOr_eq_ok_iff] at h
    obtain ⟨_, _, all, ha, h⟩ := h
    cases hm : s.multis.get (cfg.multi all n, hash) with
    | none =>
      simp only [hm, bind_eq_ok_iff, pure_eq_ok_iff] at h
      obtain ⟨_, _, s1, hs, rfl⟩ := h
      have hk := reserve_kept hs
      refine ⟨hP hk.proxies, hA hk.anns, fun k m h1 h2 => ?_⟩
      exfalso
      by_cases hkk : (cfg.multi all n, hash) = k
      · subst hkk; simp at h2
      · dsimp only at h2
        rw [hk.multis, SMap.get_insert_ne _ hkk, h1] at h2
        cases h2
    | some m0 =>
      simp only [hm, bind_eq_ok_iff] at h
      obtain ⟨_, htp, h⟩ := h
      have htp := ensure_eq_ok_iff.1 htp
      generalize hw : decide (who ∉ m0.approvals ∧ m0.approvals.length < n) = new at h
      by_cases h1 : ex = true ∧ n ≤ m0.approvals.length + (if new = true then 1 else 0)
      · rw [if_pos h1] at h
        cases h
        refine ⟨hP rfl, hA rfl, fun k m g1 g2 => .inr ?_⟩
        by_cases hkk : (cfg.multi all n, hash) = k
        · subst hkk
          obtain rfl : m0 = m := Option.some.inj (hm.symm.trans g1)
          obtain ⟨rfl, h3⟩ := h1
          refine ⟨n, others, all, by rw [htp], ha, rfl, Nat.le_trans h3 ?_⟩
          by_cases hm : who ∈ m0.approvals
          · simp only [hm, not_true, false_and, decide_false] at hw
            simp [← hw]
          · simp only [if_neg hm]
            split <;> omega
        · exfalso
          have : (s.multis.erase (cfg.multi all n, hash)).get k = none := g2
          rw [SMap.get_erase_ne _ hkk, g1] at this
          cases this
      · rw [if_neg h1] at h
        cases new with
        | false => cases h
        | true =>
        cases h
        refine ⟨hP rfl, hA rfl, fun k m g1 g2 => ?_⟩
        exfalso
        by_cases hkk : (cfg.multi all n, hash) = k
        · subst hkk; simp at g2
        · dsimp only at g2
          rw [SMap.get_insert_ne _ hkk, g1] at g2
          cases g2
  | cancelMulti n others tp hash =>
    simp only [dispatch, bind_eq_ok_iff, okOr_eq_ok_iff, pure_eq_ok_iff] at h
    obtain ⟨_, _, all, ha, m0, hm, _, ho, _, _, rfl⟩ := h
    refine ⟨hP rfl, hA rfl, fun k m g1 g2 => .inl ?_⟩
    by_cases hkk : (cfg.multi all n, hash) = k
    · subst hkk
      obtain rfl : m0 = m := Option.some.inj (hm.symm.trans g1)
      exact ensure_eq_ok_iff.1 ho
    · exfalso
      have : (s.multis.erase (cfg.multi all n, hash)).get k = none := g2
      rw [SMap.get_erase_ne _ hkk, g1] at this
      cases this

/-- C162: whoever calls, in any state. Registrations of proxies are removed only by the account that has them. Announcements are
removed only by the announcer or by the account they are for, or are carried out after the delay. Open operations are removed only by
whoever opened them, or are executed by a member when they have the approvals needed. -/
theorem C162_removed (cfg : Config) (s : State) (b e : Nat) (who : AccountId) (c : Call) :
    let t := apply cfg s (.call b e who c)
    (∀ p d, d ∈ (defsOf s p).1 → d ∉ (defsOf t p).1 → p = who) ∧
    (∀ p a, a ∈ (annsOf s p).1 → a ∉ (annsOf t p).1 → p = who ∨ a.real = who ∨ CarriedOut b s p a c) ∧
    (∀ k m, s.multis.get k = some m → t.multis.get k = none → m.depositor = who ∨ Executed cfg who k m c) := by
  dsimp only [apply]
  cases h : dispatch cfg b e s who c with
  | ok t => exact ⟨(dispatch_gone h).proxies, (dispatch_gone h).anns, (dispatch_gone h).multis⟩
  | error er =>
    refine ⟨fun p d h1 h2 => absurd h1 h2, fun p d h1 h2 => absurd h1 h2, fun k m h1 h2 => ?_⟩
    rw [h1] at h2; cases h2

/-- Account 3 can neither reject the announcement of account 2 for account 1, which account 1 can, nor cancel the operation that
account 2 opened; but it executes it as second member. -/
example :
    let s := run exCfg .init exHist
    (annsOf s 2).1 = [⟨1, 77, 2⟩] ∧ (annsOf (apply exCfg s (.call 3 1 3 (.rejectAnnouncement 2 77))) 2).1 = [⟨1, 77, 2⟩] ∧
    (annsOf (apply exCfg s (.call 3 1 1 (.rejectAnnouncement 2 77))) 2).1 = [] ∧
    ((apply exCfg s (.call 4 2 3 (.cancelMulti 2 [1, 2] (2, 3) 55))).multis.get (exCfg.multi [1, 2, 3] 2, 55)).isSome = true ∧
    ((apply exCfg s (.call 4 2 3 (.multi 2 [1, 2] (some (2, 3)) 55 true))).multis.get (exCfg.multi [1, 2, 3] 2, 55)).isSome = false := by
  decide +kernel

end Verif.Deposits
