import Verif.Deposits.Model
import Mathlib.Tactic.SplitIfs
/-!
# C162: deposits come back
-/

namespace Verif.Deposits
open Verif.Runtime (ProxyType)
open Verif.Wrapped (Def Ann insertDef members put maxProxies)

/-! ## Specification -/

/-- Who made the deposit for the registrations of an account: whoever created it if it is a pure account, otherwise the
account itself. `sp` tells who created a pure account. -/
def payer (sp : AccountId → Option AccountId) (p : AccountId) : AccountId := (sp p).getD p

/-- Deposits for registrations. -/
def owedProxies (sp : AccountId → Option AccountId) (s : State) (a : AccountId) : Balance :=
  s.proxies.sumV (fun p x => if payer sp p = a then x.2 else 0)

/-- Deposits for multisig operations. -/
def owedMultis (s : State) (a : AccountId) : Balance := s.multis.sumV (fun _ m => if m.depositor = a then m.deposit else 0)

/-- What an account has deposited for things that are still there. -/
def owed (sp : AccountId → Option AccountId) (s : State) (a : AccountId) : Balance :=
  owedProxies sp s a + (annsOf s a).2 + owedMultis s a + s.elsewhere a

/-- `sp` tells who created a pure account: no two accounts create the same. -/
def Spawned (cfg : Config) (sp : AccountId → Option AccountId) : Prop :=
  ∀ a t i b e, sp (cfg.pure a t i b e) = some a

/-- Pure accounts keep the one registration they were created with until they are given up. -/
def Leaves (sp : AccountId → Option AccountId) : Event → Prop
  | .call _ _ who (.addProxy ..) => sp who = none
  | .call _ _ who (.removeProxy ..) => sp who = none
  | .call _ _ who .removeProxies => sp who = none
  | _ => True

/-- C162 in full: what is reserved of an account is always what it has deposited for things that are still there. -/
def C162_full : Prop :=
  ∀ (cfg : Config) (sp : AccountId → Option AccountId), Spawned cfg sp →
    ∀ (hist : List Event) (a : AccountId), ((run cfg .init hist).purse a).reserved = owed sp (run cfg .init hist) a

/-! ## Lemmas -/

/-- The records are the same. -/
structure Same (s t : State) : Prop where
  proxies : t.proxies = s.proxies
  anns : t.anns = s.anns
  multis : t.multis = s.multis
  elsewhere : t.elsewhere = s.elsewhere

/-- `v` has become `w` in the reserve of `a`, the rest is free as before. -/
structure Shift (s t : State) (a : AccountId) (v w : Balance) : Prop where
  same : Same s t
  reserved : ∀ b, (t.purse b).reserved + (if a = b then v else 0) = (s.purse b).reserved + (if a = b then w else 0)
  total : ∀ b, (t.purse b).free + (t.purse b).reserved = (s.purse b).free + (s.purse b).reserved
  frozen : ∀ b, (t.purse b).frozen = (s.purse b).frozen

theorem reserve_shift {s t : State} {a : AccountId} {v : Balance} (h : reserve s a v = .ok t) : Shift s t a 0 v := by
  unfold reserve at h
  simp only at h
  by_cases h0 : v = 0
  · rw [if_pos h0] at h
    cases h
    subst h0
    exact ⟨⟨rfl, rfl, rfl, rfl⟩, fun b => rfl, fun b => rfl, fun b => rfl⟩
  · rw [if_neg h0] at h
    by_cases hc : v ≤ (s.purse a).free ∧ (s.purse a).frozen ≤ (s.purse a).free - v ∧ existential ≤ (s.purse a).free - v
    · rw [if_pos hc] at h
      cases h
      refine ⟨⟨rfl, rfl, rfl, rfl⟩, ?_, ?_, ?_⟩
      all_goals
        intro b
        by_cases hb : a = b
        · subst hb; simp only [put, if_true, ite_self]; try omega
        · simp only [put, if_neg hb, if_neg (Ne.symm hb)]
    · rw [if_neg hc] at h
      cases h

theorem unreserve_shift (s : State) (a : AccountId) (v : Balance) (hv : v ≤ (s.purse a).reserved) :
    Shift s (unreserve s a v) a v 0 := by
  unfold unreserve
  refine ⟨⟨rfl, rfl, rfl, rfl⟩, ?_, ?_, ?_⟩
  all_goals
    intro b
    by_cases hb : a = b
    · subst hb; simp only [put, if_true]; try omega
    · simp only [put, if_neg hb, if_neg (Ne.symm hb)]

theorem rejig_shift {s t : State} {a : AccountId} {old new : Balance} (ho : old ≤ (s.purse a).reserved)
    (h : rejig s a old new = .ok t) : Shift s t a old new := by
  unfold rejig at h
  split_ifs at h with h1 h2
  · have hs := reserve_shift h
    refine ⟨hs.same, fun b => ?_, hs.total, hs.frozen⟩
    have := hs.reserved b
    split_ifs at this ⊢ <;> omega
  · cases h
    have hs := unreserve_shift s a (old - new) (by omega)
    refine ⟨hs.same, fun b => ?_, hs.total, hs.frozen⟩
    have := hs.reserved b
    split_ifs at this ⊢ <;> omega
  · cases h
    have he : old = new := by omega
    subst he
    exact ⟨⟨rfl, rfl, rfl, rfl⟩, fun b => rfl, fun b => rfl, fun b => rfl⟩

/-- What is reserved is what is recorded. -/
def Inv (sp : AccountId → Option AccountId) (s : State) : Prop := ∀ a, (s.purse a).reserved = owed sp s a

theorem contrib_defs (sp : AccountId → Option AccountId) (s : State) (p a : AccountId) :
    SMap.contrib (fun p x => if payer sp p = a then x.2 else 0) p (s.proxies.get p) =
      if payer sp p = a then (defsOf s p).2 else 0 := by
  unfold defsOf
  cases s.proxies.get p with
  | none => simp [SMap.contrib]
  | some x => rfl

theorem owedProxies_insert (sp : AccountId → Option AccountId) (s : State) (p a : AccountId) (x : List Def × Balance) :
    (s.proxies.insert p x).sumV (fun p x => if payer sp p = a then x.2 else 0) +
      (if payer sp p = a then (defsOf s p).2 else 0) = owedProxies sp s a + if payer sp p = a then x.2 else 0 := by
  have := SMap.sumV_insert s.proxies p x (fun p x => if payer sp p = a then x.2 else 0)
  rw [contrib_defs] at this
  exact this

theorem owedProxies_erase (sp : AccountId → Option AccountId) (s : State) (p a : AccountId) :
    (s.proxies.erase p).sumV (fun p x => if payer sp p = a then x.2 else 0) +
      (if payer sp p = a then (defsOf s p).2 else 0) = owedProxies sp s a := by
  have := SMap.sumV_erase s.proxies p (fun p x => if payer sp p = a then x.2 else 0)
  rw [contrib_defs] at this
  exact this

theorem Inv.defs {sp s} (h : Inv sp s) (p : AccountId) : (defsOf s p).2 ≤ (s.purse (payer sp p)).reserved := by
  have h1 := SMap.contrib_le_sumV s.proxies p (fun q x => if payer sp q = payer sp p then x.2 else 0)
  rw [contrib_defs, if_pos rfl] at h1
  rw [h]
  unfold owed owedProxies
  omega

theorem Inv.anns {sp s} (h : Inv sp s) (a : AccountId) : (annsOf s a).2 ≤ (s.purse a).reserved := by
  rw [h]
  unfold owed
  omega

theorem Inv.multis {sp s k m} (h : Inv sp s) (hm : s.multis.get k = some m) : m.deposit ≤ (s.purse m.depositor).reserved := by
  have h1 := SMap.contrib_le_sumV s.multis k (fun _ x => if x.depositor = m.depositor then x.deposit else 0)
  rw [hm] at h1
  simp only [SMap.contrib, if_true] at h1
  rw [h]
  unfold owed owedMultis
  omega

/-- The registrations of an account change together with the reserve of whoever paid. -/
theorem Inv.proxies_step {sp s t u p q new} (h : Inv sp s) (hq : payer sp p = q) (hs : Shift s t q (defsOf s p).2 new)
    (hu : (∃ defs, u = { t with proxies := t.proxies.insert p (defs, new) }) ∨
      (new = 0 ∧ u = { t with proxies := t.proxies.erase p })) : Inv sp u := by
  intro a
  subst hq
  have h1 := h a
  have h2 := hs.reserved a
  unfold owed at h1 ⊢
  rcases hu with ⟨defs, rfl⟩ | ⟨h0, rfl⟩
  · have h3 := owedProxies_insert sp s p a (defs, new)
    simp only [owedProxies, owedMultis, annsOf, hs.same.proxies, hs.same.anns, hs.same.multis, hs.same.elsewhere] at h1 h3 ⊢
    split_ifs at h2 h3 <;> omega
  · have h3 := owedProxies_erase sp s p a
    simp only [owedProxies, owedMultis, annsOf, hs.same.proxies, hs.same.anns, hs.same.multis, hs.same.elsewhere] at h1 h3 ⊢
    subst h0
    split_ifs at h2 h3 <;> omega

/-- The announcements of an account change together with its reserve. -/
theorem Inv.anns_step {sp s t u p new} (h : Inv sp s) (hs : Shift s t p (annsOf s p).2 new)
    (hu : (∃ l, u = { t with anns := t.anns.insert p (l, new) }) ∨ (new = 0 ∧ u = { t with anns := t.anns.erase p })) :
    Inv sp u := by
  intro a
  have h1 := h a
  have h2 := hs.reserved a
  have h4 : (annsOf u a).2 = if p = a then new else (annsOf s a).2 := by
    rcases hu with ⟨l, rfl⟩ | ⟨h0, rfl⟩
    · simp only [annsOf, SMap.get_insert, hs.same.anns]
      split_ifs <;> rfl
    · simp only [annsOf, SMap.get_erase, hs.same.anns]
      split_ifs
      · exact h0.symm
      · rfl
  have h5 : u.purse = t.purse ∧ u.proxies = t.proxies ∧ u.multis = t.multis ∧ u.elsewhere = t.elsewhere := by
    rcases hu with ⟨l, rfl⟩ | ⟨h0, rfl⟩ <;> exact ⟨rfl, rfl, rfl, rfl⟩
  unfold owed at h1 ⊢
  rw [h4, h5.1]
  simp only [owedProxies, owedMultis, h5.2.1, h5.2.2.1, h5.2.2.2, hs.same.proxies, hs.same.multis, hs.same.elsewhere] at h1 ⊢
  by_cases hp : p = a
  · subst hp
    simp only [if_true] at h2 ⊢
    omega
  · simp only [if_neg hp] at h2 ⊢
    omega

theorem Inv.multis_erase {sp s t u k m} (h : Inv sp s) (hm : s.multis.get k = some m)
    (hs : Shift s t m.depositor m.deposit 0) (hu : u = { t with multis := t.multis.erase k }) : Inv sp u := by
  intro a
  have h1 := h a
  have h2 := hs.reserved a
  have h3 := SMap.sumV_erase s.multis k (fun _ m => if m.depositor = a then m.deposit else 0)
  rw [hm] at h3
  subst hu
  unfold owed at h1 ⊢
  simp only [owedProxies, owedMultis, annsOf, hs.same.proxies, hs.same.anns, hs.same.multis, hs.same.elsewhere,
    SMap.contrib] at h1 h3 ⊢
  split_ifs at h2 h3 <;> omega

theorem Inv.multis_insert {sp s t u k m} (h : Inv sp s) (hm : s.multis.get k = none)
    (hs : Shift s t m.depositor 0 m.deposit) (hu : u = { t with multis := t.multis.insert k m }) : Inv sp u := by
  intro a
  have h1 := h a
  have h2 := hs.reserved a
  have h3 := SMap.sumV_insert s.multis k m (fun _ m => if m.depositor = a then m.deposit else 0)
  rw [hm] at h3
  subst hu
  unfold owed at h1 ⊢
  simp only [owedProxies, owedMultis, annsOf, hs.same.proxies, hs.same.anns, hs.same.multis, hs.same.elsewhere,
    SMap.contrib] at h1 h3 ⊢
  split_ifs at h2 h3 <;> omega

theorem Inv.multis_replace {sp s k m m'} (h : Inv sp s) (hm : s.multis.get k = some m) (h1 : m'.depositor = m.depositor)
    (h2 : m'.deposit = m.deposit) : Inv sp { s with multis := s.multis.insert k m' } := by
  intro a
  have h0 := h a
  have h3 := SMap.sumV_insert s.multis k m' (fun _ m => if m.depositor = a then m.deposit else 0)
  rw [hm] at h3
  unfold owed at h0 ⊢
  simp only [owedProxies, owedMultis, annsOf, SMap.contrib, h1, h2] at h0 h3 ⊢
  omega

theorem editAnns_inv {sp s t d keep e} (h : Inv sp s) (he : editAnns s d keep e = .ok t) : Inv sp t := by
  simp only [editAnns, bind_eq_ok_iff, ensure_eq_ok_iff, okOr_eq_ok_iff, pure_eq_ok_iff] at he
  obtain ⟨x, hx, _, hl, s1, hr, rfl⟩ := he
  have hd : annsOf s d = x := by simp [annsOf, hx]
  have hs := rejig_shift (by rw [← hd]; exact h.anns d) hr
  rw [← hd] at hs
  refine h.anns_step hs ?_
  by_cases hn : (annsOf s d).1.filter keep = []
  · refine .inr ⟨by simp [hn, annDeposit], ?_⟩
    rw [hd] at hn
    simp [hn]
  · refine .inl ⟨x.1.filter keep, ?_⟩
    rw [hd] at hn ⊢
    rw [if_neg hn]

theorem dispatch_inv {cfg sp b e s t who c} (hsp : Spawned cfg sp) (h : Inv sp s) (hl : Leaves sp (.call b e who c))
    (hd : dispatch cfg b e s who c = .ok t) : Inv sp t := by
  cases c with
  | addProxy delegate ty delay =>
    simp only [Leaves] at hl
    have hp : payer sp who = who := by simp [payer, hl]
    simp only [dispatch, addProxy, bind_eq_ok_iff, ensure_eq_ok_iff, pure_eq_ok_iff] at hd
    obtain ⟨_, _, _, _, _, _, s1, hr, rfl⟩ := hd
    have hs := rejig_shift (by have := h.defs who; rwa [hp] at this) hr
    exact h.proxies_step hp hs (.inl ⟨_, rfl⟩)
  | removeProxy delegate ty delay =>
    simp only [Leaves] at hl
    have hp : payer sp who = who := by simp [payer, hl]
    simp only [dispatch, removeProxy, bind_eq_ok_iff, ensure_eq_ok_iff, okOr_eq_ok_iff, pure_eq_ok_iff] at hd
    obtain ⟨x, hx, _, _, s1, hr, rfl⟩ := hd
    have hx' : defsOf s who = x := by simp [defsOf, hx]
    have hs := rejig_shift (by have := h.defs who; rw [hp, hx'] at this; exact this) hr
    rw [← hx'] at hs
    refine h.proxies_step hp hs ?_
    by_cases hn : x.1.erase ⟨delegate, ty, delay⟩ = []
    · exact .inr ⟨by rw [hx', hn]; rfl, by rw [if_pos hn]⟩
    · exact .inl ⟨x.1.erase ⟨delegate, ty, delay⟩, by rw [if_neg hn, hx']⟩
  | removeProxies =>
    simp only [Leaves] at hl
    have hp : payer sp who = who := by simp [payer, hl]
    simp only [dispatch, Except.ok.injEq] at hd
    subst hd
    have hs := unreserve_shift s (payer sp who) (defsOf s who).2 (h.defs who)
    rw [hp] at hs
    exact h.proxies_step hp hs (.inr ⟨rfl, rfl⟩)
  | createPure ty delay index =>
    simp only [dispatch, bind_eq_ok_iff, ensure_eq_ok_iff, pure_eq_ok_iff] at hd
    obtain ⟨_, hn, s1, hr, rfl⟩ := hd
    have hp : payer sp (cfg.pure who ty index b e) = who := by rw [payer, hsp]; rfl
    have h0 : (defsOf s (cfg.pure who ty index b e)).2 = 0 := by simp [defsOf, hn]
    have hs := reserve_shift hr
    rw [← h0] at hs
    exact h.proxies_step hp hs (.inl ⟨_, rfl⟩)
  | killPure spawner ty index height ext =>
    simp only [dispatch, bind_eq_ok_iff, ensure_eq_ok_iff, pure_eq_ok_iff] at hd
    obtain ⟨_, hw, rfl⟩ := hd
    have hp : payer sp who = spawner := by rw [← hw, payer, hsp]; rfl
    have hs := unreserve_shift s (payer sp who) (defsOf s who).2 (h.defs who)
    rw [hp] at hs
    exact h.proxies_step hp hs (.inr ⟨rfl, rfl⟩)
  | announce real hash =>
    simp only [dispatch, bind_eq_ok_iff, ensure_eq_ok_iff, okOr_eq_ok_iff, pure_eq_ok_iff] at hd
    obtain ⟨_, _, _, _, s1, hr, rfl⟩ := hd
    exact h.anns_step (rejig_shift (h.anns who) hr) (.inl ⟨_, rfl⟩)
  | removeAnnouncement real hash => exact editAnns_inv h hd
  | rejectAnnouncement delegate hash => exact editAnns_inv h hd
  | proxyAnnounced delegate real force hash =>
    simp only [dispatch, bind_eq_ok_iff] at hd
    obtain ⟨_, _, hd⟩ := hd
    exact editAnns_inv h hd
  | multi threshold others timepoint hash execute =>
    simp only [dispatch, operate, bind_eq_ok_iff, ensure_eq_ok_iff, okOr_eq_ok_iff] at hd
    obtain ⟨_, _, all, _, hd⟩ := hd
    cases hm : s.multis.get (cfg.multi all threshold, hash) with
    | none =>
      rw [hm] at hd
      simp only [bind_eq_ok_iff, ensure_eq_ok_iff, pure_eq_ok_iff] at hd
      obtain ⟨_, _, s1, hr, rfl⟩ := hd
      exact h.multis_insert (m := ⟨(b, e), multiDeposit threshold, who, [who]⟩) hm (reserve_shift hr) rfl
    | some m =>
      rw [hm] at hd
      simp only [bind_eq_ok_iff, ensure_eq_ok_iff] at hd
      obtain ⟨_, _, hd⟩ := hd
      generalize (decide (who ∉ m.approvals ∧ m.approvals.length < threshold)) = new at hd
      by_cases hx : execute = true ∧ threshold ≤ m.approvals.length + (if new = true then 1 else 0)
      · rw [if_pos hx, pure_eq_ok_iff] at hd
        subst hd
        exact h.multis_erase hm (unreserve_shift s m.depositor m.deposit (h.multis hm)) rfl
      · rw [if_neg hx] at hd
        cases new with
        | false => cases hd
        | true =>
          rw [if_pos rfl, pure_eq_ok_iff] at hd
          subst hd
          exact h.multis_replace hm rfl rfl
  | cancelMulti threshold others timepoint hash =>
    simp only [dispatch, bind_eq_ok_iff, ensure_eq_ok_iff, okOr_eq_ok_iff, pure_eq_ok_iff] at hd
    obtain ⟨_, _, all, _, m, hm, _, _, _, _, rfl⟩ := hd
    exact h.multis_erase hm (unreserve_shift s m.depositor m.deposit (h.multis hm)) rfl

theorem apply_inv {cfg sp s} (hsp : Spawned cfg sp) (h : Inv sp s) (ev : Event) (hl : Leaves sp ev) :
    Inv sp (apply cfg s ev) := by
  cases ev with
  | call b e who c =>
    simp only [apply]
    cases hd : dispatch cfg b e s who c with
    | ok t => exact dispatch_inv hsp h hl hd
    | error er => exact h
  | take a v =>
    simp only [apply]
    cases hd : reserve s a v with
    | ok t =>
      intro b
      have hs := reserve_shift hd
      have h1 := h b
      have h2 := hs.reserved b
      unfold owed at h1 ⊢
      simp only [owedProxies, owedMultis, annsOf, hs.same.proxies, hs.same.anns, hs.same.multis, put] at h1 ⊢
      by_cases hb : a = b
      · subst hb; simp only [if_true] at h2 ⊢; omega
      · simp only [if_neg hb, if_neg (Ne.symm hb)] at h2 ⊢; omega
    | error er => exact h
  | giveBack a v =>
    simp only [apply]
    split_ifs with hv
    · have hr : v ≤ (s.purse a).reserved := by rw [h]; unfold owed; omega
      intro b
      have hs := unreserve_shift s a v hr
      have h1 := h b
      have h2 := hs.reserved b
      unfold owed at h1 ⊢
      simp only [owedProxies, owedMultis, annsOf, hs.same.proxies, hs.same.anns, hs.same.multis, put] at h1 ⊢
      by_cases hb : a = b
      · subst hb; simp only [if_true] at h2 ⊢; omega
      · simp only [if_neg hb, if_neg (Ne.symm hb)] at h2 ⊢; omega
    · exact h
  | slash a v =>
    simp only [apply]
    split_ifs with hv
    · intro b
      have h1 := h b
      unfold owed at h1 ⊢
      simp only [owedProxies, owedMultis, annsOf, put] at h1 ⊢
      by_cases hb : b = a
      · subst hb; simp only [if_true]; omega
      · simp only [if_neg hb]; omega
    · exact h
  | moved a free frozen =>
    intro b
    have h1 := h b
    unfold owed at h1 ⊢
    simp only [apply, owedProxies, owedMultis, annsOf, put] at h1 ⊢
    by_cases hb : b = a
    · subst hb; simp only [if_true]; omega
    · simp only [if_neg hb]; omega

theorem run_inv {cfg sp} (hsp : Spawned cfg sp) (hist : List Event) : ∀ s, Inv sp s → (∀ ev ∈ hist, Leaves sp ev) →
    Inv sp (run cfg s hist) := by
  induction hist with
  | nil => intro s h _; exact h
  | cons ev hist ih =>
    intro s h hl
    exact ih _ (apply_inv hsp h ev (hl ev (by simp))) (fun x hx => hl x (by simp [hx]))

theorem init_inv (sp : AccountId → Option AccountId) : Inv sp .init := by
  intro a
  rfl

/-- How a call of `who` moves tokens between the free and the reserved balance. -/
structure Move (who : AccountId) (s t : State) : Prop where
  total : ∀ b, (t.purse b).free + (t.purse b).reserved = (s.purse b).free + (s.purse b).reserved
  frozen : ∀ b, (t.purse b).frozen = (s.purse b).frozen
  others : ∀ b, b ≠ who → (t.purse b).reserved ≤ (s.purse b).reserved
  room : (s.purse who).reserved < (t.purse who).reserved →
    (t.purse who).frozen ≤ (t.purse who).free ∧ existential ≤ (t.purse who).free

theorem Move.of_purse {who s t} (h : t.purse = s.purse) : Move who s t :=
  ⟨fun b => by rw [h], fun b => by rw [h], fun b _ => by rw [h], fun hr => absurd hr (by rw [h]; omega)⟩

theorem reserve_move {s t : State} {a : AccountId} {v : Balance} (h : reserve s a v = .ok t) : Move a s t := by
  have hs := reserve_shift h
  refine ⟨hs.total, hs.frozen, fun b hb => ?_, fun hr => ?_⟩
  · have := hs.reserved b
    rw [if_neg (Ne.symm hb), if_neg (Ne.symm hb)] at this
    omega
  · unfold reserve at h
    simp only at h
    split_ifs at h with h0 h1
    · cases h; omega
    · cases h
      simp only [put, if_true]
      exact h1.2

theorem unreserve_move (who : AccountId) (s : State) (a : AccountId) (v : Balance) : Move who s (unreserve s a v) := by
  have hle : ∀ b, ((unreserve s a v).purse b).reserved ≤ (s.purse b).reserved := by
    intro b
    unfold unreserve
    by_cases hb : b = a
    · subst hb; simp only [put, if_true]; omega
    · simp only [put, if_neg hb]; omega
  refine ⟨fun b => ?_, fun b => ?_, fun b _ => hle b, fun hr => absurd (hle who) (by omega)⟩
  all_goals
    unfold unreserve
    by_cases hb : b = a
    · subst hb; simp only [put, if_true]; try omega
    · simp only [put, if_neg hb]

theorem rejig_move {s t : State} {a : AccountId} {old new : Balance} (h : rejig s a old new = .ok t) : Move a s t := by
  unfold rejig at h
  split_ifs at h
  · exact reserve_move h
  · cases h; exact unreserve_move a s a _
  · cases h; exact .of_purse rfl

/-- An account other than the signer is only given back to. -/
theorem rejig_down {s t : State} {a who : AccountId} {old new : Balance} (hn : new ≤ old) (h : rejig s a old new = .ok t) :
    Move who s t := by
  unfold rejig at h
  split_ifs at h with h1
  · omega
  · cases h; exact unreserve_move who s a _
  · cases h; exact .of_purse rfl

theorem Move.purse {who s t u} (h : Move who s t) (hu : u.purse = t.purse) : Move who s u :=
  ⟨fun b => by rw [hu]; exact h.total b, fun b => by rw [hu]; exact h.frozen b, fun b hb => by rw [hu]; exact h.others b hb,
    fun hr => by rw [hu] at hr ⊢; exact h.room hr⟩

theorem length_insertDef (d : Def) (l : List Def) : (insertDef d l).length = l.length + 1 := by
  induction l with
  | nil => rfl
  | cons x xs ih =>
    rw [insertDef]
    split
    · rfl
    · simp [ih]

/-- The deposits recorded. -/
structure Amounts (s : State) : Prop where
  proxies : ∀ p x, s.proxies.get p = some x → 1 ≤ x.1.length ∧ x.1.length ≤ 32 ∧ x.2 = proxyBase + proxyFactor * x.1.length
  anns : ∀ p x, s.anns.get p = some x → 1 ≤ x.1.length ∧ x.1.length ≤ 32 ∧ x.2 = annBase + annFactor * x.1.length
  multis : ∀ k m, s.multis.get k = some m → ∃ n, 2 ≤ n ∧ m.deposit = multiBase + multiFactor * n

theorem Amounts.purse {s t : State} (h : Amounts s) (h1 : t.proxies = s.proxies) (h2 : t.anns = s.anns)
    (h3 : t.multis = s.multis) : Amounts t :=
  ⟨by rw [h1]; exact h.proxies, by rw [h2]; exact h.anns, by rw [h3]; exact h.multis⟩

theorem rejig_same {s t : State} {a : AccountId} {old new : Balance} (h : rejig s a old new = .ok t) : Same s t := by
  unfold rejig at h
  split_ifs at h
  · exact (reserve_shift h).same
  · cases h; exact ⟨rfl, rfl, rfl, rfl⟩
  · cases h; exact ⟨rfl, rfl, rfl, rfl⟩

theorem annDeposit_mono {m n : Nat} (h : m ≤ n) : annDeposit m ≤ annDeposit n := by
  unfold annDeposit annBase annFactor price
  split_ifs <;> omega

theorem editAnns_move {who s t d keep e} (ha : Amounts s) (he : editAnns s d keep e = .ok t) : Move who s t ∧ Amounts t := by
  simp only [editAnns, bind_eq_ok_iff, ensure_eq_ok_iff, okOr_eq_ok_iff, pure_eq_ok_iff] at he
  obtain ⟨x, hx, _, hl, s1, hr, rfl⟩ := he
  have hx' := ha.anns _ _ hx
  have hsame := rejig_same hr
  refine ⟨(rejig_down ?_ hr).purse rfl, ?_, ?_, ?_⟩
  · rw [hx'.2.2]
    have := annDeposit_mono (Nat.le_of_lt hl)
    rw [show annDeposit x.1.length = annBase + annFactor * x.1.length by rw [annDeposit, if_neg (by omega)]] at this
    exact this
  · rw [hsame.proxies]; exact ha.proxies
  · intro p y hy
    simp only [hsame.anns] at hy
    by_cases hn : x.1.filter keep = []
    · rw [if_pos hn, SMap.get_erase] at hy
      split_ifs at hy
      exact ha.anns _ _ hy
    · rw [if_neg hn, SMap.get_insert] at hy
      split_ifs at hy
      · cases hy
        have h0 : (x.1.filter keep).length ≠ 0 := by simpa using hn
        exact ⟨by simp only; omega, by simp only; omega, by simp only [annDeposit, if_neg h0]⟩
      · exact ha.anns _ _ hy
  · rw [hsame.multis]; exact ha.multis

theorem proxies_insert {s t : State} {p : AccountId} {x : List Def × Balance} (ha : Amounts s) (hs : Same s t)
    (hx : 1 ≤ x.1.length ∧ x.1.length ≤ 32 ∧ x.2 = proxyBase + proxyFactor * x.1.length) :
    Amounts { t with proxies := t.proxies.insert p x } := by
  refine ⟨fun q y hy => ?_, ?_, ?_⟩
  · simp only [hs.proxies, SMap.get_insert] at hy
    split_ifs at hy
    · cases hy; exact hx
    · exact ha.proxies _ _ hy
  · simp only [hs.anns]; exact ha.anns
  · simp only [hs.multis]; exact ha.multis

theorem proxies_erase {s t : State} {p : AccountId} (ha : Amounts s) (hs : Same s t) :
    Amounts { t with proxies := t.proxies.erase p } := by
  refine ⟨fun q y hy => ?_, ?_, ?_⟩
  · simp only [hs.proxies, SMap.get_erase] at hy
    split_ifs at hy
    exact ha.proxies _ _ hy
  · simp only [hs.anns]; exact ha.anns
  · simp only [hs.multis]; exact ha.multis

theorem multis_insert {s t : State} {k : AccountId × Nat} {m : Opened} (ha : Amounts s) (hs : Same s t)
    (hm : ∃ n, 2 ≤ n ∧ m.deposit = multiBase + multiFactor * n) : Amounts { t with multis := t.multis.insert k m } := by
  refine ⟨?_, ?_, fun q y hy => ?_⟩
  · simp only [hs.proxies]; exact ha.proxies
  · simp only [hs.anns]; exact ha.anns
  · simp only [hs.multis, SMap.get_insert] at hy
    split_ifs at hy
    · cases hy; exact hm
    · exact ha.multis _ _ hy

theorem multis_erase {s t : State} {k : AccountId × Nat} (ha : Amounts s) (hs : Same s t) :
    Amounts { t with multis := t.multis.erase k } := by
  refine ⟨?_, ?_, fun q y hy => ?_⟩
  · simp only [hs.proxies]; exact ha.proxies
  · simp only [hs.anns]; exact ha.anns
  · simp only [hs.multis, SMap.get_erase] at hy
    split_ifs at hy
    exact ha.multis _ _ hy

theorem dispatch_move {cfg b e s t who c} (ha : Amounts s) (hd : dispatch cfg b e s who c = .ok t) :
    Move who s t ∧ Amounts t := by
  cases c with
  | addProxy delegate ty delay =>
    simp only [dispatch, addProxy, bind_eq_ok_iff, ensure_eq_ok_iff, pure_eq_ok_iff] at hd
    obtain ⟨_, _, _, _, _, hl, s1, hr, rfl⟩ := hd
    refine ⟨(rejig_move hr).purse rfl, proxies_insert ha (rejig_same hr) ?_⟩
    have hlen := length_insertDef ⟨delegate, ty, delay⟩ (defsOf s who).1
    simp only [maxProxies] at hl
    have h0 : (insertDef ⟨delegate, ty, delay⟩ (defsOf s who).1).length ≠ 0 := by omega
    exact ⟨by simp only; omega, by simp only; omega, by simp only [proxyDeposit, if_neg h0]⟩
  | removeProxy delegate ty delay =>
    simp only [dispatch, removeProxy, bind_eq_ok_iff, ensure_eq_ok_iff, okOr_eq_ok_iff, pure_eq_ok_iff] at hd
    obtain ⟨x, hx, _, _, s1, hr, rfl⟩ := hd
    refine ⟨(rejig_move hr).purse rfl, ?_⟩
    by_cases hn : x.1.erase ⟨delegate, ty, delay⟩ = []
    · simp only [if_pos hn]
      exact proxies_erase ha (rejig_same hr)
    · simp only [if_neg hn]
      refine proxies_insert ha (rejig_same hr) ?_
      have h0 : (x.1.erase ⟨delegate, ty, delay⟩).length ≠ 0 := by simpa using hn
      have h1 := (List.erase_sublist (a := (⟨delegate, ty, delay⟩ : Def)) (l := x.1)).length_le
      have h2 := ha.proxies _ _ hx
      exact ⟨by simp only; omega, by simp only; omega, by simp only [proxyDeposit, if_neg h0]⟩
  | removeProxies =>
    simp only [dispatch, Except.ok.injEq] at hd
    subst hd
    exact ⟨(unreserve_move who s who _).purse rfl, proxies_erase (t := unreserve s who (defsOf s who).2) ha ⟨rfl, rfl, rfl, rfl⟩⟩
  | createPure ty delay index =>
    simp only [dispatch, bind_eq_ok_iff, ensure_eq_ok_iff, pure_eq_ok_iff] at hd
    obtain ⟨_, hn, s1, hr, rfl⟩ := hd
    exact ⟨(reserve_move hr).purse rfl, proxies_insert ha (reserve_shift hr).same ⟨by simp, by simp, by simp⟩⟩
  | killPure spawner ty index height ext =>
    simp only [dispatch, bind_eq_ok_iff, ensure_eq_ok_iff, pure_eq_ok_iff] at hd
    obtain ⟨_, hw, rfl⟩ := hd
    exact ⟨(unreserve_move who s spawner _).purse rfl,
      proxies_erase (t := unreserve s spawner (defsOf s who).2) ha ⟨rfl, rfl, rfl, rfl⟩⟩
  | announce real hash =>
    simp only [dispatch, bind_eq_ok_iff, ensure_eq_ok_iff, okOr_eq_ok_iff, pure_eq_ok_iff] at hd
    obtain ⟨_, _, _, hl, s1, hr, rfl⟩ := hd
    have hs := rejig_same hr
    simp only [maxProxies] at hl
    refine ⟨(rejig_move hr).purse rfl, ?_, fun q y hy => ?_, ?_⟩
    · simp only [hs.proxies]; exact ha.proxies
    · simp only [hs.anns, SMap.get_insert] at hy
      split_ifs at hy
      · cases hy
        simp only [List.length_append, List.length_cons, List.length_nil]
        exact ⟨by omega, by omega, by simp only [annDeposit, if_neg (show ¬ (annsOf s who).1.length + (0 + 1) = 0 by omega)]⟩
      · exact ha.anns _ _ hy
    · simp only [hs.multis]; exact ha.multis
  | removeAnnouncement real hash => exact editAnns_move ha hd
  | rejectAnnouncement delegate hash => exact editAnns_move ha hd
  | proxyAnnounced delegate real force hash =>
    simp only [dispatch, bind_eq_ok_iff] at hd
    obtain ⟨_, _, hd⟩ := hd
    exact editAnns_move ha hd
  | multi threshold others timepoint hash execute =>
    simp only [dispatch, operate, bind_eq_ok_iff, ensure_eq_ok_iff, okOr_eq_ok_iff] at hd
    obtain ⟨_, ht, all, _, hd⟩ := hd
    cases hm : s.multis.get (cfg.multi all threshold, hash) with
    | none =>
      rw [hm] at hd
      simp only [bind_eq_ok_iff, ensure_eq_ok_iff, pure_eq_ok_iff] at hd
      obtain ⟨_, _, s1, hr, rfl⟩ := hd
      exact ⟨(reserve_move hr).purse rfl, multis_insert ha (reserve_shift hr).same ⟨threshold, ht, rfl⟩⟩
    | some m =>
      rw [hm] at hd
      simp only [bind_eq_ok_iff, ensure_eq_ok_iff] at hd
      obtain ⟨_, _, hd⟩ := hd
      generalize (decide (who ∉ m.approvals ∧ m.approvals.length < threshold)) = new at hd
      by_cases hx : execute = true ∧ threshold ≤ m.approvals.length + (if new = true then 1 else 0)
      · rw [if_pos hx, pure_eq_ok_iff] at hd
        subst hd
        exact ⟨(unreserve_move who s m.depositor m.deposit).purse rfl,
          multis_erase (t := unreserve s m.depositor m.deposit) ha ⟨rfl, rfl, rfl, rfl⟩⟩
      · rw [if_neg hx] at hd
        cases new with
        | false => cases hd
        | true =>
          rw [if_pos rfl, pure_eq_ok_iff] at hd
          subst hd
          exact ⟨.of_purse rfl, multis_insert ha ⟨rfl, rfl, rfl, rfl⟩ (show ∃ n, 2 ≤ n ∧ m.deposit = _ from ha.multis _ m hm)⟩
  | cancelMulti threshold others timepoint hash =>
    simp only [dispatch, bind_eq_ok_iff, ensure_eq_ok_iff, okOr_eq_ok_iff, pure_eq_ok_iff] at hd
    obtain ⟨_, _, all, _, m, hm, _, _, _, _, rfl⟩ := hd
    exact ⟨(unreserve_move who s m.depositor m.deposit).purse rfl,
      multis_erase (t := unreserve s m.depositor m.deposit) ha ⟨rfl, rfl, rfl, rfl⟩⟩

theorem run_amounts {cfg} (hist : List Event) : ∀ s, Amounts s → Amounts (run cfg s hist) := by
  induction hist with
  | nil => intro s h; exact h
  | cons ev hist ih =>
    intro s h
    refine ih _ ?_
    cases ev with
    | call b e who c =>
      simp only [apply]
      cases hd : dispatch cfg b e s who c with
      | ok t => exact (dispatch_move h hd).2
      | error er => exact h
    | take a v =>
      simp only [apply]
      cases hd : reserve s a v with
      | ok t => exact h.purse (reserve_shift hd).same.proxies (reserve_shift hd).same.anns (reserve_shift hd).same.multis
      | error er => exact h
    | giveBack a v => simp only [apply]; split_ifs; exacts [h.purse rfl rfl rfl, h]
    | slash a v => simp only [apply]; split_ifs; exacts [h.purse rfl rfl rfl, h]
    | moved a free frozen => exact h.purse rfl rfl rfl

theorem init_amounts : Amounts .init := ⟨fun _ _ h => (by cases h), fun _ _ h => (by cases h), fun _ _ h => (by cases h)⟩

/-! ## Theorems -/

/-- C162: what is reserved of an account is what it has deposited for things that are still there. Missing: pure accounts
that change their registrations themselves (`C162_full_false`). -/
theorem C162_reserved_partial (cfg : Config) (sp : AccountId → Option AccountId) (hsp : Spawned cfg sp) (hist : List Event)
    (hl : ∀ ev ∈ hist, Leaves sp ev) (a : AccountId) :
    ((run cfg .init hist).purse a).reserved = owed sp (run cfg .init hist) a :=
  run_inv hsp hist _ (init_inv sp) hl a

/-- C162: an account that has removed its proxies and announcements, given up its pure accounts and closed its multisig
operations has nothing reserved, other than elsewhere. Missing as before. -/
theorem C162_nothing_left_partial (cfg : Config) (sp : AccountId → Option AccountId) (hsp : Spawned cfg sp)
    (hist : List Event) (hl : ∀ ev ∈ hist, Leaves sp ev) (a : AccountId)
    (hp : ∀ p, (p = a ∨ sp p = some a) → (run cfg .init hist).proxies.get p = none)
    (ha : (run cfg .init hist).anns.get a = none)
    (hm : ∀ k m, (run cfg .init hist).multis.get k = some m → m.depositor ≠ a) :
    ((run cfg .init hist).purse a).reserved = (run cfg .init hist).elsewhere a := by
  rw [C162_reserved_partial cfg sp hsp hist hl a]
  generalize run cfg .init hist = s at hp ha hm
  have h1 : owedProxies sp s a = 0 := by
    unfold owedProxies SMap.sumV
    rw [List.sum_eq_zero_iff_forall_eq_nat]
    intro v hv
    obtain ⟨⟨p, x⟩, he, rfl⟩ := List.mem_map.1 hv
    have hg := (SMap.mem_entries_iff s.proxies p x).1 he
    simp only
    rw [if_neg]
    intro hpay
    unfold payer at hpay
    cases hs : sp p with
    | none => rw [hs] at hpay; have := hp p (.inl hpay); rw [hg] at this; cases this
    | some q =>
      rw [hs] at hpay
      have hq : q = a := hpay
      have := hp p (.inr (by rw [hs, hq])); rw [hg] at this; cases this
  have h2 : owedMultis s a = 0 := by
    unfold owedMultis SMap.sumV
    rw [List.sum_eq_zero_iff_forall_eq_nat]
    intro v hv
    obtain ⟨⟨k, m⟩, he, rfl⟩ := List.mem_map.1 hv
    simp only
    rw [if_neg (hm k m ((SMap.mem_entries_iff s.multis k m).1 he))]
  unfold owed
  rw [h1, h2]
  simp [annsOf, ha]

/-- C162: whatever a call removes, its deposit is free again, for whoever made it and in full; whatever it adds is taken from
the free tokens. Missing as before. -/
theorem C162_back_partial (cfg : Config) (sp : AccountId → Option AccountId) (hsp : Spawned cfg sp) (hist : List Event)
    (hl : ∀ ev ∈ hist, Leaves sp ev) (b e : Nat) (who : AccountId) (c : Call) (hc : Leaves sp (.call b e who c))
    (a : AccountId) :
    let s := run cfg .init hist
    let t := apply cfg s (.call b e who c)
    (t.purse a).free + owed sp t a = (s.purse a).free + owed sp s a := by
  intro s t
  have h1 : Inv sp s := run_inv hsp hist _ (init_inv sp) hl
  have h2 : Inv sp t := apply_inv hsp h1 _ hc
  rw [← h1 a, ← h2 a]
  show ((apply cfg s (.call b e who c)).purse a).free + _ = _
  simp only [t, apply]
  cases hd : dispatch cfg b e s who c with
  | ok u => exact (dispatch_move (run_amounts hist _ init_amounts) hd).1.total a
  | error er => rfl

/-- C162: in any history, no call changes how many tokens an account has, or takes a deposit from an account other than the
one that calls; and a deposit is not taken from frozen tokens or the existential deposit. -/
theorem C162_own (cfg : Config) (hist : List Event) (b e : Nat) (who : AccountId) (c : Call) (a : AccountId) :
    let s := run cfg .init hist
    let t := apply cfg s (.call b e who c)
    (t.purse a).free + (t.purse a).reserved = (s.purse a).free + (s.purse a).reserved ∧
    ((s.purse a).reserved < (t.purse a).reserved →
      a = who ∧ (t.purse a).frozen ≤ (t.purse a).free ∧ 10 ^ 6 ≤ (t.purse a).free) := by
  intro s t
  simp only [t, apply]
  cases hd : dispatch cfg b e s who c with
  | ok u =>
    have hm := (dispatch_move (run_amounts hist _ init_amounts) hd).1
    refine ⟨hm.total a, fun hr => ?_⟩
    by_cases ha : a = who
    · subst ha
      exact ⟨rfl, hm.room hr⟩
    · exact absurd hr (Nat.not_lt.2 (hm.others a ha))
  | error er => exact ⟨rfl, fun hr => absurd hr (by simp)⟩

/-- C162: in any history, the deposit for one to 32 proxies is 20.008 tokens and 0.033 for each, for announcements 20.008
and 0.066 for each, for a multisig operation 20.088 and 0.032 for each approval needed. -/
theorem C162_amounts (cfg : Config) (hist : List Event) :
    (∀ p l d, (run cfg .init hist).proxies.get p = some (l, d) →
      1 ≤ l.length ∧ l.length ≤ 32 ∧ d = 2000800000 + 3300000 * l.length) ∧
    (∀ p l d, (run cfg .init hist).anns.get p = some (l, d) →
      1 ≤ l.length ∧ l.length ≤ 32 ∧ d = 2000800000 + 6600000 * l.length) ∧
    (∀ k m, (run cfg .init hist).multis.get k = some m → ∃ n, 2 ≤ n ∧ m.deposit = 2008800000 + 3200000 * n) := by
  have h := run_amounts (cfg := cfg) hist _ init_amounts
  exact ⟨fun p l d hp => h.proxies p _ hp, fun p l d hp => h.anns p _ hp, fun k m hk => h.multis k m hk⟩

/-! ## What is false, and examples -/

/-- Users have small numbers; the pure account of `a` is `2 * a + 1001`, multisig accounts are even. -/
def exCfg : Config where
  pure := fun a _ _ _ _ => 2 * a + 1001
  multi := fun l n => 2 * (l.sum + n) + 2000

/-- Who created a pure account. -/
def exSp (p : AccountId) : Option AccountId := if p % 2 = 1 ∧ 1000 < p then some ((p - 1001) / 2) else none

theorem exSpawned : Spawned exCfg exSp := by
  intro a t i b e
  have h1 : (2 * a + 1001) % 2 = 1 ∧ 1000 < 2 * a + 1001 := by omega
  have h2 : (2 * a + 1001 - 1001) / 2 = a := by omega
  show (if (2 * a + 1001) % 2 = 1 ∧ 1000 < 2 * a + 1001 then some ((2 * a + 1001 - 1001) / 2) else none) = some a
  exact (if_pos h1).trans (congrArg some h2)

/-- Account 1 creates a pure account, which removes all proxies. -/
def exLost : List Event :=
  [.moved 1 (10 ^ 10) 0, .call 1 2 1 (.createPure .any 0 0), .call 2 2 1003 .removeProxies]

/-- C162 in full is false: the deposit for the pure account stays reserved although nothing is left. -/
theorem C162_full_false : ¬ C162_full := by
  intro h
  have h1 := h exCfg exSp exSpawned exLost 1
  have h2 : ((run exCfg .init exLost).purse 1).reserved = 2004100000 := by decide +kernel
  have h3 : owed exSp (run exCfg .init exLost) 1 = 0 := by decide +kernel
  rw [h2, h3] at h1
  cases h1

/-- Account 1 has a proxy of its own and a pure account, which adds a proxy and is then given up. -/
def exTooMuch : List Event :=
  [.moved 1 (10 ^ 10) 0, .moved 1003 (10 ^ 9) 0, .call 1 2 1 (.addProxy 7 .any 0), .call 1 3 1 (.createPure .any 0 0),
   .call 2 2 1003 (.addProxy 8 .any 0), .call 3 2 1003 (.killPure 1 .any 0 1 3)]

/-- C162: account 1 is given back more than it deposited for the pure account, out of the deposit for its proxy; what the
pure account deposited stays reserved for ever. -/
theorem C162_too_much :
    ((run exCfg .init exTooMuch).purse 1).reserved = 2000800000 ∧ owed exSp (run exCfg .init exTooMuch) 1 = 2004100000 ∧
    ((run exCfg .init exTooMuch).purse 1003).reserved = 3300000 ∧ owed exSp (run exCfg .init exTooMuch) 1003 = 0 := by
  decide +kernel

/-- Proxies, an announcement that is rejected, a pure account that is given up and a multisig operation. -/
def exHist : List Event :=
  [.moved 1 (10 ^ 11) 0, .moved 2 (10 ^ 11) (10 ^ 10), .take 1 500, .call 1 2 1 (.addProxy 2 .any 5),
   .call 1 3 1 (.createPure .any 0 0), .call 2 2 2 (.announce 1 77), .call 2 3 2 (.multi 2 [1, 3] none 55 false)]

/-- The hypotheses are met, something is reserved, and after its end nothing but what another pallet has. -/
example : (∀ ev ∈ exHist, Leaves exSp ev) ∧
    ((run exCfg .init exHist).purse 1).reserved = 4008200500 ∧ ((run exCfg .init exHist).purse 2).reserved = 4022600000 ∧
    let s := run exCfg .init (exHist ++ [.call 3 1 1 (.rejectAnnouncement 2 77), .call 3 2 1 (.removeProxy 2 .any 5),
      .call 3 3 1003 (.killPure 1 .any 0 1 3), .call 4 2 3 (.multi 2 [1, 2] (some (2, 3)) 55 true)])
    (s.purse 1).reserved = 500 ∧ (s.purse 2).reserved = 0 ∧ (s.purse 1).free = 10 ^ 11 - 500 ∧
    (s.purse 2).free = 10 ^ 11 := by
  refine ⟨?_, by decide +kernel⟩
  intro ev hev
  simp only [exHist, List.mem_cons, List.not_mem_nil, or_false] at hev
  rcases hev with rfl | rfl | rfl | rfl | rfl | rfl | rfl <;> trivial

end Verif.Deposits
