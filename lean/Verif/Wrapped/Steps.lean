import Verif.Wrapped.Lemmas
/-!
# What single calls change
-/

namespace Verif.Wrapped
open Verif.Runtime (ProxyType BatchKind Fn)

theorem step_log {cfg : Config} {env : TimeRelease.Env} {who : AccountId} {w w' : World} {c : Call}
    (h : step cfg env who w c = some w') : w'.log = w.log ∧ w'.extrinsic = w.extrinsic := by
  cases c <;> simp only [step, addProxy, removeProxy, reduceCtorEq, Option.map_eq_some_iff, Option.bind_eq_bind,
    Option.bind_eq_some_iff, Option.some.injEq] at h
  case leaf | release | transfer | transferAll => obtain ⟨_, _, rfl⟩ := h; simp
  case other => subst h; simp
  case addProxy => split at h <;> simp at h; subst h; simp
  case removeProxy => split at h <;> simp at h; subst h; simp
  case removeProxies => subst h; simp
  case createPure => split at h <;> simp at h; subst h; simp
  case killPure => split at h <;> simp at h; subst h; simp
  case announce => split at h <;> simp at h; subst h; simp
  case removeAnnouncement => rw [(editAnns_some h).2]; simp
  case rejectAnnouncement => rw [(editAnns_some h).2]; simp
  case approveMulti =>
    obtain ⟨all, _, h⟩ := h
    split at h
    · simp at h
    · split at h
      · simp only [Option.some.injEq] at h; subst h; simp
      · split at h <;> simp at h; subst h; simp
  case cancelMulti =>
    obtain ⟨all, _, m, _, h⟩ := h
    split at h <;> simp at h; subst h; simp

/-- The step of the chain with its tokens that an executed call is, if it is one. -/
def deed (env : TimeRelease.Env) : AccountId × Call → Option Tokens.Step
  | (a, .leaf c) => some (.call (.signed a) c)
  | (a, .release c) => some (.release env (some a) c)
  | (a, .transfer keep dest amount) => some (.transfer env keep a dest amount)
  | (a, .transferAll keep dest) => some (.transferAll env keep a dest)
  | _ => none

theorem step_tokens {cfg : Config} {env : TimeRelease.Env} {who : AccountId} {w w' : World} {c : Call}
    (h : step cfg env who w c = some w') :
    w'.tokens = Tokens.run cfg.wallet.tokens w.tokens (deed env (who, c)).toList := by
  cases c <;> simp only [step, addProxy, removeProxy, reduceCtorEq, Option.map_eq_some_iff, Option.bind_eq_bind,
    Option.bind_eq_some_iff, Option.some.injEq] at h
  case leaf c =>
    obtain ⟨s, hs, rfl⟩ := h
    simp [deed, Tokens.run, Tokens.apply, Tokens.syncSigner, Chain.Origin.signer, Chain.apply, hs]
  case release c =>
    obtain ⟨p, hp, rfl⟩ := h
    have hp' : TimeRelease.dispatch cfg.wallet.tokens.release env w.tokens.ledger (some who) c = .ok p := by
      revert hp
      generalize TimeRelease.dispatch cfg.wallet.tokens.release env w.tokens.ledger (some who) c = q
      cases q <;> simp [Except.toOption]
    simp [deed, Tokens.run, Tokens.apply, TimeRelease.apply, hp']
  case transfer => obtain ⟨s, hs, rfl⟩ := h; simp [deed, Tokens.run, Tokens.apply, hs]
  case transferAll => obtain ⟨s, hs, rfl⟩ := h; simp [deed, Tokens.run, Tokens.apply, hs]
  case other => subst h; rfl
  case addProxy => split at h <;> simp at h; subst h; rfl
  case removeProxy => split at h <;> simp at h; subst h; rfl
  case removeProxies => subst h; rfl
  case createPure => split at h <;> simp at h; subst h; rfl
  case killPure => split at h <;> simp at h; subst h; rfl
  case announce => split at h <;> simp at h; subst h; rfl
  case removeAnnouncement => rw [(editAnns_some h).2]; rfl
  case rejectAnnouncement => rw [(editAnns_some h).2]; rfl
  case approveMulti =>
    obtain ⟨all, _, h⟩ := h
    split at h
    · simp at h
    · split at h
      · simp only [Option.some.injEq] at h; subst h; rfl
      · split at h <;> simp at h; subst h; rfl
  case cancelMulti =>
    obtain ⟨all, _, m, _, h⟩ := h
    split at h <;> simp at h; subst h; rfl

/-- Calls that change the registrations of the caller. -/
def Call.registers : Call → Bool
  | .addProxy .. | .removeProxy .. | .removeProxies | .killPure .. => true
  | _ => false

theorem step_defs {cfg : Config} {env : TimeRelease.Env} {who : AccountId} {w w' : World} {c : Call}
    (h : step cfg env who w c = some w') (y : AccountId) (hy : w'.defs y ≠ w.defs y) :
    (y = who ∧ c.registers = true) ∨
    (∃ ty delay index, c = .createPure ty delay index ∧ y = cfg.pure who ty index w.chain.block w.extrinsic ∧
      w.defs y = [] ∧ w'.defs y = [⟨who, ty, delay⟩]) := by
  cases c <;> simp only [step, addProxy, removeProxy, reduceCtorEq, Option.map_eq_some_iff, Option.bind_eq_bind,
    Option.bind_eq_some_iff, Option.some.injEq] at h
  case leaf | release | transfer | transferAll => obtain ⟨s, hs, rfl⟩ := h; simp at hy
  case other => subst h; simp at hy
  case addProxy =>
    split at h <;> simp at h; subst h
    simp only [put] at hy
    split at hy
    · rename_i e; exact .inl ⟨e, rfl⟩
    · simp at hy
  case removeProxy =>
    split at h <;> simp at h; subst h
    simp only [put] at hy
    split at hy
    · rename_i e; exact .inl ⟨e, rfl⟩
    · simp at hy
  case removeProxies =>
    subst h
    simp only [put] at hy
    split at hy
    · rename_i e; exact .inl ⟨e, rfl⟩
    · simp at hy
  case createPure ty delay index =>
    split at h <;> simp at h; subst h
    rename_i he
    simp only [put] at hy
    split at hy
    · rename_i e
      refine .inr ⟨ty, delay, index, rfl, e, by rw [e]; exact he, ?_⟩
      simp [put, e]
    · simp at hy
  case killPure =>
    split at h <;> simp at h; subst h
    simp only [put] at hy
    split at hy
    · rename_i e; exact .inl ⟨e, rfl⟩
    · simp at hy
  case announce => split at h <;> simp at h; subst h; simp at hy
  case removeAnnouncement => rw [(editAnns_some h).2] at hy; simp at hy
  case rejectAnnouncement => rw [(editAnns_some h).2] at hy; simp at hy
  case approveMulti =>
    obtain ⟨all, _, h⟩ := h
    split at h
    · simp at h
    · split at h
      · simp only [Option.some.injEq] at h; subst h; simp at hy
      · split at h <;> simp at h; subst h; simp at hy
  case cancelMulti =>
    obtain ⟨all, _, m, _, h⟩ := h
    split at h <;> simp at h; subst h; simp at hy

theorem step_anns {cfg : Config} {env : TimeRelease.Env} {who : AccountId} {w w' : World} {c : Call}
    (h : step cfg env who w c = some w') (y : AccountId) (a : Ann) (ha : a ∈ w'.anns y) :
    a ∈ w.anns y ∨ (y = who ∧ a.height = w.chain.block ∧ c = .announce a.real a.hash ∧
      ∃ d ∈ w.defs a.real, d.delegate = who) := by
  cases c <;> simp only [step, addProxy, removeProxy, reduceCtorEq, Option.map_eq_some_iff, Option.bind_eq_bind,
    Option.bind_eq_some_iff, Option.some.injEq] at h
  case leaf | release | transfer | transferAll => obtain ⟨s, hs, rfl⟩ := h; exact .inl ha
  case other => subst h; exact .inl ha
  case addProxy => split at h <;> simp at h; subst h; exact .inl ha
  case removeProxy => split at h <;> simp at h; subst h; exact .inl ha
  case removeProxies => subst h; exact .inl ha
  case createPure => split at h <;> simp at h; subst h; exact .inl ha
  case killPure => split at h <;> simp at h; subst h; exact .inl ha
  case announce =>
    split at h <;> simp at h; subst h
    rename_i hg
    simp only [Bool.and_eq_true, List.any_eq_true, decide_eq_true_eq] at hg
    simp only [put] at ha
    split at ha
    · rename_i e
      rcases List.mem_append.1 ha with ha | ha
      · exact .inl (e ▸ ha)
      · rw [List.mem_singleton.1 ha]
        exact .inr ⟨e, rfl, rfl, hg.1⟩
    · exact .inl ha
  case removeAnnouncement => exact .inl (editAnns_mem h a ha)
  case rejectAnnouncement => exact .inl (editAnns_mem h a ha)
  case approveMulti =>
    obtain ⟨all, _, h⟩ := h
    split at h
    · simp at h
    · split at h
      · simp only [Option.some.injEq] at h; subst h; exact .inl ha
      · split at h <;> simp at h; subst h; exact .inl ha
  case cancelMulti =>
    obtain ⟨all, _, m, _, h⟩ := h
    split at h <;> simp at h; subst h; exact .inl ha

theorem put2 {α β γ : Type} [DecidableEq α] [DecidableEq β] (f : α → β → γ) (a x : α) (b y : β) (v : γ) :
    put f a (put (f a) b v) x y = if x = a ∧ y = b then v else f x y := by
  simp only [put]
  by_cases e : x = a
  · subst e
    by_cases e' : y = b <;> simp [put, e']
  · simp [e]

/-- How pending operations change: they are given up, or the caller is a member and approves. -/
def MultiStep (cfg : Config) (who : AccountId) (w w' : World) : Prop :=
  ∀ id hash m', w'.multis id hash = some m' → w.multis id hash = some m' ∨
    ∃ all threshold, who ∈ all ∧ id = cfg.multi all threshold ∧
      (m'.approvals = [who] ∨ ∃ m, w.multis id hash = some m ∧ who ∉ m.approvals ∧ m'.approvals = who :: m.approvals)

theorem members_mem {who : AccountId} {others all : List AccountId} (h : members who others = some all) : who ∈ all := by
  unfold members at h
  split at h
  · rw [← Option.some.inj h]; simp
  · simp at h

theorem operate_multis {cfg : Config} {who : AccountId} {w w' : World} {threshold : Nat} {others : List AccountId}
    {hash : Nat} {id : AccountId} {now : Bool} (h : operate cfg who w threshold others hash = some (id, w', now)) :
    MultiStep cfg who w w' := by
  obtain ⟨all, ha, _, e, hc⟩ := operate_some h
  intro id' hash' m' hm
  rcases hc with ⟨_, _, rfl⟩ | ⟨m, _, _, _, rfl⟩ | ⟨m, h1, _, h2, _, rfl⟩
  · simp only [put2] at hm
    split at hm
    · rename_i e'
      obtain ⟨rfl, rfl⟩ := e'
      exact .inr ⟨all, threshold, members_mem ha, e, .inl (by rw [← Option.some.inj hm])⟩
    · exact .inl hm
  · simp only [put2] at hm
    split at hm
    · simp at hm
    · exact .inl hm
  · simp only [put2] at hm
    split at hm
    · rename_i e'
      obtain ⟨rfl, rfl⟩ := e'
      exact .inr ⟨all, threshold, members_mem ha, e, .inr ⟨m, h1, h2, by rw [← Option.some.inj hm]⟩⟩
    · exact .inl hm

theorem step_multis {cfg : Config} {env : TimeRelease.Env} {who : AccountId} {w w' : World} {c : Call}
    (h : step cfg env who w c = some w') : MultiStep cfg who w w' := by
  intro id' hash' m' hm'
  cases c <;> simp only [step, addProxy, removeProxy, reduceCtorEq, Option.map_eq_some_iff, Option.bind_eq_bind,
    Option.bind_eq_some_iff, Option.some.injEq] at h
  case leaf | release | transfer | transferAll => obtain ⟨s, hs, rfl⟩ := h; exact .inl hm'
  case other => subst h; exact .inl hm'
  case addProxy => split at h <;> simp at h; subst h; exact .inl hm'
  case removeProxy => split at h <;> simp at h; subst h; exact .inl hm'
  case removeProxies => subst h; exact .inl hm'
  case createPure => split at h <;> simp at h; subst h; exact .inl hm'
  case killPure => split at h <;> simp at h; subst h; exact .inl hm'
  case announce => split at h <;> simp at h; subst h; exact .inl hm'
  case removeAnnouncement => rw [(editAnns_some h).2] at hm'; exact .inl hm'
  case rejectAnnouncement => rw [(editAnns_some h).2] at hm'; exact .inl hm'
  case approveMulti threshold others hash =>
    obtain ⟨all, ha, h⟩ := h
    split at h
    · simp at h
    · split at h
      · simp only [Option.some.injEq] at h
        subst h
        simp only [put2] at hm'
        split at hm'
        · rename_i e'
          obtain ⟨rfl, rfl⟩ := e'
          exact .inr ⟨all, threshold, members_mem ha, rfl, .inl (by rw [← Option.some.inj hm'])⟩
        · exact .inl hm'
      · rename_i m hm
        split at h
        · simp at h
        · rename_i hn
          simp only [not_or] at hn
          simp only [Option.some.injEq] at h
          subst h
          simp only [put2] at hm'
          split at hm'
          · rename_i e'
            obtain ⟨rfl, rfl⟩ := e'
            exact .inr ⟨all, threshold, members_mem ha, rfl, .inr ⟨m, hm, hn.1, by rw [← Option.some.inj hm']⟩⟩
          · exact .inl hm'
  case cancelMulti =>
    obtain ⟨all, _, m, _, h⟩ := h
    split at h
    · simp at h
    · simp only [Option.some.injEq] at h
      subst h
      simp only [put2] at hm'
      split at hm'
      · simp at hm'
      · exact .inl hm'

end Verif.Wrapped
