import Verif.Wrapped.Model
import Verif.Chain.Lemmas
/-!
# Lemmas about calls that act for other accounts
-/

namespace Verif.Wrapped
open Verif.Runtime (ProxyType BatchKind Fn)

theorem put_same {α β : Type} [DecidableEq α] (f : α → β) (a : α) (b : β) : put f a b a = b := by simp [put]

theorem put_other {α β : Type} [DecidableEq α] (f : α → β) {a x : α} (b : β) (h : x ≠ a) : put f a b x = f x := by
  simp [put, h]

theorem findProxy_some {w : World} {real delegate : AccountId} {force : Option ProxyType} {d : Def}
    (h : findProxy w real delegate force = some d) : d ∈ w.defs real ∧ d.delegate = delegate := by
  unfold findProxy at h
  refine ⟨List.mem_of_find?_eq_some h, ?_⟩
  have := List.find?_some h
  simp only [Bool.and_eq_true, decide_eq_true_eq] at this
  exact this.1

theorem editAnns_some {w w' : World} {k : AccountId} {keep : Ann → Bool} (h : editAnns w k keep = some w') :
    (∃ a ∈ w.anns k, keep a = false) ∧ w' = { w with anns := put w.anns k ((w.anns k).filter keep) } := by
  unfold editAnns at h
  split at h
  · simp at h
  · rename_i hn
    simp only [List.all_eq_true, not_forall, Bool.not_eq_true] at hn
    obtain ⟨a, ha, hk⟩ := hn
    exact ⟨⟨a, ha, hk⟩, (Option.some.inj h).symm⟩

theorem editAnns_mem {w w' : World} {k x : AccountId} {keep : Ann → Bool} (h : editAnns w k keep = some w') (a : Ann)
    (ha : a ∈ w'.anns x) : a ∈ w.anns x := by
  rw [(editAnns_some h).2] at ha
  simp only [put] at ha
  split at ha
  · rename_i e; subst e
    exact (List.mem_filter.1 ha).1
  · exact ha

theorem operate_some {cfg : Config} {who : AccountId} {w w' : World} {threshold : Nat} {others : List AccountId} {hash : Nat}
    {id : AccountId} {now : Bool} (h : operate cfg who w threshold others hash = some (id, w', now)) :
    ∃ all, members who others = some all ∧ 2 ≤ threshold ∧ id = cfg.multi all threshold ∧
      ((w.multis id hash = none ∧ now = false ∧
          w' = { w with multis := put w.multis id (put (w.multis id) hash (some ⟨who, [who]⟩)) }) ∨
       (∃ m, w.multis id hash = some m ∧ now = true ∧
          (threshold ≤ m.approvals.length ∨ (who ∉ m.approvals ∧ threshold ≤ m.approvals.length + 1)) ∧
          w' = { w with multis := put w.multis id (put (w.multis id) hash none) }) ∨
       (∃ m, w.multis id hash = some m ∧ now = false ∧ who ∉ m.approvals ∧ m.approvals.length + 1 < threshold ∧
          w' = { w with multis := put w.multis id (put (w.multis id) hash (some ⟨m.depositor, who :: m.approvals⟩)) })) := by
  unfold operate at h
  cases hm : members who others with
  | none => simp [hm] at h
  | some all =>
    simp only [hm, Option.bind_eq_bind, Option.bind_some] at h
    split at h
    · simp at h
    · rename_i ht
      refine ⟨all, rfl, by omega, ?_⟩
      split at h
      · rename_i hn
        simp only [Option.some.injEq, Prod.mk.injEq] at h
        obtain ⟨h1, h2, h3⟩ := h
        exact ⟨h1.symm, .inl ⟨h1 ▸ hn, h3.symm, h1 ▸ h2.symm⟩⟩
      · rename_i m hn
        by_cases hw : who ∉ m.approvals ∧ m.approvals.length < threshold
        · simp only [hw, not_false_eq_true, and_self, decide_true, if_true] at h
          split at h
          · rename_i hle
            simp only [Option.some.injEq, Prod.mk.injEq] at h
            obtain ⟨h1, h2, h3⟩ := h
            exact ⟨h1.symm, .inr (.inl ⟨m, h1 ▸ hn, h3.symm, .inr ⟨hw.1, hle⟩, h1 ▸ h2.symm⟩)⟩
          · rename_i hle
            simp only [Option.some.injEq, Prod.mk.injEq] at h
            obtain ⟨h1, h2, h3⟩ := h
            exact ⟨h1.symm, .inr (.inr ⟨m, h1 ▸ hn, h3.symm, hw.1, by omega, h1 ▸ h2.symm⟩)⟩
        · simp only [hw, decide_false, Bool.false_eq_true, if_false, Nat.add_zero] at h
          split at h
          · rename_i hle
            simp only [Option.some.injEq, Prod.mk.injEq] at h
            obtain ⟨h1, h2, h3⟩ := h
            exact ⟨h1.symm, .inr (.inl ⟨m, h1 ▸ hn, h3.symm, .inl hle, h1 ▸ h2.symm⟩)⟩
          · simp at h

/-- The part of a world that announcements and approvals do not touch. -/
theorem operate_frame {cfg : Config} {who : AccountId} {w w' : World} {threshold : Nat} {others : List AccountId}
    {hash : Nat} {id : AccountId} {now : Bool} (h : operate cfg who w threshold others hash = some (id, w', now)) :
    w'.tokens = w.tokens ∧ w'.defs = w.defs ∧ w'.anns = w.anns ∧ w'.log = w.log ∧ w'.extrinsic = w.extrinsic := by
  obtain ⟨_, _, _, _, ⟨_, _, rfl⟩ | ⟨_, _, _, _, rfl⟩ | ⟨_, _, _, _, _, rfl⟩⟩ := operate_some h <;> simp

/-- What has to be shown of an execution: an invariant `I` of the world, kept by every single call that a guard `G` on
filter, caller and call lets through. -/
structure Guarded (cfg : Config) (env : TimeRelease.Env) (I : World → Prop) (G : Filter → AccountId → Call → Prop) :
    Prop where
  step : ∀ {flt who c w w'}, G flt who c → flt c = true → I w → step cfg env who w c = some w' → I (w'.done who c)
  proxy : ∀ {flt who real force c w d}, G flt who (.proxy real force c) → flt (.proxy real force c) = true → I w →
    findProxy w real who force = some d → d.delay = 0 → G (fun c => base cfg c && d.filter c) real c
  announced : ∀ {w w' delegate real force c d}, I w → findProxy w real delegate force = some d →
    editAnns w delegate (fun a => decide (a.real ≠ real ∨ a.hash ≠ cfg.hash c ∨ w.chain.block - a.height < d.delay)) =
      some w' → I w' ∧ G (fun c => base cfg c && d.filter c) real c
  batch : ∀ {flt who k cs c}, G flt who (.batch k cs) → c ∈ cs → G (batchFilter k flt) who c
  derive : ∀ {flt who i c}, G flt who (.asDerivative i c) → G flt (cfg.derive who i) c
  pay : ∀ {flt who c}, G flt who (.payWithCapacity c) → G flt who c
  payAll : ∀ {flt who cs c}, G flt who (.payWithCapacityBatchAll cs) → c ∈ cs → G (batchFilter .batchAll flt) who c
  multi1 : ∀ {flt who others c all}, G flt who (.multiThreshold1 others c) → members who others = some all →
    G (base cfg) (cfg.multi all 1) c
  multi : ∀ {flt who threshold others c w w' id now}, G flt who (.multi threshold others c) → I w →
    operate cfg who w threshold others (cfg.hash c) = some (id, w', now) → I w' ∧ (now = true → G (base cfg) id c)

mutual
theorem Guarded.exec {cfg : Config} {env : TimeRelease.Env} {I : World → Prop} {G : Filter → AccountId → Call → Prop}
    (hg : Guarded cfg env I G) (flt : Filter) (who : AccountId) (c : Call) (w w' : World) (hc : G flt who c) (hi : I w)
    (h : exec cfg env flt who c w = some w') : I w' := by
  rw [exec.eq_def] at h
  split at h
  · rename_i hf
    split at h
    · rename_i real force c
      simp only [Option.bind_eq_bind, Option.bind_eq_some_iff] at h
      obtain ⟨d, hd, h⟩ := h
      split at h
      · rename_i h0
        cases hx : Wrapped.exec cfg env (fun c => base cfg c && d.filter c) real c w with
        | none => simp only [hx, Option.getD_none, Option.some.injEq] at h; exact h ▸ hi
        | some w1 =>
          simp only [hx, Option.getD_some, Option.some.injEq] at h
          exact h ▸ hg.exec _ real c w w1 (hg.proxy hc hf hi hd h0) hi hx
      · simp at h
    · rename_i delegate real force c
      simp only [Option.bind_eq_bind, Option.bind_eq_some_iff] at h
      obtain ⟨d, hd, w1, he, h⟩ := h
      obtain ⟨i1, g1⟩ := hg.announced hi hd he
      cases hx : Wrapped.exec cfg env (fun c => base cfg c && d.filter c) real c w1 with
      | none => simp only [hx, Option.getD_none, Option.some.injEq] at h; exact h ▸ i1
      | some w2 =>
        simp only [hx, Option.getD_some, Option.some.injEq] at h
        exact h ▸ hg.exec _ real c w1 w2 g1 i1 hx
    · exact hg.execL _ _ who _ w w' (fun c hm => hg.batch hc hm) hi h
    · exact hg.exec _ _ _ w w' (hg.derive hc) hi h
    · exact hg.exec _ _ _ w w' (hg.pay hc) hi h
    · split at h
      · exact hg.execL _ _ who _ w w' (fun c hm => hg.payAll hc hm) hi h
      · simp at h
    · simp only [Option.bind_eq_bind, Option.bind_eq_some_iff] at h
      obtain ⟨all, ha, h⟩ := h
      exact hg.exec _ _ _ w w' (hg.multi1 hc ha) hi h
    · rename_i threshold others c
      simp only [Option.bind_eq_bind, Option.bind_eq_some_iff] at h
      obtain ⟨⟨id, w1, now⟩, ho, h⟩ := h
      obtain ⟨i1, g1⟩ := hg.multi hc hi ho
      simp only at h
      split at h
      · rename_i hn
        cases hx : Wrapped.exec cfg env (base cfg) id c w1 with
        | none => simp only [hx, Option.getD_none, Option.some.injEq] at h; exact h ▸ i1
        | some w2 =>
          simp only [hx, Option.getD_some, Option.some.injEq] at h
          exact h ▸ hg.exec _ id c w1 w2 (g1 hn) i1 hx
      · exact (Option.some.inj h) ▸ i1
    · simp only [Option.map_eq_some_iff] at h
      obtain ⟨w1, h1, rfl⟩ := h
      exact hg.step hc hf hi h1
  · simp at h
theorem Guarded.execL {cfg : Config} {env : TimeRelease.Env} {I : World → Prop} {G : Filter → AccountId → Call → Prop}
    (hg : Guarded cfg env I G) (k : BatchKind) (flt : Filter) (who : AccountId) (calls : List Call) (w w' : World)
    (hc : ∀ c ∈ calls, G flt who c) (hi : I w) (h : execL cfg env k flt who calls w = some w') : I w' := by
  match calls with
  | [] =>
    simp only [Wrapped.execL, Option.some.injEq] at h
    exact h ▸ hi
  | c :: cs =>
    rw [execL.eq_def] at h
    simp only at h
    have hcs : ∀ c ∈ cs, G flt who c := fun c hm => hc c (List.mem_cons_of_mem _ hm)
    cases hx : Wrapped.exec cfg env flt who c w with
    | some w1 =>
      rw [hx] at h
      exact hg.execL k flt who cs w1 w' hcs (hg.exec flt who c w w1 (hc c (List.mem_cons_self ..)) hi hx) h
    | none =>
      rw [hx] at h
      cases k with
      | batch => exact (Option.some.inj h) ▸ hi
      | batchAll => simp at h
      | forceBatch => exact hg.execL _ flt who cs w w' hcs hi h
end

end Verif.Wrapped
