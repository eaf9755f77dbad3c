import Verif.Chain.Props
import Verif.Msa.PropsOrder
/-!
# C168 on the chain
-/

namespace Verif.Chain

/-- A transaction with a call of the account pallet. -/
def msaTx (bal : AccountId → Balance) (x : AccountId × Msa.Call) : Step := .submit bal x.1 (.msa x.2)

/-- The same, seen by the pallet. -/
def msaItem (x : AccountId × Msa.Call) : Msa.Item := ⟨true, .signed x.1, x.2⟩

theorem run_msaTx (cfg : Config) (bal : AccountId → Balance) (h : List (AccountId × Msa.Call)) (s : State) :
    run cfg s (h.map (msaTx bal)) = { s with msa := Msa.after cfg.msa (msaEnv cfg s) s.msa (h.map msaItem) } := by
  induction h generalizing s with
  | nil => rfl
  | cons x h ih =>
    have e : apply cfg s (msaTx bal x) =
        { s with msa := (Msa.exec cfg.msa (msaEnv cfg s) s.msa (msaItem x)).getD s.msa } := by
      obtain ⟨who, c⟩ := x
      have hv : (∃ e, Msa.validate (msaEnv cfg s) s.msa who c = .error e) ∨ Msa.validate (msaEnv cfg s) s.msa who c = .ok () := by
        cases Msa.validate (msaEnv cfg s) s.msa who c with
        | error e => exact .inl ⟨e, rfl⟩
        | ok u => exact .inr rfl
      have hd : (∃ e, Msa.dispatch cfg.msa (msaEnv cfg s) s.msa (.signed who) c = .error e) ∨
          ∃ t, Msa.dispatch cfg.msa (msaEnv cfg s) s.msa (.signed who) c = .ok t := by
        cases Msa.dispatch cfg.msa (msaEnv cfg s) s.msa (.signed who) c with
        | error e => exact .inl ⟨e, rfl⟩
        | ok t => exact .inr ⟨t, rfl⟩
      rcases hv with ⟨e, hv⟩ | hv
      · simp [apply, msaTx, extensions, dispatch, msaItem, Msa.exec, Origin.msa, hv, Except.isOk, Except.toBool]
      · rcases hd with ⟨e, hd⟩ | ⟨t, hd⟩ <;>
          simp [apply, msaTx, extensions, dispatch, msaItem, Msa.exec, Origin.msa, hv, hd, Except.isOk, Except.toBool,
            Except.toOption]
    show run cfg (apply cfg s (msaTx bal x)) (h.map (msaTx bal)) = _
    rw [e, ih]
    rfl

theorem execAll_after {cfg : Msa.Config} {env : Msa.Env} (h : List Msa.Item) {s t : Msa.State}
    (he : Msa.execAll cfg env s h = some t) : Msa.after cfg env s h = t := by
  induction h generalizing s with
  | nil => exact Option.some.inj he
  | cons x h ih =>
    simp only [Msa.execAll, Option.bind_eq_some_iff] at he
    obtain ⟨s1, h1, h2⟩ := he
    show Msa.after cfg env ((Msa.exec cfg env s x).getD s) h = t
    rw [h1]
    exact ih h2

/-- C168, on the chain: transactions with calls of the account pallet that open or give up no account, of which none changes what
another one is about, with signatures that the registry does not remember. If all succeed in one order, they do in every order, and
keys, delegations and providers are the same afterwards; the same if some fail, as long as the registry has room. Nothing else
changes. -/
theorem C168_chain_partial (cfg : Config) (hc : 2 ≤ cfg.msa.maxSignatures) (n : Nat) (hist : List Step) (bal : AccountId → Balance) :
    let s := run cfg (.init n) hist
    let env := msaEnv cfg s
    ∃ l, s.msa = Msa.run cfg.msa .init l ∧ ∀ h h' : List (AccountId × Msa.Call), h.Perm h' →
      (∀ x ∈ h, (msaItem x).Ordinary) → (h.map msaItem).Pairwise (Msa.Apart s.msa.keyToMsa.get) →
      (∀ x ∈ h, ∀ sig ∈ (msaItem x).signatures, sig ∉ (Msa.held cfg.msa l).map Prod.fst) →
      let t := run cfg s (h.map (msaTx bal))
      let t' := run cfg s (h'.map (msaTx bal))
      { t with msa := s.msa } = s ∧ { t' with msa := s.msa } = s ∧
      ((Msa.execAll cfg.msa env s.msa (h.map msaItem)).isSome →
        (Msa.execAll cfg.msa env s.msa (h'.map msaItem)).isSome ∧ Msa.Same t.msa t'.msa) ∧
      (((h.map msaItem).flatMap Msa.Item.signatures).Nodup →
        Msa.Room cfg.msa s.block (Msa.held cfg.msa l) ((h.map msaItem).flatMap Msa.Item.signatures).length →
        Msa.Same t.msa t'.msa) := by
  intro s env
  obtain ⟨l, hl⟩ := msa_run cfg hist (.init n)
  have hl' : s.msa = Msa.run cfg.msa .init l := hl
  refine ⟨l, hl', fun h h' hp ho hd hn => ?_⟩
  have ho' : ∀ x ∈ h.map msaItem, x.Ordinary := by
    intro x hx; obtain ⟨y, hy, rfl⟩ := List.mem_map.1 hx; exact ho y hy
  have hn' : ∀ x ∈ h.map msaItem, ∀ sig ∈ x.signatures, sig ∉ (Msa.held cfg.msa l).map Prod.fst := by
    intro x hx; obtain ⟨y, hy, rfl⟩ := List.mem_map.1 hx; exact hn y hy
  simp only [run_msaTx]
  refine ⟨trivial, trivial, fun he => ?_, fun hnd hr => ?_⟩
  · obtain ⟨t, ht⟩ := Option.isSome_iff_exists.1 he
    rw [hl'] at ht hd
    obtain ⟨t', ht', hs⟩ := Msa.C168_all cfg.msa hc l env _ _ (hp.map msaItem) ho' hd hn' t ht
    rw [← hl'] at ht ht'
    exact ⟨by rw [ht']; rfl, by
      show Msa.Same (Msa.after cfg.msa env s.msa _) (Msa.after cfg.msa env s.msa _)
      rw [execAll_after _ ht, execAll_after _ ht']; exact hs⟩
  · rw [hl'] at hd
    have := Msa.C168_contents_partial cfg.msa hc l env _ _ (hp.map msaItem) ho' hd hn' hnd hr
    rw [← hl'] at this
    exact this

/-- A grant of account 2 to provider 1, and the registration of account 2 as a provider itself: apart, and both succeed in either
order. -/
example :
    let s := run exCfg (.init 1024) (exHist.take 6)
    let h : List (AccountId × Msa.Call) := [(10, .grantDelegation 20 20 ⟨1, [1, 2], 50⟩), (20, .createProvider [66])]
    (h.map msaItem).Pairwise (Msa.Apart s.msa.keyToMsa.get) ∧ (∀ x ∈ h, (msaItem x).Ordinary) ∧
    (Msa.execAll exCfg.msa (msaEnv exCfg s) s.msa (h.map msaItem)).isSome = true ∧
    (Msa.execAll exCfg.msa (msaEnv exCfg s) s.msa (h.reverse.map msaItem)).isSome = true ∧
    (run exCfg s (h.map (msaTx exBal))).msa.delegations.get (2, 1) ≠ none := by
  intro s h
  have h1 : s.msa.keyToMsa.get 10 = some 1 := by decide +kernel
  have h2 : s.msa.keyToMsa.get 20 = some 2 := by decide +kernel
  refine ⟨?_, by simp [h, msaItem, Msa.Item.Ordinary], by decide +kernel, by decide +kernel, by decide +kernel⟩
  simp only [h, List.map_cons, List.map_nil, msaItem, List.pairwise_cons, List.mem_cons, List.not_mem_nil, or_false, forall_eq,
    false_imp_iff, implies_true, List.Pairwise.nil, and_true]
  constructor <;> constructor <;>
    simp [Msa.Item.changes, Msa.Item.account, Msa.Item.delegation, Msa.Item.registers, Msa.Item.grantee, h1, h2]

end Verif.Chain
