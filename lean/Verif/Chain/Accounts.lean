import Verif.Chain.Lemmas
/-!
# Which accounts there are

The accounts that keys, providers and delegations refer to have been created.
-/

namespace Verif.Chain

/-- The account has been created. -/
def Issued (s : State) (m : MsaId) : Prop := m ∈ Msa.createdIds s.msa.events

/-- The account is a registered provider. -/
def IsProvider (s : State) (m : MsaId) : Prop := Msa.isRegisteredProvider s.msa m = true

theorem idInv (cfg : Config) (n : Nat) (h : List Step) : Msa.IdInv (run cfg (.init n) h).msa := by
  obtain ⟨l, hl⟩ := msa_run cfg h (.init n)
  rw [hl]
  exact Msa.idInv_run cfg.msa l

theorem issued_iff {cfg n h m} :
    Issued (run cfg (.init n) h) m ↔ 1 ≤ m ∧ m ≤ (run cfg (.init n) h).msa.maxMsaId := by
  unfold Issued
  rw [(idInv cfg n h).ids, List.mem_range'_1]
  omega

theorem issued_mono (cfg : Config) (s : State) (h : List Step) (m : MsaId) :
    Issued s m → Issued (run cfg s h) m := by
  refine run_induction (P := fun s => Issued s m) ?_ h s
  intro s x hs
  unfold Issued at *
  rcases apply_msa cfg s x with e | ⟨o, c, _, e⟩
  · rw [e]; exact hs
  · rw [e]
    have he := Msa.apply_eff cfg.msa s.msa ⟨msaEnv cfg s, o.msa, c⟩
    generalize o.msa = o' at he
    simp only at he
    generalize Msa.apply cfg.msa s.msa ⟨msaEnv cfg s, o', c⟩ = t at he
    cases he <;> first | exact hs | (simp only [Msa.createdIds_append, List.mem_append]; exact .inl hs)

theorem provider_mono (cfg : Config) (s : State) (h : List Step) (m : MsaId) (hp : IsProvider s m) :
    IsProvider (run cfg s h) m := by
  obtain ⟨l, hl⟩ := msa_run cfg h s
  unfold IsProvider Msa.isRegisteredProvider at *
  obtain ⟨name, hn⟩ := (SMap.contains_iff _ _).1 hp
  rw [hl, SMap.contains_iff]
  exact ⟨name, Msa.C13_providers_permanent _ _ _ _ _ hn⟩

/-- Providers and the ends of delegations. -/
structure MsaRefs (s : Msa.State) : Prop where
  ids : Msa.IdInv s
  providers : ∀ p, s.providers.contains p = true → 1 ≤ p ∧ p ≤ s.maxMsaId
  delegations : ∀ d p i, s.delegations.get (d, p) = some i →
    (1 ≤ d ∧ d ≤ s.maxMsaId) ∧ s.providers.contains p = true

theorem contains_insert {κ ν : Type} [DecidableEq κ] (m : SMap κ ν) (a b : κ) (v : ν) :
    (m.insert a v).contains b = true ↔ a = b ∨ m.contains b = true := by
  rw [SMap.contains_iff, SMap.contains_iff]
  simp only [SMap.get_insert]
  by_cases e : a = b
  · simp [e]
  · simp [e]

theorem msaRefs_apply (cfg : Msa.Config) (s : Msa.State) (st : Msa.Step) (hs : MsaRefs s) :
    MsaRefs (Msa.apply cfg s st) := by
  have hid := Msa.eff_idInv (Msa.apply_eff cfg s st) hs.ids
  have he := Msa.apply_eff cfg s st
  obtain ⟨env, o, c⟩ := st
  simp only at he
  generalize Msa.apply cfg s ⟨env, o, c⟩ = s' at he hid
  obtain ⟨hi, hp, hd⟩ := hs
  cases he with
  | noop => exact ⟨hi, hp, hd⟩
  | create _ _ _ =>
    refine ⟨hid, fun p h => ?_, fun d p i h => ?_⟩
    · have := hp p h; exact ⟨this.1, Nat.le_succ_of_le this.2⟩
    · have := hd d p i h; exact ⟨⟨this.1.1, Nat.le_succ_of_le this.1.2⟩, this.2⟩
  | sponsored hv hr hw hpr hid' hk hc hn hdd hl hss =>
    refine ⟨hid, fun p h => ?_, fun d p i h => ?_⟩
    · have := hp p h; exact ⟨this.1, Nat.le_succ_of_le this.2⟩
    · simp only [SMap.get_insert] at h
      split at h
      · rename_i e
        simp only [Prod.mk.injEq] at e
        rw [← e.1, ← e.2]
        exact ⟨⟨Nat.succ_le_succ (Nat.zero_le _), Nat.le_refl _⟩, hpr⟩
      · have := hd d p i h; exact ⟨⟨this.1.1, Nat.le_succ_of_le this.1.2⟩, this.2⟩
  | provider hl hn hk =>
    obtain ⟨k, hk, _⟩ := hk
    refine ⟨hid, fun p h => ?_, fun d p i h => ⟨(hd d p i h).1, ?_⟩⟩
    · rcases (contains_insert _ _ _ _).1 h with e | h
      · rw [← e]; exact hi.bound _ _ hk
      · exact hp p h
    · exact (contains_insert _ _ _ _).2 (.inr (hd d p i h).2)
  | grant hv hr hw hdk hne hpr hdd =>
    refine ⟨hid, hp, fun d p i h => ?_⟩
    simp only [SMap.get_insert] at h
    split at h
    · rename_i e
      simp only [Prod.mk.injEq] at e
      rw [← e.1, ← e.2]
      exact ⟨hi.bound _ _ hdk, hpr⟩
    · exact hd d p i h
  | revoke hc hdd h0 =>
    refine ⟨hid, hp, fun d p i h => ?_⟩
    simp only [SMap.get_insert] at h
    split at h
    · rename_i e
      simp only [Prod.mk.injEq] at e
      rw [← e.1, ← e.2]
      exact hd _ _ _ hdd
    · exact hd d p i h
  | addKey _ _ _ _ _ _ _ => exact ⟨hid, hp, hd⟩
  | delete _ _ _ => exact ⟨hid, hp, hd⟩
  | revokeSchemas hw hdd hm =>
    refine ⟨hid, hp, fun d p i h => ?_⟩
    simp only [SMap.get_insert] at h
    split at h
    · rename_i e
      simp only [Prod.mk.injEq] at e
      rw [← e.1, ← e.2]
      exact hd _ _ _ hdd
    · exact hd d p i h

theorem msaRefs (cfg : Config) (n : Nat) (h : List Step) : MsaRefs (run cfg (.init n) h).msa := by
  obtain ⟨l, hl⟩ := msa_run cfg h (.init n)
  rw [hl]
  refine Msa.run_induction (P := MsaRefs) (fun s st hs => msaRefs_apply cfg.msa s st hs) l _ ?_
  refine ⟨Msa.idInv_run cfg.msa [], fun p h => ?_, fun d p i h => ?_⟩
  · cases h
  · cases h

theorem key_issued {cfg n h key m} (hm : msaOf (run cfg (.init n) h) key = some m) :
    Issued (run cfg (.init n) h) m := issued_iff.2 ((idInv cfg n h).bound key m hm)

/-- The accounts created so far are among those of which the hash assumption of the storage pallet is made. -/
def Fits (cfg : Config) (s : State) : Prop := ∀ m, Issued s m → m < cfg.storage.accounts

theorem Fits.before {cfg : Config} {s : State} {h : List Step} (hf : Fits cfg (run cfg s h)) : Fits cfg s :=
  fun m hm => hf m (issued_mono cfg s h m hm)

end Verif.Chain
