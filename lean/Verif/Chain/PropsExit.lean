import Verif.Chain.PropsRetire
import Verif.Msa.PropsAccept
import Verif.Handles.PropsAccept
/-!
# No account is locked in

Property C101: whoever holds a key of an account that is not a provider can retire the account, by transactions of
that key alone.
-/

namespace Verif.Chain

/-! ## Specification -/

/-- A block begins, or a transaction signed with `key`. -/
def Own (key : AccountId) (x : Step) : Prop := x = .newBlock ∨ ∃ bal c, x = .submit bal key c

/-- C101, full statement: after any history, from any key of an account that is no provider, blocks and
transactions of that key lead to a state in which nothing of the account is left. -/
def C101_full : Prop :=
  ∀ (cfg : Config) (_ : Handles.RangeOk cfg.hi) (n : Nat) (h : List Step) (key : AccountId) (m : MsaId),
    msaOf (run cfg (.init n) h) key = some m → ¬ IsProvider (run cfg (.init n) h) m →
    ∃ l, (∀ x ∈ l, Own key x) ∧ Gone cfg (run cfg (.init n) (h ++ l)) m

/-! ## Steps -/

theorem noWrapped_append {key : AccountId} {h l : List Step} (hd : ∀ x ∈ h, NoWrappedDelete x)
    (hl : ∀ x ∈ l, Own key x) : ∀ x ∈ h ++ l, NoWrappedDelete x := by
  intro x hx
  rcases List.mem_append.1 hx with hx | hx
  · exact hd x hx
  · rcases hl x hx with rfl | ⟨bal, c, rfl⟩ <;> intro _ _ _ e <;> cases e

/-- A transaction with a call of the msa pallet that is valid and succeeds. -/
theorem submit_msa {cfg : Config} {s : State} {bal who c t} (hv : Msa.Submittable (msaEnv cfg s) s.msa who c)
    (hd : Msa.dispatch cfg.msa (msaEnv cfg s) s.msa (.signed who) c = .ok t) :
    apply cfg s (.submit bal who (.msa c)) = { s with msa := t } := by
  have h1 : extensions cfg s who (.msa c) = true := isOk_iff.2 ((Msa.C85_submitted_iff _ _ _ _).2 hv)
  show (if extensions cfg s who _ then (dispatch cfg bal s (.signed who) _).getD s else s) = _
  rw [if_pos h1]
  simp [dispatch, Origin.msa, hd, Except.toOption]

/-- No delegation was revoked in the future. -/
theorem revoked_past (cfg : Config) (n : Nat) (h : List Step) : ∀ k d,
    (run cfg (.init n) h).msa.delegations.get k = some d → d.revokedAt ≤ (run cfg (.init n) h).block := by
  induction h using List.reverseRecOn with
  | nil => intro k d hk; cases hk
  | append_singleton h x ih =>
    rw [run_snoc]
    generalize run cfg (.init n) h = s at ih
    have hb := block_mono cfg s x
    have hold : ∀ k d, s.msa.delegations.get k = some d → d.revokedAt ≤ (apply cfg s x).block :=
      fun k d hk => Nat.le_trans (ih k d hk) hb
    rcases apply_msa cfg s x with e | ⟨o, c, _, e⟩
    · rw [e]; exact hold
    · rw [e]
      have he := Msa.apply_eff cfg.msa s.msa ⟨msaEnv cfg s, o.msa, c⟩
      simp only at he
      generalize Msa.apply cfg.msa s.msa ⟨msaEnv cfg s, o.msa, c⟩ = s' at he
      have hbe : (msaEnv cfg s).block = s.block := rfl
      generalize msaEnv cfg s = env at he hbe
      generalize o.msa = o' at he
      intro k d
      have hins : ∀ k' d', d'.revokedAt ≤ s.block → (s.msa.delegations.insert k' d').get k = some d →
          d.revokedAt ≤ (apply cfg s x).block := by
        intro k' d' h' hg
        rw [SMap.get_insert] at hg
        split at hg
        · cases hg; omega
        · exact hold k d hg
      cases he with
      | noop => exact hold k d
      | create hid hk hn => exact hold k d
      | sponsored _ _ _ _ _ _ _ _ hd _ _ =>
        refine hins _ _ ?_
        rw [(Msa.tryInsertSchemas_ok hd).1]
        exact Nat.zero_le _
      | provider _ _ _ => exact hold k d
      | grant _ _ _ _ _ _ hd =>
        refine hins _ _ ?_
        rw [(Msa.upsertDelegation_ok hd).2.2.1]
        exact Nat.zero_le _
      | revoke _ hd _ => exact hins _ _ (Nat.le_of_eq hbe)
      | addKey _ _ _ _ _ hk hn => exact hold k d
      | delete hw hk hcc => exact hold k d
      | revokeSchemas _ hd hm =>
        refine hins _ _ ?_
        rw [(Msa.tryGetMutSchemas_ok hm).1]
        exact ih _ _ hd

theorem waits (cfg : Config) : ∀ (k : Nat) (s : State),
    (run cfg s (List.replicate k .newBlock)).msa = s.msa ∧ (run cfg s (List.replicate k .newBlock)).handles = s.handles ∧
    (run cfg s (List.replicate k .newBlock)).block = s.block + k := by
  intro k
  induction k with
  | zero => intro s; exact ⟨rfl, rfl, rfl⟩
  | succ k ih =>
    intro s
    rw [List.replicate_succ, run_cons]
    obtain ⟨h1, h2, h3⟩ := ih (apply cfg s .newBlock)
    refine ⟨h1, h2, ?_⟩
    rw [h3]
    show s.block + 1 + k = _
    omega

/-- The handle is retired, in time. -/
theorem exit_handle (cfg : Config) (hr : Handles.RangeOk cfg.hi) (n : Nat) (h : List Step) (key : AccountId) (m : MsaId)
    (hm : msaOf (run cfg (.init n) h) key = some m) :
    ∃ l, (∀ x ∈ l, Own key x) ∧
      (run cfg (.init n) (h ++ l)).msa = (run cfg (.init n) h).msa ∧
      (run cfg (.init n) (h ++ l)).handles.byMsa.get m = none ∧ 1 ≤ (run cfg (.init n) (h ++ l)).block := by
  have hi := handles_inv cfg hr n h
  cases hv : (run cfg (.init n) h).handles.byMsa.get m with
  | none =>
    refine ⟨[.newBlock], by simp [Own], ?_⟩
    rw [run_append]
    exact ⟨rfl, hv, Nat.le_add_left 1 _⟩
  | some v =>
    refine ⟨List.replicate (v.2 + 1) .newBlock ++ [.submit (fun _ => 0) key (.handles .retire)], ?_, ?_⟩
    · intro x hx
      rcases List.mem_append.1 hx with hx | hx
      · exact .inl (List.eq_of_mem_replicate hx)
      · exact .inr ⟨_, _, List.mem_singleton.1 hx⟩
    · rw [run_append, run_append]
      generalize run cfg (.init n) h = s at *
      obtain ⟨h1, h2, h3⟩ := waits cfg (v.2 + 1) s
      generalize run cfg s (List.replicate (v.2 + 1) .newBlock) = t at h1 h2 h3
      rw [← h2] at hv hi
      obtain ⟨r, hret⟩ := (hi.retirable hr (m := m)).2 (by rw [hv]; simp)
      have hmt : msaOf t key = some m := by unfold msaOf at *; rw [h1]; exact hm
      have hext : extensions cfg t key (.handles .retire) = true := by
        refine isOk_iff.2 ?_
        simp only [Handles.validateRetire, bind_eq_ok_iff, okOr_eq_ok_iff, ensure_eq_ok_iff]
        refine ⟨m, hmt, v, hv, ?_⟩
        show t.block ≥ v.2
        omega
      have hap : apply cfg t (.submit (fun _ => 0) key (.handles .retire)) =
          { t with handles := { r.1 with events := r.1.events ++ [.retired m r.2] } } := by
        show (if extensions cfg t key _ then (dispatch cfg _ t (.signed key) _).getD t else t) = _
        rw [if_pos hext]
        have hd : Handles.dispatch cfg.handles t.handles ⟨handlesEnv cfg t, .retireWrapped key⟩ =
            .ok { r.1 with events := r.1.events ++ [.retired m r.2] } := by
          show Handles.retire cfg.handles (handlesEnv cfg t) t.handles key = _
          simp only [Handles.retire, bind_eq_ok_iff, okOr_eq_ok_iff, pure_eq_ok_iff]
          exact ⟨m, hmt, r, hret, rfl⟩
        simp [dispatch, Origin.signer, HandleCall.op, hd, Except.toOption]
      rw [run_cons, hap]
      refine ⟨h1, ?_, by show 1 ≤ t.block; omega⟩
      simp only [Handles.doRetire, bind_eq_ok_iff, okOr_eq_ok_iff, pure_eq_ok_iff] at hret
      obtain ⟨_, _, _, _, _, _, rfl⟩ := hret
      simp

/-- The delegations are revoked, one by one. -/
theorem exit_delegations (cfg : Config) (key : AccountId) (m : MsaId) : ∀ (ps : List MsaId) (s : State),
    msaOf s key = some m → 1 ≤ s.block →
    (∀ p d, s.msa.delegations.get (m, p) = some d → d.revokedAt = 0 → p ∈ ps) →
    ∃ l, (∀ x ∈ l, Own key x) ∧
      (run cfg s l).msa.keyToMsa = s.msa.keyToMsa ∧ (run cfg s l).msa.providers = s.msa.providers ∧
      (run cfg s l).handles = s.handles ∧
      ∀ p d, (run cfg s l).msa.delegations.get (m, p) = some d → d.revokedAt ≠ 0 := by
  intro ps
  induction ps with
  | nil =>
    intro s _ _ hp
    exact ⟨[], by simp, rfl, rfl, rfl, fun p d hd h0 => by simpa using hp p d hd h0⟩
  | cons q ps ih =>
    intro s hm hb hp
    by_cases hq : Msa.Revocable s.msa m q
    · obtain ⟨t, ht⟩ := (Msa.revokeProvider_iff (env := msaEnv cfg s)).2 hq
      obtain ⟨del, hdel, h0, rfl⟩ := Msa.revokeProvider_ok ht
      have hap := submit_msa (cfg := cfg) (s := s) (bal := fun _ => 0) (who := key)
        (c := .revokeDelegationByDelegator q) ⟨m, hm, del, hdel, .inl h0⟩ (by
          show Msa.revokeDelegationByDelegator _ _ _ _ = _
          unfold Msa.revokeDelegationByDelegator
          unfold msaOf at hm
          rw [hm]
          exact ht)
      obtain ⟨l, hl, e1, e2, e3, e4⟩ := ih (apply cfg s (.submit (fun _ => 0) key (.msa (.revokeDelegationByDelegator q))))
        (by rw [hap]; exact hm) (by rw [hap]; exact hb) (by
          rw [hap]
          intro p d hd hz
          have hd : (s.msa.delegations.insert (m, q) { del with revokedAt := (msaEnv cfg s).block }).get (m, p) = some d := hd
          rw [SMap.get_insert] at hd
          split at hd
          · cases hd
            have : s.block = 0 := hz
            omega
          · rename_i hne
            have := hp p d hd hz
            rcases List.mem_cons.1 this with rfl | this
            · exact absurd rfl hne
            · exact this)
      refine ⟨.submit (fun _ => 0) key (.msa (.revokeDelegationByDelegator q)) :: l, ?_, ?_⟩
      · intro x hx
        rcases List.mem_cons.1 hx with rfl | hx
        · exact .inr ⟨_, _, rfl⟩
        · exact hl x hx
      · rw [run_cons]
        rw [hap] at e1 e2 e3
        rw [← hap] at e1 e2 e3
        refine ⟨?_, ?_, ?_, e4⟩
        · rw [e1, hap]
        · rw [e2, hap]
        · rw [e3, hap]
    · refine ih s hm hb ?_
      intro p d hd hz
      rcases List.mem_cons.1 (hp p d hd hz) with rfl | this
      · exact absurd ⟨d, hd, hz⟩ hq
      · exact this

/-- The other keys are deleted, one by one. -/
theorem exit_keys (cfg : Config) (key : AccountId) (m : MsaId) : ∀ (ks : List AccountId) (s : State),
    msaOf s key = some m → Msa.CountInv cfg.msa s.msa →
    (∀ k, msaOf s k = some m → k = key ∨ k ∈ ks) →
    ∃ l, (∀ x ∈ l, Own key x) ∧
      (∀ k, msaOf (run cfg s l) k = some m ↔ k = key) ∧
      (run cfg s l).msa.delegations = s.msa.delegations ∧ (run cfg s l).msa.providers = s.msa.providers ∧
      (run cfg s l).handles = s.handles := by
  intro ks
  induction ks with
  | nil =>
    intro s hm _ hk
    refine ⟨[], by simp, fun k => ⟨fun h => by simpa using hk k h, fun h => by subst h; exact hm⟩, rfl, rfl, rfl⟩
  | cons q ks ih =>
    intro s hm hc hk
    by_cases hq : q ≠ key ∧ msaOf s q = some m
    · obtain ⟨hne, hq⟩ := hq
      have hcount : ∀ n, s.msa.keyCount.get m = some n → 1 ≤ n := by
        intro n hn
        rw [(hc m).1] at hn
        unfold Msa.toCount at hn
        split at hn
        · cases hn
        · cases hn; omega
      obtain ⟨t, ht⟩ := (Msa.deleteKeyForMsa_iff hcount (k := q)).2 (by unfold msaOf at hq; rw [hq]; simp)
      obtain ⟨_, rfl⟩ := Msa.deleteKeyForMsa_ok ht
      have hap := submit_msa (cfg := cfg) (s := s) (bal := fun _ => 0) (who := key)
        (c := .deleteMsaPublicKey q) (t := { Msa.withoutKey s.msa m q with events := s.msa.events ++ [.deleted m q] })
        ⟨Ne.symm hne, m, hm, hq⟩ (by
          show Msa.deleteMsaPublicKey _ _ _ = _
          unfold Msa.deleteMsaPublicKey
          unfold msaOf at hm
          rw [hm]
          simp only [ht]
          rfl)
      have hget : ∀ k, msaOf (apply cfg s (.submit (fun _ => 0) key (.msa (.deleteMsaPublicKey q)))) k =
          if q = k then none else msaOf s k := by
        intro k
        rw [hap]
        exact Msa.withoutKey_get s.msa m q k
      obtain ⟨l, hl, e1, e2, e3, e4⟩ := ih (apply cfg s (.submit (fun _ => 0) key (.msa (.deleteMsaPublicKey q))))
        (by rw [hget, if_neg hne]; exact hm) (by rw [hap]; exact Msa.countInv_withoutKey hc hq) (by
          intro k hk'
          rw [hget] at hk'
          split at hk'
          · cases hk'
          · rename_i hqk
            rcases hk k hk' with h | h
            · exact .inl h
            · rcases List.mem_cons.1 h with rfl | h
              · exact absurd rfl hqk
              · exact .inr h)
      refine ⟨.submit (fun _ => 0) key (.msa (.deleteMsaPublicKey q)) :: l, ?_, ?_⟩
      · intro x hx
        rcases List.mem_cons.1 hx with rfl | hx
        · exact .inr ⟨_, _, rfl⟩
        · exact hl x hx
      · rw [run_cons]
        refine ⟨e1, ?_, ?_, ?_⟩
        · rw [e2, hap]; rfl
        · rw [e3, hap]; rfl
        · rw [e4, hap]
    · refine ih s hm hc ?_
      intro k hk'
      rcases hk k hk' with h | h
      · exact .inl h
      · rcases List.mem_cons.1 h with rfl | h
        · by_cases hkk : k = key
          · exact .inl hkk
          · exact absurd ⟨hkk, hk'⟩ hq
        · exact .inr h

/-! ## C101 -/

/-- C101. Missing: histories in which a key was deleted by a wrapped call. -/
theorem C101_can_retire_partial (cfg : Config) (hr : Handles.RangeOk cfg.hi) (n : Nat) (h : List Step)
    (hd : ∀ x ∈ h, NoWrappedDelete x) (key : AccountId) (m : MsaId)
    (hm : msaOf (run cfg (.init n) h) key = some m) (hp : ¬ IsProvider (run cfg (.init n) h) m) :
    ∃ l, (∀ x ∈ l, Own key x) ∧ Gone cfg (run cfg (.init n) (h ++ l)) m := by
  obtain ⟨l1, o1, a1, a2, a3⟩ := exit_handle cfg hr n h key m hm
  obtain ⟨l2, o2, b1, b2, b3, b4⟩ := exit_delegations cfg key m
    ((run cfg (.init n) (h ++ l1)).msa.delegations.keys.map Prod.snd) (run cfg (.init n) (h ++ l1))
    (by unfold msaOf at *; rw [a1]; exact hm) a3 (by
      intro p d hd _
      exact List.mem_map.2 ⟨(m, p), (SMap.mem_keys_iff _ _).2 ((SMap.contains_iff _ _).2 ⟨d, hd⟩), rfl⟩)
  rw [← run_append] at b1 b2 b3 b4
  have hd2 := noWrapped_append (noWrapped_append hd o1) o2
  obtain ⟨l3, o3, c1, c2, c3, c4⟩ := exit_keys cfg key m (Msa.keysOf (run cfg (.init n) (h ++ l1 ++ l2)).msa m)
    (run cfg (.init n) (h ++ l1 ++ l2)) (by unfold msaOf at *; rw [b1, a1]; exact hm) (countInv cfg n _ hd2)
    (fun k hk => .inr ((Msa.mem_keysOf _ _ _).2 hk))
  rw [← run_append] at c1 c2 c3 c4
  have hd3 := noWrapped_append hd2 o3
  have hd4 : ∀ x ∈ h ++ l1 ++ l2 ++ l3 ++ [.newBlock], NoWrappedDelete x :=
    noWrapped_append (key := key) hd3 (by simp [Own])
  have hrun : run cfg (.init n) (h ++ l1 ++ l2 ++ l3 ++ [.newBlock]) =
      newBlock cfg (run cfg (.init n) (h ++ l1 ++ l2 ++ l3)) := by rw [run_snoc]; rfl
  have hpast := revoked_past cfg n (h ++ l1 ++ l2 ++ l3)
  have hcnt := countInv cfg n _ hd3
  have hext : extensions cfg (run cfg (.init n) (h ++ l1 ++ l2 ++ l3 ++ [.newBlock])) key (.msa .retireMsa) = true := by
    refine isOk_iff.2 ((Msa.C85_submitted_iff _ _ _ _).2 ?_)
    rw [hrun]
    refine ⟨m, (c1 key).2 rfl, ?_, ?_, ?_, ?_⟩
    · show (run cfg (.init n) (h ++ l1 ++ l2 ++ l3)).msa.providers.get m = none
      rw [c3, b2, a1]
      unfold IsProvider Msa.isRegisteredProvider at hp
      rw [SMap.contains_iff] at hp
      cases hg : (run cfg (.init n) h).msa.providers.get m with
      | none => rfl
      | some v => exact absurd ⟨v, hg⟩ hp
    · have : Handles.handleForMsa cfg.handles (run cfg (.init n) (h ++ l1 ++ l2 ++ l3)).handles m = none := by
        rw [handleForMsa_none hr (handles_inv cfg hr n _), c4, b3]
        exact a2
      show (Handles.handleForMsa cfg.handles (run cfg (.init n) (h ++ l1 ++ l2 ++ l3)).handles m).isSome = false
      rw [this]; rfl
    · show Msa.countOf (run cfg (.init n) (h ++ l1 ++ l2 ++ l3)).msa m = 1
      unfold Msa.countOf
      rw [(hcnt m).1, Msa.toCount_getD, ← Msa.length_keysOf]
      have hn := Msa.keysOf_nodup (run cfg (.init n) (h ++ l1 ++ l2 ++ l3)).msa m
      have hmem : ∀ k, k ∈ Msa.keysOf (run cfg (.init n) (h ++ l1 ++ l2 ++ l3)).msa m ↔ k = key :=
        fun k => (Msa.mem_keysOf _ _ _).trans (c1 k)
      generalize Msa.keysOf (run cfg (.init n) (h ++ l1 ++ l2 ++ l3)).msa m = ks at hn hmem
      match ks, hn, hmem with
      | [], _, hmem => exact absurd ((hmem key).2 rfl) (by simp)
      | [a], _, _ => rfl
      | a :: b :: l, hn, hmem =>
        have h1 := (hmem a).1 (by simp)
        have h2 := (hmem b).1 (by simp)
        simp [h1, h2] at hn
    · rintro p ⟨d, hd', ha⟩
      have hd' : (run cfg (.init n) (h ++ l1 ++ l2 ++ l3)).msa.delegations.get (m, p) = some d := hd'
      have h1 := hpast _ _ hd'
      rw [c2] at hd'
      have h2 := b4 p d hd'
      have ha : d.revokedAt = 0 ∨ (run cfg (.init n) (h ++ l1 ++ l2 ++ l3)).block + 1 ≤ d.revokedAt := ha
      omega
  have hgone := (C93_retired_is_gone_partial cfg hr n _ hd4 (fun _ => 0) key m (by rw [hrun]; exact (c1 key).2 rfl) hext []).1
  refine ⟨l1 ++ l2 ++ l3 ++ [.newBlock] ++ [.submit (fun _ => 0) key (.msa .retireMsa)], ?_, ?_⟩
  · intro x hx
    simp only [List.mem_append, List.mem_singleton] at hx
    rcases hx with (((hx | hx) | hx) | hx) | hx
    · exact o1 x hx
    · exact o2 x hx
    · exact o3 x hx
    · exact .inl hx
    · exact .inr ⟨_, _, hx⟩
  · have : h ++ (l1 ++ l2 ++ l3 ++ [.newBlock] ++ [.submit (fun _ => 0) key (.msa .retireMsa)]) =
        h ++ l1 ++ l2 ++ l3 ++ [.newBlock] ++ [.submit (fun _ => 0) key (.msa .retireMsa)] := by simp
    rw [this]
    exact hgone

/-- The counter of the account is too high: it never falls to one as long as `key` belongs to it. -/
structure Stuck (s : State) (key : AccountId) (m : MsaId) : Prop where
  key : s.msa.keyToMsa.get key = some m
  count : s.msa.keyToMsa.countV (· == m) + 1 ≤ (s.msa.keyCount.get m).getD 0

theorem stuck_withKey {s : State} {key m m' k} (hs : Stuck s key m) (hk : s.msa.keyToMsa.get k = none) (t : Msa.State)
    (h1 : t.keyToMsa = (Msa.withKey s.msa m' k).keyToMsa) (h2 : t.keyCount = (Msa.withKey s.msa m' k).keyCount) :
    t.keyToMsa.get key = some m ∧ t.keyToMsa.countV (· == m) + 1 ≤ (t.keyCount.get m).getD 0 := by
  rw [h1, h2, Msa.withKey_get]
  have hcv : (Msa.withKey s.msa m' k).keyToMsa.countV (· == m) =
      s.msa.keyToMsa.countV (· == m) + (if m' == m then 1 else 0) :=
    SMap.countV_insert_of_none s.msa.keyToMsa m' hk (· == m)
  rw [hcv]
  have hc := hs.count
  constructor
  · rw [if_neg]
    · exact hs.key
    · rintro rfl
      rw [hs.key] at hk
      cases hk
  · by_cases hm : m' = m
    · subst hm
      simp only [Msa.withKey, SMap.get_insert, if_true, beq_self_eq_true, Option.getD_some]
      omega
    · have hb : (m' == m) = false := by simpa using hm
      simp only [Msa.withKey, SMap.get_insert, hm, if_false, hb, Bool.false_eq_true]
      omega

theorem stuck_apply (cfg : Config) (s : State) (x : Step) (key : AccountId) (m : MsaId) (hs : Stuck s key m)
    (hx : Own key x) : Stuck (apply cfg s x) key m := by
  rcases apply_msa_tx cfg s x with e | ⟨o, c, e, hc⟩
  · exact ⟨by rw [e]; exact hs.key, by rw [e]; exact hs.count⟩
  · rcases hx with rfl | ⟨bal, c', rfl⟩
    · exact ⟨hs.key, hs.count⟩
    · rcases hc with ⟨_, hc⟩ | ⟨_, who, hc, rfl, hv⟩
      · cases hc
      · cases hc
        have he := Msa.apply_eff cfg.msa s.msa ⟨msaEnv cfg s, .signed key, c⟩
        rw [show (Origin.signed key).msa = .signed key from rfl] at e
        have hsub := (Msa.C85_submitted_iff _ _ _ _).1 hv
        suffices h : ∀ t, Msa.Eff cfg.msa (msaEnv cfg s) s.msa (.signed key) c t →
            t.keyToMsa.get key = some m ∧ t.keyToMsa.countV (· == m) + 1 ≤ (t.keyCount.get m).getD 0 by
          have := h _ he
          rw [← e] at this
          exact ⟨this.1, this.2⟩
        intro t he
        cases he with
        | noop => exact ⟨hs.key, hs.count⟩
        | create hid hk hn => exact stuck_withKey hs hk _ rfl rfl
        | sponsored _ _ _ _ _ hk _ _ _ _ _ => exact stuck_withKey hs hk _ rfl rfl
        | provider _ _ _ => exact ⟨hs.key, hs.count⟩
        | grant _ _ _ _ _ _ _ => exact ⟨hs.key, hs.count⟩
        | revoke _ _ _ => exact ⟨hs.key, hs.count⟩
        | addKey _ _ _ _ _ hk hn => exact stuck_withKey hs hk _ rfl rfl
        | revokeSchemas _ _ _ => exact ⟨hs.key, hs.count⟩
        | delete hw hk hcc =>
          rename_i m1 k m2
          have hk1 := hs.key
          rw [hk1] at hw
          cases hw
          have hpos : 1 ≤ s.msa.keyToMsa.countV (· == m) := by
            rw [← Msa.length_keysOf]
            exact List.length_pos_of_mem ((Msa.mem_keysOf _ _ _).2 hk1)
          have hc := hs.count
          rcases hcc with rfl | ⟨rfl, rfl⟩
          · obtain ⟨hne, m3, h1, h2⟩ := hsub
            rw [hk1] at h1
            cases h1
            have hcv : (Msa.withoutKey s.msa m k).keyToMsa.countV (· == m) + (if m == m then 1 else 0) =
                s.msa.keyToMsa.countV (· == m) := SMap.countV_erase s.msa.keyToMsa h2 (· == m)
            simp only [beq_self_eq_true, if_true] at hcv
            refine ⟨?_, ?_⟩
            · show (Msa.withoutKey s.msa m k).keyToMsa.get key = some m
              rw [Msa.withoutKey_get, if_neg (Ne.symm hne)]
              exact hk1
            · show (Msa.withoutKey s.msa m k).keyToMsa.countV (· == m) + 1 ≤ ((Msa.decCount s.msa.keyCount m).get m).getD 0
              unfold Msa.decCount
              cases hg : s.msa.keyCount.get m with
              | none => rw [hg] at hc; simp at hc
              | some n =>
                rw [hg] at hc
                simp only [Option.getD_some] at hc
                dsimp only
                rw [if_neg (by omega)]
                simp only [SMap.get_insert, if_true, Option.getD_some]
                omega
          · obtain ⟨m3, h1, _, _, h2, _⟩ := hsub
            rw [hk1] at h1
            cases h1
            unfold Msa.countOf at h2
            omega

/-- Account 1 has key 10, account 2 has keys 20 and 21; key 10 deletes key 20 by a wrapped call, which lowers the
counter of account 1 and not that of account 2. -/
def exLocked : List Step :=
  [.newBlock,
   .submit exBal 10 (.msa .create),
   .submit exBal 20 (.msa .create),
   .submit exBal 20 (.msa (.addPublicKeyToMsa 20 20 21 ⟨2, 50, 21⟩)),
   .call exBal (.signed 10) (.msa (.deleteMsaPublicKey 20))]

/-- C101 is false of the code: key 21 is the only key left of account 2, but no transactions of it retire the
account. -/
theorem C101_full_false : ¬ C101_full := by
  intro hf
  obtain ⟨l, hl, hg⟩ := hf exCfg (by unfold Handles.RangeOk; decide) 1024 exLocked 21 2 (by decide +kernel)
    (by unfold IsProvider; decide +kernel)
  have h0 : Stuck (run exCfg (.init 1024) exLocked) 21 2 := ⟨by decide +kernel, by decide +kernel⟩
  rw [run_append] at hg
  have : ∀ (l : List Step) (s : State), Stuck s 21 2 → (∀ x ∈ l, Own 21 x) → Stuck (run exCfg s l) 21 2 := by
    intro l
    induction l with
    | nil => intro s hs _; exact hs
    | cons x l ih =>
      intro s hs hl
      rw [run_cons]
      exact ih _ (stuck_apply exCfg s x 21 2 hs (hl x (by simp))) (fun y hy => hl y (by simp [hy]))
  exact hg.keys 21 (this l _ h0 hl).key

/-- Hypotheses met: account 2 of the larger example, with a handle, a delegation and a second key, none of which
lets it be retired at once; and a way out. (Every signature is valid here, so that key 20 can sign twice.) -/
example :
    let cfg := { exCfg with msa := Msa.exCfg }
    let h := exHist ++ [.submit exBal 20 (.msa (.addPublicKeyToMsa 20 1020 1021 ⟨2, 50, 21⟩))]
    let l := List.replicate 28 .newBlock ++ [.submit exBal 20 (.handles .retire),
      .submit exBal 20 (.msa (.revokeDelegationByDelegator 1)), .submit exBal 20 (.msa (.deleteMsaPublicKey 21)),
      .newBlock, .submit exBal 20 (.msa .retireMsa)]
    (∀ x ∈ h, NoWrappedDelete x) ∧ msaOf (run cfg (.init 1024) h) 20 = some 2 ∧
    msaOf (run cfg (.init 1024) h) 21 = some 2 ∧ ¬ IsProvider (run cfg (.init 1024) h) 2 ∧
    extensions cfg (run cfg (.init 1024) h) 20 (.msa .retireMsa) = false ∧
    extensions cfg (run cfg (.init 1024) h) 20 (.handles .retire) = false ∧
    msaOf (run cfg (.init 1024) (h ++ l)) 20 = none ∧ msaOf (run cfg (.init 1024) (h ++ l)) 21 = none := by
  refine ⟨?_, by decide +kernel, by decide +kernel, by unfold IsProvider; decide +kernel, by decide +kernel,
    by decide +kernel, by decide +kernel, by decide +kernel⟩
  intro x hx
  simp only [exHist, List.mem_append, List.mem_cons, List.not_mem_nil, or_false] at hx
  intro bal who key e
  subst e
  rcases hx with hx | hx <;> simp at hx

end Verif.Chain
