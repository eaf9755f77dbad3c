import Verif.Council.Lemmas
import Verif.Chain.Props
/-!
# The council: C117 to C120

Votes are spoken of through `ballots` (what each member last voted on the motion with a number, computed from the
history), not through the lists in the state.
-/

namespace Verif.Council

/-! ## Spec -/

/-- Members are listed once: at genesis and whenever root sets them. -/
structure Proper (ms : List AccountId) (h : List Step) : Prop where
  start : ms.Nodup
  set : ∀ bal new prime, Step.root bal (.setMembers new prime) ∈ h → new.Nodup

/-- How many members have voted for the motion with the number. -/
def approvals (cfg : Config) (s : State) (h : List Step) (i : Nat) : Nat :=
  ((run cfg s h).members.filter (fun a => ballots cfg s h i a = some true)).length

/-- How many have voted against it. -/
def rejections (cfg : Config) (s : State) (h : List Step) (i : Nat) : Nat :=
  ((run cfg s h).members.filter (fun a => ballots cfg s h i a = some false)).length

/-- The prime member has voted for it. -/
def PrimeApproves (cfg : Config) (s : State) (h : List Step) (i : Nat) : Prop :=
  ∃ p, (run cfg s h).prime = some p ∧ ballots cfg s h i p = some true

/-- The motion with the number, as it can be read. -/
def IsMotion (cfg : Config) (s : State) (hash i : Nat) (r : Request) (thr : Nat) (last : BlockNumber) : Prop :=
  ∃ v ∈ s.motions, v.index = i ∧ v.request = r ∧ cfg.hash r = hash ∧ v.threshold = thr ∧ v.until_ = last

/-! ## Counting -/

theorem members_nodup (cfg : Config) (n : Nat) (ms : List AccountId) (h : List Step) (hp : Proper ms h) :
    (run cfg (.init n ms) h).members.Nodup := by
  induction h using List.reverseRecOn with
  | nil => exact hp.start
  | append_singleton h e ih =>
    have hn := ih ⟨hp.start, fun bal new prime hm => hp.set bal new prime (List.mem_append_left _ hm)⟩
    rw [run_snoc]
    have he := apply_eff cfg (run cfg (.init n ms) h) e
    generalize apply cfg (run cfg (.init n ms) h) e = t at he
    cases he with
    | same h _ => rw [h.members]; exact hn
    | add _ _ _ hm _ _ _ _ _ _ => rw [hm]; exact hn
    | vote _ _ _ _ _ _ _ hm _ _ _ _ => rw [hm]; exact hn
    | remove _ hm _ _ _ _ _ => rw [hm]; exact hn
    | set bal new prime he ht =>
      subst he ht
      exact hp.set bal new prime (List.mem_append_right _ (List.mem_singleton.2 rfl))

section
variable {cfg : Config} {n : Nat} {ms : List AccountId} {h : List Step}

theorem ayes_length (hp : Proper ms h) {v : Motion} (hv : v ∈ (run cfg (.init n ms) h).motions) :
    v.ayes.length = approvals cfg (.init n ms) h v.index := by
  have hi := inv cfg n ms h
  refine List.Perm.length_eq ((List.perm_ext_iff_of_nodup (hi.ayes v hv).1 ((members_nodup cfg n ms h hp).filter _)).2 ?_)
  intro a
  rw [(hi.ayes v hv).2 a, List.mem_filter, decide_eq_true_eq]
  exact ⟨fun e => ⟨(hi.known _ _ (by rw [e]; simp)).2, e⟩, fun e => e.2⟩

theorem nays_length (hp : Proper ms h) {v : Motion} (hv : v ∈ (run cfg (.init n ms) h).motions) :
    v.nays.length = rejections cfg (.init n ms) h v.index := by
  have hi := inv cfg n ms h
  refine List.Perm.length_eq ((List.perm_ext_iff_of_nodup (hi.nays v hv).1 ((members_nodup cfg n ms h hp).filter _)).2 ?_)
  intro a
  rw [(hi.nays v hv).2 a, List.mem_filter, decide_eq_true_eq]
  exact ⟨fun e => ⟨(hi.known _ _ (by rw [e]; simp)).2, e⟩, fun e => e.2⟩

theorem votes_le (i : Nat) :
    approvals cfg (.init n ms) h i + rejections cfg (.init n ms) h i ≤ (run cfg (.init n ms) h).members.length := by
  unfold approvals rejections
  induction (run cfg (.init n ms) h).members with
  | nil => simp
  | cons a l ih =>
    simp only [List.filter_cons, List.length_cons]
    rcases hb : ballots cfg (.init n ms) h i a with _ | _ | _
    all_goals simp only [reduceCtorEq, decide_false, decide_true, Bool.false_eq_true, if_false, if_true, List.length_cons,
      Option.some.injEq, Bool.true_eq_false]
    all_goals omega

theorem prime_any {v : Motion} (hv : v ∈ (run cfg (.init n ms) h).motions) :
    ((run cfg (.init n ms) h).prime.any fun p => decide (p ∈ v.ayes)) = true ↔ PrimeApproves cfg (.init n ms) h v.index := by
  have hi := inv cfg n ms h
  unfold PrimeApproves
  cases (run cfg (.init n ms) h).prime with
  | none => simp
  | some p => simp [(hi.ayes v hv).2 p]

end

/-! ## Closing -/

/-- What closing does, in terms of the ballots. -/
inductive Closed (cfg : Config) (bal : AccountId → Balance) (s : State) (v : Motion) (yes no : Nat) (prime : Prop) :
    Option State → Prop
  | approved (h : v.threshold ≤ yes) : Closed cfg bal s v yes no prime (some (approve cfg bal s v yes))
  | rejected (h : ¬ v.threshold ≤ yes) (h' : s.members.length - no < v.threshold) :
      Closed cfg bal s v yes no prime (some (remove cfg s (cfg.hash v.request)))
  | prime (h : ¬ v.threshold ≤ yes) (h' : ¬ s.members.length - no < v.threshold) (hu : v.until_ ≤ s.chain.block) (hp : prime) :
      Closed cfg bal s v yes no prime (some (approve cfg bal s v (s.members.length - no)))
  | lapsed (h : ¬ v.threshold ≤ yes) (h' : ¬ s.members.length - no < v.threshold) (hu : v.until_ ≤ s.chain.block)
      (hp : ¬ prime) : Closed cfg bal s v yes no prime (some (remove cfg s (cfg.hash v.request)))
  | early (h : ¬ v.threshold ≤ yes) (h' : ¬ s.members.length - no < v.threshold) (hu : ¬ v.until_ ≤ s.chain.block) :
      Closed cfg bal s v yes no prime none

theorem close_spec {cfg : Config} {n : Nat} {ms : List AccountId} {h : List Step} (hp : Proper ms h)
    {v : Motion} (hv : v ∈ (run cfg (.init n ms) h).motions) (bal : AccountId → Balance) :
    Closed cfg bal (run cfg (.init n ms) h) v (approvals cfg (.init n ms) h v.index)
      (rejections cfg (.init n ms) h v.index) (PrimeApproves cfg (.init n ms) h v.index)
      (close cfg bal (run cfg (.init n ms) h) (cfg.hash v.request) v.index) := by
  have hle := votes_le (cfg := cfg) (n := n) (ms := ms) (h := h) v.index
  have hpa := prime_any hv
  have hf := (inv cfg n ms h).find hv
  rw [← ayes_length hp hv, ← nays_length hp hv] at *
  generalize run cfg (.init n ms) h = s at *
  simp only [close, Option.bind_eq_bind]
  rw [hf]
  simp only [Option.bind_some, if_true]
  by_cases h1 : v.threshold ≤ v.ayes.length
  · rw [if_pos h1]; exact .approved h1
  · rw [if_neg h1]
    by_cases h2 : s.members.length - v.nays.length < v.threshold
    · rw [if_pos h2]; exact .rejected h1 h2
    · rw [if_neg h2]
      by_cases h3 : v.until_ ≤ s.chain.block
      · rw [if_pos h3]
        by_cases h4 : (s.prime.any fun p => decide (p ∈ v.ayes)) = true
        · have e : v.ayes.length + (s.members.length - (v.ayes.length + v.nays.length)) = s.members.length - v.nays.length := by
            omega
          rw [if_pos h4, e, if_pos (by omega)]
          exact .prime h1 h2 h3 (hpa.1 h4)
        · rw [if_neg h4, if_neg h1]
          exact .lapsed h1 h2 h3 (fun h => h4 (hpa.2 h))
      · rw [if_neg h3]; exact .early h1 h2 h3

theorem close_none {cfg : Config} {s : State} {bal hh i} (h : ∀ v ∈ s.motions, cfg.hash v.request = hh → v.index ≠ i) :
    close cfg bal s hh i = none := by
  simp only [close, Option.bind_eq_bind]
  rcases Option.eq_none_or_eq_some (find cfg s hh) with hf | ⟨v, hf⟩
  · rw [hf]; rfl
  · rw [hf]
    simp only [Option.bind_some]
    rw [if_neg (h v (find_hash hf).2 (find_hash hf).1)]

/-! ## Which steps change the registries -/

/-- The steps that may change the registries of providers and schemas. -/
inductive Change (cfg : Config) (n : Nat) (ms : List AccountId) (h : List Step) (s : State) (e : Step) (t : State) : Prop
  | quiet (hp : t.chain.msa.providers = s.chain.msa.providers) (hs : t.chain.schemas = s.chain.schemas)
  | root (bal : AccountId → Balance) (c : Call) (he : e = .root bal c)
  | upgrade (known : List (SchemaId × Bytes)) (he : e = .upgrade known) (hp : t.chain.msa.providers = s.chain.msa.providers)
  | own (bal : AccountId → Balance) (who : AccountId) (thr : Nat) (r : Request) (he : e = .signed bal who (.propose thr r))
      (hw : who ∈ s.members) (ht : t.chain = (carryOut cfg bal s 1 s.members.length r).chain)
  | closed (bal : AccountId → Balance) (who : AccountId) (v : Motion) (y : Nat)
      (he : e = .signed bal who (.close (cfg.hash v.request) v.index)) (hv : v ∈ s.motions)
      (ht : t.chain = (carryOut cfg bal s y s.members.length v.request).chain)
      (hy : y = approvals cfg (.init n ms) h v.index ∨ (PrimeApproves cfg (.init n ms) h v.index ∧
        v.until_ ≤ s.chain.block ∧ y = s.members.length - rejections cfg (.init n ms) h v.index))

theorem proposeProposed_chain {cfg : Config} {s t : State} {thr r} (h : proposeProposed cfg s thr r = some t) :
    t.chain = s.chain := by
  unfold proposeProposed at h
  split at h
  · cases h; rfl
  · cases h

theorem change (cfg : Config) (n : Nat) (ms : List AccountId) (h : List Step) (hp : Proper ms h) (e : Step) :
    Change cfg n ms h (run cfg (.init n ms) h) e (run cfg (.init n ms) (h ++ [e])) := by
  rw [run_snoc]
  have hcl := fun v hv bal => close_spec (cfg := cfg) (n := n) (v := v) hp hv bal
  generalize run cfg (.init n ms) h = s at *
  have quiet : ∀ {t : State}, t.chain = s.chain → Change cfg n ms h s e t := fun h =>
    .quiet (congrArg (fun x => x.msa.providers) h) (congrArg (fun x => x.schemas) h)
  cases e with
  | newBlock => exact .quiet rfl rfl
  | charge key fee =>
    simp only [apply]
    cases hc : Chain.charge s.chain key fee with
    | none => exact .quiet rfl rfl
    | some t =>
      simp only [Chain.charge, Option.bind_eq_bind, Option.bind_eq_some_iff] at hc
      obtain ⟨_, _, _, _, hc⟩ := hc
      cases hc
      exact .quiet rfl rfl
  | upgrade known => exact .upgrade known rfl rfl
  | root bal c => exact .root bal c rfl
  | signed bal who c =>
    simp only [apply]
    rcases Option.eq_none_or_eq_some (signed cfg bal s who c) with hs | ⟨t, hs⟩
    · rw [hs]; exact quiet rfl
    · rw [hs]
      simp only [Option.getD_some]
      cases c with
      | chain c =>
        simp only [signed] at hs
        split at hs
        · split at hs
          · split at hs
            · exact quiet (proposeProposed_chain hs)
            · cases hs
          · obtain ⟨t', hd, rfl⟩ := Option.map_eq_some_iff.1 hs
            have := signed_quiet (by assumption) hd
            exact .quiet this.1 this.2
        · cases hs
      | proposeSchema _ _ _ _ =>
        simp only [signed] at hs
        split at hs
        · exact quiet (proposeProposed_chain hs)
        · cases hs
      | proposeSchemaV2 _ _ _ _ _ =>
        simp only [signed] at hs
        split at hs
        · exact quiet (proposeProposed_chain hs)
        · cases hs
      | proposeName _ _ =>
        simp only [signed] at hs
        split at hs
        · exact quiet (proposeProposed_chain hs)
        · cases hs
      | propose thr r =>
        simp only [signed, propose] at hs
        split at hs
        · rename_i hw
          split at hs
          · split at hs
            · cases hs
              exact .own bal who thr r rfl hw rfl
            · cases hs
          · exact quiet (proposeProposed_chain hs)
        · cases hs
      | vote hh i ok =>
        simp only [signed, vote] at hs
        split at hs
        · simp only [Option.bind_eq_bind, Option.bind_eq_some_iff] at hs
          obtain ⟨v, _, hs⟩ := hs
          split at hs
          · simp only [Option.bind_eq_some_iff] at hs
            obtain ⟨w, _, hs⟩ := hs
            cases hs
            exact quiet rfl
          · cases hs
        · cases hs
      | close hh i =>
        have hs : close cfg bal s hh i = some t := hs
        by_cases hex : ∃ v ∈ s.motions, cfg.hash v.request = hh ∧ v.index = i
        · obtain ⟨v, hv, rfl, rfl⟩ := hex
          have hcl := hcl v hv bal
          rw [hs] at hcl
          generalize ho : some t = ot at hcl
          cases hcl with
          | approved _ => cases ho; exact .closed bal who v _ rfl hv rfl (.inl rfl)
          | rejected _ _ => cases ho; exact quiet rfl
          | prime _ _ hu hpr => cases ho; exact .closed bal who v _ rfl hv rfl (.inr ⟨hpr, hu, rfl⟩)
          | lapsed _ _ _ _ => cases ho; exact quiet rfl
          | early _ _ _ => cases ho
        · rw [close_none (fun v hv e1 e2 => hex ⟨v, hv, e1, e2⟩)] at hs
          cases hs
      | setMembers _ _ => cases hs
      | disapprove _ => cases hs

theorem prime_counts {cfg : Config} {n : Nat} {ms : List AccountId} {h : List Step} {i : Nat}
    (hp : PrimeApproves cfg (.init n ms) h i) : 1 ≤ approvals cfg (.init n ms) h i := by
  obtain ⟨p, _, hb⟩ := hp
  refine List.length_pos_of_mem (a := p) (List.mem_filter.2 ⟨((inv cfg n ms h).known i p (by rw [hb]; simp)).2, ?_⟩)
  rw [hb]
  rfl

/-! ## C117 -/

/-- C117, providers: somebody new is a provider only if root made it so, or a member of the council did so
themselves, or a motion that asked for this very account to be a provider was closed and at least one of the present
members had voted for it. -/
theorem C117_providers (cfg : Config) (n : Nat) (ms : List AccountId) (h : List Step) (hp : Proper ms h) (e : Step)
    (m : MsaId) :
    let s := run cfg (.init n ms) h
    let t := run cfg (.init n ms) (h ++ [e])
    Msa.isRegisteredProvider s.chain.msa m = false → Msa.isRegisteredProvider t.chain.msa m = true →
    (∃ bal c, e = .root bal c) ∨
    ∃ bal who k name, Chain.msaOf s.chain k = some m ∧
      ((∃ thr, e = .signed bal who (.propose thr (.call (.msa (.createProviderViaGovernance k name)))) ∧ who ∈ s.members) ∨
      ∃ hash i thr last, e = .signed bal who (.close hash i) ∧
        IsMotion cfg s hash i (.call (.msa (.createProviderViaGovernance k name))) thr last ∧
        1 ≤ approvals cfg (.init n ms) h i) := by
  intro s t h0 h1
  have hne : t.chain.msa.providers ≠ s.chain.msa.providers := by
    intro heq
    unfold Msa.isRegisteredProvider at h0 h1
    rw [heq, h0] at h1
    cases h1
  have hnew : ∀ p name, t.chain.msa.providers = s.chain.msa.providers.insert p name → p = m := by
    intro p name heq
    unfold Msa.isRegisteredProvider at h0 h1
    rw [heq, SMap.contains_iff] at h1
    simp only [SMap.get_insert] at h1
    by_contra hpm
    simp only [if_neg hpm] at h1
    rw [← SMap.contains_iff, h0] at h1
    cases h1
  have hc : Change cfg n ms h s e t := change cfg n ms h hp e
  cases hc with
  | quiet hp _ => exact absurd hp hne
  | root bal c he => exact .inl ⟨bal, c, he⟩
  | upgrade _ _ hp => exact absurd hp hne
  | own bal who thr r he hw ht =>
    rw [ht] at hne hnew
    rcases carryOut_providers cfg bal s 1 s.members.length r with hh | ⟨_, k, name, p, rfl, hk, hh⟩
    · exact absurd hh hne
    · have := hnew p name hh
      subst this
      exact .inr ⟨bal, who, k, name, hk, .inl ⟨thr, he, hw⟩⟩
  | closed bal who v y he hv ht hy =>
    rw [ht] at hne hnew
    rcases carryOut_providers cfg bal s y s.members.length v.request with hh | ⟨hy1, k, name, p, hr, hk, hh⟩
    · exact absurd hh hne
    · have := hnew p name hh
      subst this
      refine .inr ⟨bal, who, k, name, hk, .inr ⟨_, _, v.threshold, v.until_, he, ⟨v, hv, rfl, hr, by rw [hr], rfl, rfl⟩, ?_⟩⟩
      rcases hy with rfl | ⟨hpr, _⟩
      · exact hy1
      · exact prime_counts hpr

/-- C117, schemas and their names: what can be read of them changes only if root makes it so or an upgrade of the runtime
does, or the only member of the council does so, or a motion for a call of the schemas pallet is closed and either more
than half of the present members voted for it, or its time was over, the prime member voted for it and less than half
of the members voted against it. -/
theorem C117_schemas (cfg : Config) (n : Nat) (ms : List AccountId) (h : List Step) (hp : Proper ms h) (e : Step) :
    let s := run cfg (.init n ms) h
    let t := run cfg (.init n ms) (h ++ [e])
    ((∃ id, Schemas.getSchemaById t.chain.schemas id ≠ Schemas.getSchemaById s.chain.schemas id) ∨
      (∃ name, Schemas.getSchemaVersions t.chain.schemas name ≠ Schemas.getSchemaVersions s.chain.schemas name) ∨
      t.chain.schemas.maxBytes ≠ s.chain.schemas.maxBytes) →
    (∃ bal c, e = .root bal c) ∨ (∃ known, e = .upgrade known) ∨
    ∃ bal who c,
      (∃ thr, e = .signed bal who (.propose thr (.call (.schemas c))) ∧ s.members = [who]) ∨
      ∃ hash i thr last, e = .signed bal who (.close hash i) ∧ IsMotion cfg s hash i (.call (.schemas c)) thr last ∧
        (s.members.length < 2 * approvals cfg (.init n ms) h i ∨
          (last ≤ s.chain.block ∧ PrimeApproves cfg (.init n ms) h i ∧
            2 * rejections cfg (.init n ms) h i < s.members.length)) := by
  intro s t hd
  have hne : t.chain.schemas ≠ s.chain.schemas := by
    intro heq
    rw [heq] at hd
    rcases hd with ⟨_, hd⟩ | ⟨_, hd⟩ | hd <;> exact hd rfl
  have hc : Change cfg n ms h s e t := change cfg n ms h hp e
  cases hc with
  | quiet _ hs => exact absurd hs hne
  | root bal c he => exact .inl ⟨bal, c, he⟩
  | upgrade known he _ => exact .inr (.inl ⟨known, he⟩)
  | own bal who thr r he hw ht =>
    rw [ht] at hne
    rcases carryOut_schemas cfg bal s 1 s.members.length r with hh | ⟨hm, c, rfl⟩
    · exact absurd hh hne
    · refine .inr (.inr ⟨bal, who, c, .inl ⟨thr, he, ?_⟩⟩)
      have hlen := List.length_pos_of_mem hw
      obtain ⟨a, ha⟩ := List.length_eq_one_iff.1 (show s.members.length = 1 by omega)
      rw [ha] at hw ⊢
      rw [List.mem_singleton.1 hw]
  | closed bal who v y he hv ht hy =>
    rw [ht] at hne
    rcases carryOut_schemas cfg bal s y s.members.length v.request with hh | ⟨hm, c, hr⟩
    · exact absurd hh hne
    · refine .inr (.inr ⟨bal, who, c, .inr ⟨_, _, v.threshold, v.until_, he, ⟨v, hv, rfl, hr, by rw [hr], rfl, rfl⟩, ?_⟩⟩)
      rcases hy with rfl | ⟨hpr, hu, rfl⟩
      · exact .inl (by omega)
      · exact .inr ⟨hu, hpr, by omega⟩

/-! ## C120 -/

/-- Who sits on the council, and who is its prime member, is changed only by root, and becomes what root says. -/
theorem C117_members (cfg : Config) (s : State) (e : Step)
    (hd : (apply cfg s e).members ≠ s.members ∨ (apply cfg s e).prime ≠ s.prime) :
    ∃ bal new prime, e = .root bal (.setMembers new prime) ∧ (apply cfg s e).members = new ∧
      (apply cfg s e).prime = prime := by
  by_cases he : ∃ bal new prime, e = .root bal (.setMembers new prime)
  · obtain ⟨bal, new, prime, rfl⟩ := he
    exact ⟨bal, new, prime, rfl, rfl, rfl⟩
  · exfalso
    have key : (apply cfg s e).members = s.members ∧ (apply cfg s e).prime = s.prime := by
      have hpp : ∀ {thr r t}, proposeProposed cfg s thr r = some t → t.members = s.members ∧ t.prime = s.prime := by
        intro thr r t h
        unfold proposeProposed at h
        split at h
        · cases h; exact ⟨rfl, rfl⟩
        · cases h
      have hco : ∀ bal y m r, (carryOut cfg bal s y m r).members = s.members ∧ (carryOut cfg bal s y m r).prime = s.prime := by
        intro bal y m r
        unfold carryOut
        split
        · split <;> exact ⟨rfl, rfl⟩
        · exact ⟨rfl, rfl⟩
      have hsig : ∀ bal who c t, signed cfg bal s who c = some t → t.members = s.members ∧ t.prime = s.prime := by
        intro bal who c t h
        cases c with
        | chain c =>
          simp only [signed] at h
          split at h
          · split at h
            · split at h
              · exact hpp h
              · cases h
            · obtain ⟨u, _, rfl⟩ := Option.map_eq_some_iff.1 h
              exact ⟨rfl, rfl⟩
          · cases h
        | proposeSchema model mt loc settings =>
          simp only [signed] at h
          split at h
          · exact hpp h
          · cases h
        | proposeSchemaV2 model mt loc settings name =>
          simp only [signed] at h
          split at h
          · exact hpp h
          · cases h
        | proposeName id name =>
          simp only [signed] at h
          split at h
          · exact hpp h
          · cases h
        | propose thr r =>
          simp only [signed, propose] at h
          split at h
          · split at h
            · split at h
              · cases h; exact hco ..
              · cases h
            · exact hpp h
          · cases h
        | vote hh i b =>
          simp only [signed, vote, Option.bind_eq_bind] at h
          split at h
          · obtain ⟨v, _, h⟩ := Option.bind_eq_some_iff.1 h
            split at h
            · obtain ⟨w, _, h⟩ := Option.bind_eq_some_iff.1 h
              cases h; exact ⟨rfl, rfl⟩
            · cases h
          · cases h
        | close hh i =>
          simp only [signed, close, Option.bind_eq_bind] at h
          obtain ⟨v, _, h⟩ := Option.bind_eq_some_iff.1 h
          generalize (if (s.prime.any fun p => decide (p ∈ v.ayes)) = true then
            v.ayes.length + (s.members.length - (v.ayes.length + v.nays.length)) else v.ayes.length) = y at h
          split at h
          · split at h
            · cases h; exact hco ..
            · split at h
              · cases h; exact ⟨rfl, rfl⟩
              · split at h
                · split at h
                  · cases h; exact hco ..
                  · cases h; exact ⟨rfl, rfl⟩
                · cases h
          · cases h
        | setMembers new prime => cases h
        | disapprove hh => cases h
      cases e with
      | newBlock => exact ⟨rfl, rfl⟩
      | charge => exact ⟨rfl, rfl⟩
      | upgrade => exact ⟨rfl, rfl⟩
      | signed bal who c =>
        simp only [apply]
        rcases Option.eq_none_or_eq_some (signed cfg bal s who c) with h | ⟨t, h⟩
        · rw [h]; exact ⟨rfl, rfl⟩
        · rw [h]; exact hsig bal who c t h
      | root bal c =>
        cases c with
        | chain c =>
          simp only [apply, root]
          cases Chain.dispatch cfg.chain bal s.chain .root c <;> exact ⟨rfl, rfl⟩
        | setMembers new prime => exact absurd ⟨bal, new, prime, rfl⟩ he
        | disapprove hh => exact ⟨rfl, rfl⟩
        | _ => exact ⟨rfl, rfl⟩
    rcases hd with hd | hd
    · exact hd key.1
    · exact hd key.2

/-- C120, votes: on a motion count exactly the last votes of the present members; who has left, or came back without
voting again, does not count. -/
theorem C120_votes (cfg : Config) (n : Nat) (ms : List AccountId) (h : List Step) (v : Motion)
    (hv : v ∈ (run cfg (.init n ms) h).motions) :
    v.ayes.Nodup ∧ v.nays.Nodup ∧
    (∀ a, a ∈ v.ayes ↔ ballots cfg (.init n ms) h v.index a = some true) ∧
    (∀ a, a ∈ v.nays ↔ ballots cfg (.init n ms) h v.index a = some false) ∧
    ∀ a, ballots cfg (.init n ms) h v.index a ≠ none → a ∈ (run cfg (.init n ms) h).members := by
  have hi := inv cfg n ms h
  exact ⟨(hi.ayes v hv).1, (hi.nays v hv).1, (hi.ayes v hv).2, (hi.nays v hv).2, fun a ha => (hi.known _ a ha).2⟩

/-- A motion after a step was there before, or is the one the step asks for. -/
theorem motion_step {cfg : Config} {s : State} {e : Step} {v : Motion} (hv : v ∈ (apply cfg s e).motions) {b : Ballots}
    (hi : Inv cfg s b) :
    (∃ u ∈ s.motions, v.index = u.index ∧ v.request = u.request ∧ v.threshold = u.threshold ∧ v.until_ = u.until_) ∨
    (asks s e = some (v.request, v.threshold) ∧ v.index = s.count ∧ v.until_ = s.chain.block + cfg.duration ∧
      (apply cfg s e).count = s.count + 1) := by
  have he := apply_eff cfg s e
  generalize apply cfg s e = t at he hv
  cases he with
  | same h _ => exact .inl ⟨v, h.motions ▸ hv, rfl, rfl, rfl, rfl⟩
  | add r thr ha _ _ _ _ hs hc _ =>
    rw [hs] at hv
    rcases List.mem_append.1 hv with hv | hv
    · exact .inl ⟨v, hv, rfl, rfl, rfl, rfl⟩
    · rw [List.mem_singleton.1 hv]
      exact .inr ⟨ha, rfl, rfl, hc⟩
  | vote v' w who ok _ hf hw _ _ _ hs _ =>
    rw [hs] at hv
    obtain ⟨u, hu, rfl⟩ := List.mem_map.1 hv
    refine .inl ⟨u, hu, ?_⟩
    split
    · rename_i e
      have := hi.hash_inj hu (find_hash hf).2 e
      subst this
      exact vote_same hw
    · exact ⟨rfl, rfl, rfl, rfl⟩
  | remove h _ _ _ hs _ _ =>
    rw [hs] at hv
    exact .inl ⟨v, (List.mem_filter.1 hv).1, rfl, rfl, rfl, rfl⟩
  | set _ new prime _ ht =>
    subst ht
    obtain ⟨u, hu, rfl⟩ := List.mem_map.1 hv
    exact .inl ⟨u, hu, rfl, rfl, rfl, rfl⟩

theorem count_mono (cfg : Config) (s : State) (e : Step) : s.count ≤ (apply cfg s e).count := by
  have he := apply_eff cfg s e
  generalize apply cfg s e = t at he
  cases he with
  | same h _ => rw [h.count]
  | add _ _ _ _ _ _ _ _ hc _ => omega
  | vote _ _ _ _ _ _ _ _ _ hc _ _ => rw [hc]
  | remove _ _ _ hc _ _ _ => rw [hc]
  | set _ _ _ _ ht => subst ht; exact le_refl _

/-- C120, motions: a motion on the table was asked for once, by a step that had its number, and stands as asked: the
request, the votes it takes and the block until which it waits. -/
theorem C120_motions (cfg : Config) (n : Nat) (ms : List AccountId) (h : List Step) (v : Motion)
    (hv : v ∈ (run cfg (.init n ms) h).motions) :
    ∃ h1 e h2, h = h1 ++ e :: h2 ∧ v.index = (run cfg (.init n ms) h1).count ∧
      (run cfg (.init n ms) (h1 ++ [e])).count = v.index + 1 ∧
      asks (run cfg (.init n ms) h1) e = some (v.request, v.threshold) ∧
      v.until_ = (run cfg (.init n ms) h1).chain.block + cfg.duration := by
  induction h using List.reverseRecOn generalizing v with
  | nil => exact absurd hv List.not_mem_nil
  | append_singleton h e ih =>
    rw [run_snoc] at hv
    rcases motion_step hv (inv cfg n ms h) with ⟨u, hu, e1, e2, e3, e4⟩ | ⟨ha, hi, hu, hc⟩
    · obtain ⟨h1, e', h2, rfl, g1, g2, g3, g4⟩ := ih u hu
      exact ⟨h1, e', h2 ++ [e], by simp, e1.trans g1, by rw [e1]; exact g2, by rw [e2, e3]; exact g3, e4.trans g4⟩
    · exact ⟨h, e, [], rfl, hi, by rw [run_snoc, hc, hi], ha, hu⟩

/-- The other way round: what a step asked for is what the motion with its number is, as long as it is there. -/
theorem asked_motion {cfg : Config} {n : Nat} {ms : List AccountId} {h1 : List Step} {e : Step}
    (hc : (run cfg (.init n ms) (h1 ++ [e])).count = (run cfg (.init n ms) h1).count + 1) {r : Request} {thr : Nat}
    (ha : asks (run cfg (.init n ms) h1) e = some (r, thr)) (h2 : List Step) {v : Motion}
    (hv : v ∈ (run cfg (.init n ms) (h1 ++ e :: h2)).motions) (hi : v.index = (run cfg (.init n ms) h1).count) :
    v.request = r ∧ v.threshold = thr ∧ v.until_ = (run cfg (.init n ms) h1).chain.block + cfg.duration := by
  have hmono : ∀ l, (run cfg (.init n ms) h1).count < (run cfg (.init n ms) (h1 ++ e :: l)).count := by
    intro l
    induction l using List.reverseRecOn with
    | nil => omega
    | append_singleton l x ih =>
      have : h1 ++ e :: (l ++ [x]) = (h1 ++ e :: l) ++ [x] := by simp
      rw [this, run_snoc]
      exact lt_of_lt_of_le ih (count_mono ..)
  induction h2 using List.reverseRecOn generalizing v with
  | nil =>
    rw [run_snoc] at hv
    rcases motion_step hv (inv cfg n ms h1) with ⟨u, hu, e1, _⟩ | ⟨ha', _, hu, _⟩
    · have := (inv cfg n ms h1).below u hu
      omega
    · rw [ha'] at ha
      cases ha
      exact ⟨rfl, rfl, hu⟩
  | append_singleton l x ih =>
    have heq : h1 ++ e :: (l ++ [x]) = (h1 ++ e :: l) ++ [x] := by simp
    rw [heq, run_snoc] at hv
    rcases motion_step hv (inv cfg n ms _) with ⟨u, hu, e1, e2, e3, e4⟩ | ⟨_, hi', _, _⟩
    · rw [e2, e3, e4]
      exact ih hu (e1.symm.trans hi)
    · have := hmono l
      omega

theorem gone {cfg : Config} {n : Nat} {ms : List AccountId} {h : List Step} {i : Nat}
    (hi : i < (run cfg (.init n ms) h).count) (hv : ∀ v ∈ (run cfg (.init n ms) h).motions, v.index ≠ i) (l : List Step) :
    ∀ v ∈ (run cfg (.init n ms) (h ++ l)).motions, v.index ≠ i := by
  have hmono : ∀ l, i < (run cfg (.init n ms) (h ++ l)).count := by
    intro l
    induction l using List.reverseRecOn with
    | nil => rw [List.append_nil]; exact hi
    | append_singleton l x ih =>
      rw [← List.append_assoc, run_snoc]
      exact lt_of_lt_of_le ih (count_mono ..)
  induction l using List.reverseRecOn with
  | nil => rw [List.append_nil]; exact hv
  | append_singleton l x ih =>
    intro v hm
    rw [← List.append_assoc, run_snoc] at hm
    rcases motion_step hm (inv cfg n ms _) with ⟨u, hu, e1, _⟩ | ⟨_, hi', _, _⟩
    · rw [e1]; exact ih u hu
    · have := hmono l
      omega

/-- C120, once: a motion that was closed, whatever came of it, is never there again, so that nothing is carried out twice
on the same votes. -/
theorem C120_once (cfg : Config) (n : Nat) (ms : List AccountId) (h : List Step) (bal : AccountId → Balance)
    (who : AccountId) (hash i : Nat) (hc : (signed cfg bal (run cfg (.init n ms) h) who (.close hash i)).isSome = true)
    (l : List Step) :
    let s := run cfg (.init n ms) (h ++ [.signed bal who (.close hash i)] ++ l)
    (∀ v ∈ s.motions, v.index ≠ i) ∧ ∀ bal' who' hash', signed cfg bal' s who' (.close hash' i) = none := by
  intro s
  have key : ∀ v ∈ s.motions, v.index ≠ i := by
    obtain ⟨t, ht⟩ := Option.isSome_iff_exists.1 hc
    have hv0 := inv cfg n ms h
    have ha : apply cfg (run cfg (.init n ms) h) (.signed bal who (.close hash i)) = t := by simp only [apply]; rw [ht]; rfl
    have ht : close cfg bal (run cfg (.init n ms) h) hash i = some t := ht
    by_cases hex : ∃ v ∈ (run cfg (.init n ms) h).motions, cfg.hash v.request = hash ∧ v.index = i
    · obtain ⟨v, hv, rfl, rfl⟩ := hex
      have hrem : t.motions = (run cfg (.init n ms) h).motions.filter (fun u => cfg.hash u.request != cfg.hash v.request) := by
        simp only [close, Option.bind_eq_bind, hv0.find hv, Option.bind_some, if_true] at ht
        split at ht
        · cases ht; simp only [approve, remove]; rw [(carryOut_same ..).motions]
        · split at ht
          · cases ht; rfl
          · split at ht
            · generalize (if ((run cfg (.init n ms) h).prime.any fun p => decide (p ∈ v.ayes)) = true then
                v.ayes.length + ((run cfg (.init n ms) h).members.length - (v.ayes.length + v.nays.length))
                else v.ayes.length) = y at ht
              split at ht
              · cases ht; simp only [approve, remove]; rw [(carryOut_same ..).motions]
              · cases ht; rfl
            · cases ht
      refine gone (h := h ++ [_]) ?_ ?_ l
      · rw [run_snoc]
        exact lt_of_lt_of_le (hv0.below v hv) (count_mono ..)
      · intro u hu
        rw [run_snoc, ha, hrem] at hu
        obtain ⟨hu, hne⟩ := List.mem_filter.1 hu
        intro e
        rw [hv0.index_inj hu hv e] at hne
        simp at hne
    · rw [close_none (fun v hv e1 e2 => hex ⟨v, hv, e1, e2⟩)] at ht
      cases ht
  exact ⟨key, fun _ _ _ => close_none (fun v hv _ => key v hv)⟩

/-- C120, stays: only closing this motion or root's disapproval of it takes a motion away. -/
theorem C120_stays (cfg : Config) (n : Nat) (ms : List AccountId) (h : List Step) (e : Step) (v : Motion)
    (hv : v ∈ (run cfg (.init n ms) h).motions)
    (hc : ∀ bal who, e ≠ .signed bal who (.close (cfg.hash v.request) v.index))
    (hd : ∀ bal, e ≠ .root bal (.disapprove (cfg.hash v.request))) :
    ∃ w ∈ (run cfg (.init n ms) (h ++ [e])).motions, w.index = v.index ∧ w.request = v.request ∧
      w.threshold = v.threshold ∧ w.until_ = v.until_ := by
  have hv0 := inv cfg n ms h
  rw [run_snoc]
  by_cases hr : ∃ hh, (apply cfg (run cfg (.init n ms) h) e).motions =
      (run cfg (.init n ms) h).motions.filter (fun u => cfg.hash u.request != hh) ∧
      ((∃ bal, e = .root bal (.disapprove hh)) ∨ ∃ bal who u, e = .signed bal who (.close hh u.index) ∧
        u ∈ (run cfg (.init n ms) h).motions ∧ cfg.hash u.request = hh)
  · obtain ⟨hh, hm, he⟩ := hr
    rw [hm]
    refine ⟨v, List.mem_filter.2 ⟨hv, ?_⟩, rfl, rfl, rfl, rfl⟩
    simp only [bne_iff_ne, ne_eq]
    rintro rfl
    rcases he with ⟨bal, he⟩ | ⟨bal, who, u, he, hu, hh⟩
    · exact hd bal he
    · rw [hv0.hash_inj hu hv hh] at he
      exact hc bal who he
  · have he := apply_eff cfg (run cfg (.init n ms) h) e
    cases he with
    | same h _ => exact ⟨v, h.motions ▸ hv, rfl, rfl, rfl, rfl⟩
    | add _ _ _ _ _ _ _ hs _ _ => rw [hs]; exact ⟨v, List.mem_append_left _ hv, rfl, rfl, rfl, rfl⟩
    | vote u w who ok _ hf hw _ _ _ hs _ =>
      rw [hs]
      refine ⟨_, List.mem_map.2 ⟨v, hv, rfl⟩, ?_⟩
      split
      · rename_i e
        have := hv0.hash_inj hv (find_hash hf).2 e
        subst this
        exact vote_same hw
      · exact ⟨rfl, rfl, rfl, rfl⟩
    | remove hh _ _ _ hs _ he =>
      exact absurd ⟨hh, hs, he⟩ hr
    | set _ new prime _ ht =>
      rw [ht]
      exact ⟨_, List.mem_map.2 ⟨v, hv, rfl⟩, rfl, rfl, rfl, rfl⟩

/-! ## C118 -/

/-- Some account asks for a schema or a name, through the calls of the schemas pallet. -/
def Step.forSchemas : Step → Bool
  | .signed _ _ (.proposeSchema _ _ _ _) | .signed _ _ (.proposeSchemaV2 _ _ _ _ _) | .signed _ _ (.proposeName _ _) => true
  | _ => false

/-- C118, the claim: a request for a schema or a name that more than half of the present members have voted for is carried
out when anybody closes the motion, if it can be carried out at all; and while members may still decide either way and
there is time, nobody can close it. -/
def C118_full : Prop :=
  ∀ (cfg : Config) (n : Nat) (ms : List AccountId) (h1 : List Step) (e : Step) (h2 : List Step) (hash thr : Nat)
    (c : Schemas.Call) (last : BlockNumber),
    Proper ms (h1 ++ e :: h2) → e.forSchemas = true → asks (run cfg (.init n ms) h1) e = some (.call (.schemas c), thr) →
    let i := (run cfg (.init n ms) h1).count
    let s := run cfg (.init n ms) (h1 ++ e :: h2)
    (run cfg (.init n ms) (h1 ++ [e])).count = i + 1 →
    IsMotion cfg s hash i (.call (.schemas c)) thr last →
    ∀ bal who,
    (s.members.length < 2 * approvals cfg (.init n ms) (h1 ++ e :: h2) i →
      ∀ t, Chain.dispatch cfg.chain bal s.chain .council (.schemas c) = some t →
      (apply cfg s (.signed bal who (.close hash i))).chain = t) ∧
    (2 * approvals cfg (.init n ms) (h1 ++ e :: h2) i ≤ s.members.length →
      2 * rejections cfg (.init n ms) (h1 ++ e :: h2) i < s.members.length → s.chain.block < last →
      signed cfg bal s who (.close hash i) = none)

theorem approve_call {cfg : Config} {bal : AccountId → Balance} {s : State} {y : Nat} {c : Chain.Call} {o : Chain.Origin}
    {t : Chain.State} (ho : membersOrigin y s.members.length = some o) (hd : Chain.dispatch cfg.chain bal s.chain o c = some t) :
    (carryOut cfg bal s y s.members.length (.call c)).chain = t := by
  simp only [carryOut, ho, Option.bind_some, hd]

/-- C118 as long as the council has as many members as when the request was made. In addition: after the time the
motion goes as the prime member voted, and a motion that half of the members have voted against is dropped. -/
theorem C118_schemas_partial (cfg : Config) (n : Nat) (ms : List AccountId) (h1 : List Step) (e : Step) (h2 : List Step)
    (hash thr : Nat) (c : Schemas.Call) (last : BlockNumber) (hp : Proper ms (h1 ++ e :: h2)) (he : e.forSchemas = true)
    (ha : asks (run cfg (.init n ms) h1) e = some (.call (.schemas c), thr)) :
    let i := (run cfg (.init n ms) h1).count
    let s := run cfg (.init n ms) (h1 ++ e :: h2)
    (run cfg (.init n ms) (h1 ++ [e])).count = i + 1 →
    IsMotion cfg s hash i (.call (.schemas c)) thr last →
    s.members.length = (run cfg (.init n ms) h1).members.length →
    ∀ bal who,
    let yes := approvals cfg (.init n ms) (h1 ++ e :: h2) i
    let no := rejections cfg (.init n ms) (h1 ++ e :: h2) i
    let t := apply cfg s (.signed bal who (.close hash i))
    let carriedOut := ∀ t', Chain.dispatch cfg.chain bal s.chain .council (.schemas c) = some t' → t.chain = t'
    (s.members.length < 2 * yes → carriedOut) ∧
    (2 * yes ≤ s.members.length → 2 * no < s.members.length → s.chain.block < last →
      signed cfg bal s who (.close hash i) = none) ∧
    (2 * yes ≤ s.members.length → s.members.length ≤ 2 * no → t = remove cfg s hash) ∧
    (2 * yes ≤ s.members.length → 2 * no < s.members.length → last ≤ s.chain.block →
      PrimeApproves cfg (.init n ms) (h1 ++ e :: h2) i → carriedOut) ∧
    (2 * yes ≤ s.members.length → last ≤ s.chain.block →
      ¬ PrimeApproves cfg (.init n ms) (h1 ++ e :: h2) i → t = remove cfg s hash) := by
  intro i s hc hm hlen bal who yes no t carriedOut
  obtain ⟨v, hv, hvi, hvr, rfl, hvt, hvu⟩ := hm
  have hthr : thr = s.members.length / 2 + 1 := by
    rw [hlen]
    unfold Step.forSchemas at he
    split at he <;> first | (cases he; done) | (simp only [asks, Option.some.injEq, Prod.mk.injEq] at ha; exact ha.2.symm)
  have hcl : Closed cfg bal s v _ _ _ (close cfg bal s _ _) := close_spec hp hv bal
  rw [hvi, hvr] at hcl
  have ht : t = (close cfg bal s (cfg.hash (.call (.schemas c))) i).getD s := rfl
  have hsig : signed cfg bal s who (.close (cfg.hash (.call (.schemas c))) i) = close cfg bal s (cfg.hash (.call (.schemas c))) i := rfl
  have hle : yes + no ≤ s.members.length := votes_le i
  rw [hsig]
  generalize hy : approvals cfg (.init n ms) (h1 ++ e :: h2) i = y at hcl
  generalize hn : rejections cfg (.init n ms) (h1 ++ e :: h2) i = no' at hcl
  have hy' : yes = y := hy
  have hn' : no = no' := hn
  clear_value yes no t
  subst hy' hn'
  have hcarry : ∀ z, s.members.length < 2 * z → t = approve cfg bal s v z → carriedOut := by
    intro z hz ht t' hd
    rw [ht]
    change (carryOut cfg bal s z s.members.length v.request).chain = t'
    rw [hvr]
    exact approve_call (o := .council) (by unfold membersOrigin; rw [if_pos (by omega)]) hd
  generalize close cfg bal s (cfg.hash (.call (.schemas c))) i = o at hcl ht
  cases hcl with
  | approved hth =>
    refine ⟨fun h => hcarry _ h ht, fun h => ?_, fun h => ?_, fun h => ?_, fun h => ?_⟩ <;> omega
  | rejected h1' h2' =>
    rw [hvr] at ht
    refine ⟨fun h => ?_, fun _ h => ?_, fun _ _ => ht, fun _ h => ?_, fun _ _ _ => ht⟩ <;> omega
  | prime h1' h2' hu hpr =>
    refine ⟨fun h => ?_, fun _ h h' => ?_, fun _ h => ?_, fun _ h h' hp => hcarry _ (by omega) ht, fun _ _ h => absurd hpr h⟩
    all_goals omega
  | lapsed h1' h2' hu hpr =>
    rw [hvr] at ht
    refine ⟨fun h => ?_, fun _ h h' => ?_, fun _ _ => ht, fun _ h h' hp => absurd hp hpr, fun _ _ _ => ht⟩
    all_goals omega
  | early h1' h2' hu =>
    refine ⟨fun h => ?_, fun _ h h' => rfl, fun _ h => ?_, fun _ h h' hp => ?_, fun _ h h' => ?_⟩
    all_goals omega

/-- C118 for providers, whatever becomes of the council: one vote of a present member is enough. -/
theorem C118_providers (cfg : Config) (n : Nat) (ms : List AccountId) (h1 : List Step) (bal0 : AccountId → Balance)
    (who : AccountId) (name : Bytes) (h2 : List Step) (hash thr : Nat) (last : BlockNumber) :
    let e := Step.signed bal0 who (.chain (.msa (.proposeToBeProvider name)))
    let r := Request.call (.msa (.createProviderViaGovernance who name))
    Proper ms (h1 ++ e :: h2) →
    let i := (run cfg (.init n ms) h1).count
    let s := run cfg (.init n ms) (h1 ++ e :: h2)
    (run cfg (.init n ms) (h1 ++ [e])).count = i + 1 →
    IsMotion cfg s hash i r thr last →
    1 ≤ approvals cfg (.init n ms) (h1 ++ e :: h2) i →
    ∀ bal closer t, Chain.dispatch cfg.chain bal s.chain .member (.msa (.createProviderViaGovernance who name)) = some t →
      (apply cfg s (.signed bal closer (.close hash i))).chain = t := by
  intro e r hp i s hc hm hy bal closer t hd
  obtain ⟨v, hv, hvi, hvr, rfl, hvt, hvu⟩ := hm
  obtain ⟨_, hthr, _⟩ := asked_motion hc rfl h2 hv hvi
  have hcl : Closed cfg bal s v _ _ _ (close cfg bal s _ _) := close_spec hp hv bal
  rw [hvi, hvr] at hcl
  change ((close cfg bal s (cfg.hash r) i).getD s).chain = t
  generalize close cfg bal s (cfg.hash r) i = o at hcl
  cases hcl with
  | approved hth =>
    change (carryOut cfg bal s _ s.members.length v.request).chain = t
    rw [hvr]
    by_cases hh : s.members.length < approvals cfg (.init n ms) (h1 ++ e :: h2) i * 2
    · exact approve_call (o := .council) (by unfold membersOrigin; rw [if_pos hh]) hd
    · exact approve_call (o := .member) (by unfold membersOrigin; rw [if_neg hh, if_pos hy]) hd
  | rejected h1' h2' => omega
  | prime h1' h2' hu hpr => omega
  | lapsed h1' h2' hu hpr => omega
  | early h1' h2' hu => omega

/-- A request that takes a single vote and comes from a member themselves needs no motion: it is carried out at once, with
the vote of this member alone behind it, unless the same lies before the council or it is too heavy. -/
theorem C118_alone (cfg : Config) (s : State) (bal : AccountId → Balance) (who : AccountId) (thr : Nat) (r : Request)
    (hthr : thr < 2) :
    let o := signed cfg bal s who (.propose thr r)
    (o.isSome = true ↔ who ∈ s.members ∧ cfg.light r = true ∧ ∀ v ∈ s.motions, cfg.hash v.request ≠ cfg.hash r) ∧
    ∀ t, o = some t → t.motions = s.motions ∧ t.count = s.count ∧
      ∀ c, r = .call c → t.chain = (Chain.dispatch cfg.chain bal s.chain
        (if s.members.length < 2 then .council else .member) c).getD s.chain := by
  intro o
  have hf : (find cfg s (cfg.hash r)).isNone = true ↔ ∀ v ∈ s.motions, cfg.hash v.request ≠ cfg.hash r := by
    unfold find
    rw [Option.isNone_iff_eq_none, List.find?_eq_none]
    simp
  have ho : o = if who ∈ s.members ∧ cfg.light r = true ∧ (find cfg s (cfg.hash r)).isNone = true then
      some (carryOut cfg bal s 1 s.members.length r) else none := by
    change propose cfg bal s who thr r = _
    unfold propose
    rw [if_pos hthr]
    by_cases hw : who ∈ s.members
    · simp only [hw, if_true, true_and]
    · simp only [hw, if_false, false_and]
  rw [ho, ← hf]
  by_cases h : who ∈ s.members ∧ cfg.light r = true ∧ (find cfg s (cfg.hash r)).isNone = true
  · rw [if_pos h]
    refine ⟨⟨fun _ => h, fun _ => rfl⟩, ?_⟩
    rintro t ⟨⟩
    refine ⟨(carryOut_same ..).motions, ?_, ?_⟩
    · unfold carryOut
      split
      · split <;> rfl
      · rfl
    · rintro c rfl
      have hm : membersOrigin 1 s.members.length = some (if s.members.length < 2 then .council else .member) := by
        unfold membersOrigin
        split
        · rfl
        · rfl
      simp only [carryOut, hm, Option.bind_some]
      cases Chain.dispatch cfg.chain bal s.chain (if s.members.length < 2 then .council else .member) c <;> rfl
  · rw [if_neg h]
    exact ⟨⟨fun e => (by cases e), fun e => absurd e h⟩, fun t e => (by cases e)⟩

/-! ## C119 -/

/-- C119, the claim: who may ask something of the council, and asks nothing that already lies before it, is heard. -/
def C119_full : Prop :=
  ∀ (cfg : Config) (n : Nat) (ms : List AccountId) (h : List Step) (bal : AccountId → Balance) (who : AccountId) (model : Bytes)
    (mt : Schemas.ModelType) (loc : Schemas.Location) (settings : List Schemas.Setting),
    Proper ms h → 0 < cfg.maxProposals → Decodable cfg.chain.schemas model settings none →
    let s := run cfg (.init n ms) h
    let r := Request.call (.schemas (.createViaGovernance who model mt loc settings))
    cfg.light r = true → (∀ v ∈ s.motions, cfg.hash v.request ≠ cfg.hash r) →
    (signed cfg bal s who (.proposeSchema model mt loc settings)).isSome = true

theorem proposeProposed_iff {cfg : Config} {s t : State} {thr r} :
    proposeProposed cfg s thr r = some t ↔
      cfg.light r = true ∧ (∀ v ∈ s.motions, cfg.hash v.request ≠ cfg.hash r) ∧ s.motions.length < cfg.maxProposals ∧
      t = { s with
        motions := s.motions ++ [⟨s.count, r, thr, [], [], s.chain.block + cfg.duration⟩], count := s.count + 1 } := by
  have hf : (find cfg s (cfg.hash r)).isNone = true ↔ ∀ v ∈ s.motions, cfg.hash v.request ≠ cfg.hash r := by
    unfold find
    rw [Option.isNone_iff_eq_none, List.find?_eq_none]
    simp
  unfold proposeProposed
  by_cases h : cfg.light r = true ∧ (find cfg s (cfg.hash r)).isNone ∧ s.motions.length < cfg.maxProposals
  · rw [if_pos h, Option.some.injEq]
    exact ⟨fun e => ⟨h.1, hf.1 h.2.1, h.2.2, e.symm⟩, fun e => e.2.2.2.symm⟩
  · rw [if_neg h]
    exact ⟨fun e => (by cases e), fun e => absurd ⟨e.1, hf.2 e.2.1, e.2.2.1⟩ h⟩

/-- What is lacking for somebody to be heard: their own conditions, that the call is light enough, that the same does not
lie before the council, and that there is room. Nothing else changes, and the motion comes last with the next number. -/
theorem C119_ask_partial (cfg : Config) (s t : State) (bal : AccountId → Balance) (who : AccountId) (c : Call) (r : Request)
    (thr : Nat) (ha : asks s (.signed bal who c) = some (r, thr)) (hc : ∀ thr r, c ≠ .propose thr r) :
    signed cfg bal s who c = some t ↔
      (match c with
        | .chain (.msa (.proposeToBeProvider name)) =>
          name.length ≤ cfg.chain.msa.maxNameSize ∧ ∃ m, Chain.msaOf s.chain who = some m
        | .proposeSchema model _ _ settings =>
          model.length ≤ cfg.chain.schemas.modelLimit ∧ settings.length ≤ cfg.chain.schemas.maxSettings
        | .proposeSchemaV2 model _ _ settings name =>
          model.length ≤ cfg.chain.schemas.modelLimit ∧ settings.length ≤ cfg.chain.schemas.maxSettings ∧
            ∀ b, name = some b → b.length ≤ 32
        | .proposeName id name =>
          name.length ≤ 32 ∧ (∃ info, s.chain.schemas.infos.get id = some info ∧ info.hasName = false) ∧
            ∃ nm, Schemas.tryParse name true = .ok nm
        | _ => False) ∧
      cfg.light r = true ∧ (∀ v ∈ s.motions, cfg.hash v.request ≠ cfg.hash r) ∧ s.motions.length < cfg.maxProposals ∧
      t = { s with
        motions := s.motions ++ [⟨s.count, r, thr, [], [], s.chain.block + cfg.duration⟩], count := s.count + 1 } := by
  have key : ∀ {P : Prop} [Decidable P] {Q : Prop} {o : Option State}, o = (if P then proposeProposed cfg s thr r else none) → (P ↔ Q) →
      (o = some t ↔ Q ∧ cfg.light r = true ∧ (∀ v ∈ s.motions, cfg.hash v.request ≠ cfg.hash r) ∧
        s.motions.length < cfg.maxProposals ∧ t = { s with
          motions := s.motions ++ [⟨s.count, r, thr, [], [], s.chain.block + cfg.duration⟩], count := s.count + 1 }) := by
    intro P _ Q o ho hpq
    rw [ho, ← hpq]
    by_cases hp : P
    · rw [if_pos hp, proposeProposed_iff]
      exact ⟨fun e => ⟨hp, e⟩, fun e => e.2⟩
    · rw [if_neg hp]
      exact ⟨fun e => (by cases e), fun e => absurd e.1 hp⟩
  cases c with
  | chain c =>
    cases c with
    | msa c =>
      cases c with
      | proposeToBeProvider name =>
        simp only [asks, Option.some.injEq, Prod.mk.injEq] at ha
        obtain ⟨rfl, rfl⟩ := ha
        refine key rfl ?_
        rw [Option.isSome_iff_exists]
      | _ => cases ha
    | _ => cases ha
  | proposeSchema model mt loc settings =>
    simp only [asks, Option.some.injEq, Prod.mk.injEq] at ha
    obtain ⟨rfl, rfl⟩ := ha
    refine key rfl ?_
    unfold Decodable
    simp
  | proposeSchemaV2 model mt loc settings name =>
    simp only [asks, Option.some.injEq, Prod.mk.injEq] at ha
    obtain ⟨rfl, rfl⟩ := ha
    refine key rfl ?_
    unfold Decodable
    simp
  | proposeName id name =>
    simp only [asks, Option.some.injEq, Prod.mk.injEq] at ha
    obtain ⟨rfl, rfl⟩ := ha
    refine key rfl (and_congr_right fun _ => ?_)
    unfold Schemas.parseAndVerify
    cases s.chain.schemas.infos.get id with
    | none => simp [okOr, bind, Except.bind, Except.isOk, Except.toBool]
    | some info =>
      cases hn : info.hasName <;> cases hp : Schemas.tryParse name true <;>
        simp [okOr, ensure, bind, Except.bind, Except.isOk, Except.toBool, hn]
  | propose thr r => exact absurd rfl (hc thr r)
  | vote _ _ _ => cases ha
  | close _ _ => cases ha
  | setMembers _ _ => cases ha
  | disapprove _ => cases ha

/-- No more motions than there is room for lie before the council. -/
theorem C119_room_partial (cfg : Config) (n : Nat) (ms : List AccountId) (h : List Step) :
    (run cfg (.init n ms) h).motions.length ≤ cfg.maxProposals := by
  induction h using List.reverseRecOn with
  | nil => exact Nat.zero_le _
  | append_singleton h e ih =>
    rw [run_snoc]
    have he := apply_eff cfg (run cfg (.init n ms) h) e
    generalize apply cfg (run cfg (.init n ms) h) e = t at he
    cases he with
    | same h _ => rw [h.motions]; exact ih
    | add _ _ _ _ _ _ hl hv _ _ => rw [hv, List.length_append]; exact hl
    | vote _ _ _ _ _ _ _ _ _ _ hs _ => rw [hs, List.length_map]; exact ih
    | remove _ _ _ _ hs _ _ => rw [hs]; exact le_trans (List.length_filter_le ..) ih
    | set _ _ _ _ ht => subst ht; simpa [setMembers] using ih

/-! ## Examples -/

/-- Room for 25 motions, which wait two blocks. Calls differ in their hash as they do in the key and the length of the
model. -/
def exCfg : Config where
  chain := Chain.exCfg
  hash
    | .call (.schemas (.createViaGovernance k model _ _ _)) => 1000 * k + 3 * model.length
    | .call (.msa (.createProviderViaGovernance k _)) => 1000 * k + 1
    | _ => 2
  light _ := true
  maxProposals := 25
  duration := 2

/-- A model. -/
def exModel (k : Nat) : Bytes := 123 :: List.replicate (10 + k) 0

/-- Key 10 with an account asks to be a provider (motion 0) and for a schema (motion 1). The council are 1, 2 and 3, of
which 1 is the prime member. -/
def exHist : List Step :=
  [.root Chain.exBal (.setMembers [1, 2, 3] (some 1)), .newBlock,
   .signed Chain.exBal 10 (.chain (.msa .create)),
   .signed Chain.exBal 10 (.chain (.msa (.proposeToBeProvider [65]))),
   .signed Chain.exBal 10 (.proposeSchema (exModel 0) .avroBinary .onChain [])]

theorem exProper (l : List Step) (h : ∀ bal new prime, Step.root bal (.setMembers new prime) ∈ l → new.Nodup) :
    Proper [1, 2] (exHist ++ l) := by
  refine ⟨by decide, fun bal new prime hm => ?_⟩
  rcases List.mem_append.1 hm with hm | hm
  · simp only [exHist, List.mem_cons, List.not_mem_nil, or_false, reduceCtorEq, Step.root.injEq, Call.setMembers.injEq] at hm
    obtain ⟨_, rfl, _⟩ := hm
    decide
  · exact h bal new prime hm

/-- C117, providers: 2 has voted for motion 0, anybody closes it and account 1 is a provider. With no vote nothing can be
closed. -/
example : let h := exHist ++ [.signed Chain.exBal 2 (.vote 10001 0 true)]
    Proper [1, 2] h ∧
    Msa.isRegisteredProvider (run exCfg (.init 1024 [1, 2]) h).chain.msa 1 = false ∧
    Msa.isRegisteredProvider (run exCfg (.init 1024 [1, 2]) (h ++ [.signed Chain.exBal 77 (.close 10001 0)])).chain.msa 1 = true ∧
    approvals exCfg (.init 1024 [1, 2]) h 0 = 1 ∧
    (signed exCfg Chain.exBal (run exCfg (.init 1024 [1, 2]) exHist) 77 (.close 10001 0)).isSome = false := by
  refine ⟨exProper _ (by simp), by decide +kernel, by decide +kernel, by decide +kernel, by decide +kernel⟩

/-- C117, schemas: the vote of 1 alone is not enough, those of 1 and 2 are; and the vote of 1 is after two blocks, as
1 is the prime member, that of 2 is not. -/
example : let h := exHist ++ [.signed Chain.exBal 1 (.vote 10033 1 true)]
    let h2 := h ++ [.signed Chain.exBal 2 (.vote 10033 1 true)]
    let h' := exHist ++ [.signed Chain.exBal 2 (.vote 10033 1 true)]
    Proper [1, 2] h ∧ Proper [1, 2] h2 ∧
    (signed exCfg Chain.exBal (run exCfg (.init 1024 [1, 2]) h) 77 (.close 10033 1)).isSome = false ∧
    (Schemas.getSchemaById (run exCfg (.init 1024 [1, 2]) (h2 ++ [.signed Chain.exBal 77 (.close 10033 1)])).chain.schemas 1).isSome = true ∧
    approvals exCfg (.init 1024 [1, 2]) h 1 = 1 ∧ approvals exCfg (.init 1024 [1, 2]) h2 1 = 2 ∧
    (Schemas.getSchemaById (run exCfg (.init 1024 [1, 2]) (h ++ [.newBlock, .newBlock, .signed Chain.exBal 77 (.close 10033 1)])).chain.schemas 1).isSome
      = true ∧
    (Schemas.getSchemaById (run exCfg (.init 1024 [1, 2]) (h' ++ [.newBlock, .newBlock, .signed Chain.exBal 77 (.close 10033 1)])).chain.schemas 1).isSome
      = false := by
  refine ⟨exProper _ (by simp), ?_, by decide +kernel, by decide +kernel, by decide +kernel, by decide +kernel, by decide +kernel,
    by decide +kernel⟩
  rw [List.append_assoc]
  exact exProper _ (by simp)

/-- C120: 2 votes for motion 1, then against it, and for motion 0; then 2 leaves and comes back. -/
example : let h := exHist ++ [.signed Chain.exBal 2 (.vote 10033 1 true), .signed Chain.exBal 2 (.vote 10033 1 false),
      .signed Chain.exBal 2 (.vote 10001 0 true)]
    let s := run exCfg (.init 1024 [1, 2]) h
    let h' := h ++ [.root Chain.exBal (.setMembers [1, 3] none), .root Chain.exBal (.setMembers [1, 2, 3] none)]
    s.motions.map (fun v => (v.index, v.ayes, v.nays, v.threshold, v.until_)) = [(0, [2], [], 1, 3), (1, [], [2], 2, 3)] ∧
    ballots exCfg (.init 1024 [1, 2]) h 1 2 = some false ∧ ballots exCfg (.init 1024 [1, 2]) h' 1 2 = none ∧
    (run exCfg (.init 1024 [1, 2]) h').motions.map (fun v => (v.index, v.ayes, v.nays, v.threshold, v.until_)) =
      [(0, [], [], 1, 3), (1, [], [], 2, 3)] := by
  refine ⟨by decide +kernel, by decide +kernel, by decide +kernel, by decide +kernel⟩

/-- C118 fails when the council has become smaller: a schema is asked for of three members, so it takes two votes. One
member is left and votes for it. The motion can no longer get two votes, and whoever closes it drops it. -/
theorem C118_full_false : ¬ C118_full := by
  intro hf
  have := (hf exCfg 1024 [1, 2, 3] [.newBlock] (.signed Chain.exBal 10 (.proposeSchema (exModel 0) .avroBinary .onChain []))
    [.root Chain.exBal (.setMembers [1] none), .signed Chain.exBal 1 (.vote 10033 0 true)] 10033 2
    (.createViaGovernance 10 (exModel 0) .avroBinary .onChain []) 3 ⟨by decide, by
      intro bal new prime hm
      simp only [List.cons_append, List.nil_append, List.mem_cons, List.not_mem_nil, or_false, reduceCtorEq, Step.root.injEq,
        Call.setMembers.injEq, false_or] at hm
      obtain ⟨_, rfl, _⟩ := hm
      decide⟩ rfl rfl (by decide +kernel) ⟨⟨0, _, 2, [1], [], 3⟩, by
      rw [show (run exCfg (.init 1024 [1, 2, 3]) ([.newBlock] ++ _ :: _)).motions = [⟨0, .call (.schemas (.createViaGovernance 10 (exModel 0) .avroBinary .onChain [])), 2, [1], [], 3⟩] from rfl]
      exact List.mem_singleton.2 rfl, rfl, rfl, by decide +kernel, rfl, rfl⟩ Chain.exBal 77).1 (by decide +kernel)
  have hd : (Chain.dispatch exCfg.chain Chain.exBal (run exCfg (.init 1024 [1, 2, 3]) ([.newBlock] ++
      .signed Chain.exBal 10 (.proposeSchema (exModel 0) .avroBinary .onChain []) ::
      [.root Chain.exBal (.setMembers [1] none), .signed Chain.exBal 1 (.vote 10033 0 true)])).chain .council
      (.schemas (.createViaGovernance 10 (exModel 0) .avroBinary .onChain []))).map (fun t => t.schemas.lastId) = some 1 := by
    decide +kernel
  obtain ⟨t, ht, h1⟩ := Option.map_eq_some_iff.1 hd
  have h2 := congrArg (fun t => t.schemas.lastId) (this t ht)
  simp only [h1] at h2
  revert h2
  decide +kernel

/-- It fails as well when the council has grown: a schema is asked for of one member, so one vote is enough; when there are
three, the motion with one vote is closed without effect before the others have voted. -/
example : let h := [Step.newBlock, .signed Chain.exBal 10 (.proposeSchema (exModel 0) .avroBinary .onChain []),
      .root Chain.exBal (.setMembers [1, 2, 3] none), .signed Chain.exBal 1 (.vote 10033 0 true)]
    let s := run exCfg (.init 1024 [1]) h
    let t := apply exCfg s (.signed Chain.exBal 77 (.close 10033 0))
    s.motions.length = 1 ∧ approvals exCfg (.init 1024 [1]) h 0 = 1 ∧ rejections exCfg (.init 1024 [1]) h 0 = 0 ∧
    t.motions.length = 0 ∧ t.chain.schemas.lastId = 0 := by
  refine ⟨by decide +kernel, by decide +kernel, by decide +kernel, by decide +kernel, by decide +kernel⟩

/-- C118, hypotheses met: motion 1 with two votes of three is carried out, with one it cannot be closed. -/
example : let e := Step.signed Chain.exBal 10 (.proposeSchema (exModel 0) .avroBinary .onChain [])
    let h1 := exHist.take 4
    let s := run exCfg (.init 1024 [1, 2]) (h1 ++ e :: [.signed Chain.exBal 3 (.vote 10033 1 true), .signed Chain.exBal 2 (.vote 10033 1 true)])
    let s' := run exCfg (.init 1024 [1, 2]) (h1 ++ e :: [.signed Chain.exBal 3 (.vote 10033 1 true)])
    exHist = h1 ++ [e] ∧ e.forSchemas = true ∧
    (run exCfg (.init 1024 [1, 2]) h1).count = 1 ∧ (run exCfg (.init 1024 [1, 2]) (h1 ++ [e])).count = 2 ∧
    s.members.length = (run exCfg (.init 1024 [1, 2]) h1).members.length ∧
    (apply exCfg s (.signed Chain.exBal 77 (.close 10033 1))).chain.schemas.lastId = 1 ∧
    (signed exCfg Chain.exBal s' 77 (.close 10033 1)).isSome = false := by
  refine ⟨rfl, rfl, by decide +kernel, by decide +kernel, by decide +kernel, by decide +kernel, by decide +kernel⟩

/-- C118, a member alone: 2 makes the account of key 10 a provider, but registers no schema; a stranger does neither. Root
puts 3 in the place of 2. -/
example : let s := run exCfg (.init 1024 [1, 2]) (exHist.take 3)
    let t := apply exCfg s (.signed Chain.exBal 2 (.propose 1 (.call (.msa (.createProviderViaGovernance 10 [65])))))
    let u := apply exCfg s (.signed Chain.exBal 2 (.propose 1 (.call (.schemas (.createViaGovernance 10 (exModel 7) .avroBinary .onChain [])))))
    let w := apply exCfg s (.root Chain.exBal (.setMembers [1, 3] (some 3)))
    (2 ∈ s.members ∧ t.motions.length = s.motions.length ∧ Msa.isRegisteredProvider t.chain.msa 1 = true ∧
      u.chain.schemas.lastId = 0) ∧
    (signed exCfg Chain.exBal s 77 (.propose 1 (.call (.msa (.createProviderViaGovernance 10 [65]))))).isSome = false ∧
    w.members ≠ s.members ∧ w.prime = some 3 := by
  refine ⟨⟨by decide +kernel, by decide +kernel, by decide +kernel, by decide +kernel⟩, by decide +kernel, by decide +kernel,
    by decide +kernel⟩

/-- Key 66, without an account, asks for 25 schemas. -/
def exFull : List Step :=
  (List.range 25).map (fun k => .signed Chain.exBal 66 (.proposeSchema (exModel k) .avroBinary .onChain []))

/-- C119 fails: after 25 requests of one key there is room for nobody else, members of the council included. -/
theorem C119_full_false : ¬ C119_full := by
  intro hf
  have h25 : (run exCfg (.init 1024 [1, 2]) (exHist.take 3 ++ exFull)).motions.map (fun v => exCfg.hash v.request) =
      (List.range 25).map (fun k => 66033 + 3 * k) := by decide +kernel
  have := hf exCfg 1024 [1, 2] (exHist.take 3 ++ exFull) Chain.exBal 10 (exModel 0) .avroBinary .onChain []
    ⟨by decide, by
      intro bal new prime hm
      simp only [exHist, exFull, List.take_succ_cons, List.take_zero, List.mem_append, List.mem_map, List.mem_cons,
        List.not_mem_nil, or_false, reduceCtorEq, and_false, exists_false, Step.root.injEq, Call.setMembers.injEq] at hm
      obtain ⟨_, rfl, _⟩ := hm
      decide⟩ (by decide) (by decide) rfl ?_
  · revert this
    decide +kernel
  · intro v hv he
    have hm : exCfg.hash v.request ∈ (List.range 25).map (fun k => 66033 + 3 * k) := h25 ▸ List.mem_map_of_mem hv
    rw [he] at hm
    revert hm
    decide +kernel

/-- The same for a motion of a member, and for an account that asks to be a provider. -/
example : let s := run exCfg (.init 1024 [1, 2]) (exHist.take 3 ++ exFull)
    (signed exCfg Chain.exBal s 1 (.propose 2 (.other 0))).isSome = false ∧
    (signed exCfg Chain.exBal s 10 (.chain (.msa (.proposeToBeProvider [65])))).isSome = false ∧
    (signed exCfg Chain.exBal (run exCfg (.init 1024 [1, 2]) (exHist.take 3)) 10 (.chain (.msa (.proposeToBeProvider [65])))).isSome = true := by
  refine ⟨by decide +kernel, by decide +kernel, by decide +kernel⟩

end Verif.Council
