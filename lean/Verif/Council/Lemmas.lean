import Verif.Council.Model
import Verif.Chain.Lemmas
import Mathlib.Data.List.Induction
import Mathlib.Data.List.Nodup
/-!
# What the steps of the council do
-/

namespace Verif.Council

theorem run_snoc (cfg : Config) (s : State) (h : List Step) (e : Step) :
    run cfg s (h ++ [e]) = apply cfg (run cfg s h) e := by simp [run]

theorem run_append (cfg : Config) (s : State) (h l : List Step) :
    run cfg s (h ++ l) = run cfg (run cfg s h) l := by simp [run]

/-! ## What does not concern the council -/

/-- The council and its motions are the same. -/
structure Same (s t : State) : Prop where
  members : t.members = s.members
  prime : t.prime = s.prime
  motions : t.motions = s.motions
  count : t.count = s.count

theorem Same.refl (s : State) : Same s s := ⟨rfl, rfl, rfl, rfl⟩

theorem carryOut_same (cfg : Config) (bal s n m r) : Same s (carryOut cfg bal s n m r) := by
  cases r with
  | other _ => exact .refl s
  | call c =>
    simp only [carryOut]
    split
    · exact ⟨rfl, rfl, rfl, rfl⟩
    · exact .refl s

/-- The registries of providers and schemas are the same. -/
structure Quiet (s t : State) : Prop where
  providers : t.chain.msa.providers = s.chain.msa.providers
  keys : t.chain.schemas = s.chain.schemas

theorem signed_quiet {cfg : Chain.Config} {bal : AccountId → Balance} {s : Chain.State} {who : AccountId} {c : Chain.Call}
    {t : Chain.State} (hp : permitted c = true) (h : Chain.dispatch cfg bal s (.signed who) c = some t) :
    t.msa.providers = s.msa.providers ∧ t.schemas = s.schemas := by
  have hc := Chain.dispatch_called h
  clear h
  cases hc with
  | msa h =>
    refine ⟨?_, rfl⟩
    have he := Msa.eff_of_dispatch h
    dsimp only [Chain.Origin.msa] at he
    clear h
    cases he with
    | provider hl hn hk =>
      obtain ⟨k, _, ⟨ho, hc⟩ | ⟨ho, hc⟩⟩ := hk
      · subst hc; cases hp
      · cases ho
    | noop => rfl
    | create _ _ _ => rfl
    | sponsored _ _ _ _ _ _ _ _ _ _ _ => rfl
    | grant _ _ _ _ _ _ _ => rfl
    | revoke _ _ _ => rfl
    | addKey _ _ _ _ _ _ _ => rfl
    | delete _ _ _ => rfl
    | revokeSchemas _ _ _ => rfl
  | schemas ho h =>
    cases ho
    rename_i c t
    cases c with
    | createSchema _ _ _ => cases hp
    | createSchemaV2 _ _ _ _ => cases hp
    | createSchemaV3 _ _ _ _ _ => cases hp
    | createViaGovernance _ _ _ _ _ => cases h
    | createViaGovernanceV2 _ _ _ _ _ _ => cases h
    | setMaxBytes _ => cases h
    | createName _ _ => cases h
  | messages _ _ => exact ⟨rfl, rfl⟩
  | handles _ _ => exact ⟨rfl, rfl⟩
  | storage _ => exact ⟨rfl, rfl⟩
  | capacity _ _ => exact ⟨rfl, rfl⟩

/-- As members of the council: a new provider is the one asked for. -/
theorem members_provider {cfg : Chain.Config} {bal : AccountId → Balance} {s : Chain.State} {o : Chain.Origin}
    {c : Chain.Call} {t : Chain.State} (ho : o.msa = .governance) (h : Chain.dispatch cfg bal s o c = some t) :
    t.msa.providers = s.msa.providers ∨ ∃ k name m, c = .msa (.createProviderViaGovernance k name) ∧
      Chain.msaOf s k = some m ∧ t.msa.providers = s.msa.providers.insert m name := by
  have hc := Chain.dispatch_called h
  clear h
  cases hc with
  | msa h =>
    have he := Msa.eff_of_dispatch h
    rw [ho] at he
    clear h
    cases he with
    | provider hl hn hk =>
      obtain ⟨k, hk, ⟨ho, hc⟩ | ⟨ho, hc⟩⟩ := hk
      · cases ho
      · subst hc; exact .inr ⟨k, _, _, rfl, hk, rfl⟩
    | noop => exact .inl rfl
  | schemas ho h => exact .inl rfl
  | messages _ _ => exact .inl rfl
  | handles _ _ => exact .inl rfl
  | storage _ => exact .inl rfl
  | capacity _ _ => exact .inl rfl

/-- Only a call of the schemas pallet changes the schemas, and not as a single member. -/
theorem members_schemas {cfg : Chain.Config} {bal : AccountId → Balance} {s : Chain.State} {o : Chain.Origin}
    {c : Chain.Call} {t : Chain.State} (h : Chain.dispatch cfg bal s o c = some t) :
    t.schemas = s.schemas ∨ (o ≠ .member ∧ ∃ c', c = .schemas c') := by
  have hc := Chain.dispatch_called h
  clear h
  cases hc with
  | schemas ho h =>
    refine .inr ⟨?_, _, rfl⟩
    rintro rfl
    cases ho
  | msa _ => exact .inl rfl
  | messages _ _ => exact .inl rfl
  | handles _ _ => exact .inl rfl
  | storage _ => exact .inl rfl
  | capacity _ _ => exact .inl rfl

theorem membersOrigin_cases {n m : Nat} {o : Chain.Origin} (h : membersOrigin n m = some o) :
    (o = .council ∧ m < n * 2 ∨ o = .member ∧ 1 ≤ n) ∧ 1 ≤ n ∧ o.msa = .governance := by
  unfold membersOrigin at h
  split at h
  · cases h; exact ⟨.inl ⟨rfl, by assumption⟩, by omega, rfl⟩
  · split at h
    · cases h; exact ⟨.inr ⟨rfl, by assumption⟩, by assumption, rfl⟩
    · cases h

/-- A new provider: asked for, and at least one member. -/
theorem carryOut_providers (cfg : Config) (bal s n m r) :
    (carryOut cfg bal s n m r).chain.msa.providers = s.chain.msa.providers ∨
      1 ≤ n ∧ ∃ k name p, r = .call (.msa (.createProviderViaGovernance k name)) ∧ Chain.msaOf s.chain k = some p ∧
        (carryOut cfg bal s n m r).chain.msa.providers = s.chain.msa.providers.insert p name := by
  cases r with
  | other _ => exact .inl rfl
  | call c =>
    simp only [carryOut]
    split
    · rename_i t h
      obtain ⟨o, ho, h⟩ := Option.bind_eq_some_iff.1 h
      obtain ⟨_, h1, hg⟩ := membersOrigin_cases ho
      rcases members_provider hg h with e | ⟨k, name, p, rfl, hk, e⟩
      · exact .inl e
      · exact .inr ⟨h1, k, name, p, rfl, hk, e⟩
    · exact .inl rfl

/-- A change of schemas: asked for, and more than half of the members. -/
theorem carryOut_schemas (cfg : Config) (bal s n m r) :
    (carryOut cfg bal s n m r).chain.schemas = s.chain.schemas ∨ m < n * 2 ∧ ∃ c, r = .call (.schemas c) := by
  cases r with
  | other _ => exact .inl rfl
  | call c =>
    simp only [carryOut]
    split
    · rename_i t h
      obtain ⟨o, ho, h⟩ := Option.bind_eq_some_iff.1 h
      obtain ⟨h1, _⟩ := membersOrigin_cases ho
      rcases members_schemas h with e | ⟨hne, c', rfl⟩
      · exact .inl e
      · rcases h1 with ⟨_, h1⟩ | ⟨h1, _⟩
        · exact .inr ⟨h1, c', rfl⟩
        · exact absurd h1 hne
    · exact .inl rfl

/-! ## Ballots -/

/-- What each member last voted on the motion with a number: the spec of votes, kept apart from the state. Who is no
longer a member has no vote. -/
abbrev Ballots := Nat → AccountId → Option Bool

/-- A vote that is accepted is kept until the member votes again or leaves. -/
def record (cfg : Config) (s : State) (b : Ballots) : Step → Ballots
  | .signed bal who (.vote h i ok) =>
    if (signed cfg bal s who (.vote h i ok)).isSome then fun j a => if j = i ∧ a = who then some ok else b j a else b
  | .root _ (.setMembers new _) => fun j a => if a ∈ new then b j a else none
  | _ => b

/-- The state and the ballots after a history. -/
def follow (cfg : Config) (s : State) (h : List Step) : State × Ballots :=
  h.foldl (fun p e => (apply cfg p.1 e, record cfg p.1 p.2 e)) (s, fun _ _ => none)

/-- The ballots after a history. -/
def ballots (cfg : Config) (s : State) (h : List Step) : Ballots := (follow cfg s h).2

theorem follow_fst (cfg : Config) (s : State) (h : List Step) : (follow cfg s h).1 = run cfg s h := by
  unfold follow run
  generalize (fun _ _ => none : Ballots) = b
  induction h generalizing s b with
  | nil => rfl
  | cons e h ih => exact ih _ _

theorem ballots_snoc (cfg : Config) (s : State) (h : List Step) (e : Step) :
    ballots cfg s (h ++ [e]) = record cfg (run cfg s h) (ballots cfg s h) e := by
  unfold ballots
  rw [← follow_fst]
  simp [follow]

/-! ## Steps, as far as the motions go -/

/-- What a step asks of the council, and how many votes it takes: one for a provider, more than half of the members at
the time for schemas and names, and what a member says for a motion of their own. -/
def asks (s : State) : Step → Option (Request × Nat)
  | .signed _ who (.chain (.msa (.proposeToBeProvider name))) =>
    some (.call (.msa (.createProviderViaGovernance who name)), 1)
  | .signed _ who (.proposeSchema model mt loc settings) =>
    some (.call (.schemas (.createViaGovernance who model mt loc settings)), s.members.length / 2 + 1)
  | .signed _ who (.proposeSchemaV2 model mt loc settings name) =>
    some (.call (.schemas (.createViaGovernanceV2 who model mt loc settings name)), s.members.length / 2 + 1)
  | .signed _ _ (.proposeName id name) => some (.call (.schemas (.createName id name)), s.members.length / 2 + 1)
  | .signed _ who (.propose thr r) => if who ∈ s.members then some (r, thr) else none
  | _ => none

/-- What a step does to members and motions. -/
inductive Eff (cfg : Config) (s : State) (e : Step) (t : State) : Prop
  | same (h : Same s t) (hr : ∀ b, record cfg s b e = b)
  | add (r : Request) (thr : Nat) (ha : asks s e = some (r, thr)) (hm : t.members = s.members) (hp : t.prime = s.prime)
      (hn : (find cfg s (cfg.hash r)).isNone) (hl : s.motions.length < cfg.maxProposals)
      (hv : t.motions = s.motions ++ [⟨s.count, r, thr, [], [], s.chain.block + cfg.duration⟩])
      (hc : t.count = s.count + 1) (hr : ∀ b, record cfg s b e = b)
  | vote (v w : Motion) (who : AccountId) (ok : Bool) (hw : who ∈ s.members)
      (hf : find cfg s (cfg.hash v.request) = some v) (hv : v.vote who ok = some w)
      (hm : t.members = s.members) (hp : t.prime = s.prime) (hc : t.count = s.count)
      (hs : t.motions = s.motions.map (fun u => if cfg.hash u.request = cfg.hash v.request then w else u))
      (hr : ∀ b, record cfg s b e = fun j a => if j = v.index ∧ a = who then some ok else b j a)
  | remove (h : Nat) (hm : t.members = s.members) (hp : t.prime = s.prime) (hc : t.count = s.count)
      (hs : t.motions = s.motions.filter (fun v => cfg.hash v.request != h)) (hr : ∀ b, record cfg s b e = b)
      (he : (∃ bal, e = .root bal (.disapprove h)) ∨ ∃ bal who u, e = .signed bal who (.close h u.index) ∧
        u ∈ s.motions ∧ cfg.hash u.request = h)
  | set (bal : AccountId → Balance) (new : List AccountId) (prime : Option AccountId) (he : e = .root bal (.setMembers new prime))
      (ht : t = setMembers s new prime)

theorem find_hash {cfg : Config} {s : State} {h : Nat} {v : Motion} (hf : find cfg s h = some v) :
    cfg.hash v.request = h ∧ v ∈ s.motions := by
  have := List.find?_some hf
  simp only [beq_iff_eq] at this
  exact ⟨this, List.mem_of_find?_eq_some hf⟩

theorem proposeProposed_eff {cfg : Config} {s t : State} {thr r} {e : Step} (h : proposeProposed cfg s thr r = some t)
    (ha : asks s e = some (r, thr)) (hr : ∀ b, record cfg s b e = b) : Eff cfg s e t := by
  unfold proposeProposed at h
  split at h
  · cases h
    rename_i hc
    exact .add r thr ha rfl rfl hc.2.1 hc.2.2 rfl rfl hr
  · cases h

theorem remove_eff {cfg : Config} {s s' : State} {h : Nat} {e : Step} (hs : Same s s')
    (hr : ∀ b, record cfg s b e = b) (he : (∃ bal, e = .root bal (.disapprove h)) ∨
      ∃ bal who u, e = .signed bal who (.close h u.index) ∧ u ∈ s.motions ∧ cfg.hash u.request = h) :
    Eff cfg s e (remove cfg s' h) :=
  .remove h hs.members hs.prime hs.count (by simp only [remove]; rw [hs.motions]) hr he

theorem close_eff {cfg : Config} {bal : AccountId → Balance} {who : AccountId} {s t : State} {h i : Nat}
    (hc : close cfg bal s h i = some t) : Eff cfg s (.signed bal who (.close h i)) t := by
  simp only [close, Option.bind_eq_bind, Option.bind_eq_some_iff] at hc
  obtain ⟨v, hf, hc⟩ := hc
  have hf' := find_hash hf
  split at hc
  · rename_i hi
    subst hi
    obtain ⟨rfl, hv⟩ := hf'
    have key : ∀ {s'}, Same s s' → Eff cfg s (.signed bal who (.close (cfg.hash v.request) v.index))
        (remove cfg s' (cfg.hash v.request)) := fun hs =>
      remove_eff hs (fun _ => rfl) (.inr ⟨bal, who, v, rfl, hv, rfl⟩)
    split at hc
    · cases hc; exact key (carryOut_same ..)
    · split at hc
      · cases hc; exact key (.refl s)
      · split at hc
        · generalize (if (s.prime.any fun p => decide (p ∈ v.ayes)) = true then
            v.ayes.length + (s.members.length - (v.ayes.length + v.nays.length)) else v.ayes.length) = y at hc
          split at hc
          · cases hc; exact key (carryOut_same ..)
          · cases hc; exact key (.refl s)
        · cases hc
  · cases hc

theorem apply_eff (cfg : Config) (s : State) (e : Step) : Eff cfg s e (apply cfg s e) := by
  cases e with
  | newBlock => exact .same ⟨rfl, rfl, rfl, rfl⟩ (fun _ => rfl)
  | charge key fee => exact .same ⟨rfl, rfl, rfl, rfl⟩ (fun _ => rfl)
  | upgrade known => exact .same ⟨rfl, rfl, rfl, rfl⟩ (fun _ => rfl)
  | root bal c =>
    cases c with
    | chain c =>
      refine .same ?_ (fun _ => rfl)
      simp only [apply, root]
      cases Chain.dispatch cfg.chain bal s.chain .root c with
      | none => exact .refl s
      | some t => exact ⟨rfl, rfl, rfl, rfl⟩
    | setMembers new prime => exact .set bal new prime rfl rfl
    | disapprove h => exact remove_eff (.refl s) (fun _ => rfl) (.inl ⟨bal, rfl⟩)
    | proposeSchema _ _ _ _ => exact .same (.refl s) (fun _ => rfl)
    | proposeSchemaV2 _ _ _ _ _ => exact .same (.refl s) (fun _ => rfl)
    | proposeName _ _ => exact .same (.refl s) (fun _ => rfl)
    | propose _ _ => exact .same (.refl s) (fun _ => rfl)
    | vote _ _ _ => exact .same (.refl s) (fun _ => rfl)
    | close _ _ => exact .same (.refl s) (fun _ => rfl)
  | signed bal who c =>
    simp only [apply]
    rcases Option.eq_none_or_eq_some (signed cfg bal s who c) with h | ⟨t, h⟩
    · rw [h]
      refine .same (.refl s) (fun b => ?_)
      cases c <;> try rfl
      simp only [record]
      rw [h]
      rfl
    · rw [h]
      simp only [Option.getD_some]
      cases c with
      | chain c =>
        simp only [signed] at h
        split at h
        · split at h
          · split at h
            · exact proposeProposed_eff h rfl (fun _ => rfl)
            · cases h
          · obtain ⟨t, _, rfl⟩ := Option.map_eq_some_iff.1 h
            exact .same ⟨rfl, rfl, rfl, rfl⟩ (fun _ => rfl)
        · cases h
      | proposeSchema _ _ _ _ =>
        simp only [signed] at h
        split at h
        · exact proposeProposed_eff h rfl (fun _ => rfl)
        · cases h
      | proposeSchemaV2 _ _ _ _ _ =>
        simp only [signed] at h
        split at h
        · exact proposeProposed_eff h rfl (fun _ => rfl)
        · cases h
      | proposeName _ _ =>
        simp only [signed] at h
        split at h
        · exact proposeProposed_eff h rfl (fun _ => rfl)
        · cases h
      | propose thr r =>
        simp only [signed, propose] at h
        split at h
        · rename_i hw
          split at h
          · split at h
            · cases h; exact .same (carryOut_same ..) (fun _ => rfl)
            · cases h
          · exact proposeProposed_eff h (by simp only [asks]; rw [if_pos hw]) (fun _ => rfl)
        · cases h
      | vote hh i ok =>
        have h0 := h
        simp only [signed, vote] at h
        split at h
        · rename_i hw
          simp only [Option.bind_eq_bind, Option.bind_eq_some_iff] at h
          obtain ⟨v, hf, h⟩ := h
          split at h
          · rename_i hi
            simp only [Option.bind_eq_some_iff] at h
            obtain ⟨w, hv, h⟩ := h
            cases h
            have hh := (find_hash hf).1
            subst hh hi
            refine .vote v w who ok hw hf hv rfl rfl rfl rfl (fun b => ?_)
            simp only [record]
            rw [h0]
            rfl
          · cases h
        · cases h
      | close hh i => exact close_eff h
      | setMembers _ _ => cases h
      | disapprove _ => cases h

/-! ## The invariant -/

/-- What holds of the motions and the ballots. -/
structure Inv (cfg : Config) (s : State) (b : Ballots) : Prop where
  hashes : (s.motions.map (fun v => cfg.hash v.request)).Nodup
  indices : (s.motions.map Motion.index).Nodup
  below : ∀ v ∈ s.motions, v.index < s.count
  ayes : ∀ v ∈ s.motions, v.ayes.Nodup ∧ ∀ a, a ∈ v.ayes ↔ b v.index a = some true
  nays : ∀ v ∈ s.motions, v.nays.Nodup ∧ ∀ a, a ∈ v.nays ↔ b v.index a = some false
  known : ∀ i a, b i a ≠ none → i < s.count ∧ a ∈ s.members

theorem Inv.index_inj {cfg s b} (h : Inv cfg s b) {v w : Motion} (hv : v ∈ s.motions) (hw : w ∈ s.motions)
    (e : v.index = w.index) : v = w := List.inj_on_of_nodup_map h.indices hv hw e

theorem Inv.hash_inj {cfg s b} (h : Inv cfg s b) {v w : Motion} (hv : v ∈ s.motions) (hw : w ∈ s.motions)
    (e : cfg.hash v.request = cfg.hash w.request) : v = w := List.inj_on_of_nodup_map h.hashes hv hw e

theorem Inv.find {cfg s b} (h : Inv cfg s b) {v : Motion} (hv : v ∈ s.motions) :
    find cfg s (cfg.hash v.request) = some v := by
  rcases Option.eq_none_or_eq_some (Council.find cfg s (cfg.hash v.request)) with hf | ⟨w, hf⟩
  · have := List.find?_eq_none.1 hf v hv
    simp at this
  · rw [hf, h.hash_inj (find_hash hf).2 hv (find_hash hf).1]

theorem vote_same {v w : Motion} {who ok} (h : v.vote who ok = some w) :
    w.index = v.index ∧ w.request = v.request ∧ w.threshold = v.threshold ∧ w.until_ = v.until_ := by
  unfold Motion.vote at h
  split at h <;> split at h <;> cases h <;> exact ⟨rfl, rfl, rfl, rfl⟩

theorem vote_ayes {v w : Motion} {who : AccountId} {ok} (h : v.vote who ok = some w) (hn : v.ayes.Nodup) :
    w.ayes.Nodup ∧ ∀ a, a ∈ w.ayes ↔ if a = who then ok = true else a ∈ v.ayes := by
  unfold Motion.vote at h
  split at h
  · rename_i ho
    split at h
    · cases h
    · rename_i hm
      cases h
      refine ⟨List.nodup_append.2 ⟨hn, by simp, by rintro a ha b hb rfl; exact hm (List.mem_singleton.1 hb ▸ ha)⟩,
        fun a => ?_⟩
      by_cases e : a = who <;> simp [e, ho]
  · rename_i ho
    split at h
    · cases h
    · cases h
      refine ⟨hn.erase _, fun a => ?_⟩
      by_cases e : a = who
      · subst e
        simp [ho, hn.not_mem_erase]
      · simp [e, List.mem_erase_of_ne e]

theorem vote_nays {v w : Motion} {who : AccountId} {ok} (h : v.vote who ok = some w) (hn : v.nays.Nodup) :
    w.nays.Nodup ∧ ∀ a, a ∈ w.nays ↔ if a = who then ok = false else a ∈ v.nays := by
  unfold Motion.vote at h
  split at h
  · rename_i ho
    split at h
    · cases h
    · cases h
      refine ⟨hn.erase _, fun a => ?_⟩
      by_cases e : a = who
      · subst e
        simp [ho, hn.not_mem_erase]
      · simp [e, List.mem_erase_of_ne e]
  · rename_i ho
    split at h
    · cases h
    · rename_i hm
      cases h
      refine ⟨List.nodup_append.2 ⟨hn, by simp, by rintro a ha b hb rfl; exact hm (List.mem_singleton.1 hb ▸ ha)⟩,
        fun a => ?_⟩
      by_cases e : a = who <;> simp [e, ho]

theorem inv_apply {cfg s b} (e : Step) (hi : Inv cfg s b) : Inv cfg (apply cfg s e) (record cfg s b e) := by
  have he := apply_eff cfg s e
  generalize apply cfg s e = t at he
  cases he with
  | same h hr =>
    rw [hr b]
    exact ⟨h.motions ▸ hi.hashes, h.motions ▸ hi.indices, by rw [h.motions, h.count]; exact hi.below,
      h.motions ▸ hi.ayes, h.motions ▸ hi.nays, by rw [h.members, h.count]; exact hi.known⟩
  | add r thr _ hm hp hn hl hv hc hr =>
    rw [hr b]
    have hnew : ∀ a, b s.count a = none := by
      intro a
      by_contra hne
      exact absurd (hi.known _ _ hne).1 (lt_irrefl _)
    refine ⟨?_, ?_, ?_, ?_, ?_, ?_⟩
    · rw [hv, List.map_append]
      refine List.nodup_append.2 ⟨hi.hashes, by simp, ?_⟩
      rintro x hx y hy rfl
      obtain ⟨v, hv, e⟩ := List.mem_map.1 hx
      simp only [List.map_cons, List.map_nil, List.mem_singleton] at hy
      have := List.find?_eq_none.1 (Option.isNone_iff_eq_none.1 hn) v hv
      simp only [beq_iff_eq] at this
      exact this (e.trans hy)
    · rw [hv, List.map_append]
      refine List.nodup_append.2 ⟨hi.indices, by simp, ?_⟩
      rintro x hx y hy rfl
      obtain ⟨v, hv, e⟩ := List.mem_map.1 hx
      simp only [List.map_cons, List.map_nil, List.mem_singleton] at hy
      have := hi.below v hv
      omega
    · intro v h
      rw [hv] at h
      rw [hc]
      rcases List.mem_append.1 h with h | h
      · exact Nat.lt_succ_of_lt (hi.below v h)
      · rw [List.mem_singleton.1 h]; exact Nat.lt_succ_self _
    · intro v h
      rw [hv] at h
      rcases List.mem_append.1 h with h | h
      · exact hi.ayes v h
      · rw [List.mem_singleton.1 h]; exact ⟨List.nodup_nil, fun a => by simp [hnew a]⟩
    · intro v h
      rw [hv] at h
      rcases List.mem_append.1 h with h | h
      · exact hi.nays v h
      · rw [List.mem_singleton.1 h]; exact ⟨List.nodup_nil, fun a => by simp [hnew a]⟩
    · intro i a h
      rw [hc, hm]
      exact ⟨Nat.lt_succ_of_lt (hi.known i a h).1, (hi.known i a h).2⟩
  | vote v w who ok hw hf hv hm hp hc hs hr =>
    rw [hr b]
    have hmem := (find_hash hf).2
    have hsame := vote_same hv
    have hmap : ∀ u ∈ s.motions, (if cfg.hash u.request = cfg.hash v.request then w else u).index = u.index ∧
        (if cfg.hash u.request = cfg.hash v.request then w else u).request = u.request := by
      intro u hu
      split
      · rename_i e
        have := hi.hash_inj hu hmem e
        subst this
        exact ⟨hsame.1, hsame.2.1⟩
      · exact ⟨rfl, rfl⟩
    have hcase : ∀ u ∈ t.motions, u = w ∨ (u ∈ s.motions ∧ u.index ≠ v.index) := by
      intro u hu
      rw [hs] at hu
      obtain ⟨u', hu', e⟩ := List.mem_map.1 hu
      split at e
      · exact .inl e.symm
      · rename_i hne
        subst e
        exact .inr ⟨hu', fun e => hne (by rw [hi.index_inj hu' hmem e])⟩
    refine ⟨?_, ?_, ?_, ?_, ?_, ?_⟩
    · rw [hs, List.map_map]
      have : s.motions.map ((fun v => cfg.hash v.request) ∘ fun u => if cfg.hash u.request = cfg.hash v.request then w else u)
          = s.motions.map (fun v => cfg.hash v.request) := by
        refine List.map_congr_left (fun u hu => ?_)
        simp only [Function.comp_apply, (hmap u hu).2]
      rw [this]; exact hi.hashes
    · rw [hs, List.map_map]
      have : s.motions.map (Motion.index ∘ fun u => if cfg.hash u.request = cfg.hash v.request then w else u)
          = s.motions.map Motion.index := by
        refine List.map_congr_left (fun u hu => ?_)
        simp only [Function.comp_apply, (hmap u hu).1]
      rw [this]; exact hi.indices
    · intro u hu
      rw [hc]
      rcases hcase u hu with rfl | ⟨hu, _⟩
      · rw [hsame.1]; exact hi.below v hmem
      · exact hi.below u hu
    · intro u hu
      rcases hcase u hu with rfl | ⟨hu, hne⟩
      · have h1 := vote_ayes hv (hi.ayes v hmem).1
        refine ⟨h1.1, fun a => ?_⟩
        rw [h1.2 a, hsame.1]
        by_cases e : a = who
        · simp [e]
        · simp [e, (hi.ayes v hmem).2 a]
      · refine ⟨(hi.ayes u hu).1, fun a => ?_⟩
        rw [(hi.ayes u hu).2 a, if_neg (fun e => hne e.1)]
    · intro u hu
      rcases hcase u hu with rfl | ⟨hu, hne⟩
      · have h1 := vote_nays hv (hi.nays v hmem).1
        refine ⟨h1.1, fun a => ?_⟩
        rw [h1.2 a, hsame.1]
        by_cases e : a = who
        · simp [e]
        · simp [e, (hi.nays v hmem).2 a]
      · refine ⟨(hi.nays u hu).1, fun a => ?_⟩
        rw [(hi.nays u hu).2 a, if_neg (fun e => hne e.1)]
    · intro i a h
      rw [hc, hm]
      split at h
      · rename_i e
        rw [e.1, e.2]
        exact ⟨hi.below v hmem, hw⟩
      · exact hi.known i a h
  | remove h hm hp hc hs hr _ =>
    rw [hr b]
    have hsub : t.motions.Sublist s.motions := hs ▸ List.filter_sublist
    exact ⟨hi.hashes.sublist (hsub.map _), hi.indices.sublist (hsub.map _),
      fun v hv => hc ▸ hi.below v (hsub.subset hv), fun v hv => hi.ayes v (hsub.subset hv),
      fun v hv => hi.nays v (hsub.subset hv), fun i a hh => by rw [hc, hm]; exact hi.known i a hh⟩
  | set bal new prime he ht =>
    subst he ht
    have hout : ∀ i a, b i a ≠ none → (a ∈ s.members.filter (fun a => decide (a ∉ new)) ↔ a ∉ new) := by
      intro i a h
      simp [(hi.known i a h).2]
    refine ⟨?_, ?_, ?_, ?_, ?_, ?_⟩
    · simp only [setMembers, List.map_map]; exact hi.hashes
    · simp only [setMembers, List.map_map]; exact hi.indices
    · intro v hv
      obtain ⟨u, hu, rfl⟩ := List.mem_map.1 hv
      exact hi.below u hu
    · intro v hv
      obtain ⟨u, hu, rfl⟩ := List.mem_map.1 hv
      refine ⟨(hi.ayes u hu).1.filter _, fun a => ?_⟩
      simp only [List.mem_filter, record, decide_eq_true_eq]
      rw [(hi.ayes u hu).2 a]
      by_cases e : b u.index a = some true
      · have := (hi.known u.index a (by rw [e]; simp)).2
        by_cases hn : a ∈ new <;> simp [e, hn, this]
      · by_cases hn : a ∈ new <;> simp [e, hn]
    · intro v hv
      obtain ⟨u, hu, rfl⟩ := List.mem_map.1 hv
      refine ⟨(hi.nays u hu).1.filter _, fun a => ?_⟩
      simp only [List.mem_filter, record, decide_eq_true_eq]
      rw [(hi.nays u hu).2 a]
      by_cases e : b u.index a = some false
      · have := (hi.known u.index a (by rw [e]; simp)).2
        by_cases hn : a ∈ new <;> simp [e, hn, this]
      · by_cases hn : a ∈ new <;> simp [e, hn]
    · intro i a h
      simp only [record] at h
      split at h
      · rename_i hn; exact ⟨(hi.known i a h).1, hn⟩
      · exact absurd rfl h

theorem inv (cfg : Config) (n : Nat) (ms : List AccountId) (h : List Step) :
    Inv cfg (run cfg (.init n ms) h) (ballots cfg (.init n ms) h) := by
  induction h using List.reverseRecOn with
  | nil =>
    exact ⟨List.nodup_nil, List.nodup_nil, fun _ hv => absurd hv (List.not_mem_nil), fun _ hv => absurd hv (List.not_mem_nil),
      fun _ hv => absurd hv (List.not_mem_nil), fun _ _ hv => absurd rfl hv⟩
  | append_singleton h e ih =>
    rw [run_snoc, ballots_snoc]
    exact inv_apply e ih

end Verif.Council
