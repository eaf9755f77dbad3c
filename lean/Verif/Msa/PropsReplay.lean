import Verif.Msa.PropsDelegation
/-!
# Off-chain signatures at pallet level (C10, C12)

`proofsOf` lists the off-chain signatures a call carries with the expiration of their payload; a proof
counts as accepted when the call that carries it succeeds.
-/

namespace Verif.Msa

open SigRegistry (Registry)
open SigRegistry.Spec (Req accepted final)

/-- The (signature, expiration) pairs carried by a call. -/
def proofsOf : Call → List (Signature × BlockNumber)
  | .createSponsoredAccountWithDelegation _ proof p => [(proof, p.expiration)]
  | .grantDelegation _ proof p => [(proof, p.expiration)]
  | .addPublicKeyToMsa _ ownerProof newProof p => [(ownerProof, p.expiration), (newProof, p.expiration)]
  | _ => []

/-- The proofs accepted along a history, in order. -/
def acceptedProofs (cfg : Config) : State → List Step → List (Signature × BlockNumber)
  | _, [] => []
  | s, st :: rest =>
    match dispatch cfg st.env s st.origin st.call with
    | .ok s' => proofsOf st.call ++ acceptedProofs cfg s' rest
    | .error _ => acceptedProofs cfg s rest

/-- Registry requests of one call. -/
def reqsOf (st : Step) : List Req := (proofsOf st.call).map (fun p => ⟨st.env.block, p.1, p.2⟩)

/-- A list of requests that are all accepted, with the resulting registry. -/
def AllAccepted (cfg : Config) (r : Registry) (l : List Req) (r' : Registry) : Prop :=
  accepted (SigRegistry.stepModel cfg.window cfg.maxSignatures) r l = l ∧
    final (SigRegistry.stepModel cfg.window cfg.maxSignatures) r l = r'

theorem allAccepted_nil (cfg : Config) (r : Registry) : AllAccepted cfg r [] r := ⟨rfl, rfl⟩

theorem allAccepted_cons {cfg : Config} {r r1 r' : Registry} {q : Req} {l : List Req}
    (h1 : SigRegistry.register cfg.window cfg.maxSignatures r q.now q.sig q.exp = .ok r1)
    (h2 : AllAccepted cfg r1 l r') : AllAccepted cfg r (q :: l) r' := by
  have hs : SigRegistry.stepModel cfg.window cfg.maxSignatures r q = .ok r1 := h1
  refine ⟨?_, ?_⟩
  · simp only [accepted, hs, h2.1]
  · simp only [final, hs, h2.2]

theorem allAccepted_append {cfg : Config} {l1 : List Req} : ∀ {r r1 r' : Registry} {l2 : List Req},
    AllAccepted cfg r l1 r1 → AllAccepted cfg r1 l2 r' → AllAccepted cfg r (l1 ++ l2) r' := by
  induction l1 with
  | nil => intro r r1 r' l2 h1 h2; obtain ⟨_, h⟩ := h1; simp only [final] at h; subst h; exact h2
  | cons q l ih =>
    intro r r1 r' l2 h1 h2
    cases hs : SigRegistry.stepModel cfg.window cfg.maxSignatures r q with
    | error e =>
      exfalso
      have h := h1.1
      simp only [accepted, hs] at h
      have hlen : ∀ (l : List Req) (r : Registry),
          (accepted (SigRegistry.stepModel cfg.window cfg.maxSignatures) r l).length ≤ l.length := by
        intro l
        induction l with
        | nil => intro r; simp [accepted]
        | cons a l ih =>
          intro r
          simp only [accepted]
          split
          · have := ih (by assumption); simp only [List.length_cons]; omega
          · have := ih r; simp only [List.length_cons]; omega
      have := hlen l r
      rw [h] at this
      simp at this
    | ok r2 =>
      have h : AllAccepted cfg r2 l r1 := by
        obtain ⟨ha, hb⟩ := h1
        simp only [accepted, final, hs, List.cons.injEq, true_and] at ha hb
        exact ⟨ha, hb⟩
      exact allAccepted_cons (q := q) hs (ih h h2)

/-- A successful call registers exactly the proofs it carries. -/
theorem dispatch_registers {cfg : Config} {s s' : State} {st : Step}
    (h : dispatch cfg st.env s st.origin st.call = .ok s') :
    AllAccepted cfg s.registry (reqsOf st) s'.registry := by
  obtain ⟨env, o, c⟩ := st
  simp only at h
  have he := eff_of_dispatch h
  cases c with
  | createSponsoredAccountWithDelegation dk proof p =>
    simp only [dispatch, bind_eq_ok_iff] at h
    obtain ⟨who, _, h⟩ := h
    obtain ⟨r, d, _, hr, _, _, _, _, _, _, _, _, _, e⟩ := createSponsored_ok h
    subst e
    exact allAccepted_cons hr (allAccepted_nil _ _)
  | grantDelegation dk proof p =>
    simp only [dispatch, bind_eq_ok_iff] at h
    obtain ⟨who, _, h⟩ := h
    obtain ⟨r, d, _, _, hr, _, _, _, _, _, e⟩ := grantDelegation_ok h
    subst e
    exact allAccepted_cons hr (allAccepted_nil _ _)
  | addPublicKeyToMsa ok op np p =>
    simp only [dispatch, bind_eq_ok_iff] at h
    obtain ⟨who, _, h⟩ := h
    obtain ⟨r1, r2, _, _, hr1, hr2, _, _, _, e⟩ := addPublicKeyToMsa_ok h
    subst e
    exact allAccepted_cons hr1 (allAccepted_cons hr2 (allAccepted_nil _ _))
  | create => cases he <;> exact allAccepted_nil _ _
  | createProvider _ => cases he <;> exact allAccepted_nil _ _
  | revokeDelegationByDelegator _ => cases he <;> exact allAccepted_nil _ _
  | deleteMsaPublicKey _ => cases he <;> exact allAccepted_nil _ _
  | revokeDelegationByProvider _ => cases he <;> exact allAccepted_nil _ _
  | revokeSchemaPermissions _ _ => cases he <;> exact allAccepted_nil _ _
  | retireMsa => cases he <;> exact allAccepted_nil _ _
  | proposeToBeProvider _ => cases he <;> exact allAccepted_nil _ _
  | createProviderViaGovernance _ _ => cases he <;> exact allAccepted_nil _ _

/-- The registry requests made by the successful calls of a history. -/
def acceptedReqs (cfg : Config) : State → List Step → List Req
  | _, [] => []
  | s, st :: rest =>
    match dispatch cfg st.env s st.origin st.call with
    | .ok s' => reqsOf st ++ acceptedReqs cfg s' rest
    | .error _ => acceptedReqs cfg s rest

theorem acceptedReqs_map (cfg : Config) (h : List Step) : ∀ s : State,
    (acceptedReqs cfg s h).map (fun r => (r.sig, r.exp)) = acceptedProofs cfg s h := by
  induction h with
  | nil => intro s; rfl
  | cons st rest ih =>
    intro s
    simp only [acceptedReqs, acceptedProofs]
    split
    · rw [List.map_append, ih]
      simp [reqsOf, Function.comp_def]
    · exact ih s

theorem acceptedReqs_all (cfg : Config) (h : List Step) : ∀ s : State,
    AllAccepted cfg s.registry (acceptedReqs cfg s h) (run cfg s h).registry := by
  induction h with
  | nil => intro s; exact allAccepted_nil _ _
  | cons st rest ih =>
    intro s
    have hrun : run cfg s (st :: rest) = run cfg (apply cfg s st) rest := rfl
    rw [hrun]
    cases hs' : dispatch cfg st.env s st.origin st.call with
    | ok s' =>
      simp only [acceptedReqs, apply, hs']
      exact allAccepted_append (dispatch_registers hs') (ih s')
    | error e =>
      simp only [acceptedReqs, apply, hs']
      exact ih s

theorem acceptedReqs_now (cfg : Config) (h : List Step) : ∀ (s : State) (r : Req),
    r ∈ acceptedReqs cfg s h → ∃ st ∈ h, r.now = st.env.block := by
  induction h with
  | nil => intro s r hr; simp [acceptedReqs] at hr
  | cons st rest ih =>
    intro s r hr
    simp only [acceptedReqs] at hr
    split at hr
    · rcases List.mem_append.1 hr with hr | hr
      · obtain ⟨p, _, e⟩ := List.mem_map.1 hr
        exact ⟨st, by simp, by rw [← e]⟩
      · obtain ⟨x, hx, e⟩ := ih _ r hr
        exact ⟨x, List.mem_cons_of_mem _ hx, e⟩
    · obtain ⟨x, hx, e⟩ := ih _ r hr
      exact ⟨x, List.mem_cons_of_mem _ hx, e⟩

theorem acceptedReqs_chron (cfg : Config) (h : List Step) (hc : Chron h) : ∀ s : State,
    SigRegistry.Spec.Chronological (acceptedReqs cfg s h) := by
  induction h with
  | nil => intro s; exact List.Pairwise.nil
  | cons st rest ih =>
    intro s
    obtain ⟨h1, h2⟩ := List.pairwise_cons.1 hc
    simp only [acceptedReqs]
    split
    · refine List.pairwise_append.2 ⟨?_, ih h2 _, ?_⟩
      · refine List.Pairwise.map _ (fun _ _ _ => ?_) (List.pairwise_of_forall (R := fun _ _ => True) (by simp))
        exact le_refl _
      · intro a ha b hb
        obtain ⟨p, _, e⟩ := List.mem_map.1 ha
        obtain ⟨x, hx, e'⟩ := acceptedReqs_now cfg rest _ b hb
        rw [← e, e']
        exact h1 x hx
    · exact ih h2 s

/-- C10: along any chronological history of calls of the MSA pallet - any mix of grants, sponsored
creations and key additions, any number of registry evictions, any length - no proof (off-chain
signature together with the expiration of the payload it signs) is accepted twice, neither by the same
nor by a different call. -/
theorem C10_proof_accepted_once (cfg : Config) (hcap : 2 ≤ cfg.maxSignatures) (h : List Step)
    (hc : Chron h) : (acceptedProofs cfg State.init h).Nodup := by
  rw [← acceptedReqs_map]
  have h1 := (acceptedReqs_all cfg h State.init).1
  rw [← h1]
  exact SigRegistry.C10_registry_no_replay _ _ hcap _ (acceptedReqs_chron cfg h hc _)

/-- In the example history three proofs are accepted; replaying one of them is refused, also by the
other kind of call. -/
example : 2 ≤ exCfg.maxSignatures ∧ Chron exHistory ∧
    acceptedProofs exCfg State.init exHistory = [(1, 50), (2, 50), (3, 60)] ∧
    acceptedProofs exCfg State.init (exHistory ++
      [⟨exEnv 9, .signed 100, .createSponsoredAccountWithDelegation 400 3 ⟨1, [], 60⟩⟩,
       ⟨exEnv 9, .signed 100, .grantDelegation 300 3 ⟨1, [], 60⟩⟩,
       ⟨exEnv 9, .signed 5, .addPublicKeyToMsa 300 4 4 ⟨3, 50, 301⟩⟩]) =
      [(1, 50), (2, 50), (3, 60)] := by
  refine ⟨by decide, by simp [Chron, exHistory, exEnv], by decide, by decide⟩

/-- C12 at pallet level: every proof accepted by any call in any state lies strictly inside the
mortality window of the block in which the call runs. -/
theorem C12_accepted_in_window (cfg : Config) (s s' : State) (st : Step)
    (h : dispatch cfg st.env s st.origin st.call = .ok s') :
    ∀ p ∈ proofsOf st.call, st.env.block < p.2 ∧ p.2 < st.env.block + cfg.window := by
  have ha := dispatch_registers h
  intro p hp
  have hq : (⟨st.env.block, p.1, p.2⟩ : Req) ∈ reqsOf st := List.mem_map.2 ⟨p, hp, rfl⟩
  have key : ∀ (l : List Req) (r r' : Registry), AllAccepted cfg r l r' → ∀ q ∈ l,
      q.now < q.exp ∧ q.exp < q.now + cfg.window := by
    intro l
    induction l with
    | nil => intro r r' _ q hq; simp at hq
    | cons a l ih =>
      intro r r' hall q hq
      cases hs : SigRegistry.stepModel cfg.window cfg.maxSignatures r a with
      | error e =>
        exfalso
        have h := hall.1
        simp only [accepted, hs] at h
        have hlen : ∀ (l : List Req) (r : Registry),
            (accepted (SigRegistry.stepModel cfg.window cfg.maxSignatures) r l).length ≤ l.length := by
          intro l
          induction l with
          | nil => intro r; simp [accepted]
          | cons a l ih =>
            intro r
            simp only [accepted]
            split
            · have := ih (by assumption); simp only [List.length_cons]; omega
            · have := ih r; simp only [List.length_cons]; omega
        have := hlen l r
        rw [h] at this
        simp at this
      | ok r1 =>
        rcases List.mem_cons.1 hq with e | hq
        · subst e; exact SigRegistry.C12_window _ _ _ _ _ _ _ hs
        · refine ih r1 r' ⟨?_, ?_⟩ q hq
          · have h := hall.1
            simp only [accepted, hs, List.cons.injEq, true_and] at h
            exact h
          · have h := hall.2
            simp only [final, hs] at h
            exact h
  exact key _ _ _ ha _ hq

example : ∃ s', dispatch exCfg (exEnv 4) (run exCfg State.init (exHistory.take 5)) (.signed 100)
    (.createSponsoredAccountWithDelegation 300 3 ⟨1, [5, 6], 60⟩) = .ok s' := ⟨_, rfl⟩

/-! ## What is signed (C69) -/

theorem wrap_inj {a b : Bytes} (h : wrap a = wrap b) : a = b := by
  unfold wrap at h
  exact List.append_cancel_right (List.append_cancel_left h)

/-- Well-typed payloads: the integer fields fit their Rust types. -/
def AddProvider.WT (p : AddProvider) : Prop :=
  p.authorizedMsaId < 2 ^ 64 ∧ p.expiration < 2 ^ 32 ∧ p.schemaIds.length < 2 ^ 30 ∧
    ∀ id ∈ p.schemaIds, id < 2 ^ 16

/-- Well-typed payloads: the integer fields fit their Rust types. -/
def AddKeyData.WT (p : AddKeyData) : Prop :=
  p.msaId < 2 ^ 64 ∧ p.expiration < 2 ^ 32 ∧ p.newPublicKey < 2 ^ 256

theorem flatten_leBytes_inj {k : Nat} : ∀ {xs ys : List Nat} {a b : Bytes},
    xs.length = ys.length → (∀ x ∈ xs, x < 256 ^ k) → (∀ y ∈ ys, y < 256 ^ k) →
    (xs.map (Scale.leBytes k)).flatten ++ a = (ys.map (Scale.leBytes k)).flatten ++ b →
    xs = ys ∧ a = b
  | [], [], a, b, _, _, _, h => ⟨rfl, by simpa using h⟩
  | [], _ :: _, _, _, hl, _, _, _ => by simp at hl
  | _ :: _, [], _, _, hl, _, _, _ => by simp at hl
  | x :: xs, y :: ys, a, b, hl, hx, hy, h => by
    simp only [List.map_cons, List.flatten_cons, List.append_assoc] at h
    obtain ⟨h1, h2⟩ := List.append_inj h (by simp [Scale.length_leBytes])
    have e := Scale.leBytes_inj (hx x (by simp)) (hy y (by simp)) h1
    obtain ⟨e1, e2⟩ := flatten_leBytes_inj (by simpa using hl)
      (fun z hz => hx z (List.mem_cons_of_mem _ hz)) (fun z hz => hy z (List.mem_cons_of_mem _ hz)) h2
    exact ⟨by rw [e, e1], e2⟩

/-- C69: two delegation payloads with the same signed bytes are the same payload. -/
theorem C69_addProvider_injective (p q : AddProvider) (hp : p.WT) (hq : q.WT)
    (h : wrap p.encode = wrap q.encode) : p = q := by
  have h := wrap_inj h
  obtain ⟨p1, p2, p3⟩ := p
  obtain ⟨q1, q2, q3⟩ := q
  obtain ⟨a1, a2, a3, a4⟩ := hp
  obtain ⟨b1, b2, b3, b4⟩ := hq
  simp only [AddProvider.encode, Scale.u64, Scale.u32, Scale.vecOf] at *
  obtain ⟨h1, h2⟩ := List.append_inj h (by simp [Scale.length_leBytes])
  have e1 := Scale.leBytes_inj (k := 8) (by omega) (by omega) h1
  simp only [List.append_assoc] at h2
  obtain ⟨h3, h4⟩ := Scale.compact_inj (by omega) (by omega) h2
  obtain ⟨e2, h5⟩ := flatten_leBytes_inj (k := 2) h3
    (fun x hx => by have := a4 x hx; omega) (fun x hx => by have := b4 x hx; omega) h4
  have e3 := Scale.leBytes_inj (k := 4) (by omega) (by omega) h5
  rw [e1, e2, e3]

/-- C69: two key-addition payloads with the same signed bytes are the same payload. -/
theorem C69_addKeyData_injective (p q : AddKeyData) (hp : p.WT) (hq : q.WT)
    (h : wrap p.encode = wrap q.encode) : p = q := by
  have h := wrap_inj h
  obtain ⟨p1, p2, p3⟩ := p
  obtain ⟨q1, q2, q3⟩ := q
  obtain ⟨a1, a2, a3⟩ := hp
  obtain ⟨b1, b2, b3⟩ := hq
  simp only [AddKeyData.encode, Scale.u64, Scale.u32] at *
  obtain ⟨h1, h2⟩ := List.append_inj h (by simp [Scale.length_leBytes])
  obtain ⟨h3, h4⟩ := List.append_inj h2 (by simp [Scale.length_leBytes])
  have e1 := Scale.leBytes_inj (k := 8) (by omega) (by omega) h1
  have e2 := Scale.leBytes_inj (k := 4) (by omega) (by omega) h3
  have e3 := Scale.leBytes_inj (k := 32) (by omega) (by omega) h4
  rw [e1, e2, e3]

theorem length_flatten_leBytes (k : Nat) (xs : List Nat) :
    ((xs.map (Scale.leBytes k)).flatten).length = k * xs.length := by
  induction xs with
  | nil => rfl
  | cons x xs ih => simp [Scale.length_leBytes, ih, Nat.mul_succ, Nat.add_comm]

/-- C69: although neither payload carries a type tag, no bytes signed for a delegation are also the
bytes of a key addition, so consent to one can never be presented as consent to the other. -/
theorem C69_payload_kinds_disjoint (p : AddProvider) (q : AddKeyData)
    (hp : p.schemaIds.length < 2 ^ 30) : wrap p.encode ≠ wrap q.encode := by
  intro h
  have h := congrArg List.length (wrap_inj h)
  simp only [AddProvider.encode, AddKeyData.encode, Scale.u64, Scale.u32, Scale.vecOf,
    List.length_append, Scale.length_leBytes] at h
  rw [show Scale.u16 = Scale.leBytes 2 from rfl, length_flatten_leBytes] at h
  unfold Scale.compact at h
  split at h
  · simp only [Scale.length_leBytes] at h; omega
  · split at h
    · simp only [Scale.length_leBytes] at h; omega
    · simp only [Scale.length_leBytes] at h; omega

/-! ## C10 for signatures alone -/

/-- The fields of the payload of a call fit their Rust types. -/
def WTCall : Call → Prop
  | .createSponsoredAccountWithDelegation _ _ p => p.WT
  | .grantDelegation _ _ p => p.WT
  | .addPublicKeyToMsa _ _ _ p => p.WT
  | _ => True

/-- The bytes signed by the proofs of a call. -/
def signedBytes : Call → Bytes
  | .createSponsoredAccountWithDelegation _ _ p => wrap p.encode
  | .grantDelegation _ _ p => wrap p.encode
  | .addPublicKeyToMsa _ _ _ p => wrap p.encode
  | _ => []

theorem dispatch_verified {cfg env s o c s'} (h : dispatch cfg env s o c = .ok s') :
    ∀ p ∈ proofsOf c, ∃ k, cfg.verify p.1 k (signedBytes c) = true := by
  cases c with
  | createSponsoredAccountWithDelegation dk proof pl =>
    simp only [dispatch, bind_eq_ok_iff] at h
    obtain ⟨who, _, h⟩ := h
    obtain ⟨_, _, hv, _⟩ := createSponsored_ok h
    intro p hp
    simp only [proofsOf, List.mem_singleton] at hp
    subst hp
    exact ⟨dk, hv⟩
  | grantDelegation dk proof pl =>
    simp only [dispatch, bind_eq_ok_iff] at h
    obtain ⟨who, _, h⟩ := h
    obtain ⟨_, _, _, hv, _⟩ := grantDelegation_ok h
    intro p hp
    simp only [proofsOf, List.mem_singleton] at hp
    subst hp
    exact ⟨dk, hv⟩
  | addPublicKeyToMsa ok op np pl =>
    simp only [dispatch, bind_eq_ok_iff] at h
    obtain ⟨who, _, h⟩ := h
    obtain ⟨_, _, hv1, hv2, _⟩ := addPublicKeyToMsa_ok h
    intro p hp
    simp only [proofsOf, List.mem_cons, List.not_mem_nil, or_false] at hp
    rcases hp with hp | hp
    · subst hp; exact ⟨ok, hv1⟩
    · subst hp; exact ⟨_, hv2⟩
  | _ => intro p hp; simp [proofsOf] at hp

theorem acceptedProofs_origin (cfg : Config) (h : List Step) : ∀ (s : State) (p : Signature × BlockNumber),
    p ∈ acceptedProofs cfg s h →
      ∃ st ∈ h, p ∈ proofsOf st.call ∧ ∃ k, cfg.verify p.1 k (signedBytes st.call) = true := by
  induction h with
  | nil => intro s p hp; simp [acceptedProofs] at hp
  | cons st rest ih =>
    intro s p hp
    simp only [acceptedProofs] at hp
    split at hp
    · rename_i s' hd
      rcases List.mem_append.1 hp with hp | hp
      · exact ⟨st, by simp, hp, dispatch_verified hd p hp⟩
      · obtain ⟨x, hx, e⟩ := ih _ p hp
        exact ⟨x, List.mem_cons_of_mem _ hx, e⟩
    · obtain ⟨x, hx, e⟩ := ih _ p hp
      exact ⟨x, List.mem_cons_of_mem _ hx, e⟩

theorem expiration_of_bytes {c c' : Call} (hw : WTCall c) (hw' : WTCall c') (h : signedBytes c = signedBytes c')
    {p p' : Signature × BlockNumber} (hp : p ∈ proofsOf c) (hp' : p' ∈ proofsOf c') : p.2 = p'.2 := by
  have e1 : (∃ q : AddProvider, q.WT ∧ signedBytes c = wrap q.encode ∧ p.2 = q.expiration) ∨
      (∃ q : AddKeyData, q.WT ∧ signedBytes c = wrap q.encode ∧ p.2 = q.expiration) := by
    cases c with
    | createSponsoredAccountWithDelegation dk proof pl => left; exact ⟨pl, hw, rfl, by simp [proofsOf] at hp; rw [hp]⟩
    | grantDelegation dk proof pl => left; exact ⟨pl, hw, rfl, by simp [proofsOf] at hp; rw [hp]⟩
    | addPublicKeyToMsa ok op np pl =>
      right; exact ⟨pl, hw, rfl, by simp [proofsOf] at hp; rcases hp with hp | hp <;> rw [hp]⟩
    | _ => simp [proofsOf] at hp
  have e2 : (∃ q : AddProvider, q.WT ∧ signedBytes c' = wrap q.encode ∧ p'.2 = q.expiration) ∨
      (∃ q : AddKeyData, q.WT ∧ signedBytes c' = wrap q.encode ∧ p'.2 = q.expiration) := by
    cases c' with
    | createSponsoredAccountWithDelegation dk proof pl => left; exact ⟨pl, hw', rfl, by simp [proofsOf] at hp'; rw [hp']⟩
    | grantDelegation dk proof pl => left; exact ⟨pl, hw', rfl, by simp [proofsOf] at hp'; rw [hp']⟩
    | addPublicKeyToMsa ok op np pl =>
      right; exact ⟨pl, hw', rfl, by simp [proofsOf] at hp'; rcases hp' with hp' | hp' <;> rw [hp']⟩
    | _ => simp [proofsOf] at hp'
  rcases e1 with ⟨q, hq, b, x⟩ | ⟨q, hq, b, x⟩ <;> rcases e2 with ⟨q', hq', b', x'⟩ | ⟨q', hq', b', x'⟩
  · rw [x, x', C69_addProvider_injective q q' hq hq' (by rw [← b, ← b', h])]
  · exact absurd (by rw [← b, ← b', h]) (C69_payload_kinds_disjoint q q' hq.2.2.1)
  · exact absurd (by rw [← b, ← b', h]) (C69_payload_kinds_disjoint q' q hq'.2.2.1)
  · rw [x, x', C69_addKeyData_injective q q' hq hq' (by rw [← b, ← b', h])]

/-- C10 for signatures alone: if no signature verifies for two different byte strings, then along any
chronological history no signature is accepted twice, whatever key, call or payload it is presented with. -/
theorem C10_signature_accepted_once (cfg : Config) (hcap : 2 ≤ cfg.maxSignatures)
    (hsig : ∀ sig k k' b b', cfg.verify sig k b = true → cfg.verify sig k' b' = true → b = b')
    (h : List Step) (hc : Chron h) (hw : ∀ st ∈ h, WTCall st.call) :
    ((acceptedProofs cfg State.init h).map Prod.fst).Nodup := by
  refine List.Nodup.map_on ?_ (C10_proof_accepted_once cfg hcap h hc)
  intro p hp q hq e
  obtain ⟨st, hst, hp', k, hv⟩ := acceptedProofs_origin cfg h _ p hp
  obtain ⟨st', hst', hq', k', hv'⟩ := acceptedProofs_origin cfg h _ q hq
  rw [← e] at hv'
  exact Prod.ext e (expiration_of_bytes (hw _ hst) (hw _ hst') (hsig _ _ _ _ _ hv hv') hp' hq')

/-- A scheme as assumed (one signature per payload and key, numbered 1 to 3) under which the proofs of the
example history are accepted. -/
example : let b1 := wrap (AddKeyData.encode ⟨2, 50, 201⟩)
    let b3 := wrap (AddProvider.encode ⟨1, [5, 6], 60⟩)
    let cfg := { exCfg with verify := fun sig k b => decide ((sig, k, b) ∈ [(1, 200, b1), (2, 201, b1), (3, 300, b3)]) }
    (∀ sig k k' b b', cfg.verify sig k b = true → cfg.verify sig k' b' = true → b = b') ∧
    acceptedProofs cfg State.init exHistory = [(1, 50), (2, 50), (3, 60)] := by
  refine ⟨?_, by decide⟩
  intro sig k k' b b' h h'
  simp only [decide_eq_true_eq, List.mem_cons, Prod.mk.injEq, List.not_mem_nil, or_false] at h h'
  rcases h with h | h | h <;> rcases h' with h' | h' | h' <;> obtain ⟨h1, _, h3⟩ := h <;>
    obtain ⟨h1', _, h3'⟩ := h' <;> first | omega | rw [h3, h3']

/-- Payloads within their Rust types. -/
example : (⟨1, [5, 6], 60⟩ : AddProvider).WT ∧ (⟨2, 50, 201⟩ : AddKeyData).WT := by
  constructor
  · refine ⟨by decide, by decide, by decide, by decide⟩
  · refine ⟨by decide, by decide, by decide⟩

end Verif.Msa
