import Verif.Tx.Props
import Verif.Chain.PropsRefs
import Verif.Chain.PropsRetire
import Verif.Handles.PropsAccept
import Verif.Msa.PropsAccept
/-!
# C126: signing up a user in one transaction

A provider pays with capacity for a batch of two calls, the sponsored creation of an account with a delegation and the
claim of a handle for it, both signed by the user. Everything proved about accounts, handles, payment and batches is
put together.
-/

namespace Verif.Tx

/-! ## Specification -/

/-- The transaction of a provider with key `who`: account and delegation `p` for the key `dk`, signed with `proof`, and
the handle asked for by `hp`, signed with `sig`. -/
structure Request where
  dk : AccountId
  proof : Signature
  p : Msa.AddProvider
  sig : Signature
  hp : Handles.Payload

/-- The call of the transaction. -/
def Request.call (r : Request) : Call :=
  .payWithCapacityBatchAll [.leaf (.msa (.createSponsoredAccountWithDelegation r.dk r.proof r.p)),
    .leaf (.handles (.claim r.dk r.sig r.hp))]

/-- The request is good: both signatures are those of the new key and in time, the first was not used before; the
provider is registered and named by the user; the key has no account; the schemas exist and are not too many; the name
is acceptable and a suffix is left. `q` are the signatures that the chain remembers. -/
structure Good (cfg : Chain.Config) (c : Chain.State) (q : List (Signature × BlockNumber)) (who : AccountId)
    (r : Request) (base : Str) : Prop where
  consent : cfg.msa.verify r.proof r.dk (Msa.wrap r.p.encode) = true
  unused : Msa.SigOk cfg.msa q c.block r.proof r.p.expiration
  provider : Msa.resolves c.msa who r.p.authorizedMsaId ∧ c.msa.providers.get r.p.authorizedMsaId ≠ none
  newcomer : c.msa.keyToMsa.get r.dk = none
  room : Msa.issued c.msa + 1 < 2 ^ 64
  schemas : r.p.schemaIds.length ≤ cfg.msa.maxGrants ∧ ∀ id ∈ r.p.schemaIds, id ≤ c.schemas.lastId
  name : Handles.NameOk cfg.handles r.hp.baseHandle base
  time : c.block < r.hp.expiration ∧ r.hp.expiration < c.block + cfg.handles.window
  signature : cfg.handles.verify r.sig r.dk (Handles.wrap r.hp.encode) = true
  suffix : (Handles.assignedTo cfg.handles c.handles (Handles.canonical cfg.handles base)).length < cfg.hi + 1 - cfg.lo

/-- The user is signed up: the next account, for their key alone; the delegation, of just the schemas they signed; the
handle, with the suffix that is next. Nothing else has changed, but for the capacity of the provider. -/
structure SignedUp (cfg : Chain.Config) (c c' : Chain.State) (r : Request) (base : Str) (x : Nat) : Prop where
  keys : ∀ k, c'.msa.keyToMsa.get k = if k = r.dk then some (Msa.issued c.msa + 1) else c.msa.keyToMsa.get k
  counts : ∀ m, Msa.countOf c'.msa m = if m = Msa.issued c.msa + 1 then 1 else Msa.countOf c.msa m
  providers : ∀ m, c'.msa.providers.get m = c.msa.providers.get m
  delegations : ∀ d p, Msa.revokedAt c'.msa d p =
    if d = Msa.issued c.msa + 1 ∧ p = r.p.authorizedMsaId then some 0 else Msa.revokedAt c.msa d p
  grants : ∀ d p k, Msa.schemaRevokedAt c'.msa d p k =
    if d = Msa.issued c.msa + 1 ∧ p = r.p.authorizedMsaId then (if k ∈ r.p.schemaIds then some 0 else none)
    else Msa.schemaRevokedAt c.msa d p k
  handle : Handles.Obtained cfg.handles (Chain.handlesEnv cfg c') c.handles c'.handles (Msa.issued c.msa + 1) base x
    r.hp.expiration
  rest : c'.block = c.block ∧ c'.schemas = c.schemas ∧ c'.messages = c.messages ∧ c'.storage = c.storage

/-! ## Proofs -/

theorem dispatch_msa_iff (cfg : Chain.Config) (bal : AccountId → Balance) (s s' : Chain.State) (who : AccountId)
    (c : Msa.Call) : Chain.dispatch cfg bal s (.signed who) (.msa c) = some s' ↔
      ∃ t, Msa.dispatch cfg.msa (Chain.msaEnv cfg s) s.msa (.signed who) c = .ok t ∧ s' = { s with msa := t } := by
  simp only [Chain.dispatch, Chain.Origin.msa]
  cases Msa.dispatch cfg.msa (Chain.msaEnv cfg s) s.msa (.signed who) c with
  | error e => simp [Except.toOption]
  | ok t => simp [Except.toOption, eq_comm]

theorem dispatch_claim_iff (cfg : Chain.Config) (bal : AccountId → Balance) (s s' : Chain.State) (who k : AccountId)
    (sig : Signature) (p : Handles.Payload) :
    Chain.dispatch cfg bal s (.signed who) (.handles (.claim k sig p)) = some s' ↔
      ∃ t, Handles.dispatch cfg.handles s.handles ⟨Chain.handlesEnv cfg s, .claim k sig p⟩ = .ok t ∧
        s' = { s with handles := t } := by
  show (Handles.dispatch cfg.handles s.handles ⟨Chain.handlesEnv cfg s, .claim k sig p⟩).toOption.bind _ = some s' ↔ _
  cases Handles.dispatch cfg.handles s.handles ⟨Chain.handlesEnv cfg s, .claim k sig p⟩ with
  | error e => simp [Except.toOption]
  | ok t => simp [Except.toOption, eq_comm]

/-- The two calls of a request. -/
def Request.calls (r : Request) : List Chain.Call :=
  [.msa (.createSponsoredAccountWithDelegation r.dk r.proof r.p), .handles (.claim r.dk r.sig r.hp)]

theorem request_carries (r : Request) : Carries r.call r.calls := Carries.batch r.calls

theorem signUp_iff (cfg : Chain.Config) (bal : AccountId → Balance) (who : AccountId) (r : Request)
    (hcap : 2 ≤ cfg.msa.maxSignatures) (h1k : 1 ≤ cfg.msa.maxKeys) (h255 : cfg.msa.maxKeys ≤ 255)
    (hr : Handles.RangeOk cfg.hi) (n : Nat) (hist : List Chain.Step) (l : List Msa.Step)
    (hl : (Chain.run cfg (.init n) hist).msa = Msa.run cfg.msa .init l)
    (hp : ∀ base, r.hp.baseHandle = utf8Encode base → Handles.Plain cfg.handles base) :
    let c := Chain.run cfg (.init n) hist
    ((∃ c', dispatchAll cfg bal who c r.calls = some c') ↔ ∃ base, Good cfg c (Msa.held cfg.msa l) who r base) ∧
    ∀ c', dispatchAll cfg bal who c r.calls = some c' → ∃ base x, r.hp.baseHandle = utf8Encode base ∧
      SignedUp cfg c c' r base x := by
  intro c
  obtain ⟨lh, hf, hlh⟩ := Chain.handles_run cfg hist (.init n)
  have hnew : c.handles.byMsa.get (Msa.issued c.msa + 1) = none := by
    cases hv : c.handles.byMsa.get (Msa.issued c.msa + 1) with
    | none => rfl
    | some v =>
      exfalso
      have hi := Chain.handles_issued cfg n hist _ _ hv
      have hid := (Msa.boundInv_run cfg.msa l).1
      rw [← hl] at hid
      have hm := Msa.issued_eq hid
      unfold Chain.Issued at hi
      rw [hid.ids] at hi
      change Msa.issued c.msa = c.msa.maxMsaId at hm
      change Msa.issued c.msa + 1 ∈ _ at hi
      have := (List.mem_range'_1.1 hi).2
      change Msa.issued c.msa + 1 < 1 + c.msa.maxMsaId at this
      omega
  have hacc := Msa.C85_accepted_iff cfg.msa hcap h1k h255 l (Chain.msaEnv cfg c) (.signed who)
    (.createSponsoredAccountWithDelegation r.dk r.proof r.p)
  rw [← hl] at hacc
  change (∃ s', Msa.dispatch cfg.msa (Chain.msaEnv cfg c) c.msa _ _ = .ok s') ↔
    Msa.Permitted cfg.msa (Chain.msaEnv cfg c) c.msa _ _ _ at hacc
  have heff := fun s' => Msa.C85_effect cfg.msa l (Chain.msaEnv cfg c) (.signed who)
    (.createSponsoredAccountWithDelegation r.dk r.proof r.p) s'
  rw [← hl] at heff
  change ∀ s', Msa.dispatch cfg.msa (Chain.msaEnv cfg c) c.msa _ _ = .ok s' → _ at heff
  change c.handles = _ at hlh
  have key : ∀ c', dispatchAll cfg bal who c r.calls = some c' ↔ ∃ t,
      Msa.dispatch cfg.msa (Chain.msaEnv cfg c) c.msa (.signed who)
        (.createSponsoredAccountWithDelegation r.dk r.proof r.p) = .ok t ∧
      ∃ u, Handles.dispatch cfg.handles c.handles ⟨Chain.handlesEnv cfg { c with msa := t }, .claim r.dk r.sig r.hp⟩ = .ok u ∧
        c' = { c with msa := t, handles := u } := by
    intro c'
    simp only [Request.calls, dispatchAll]
    cases h1 : Chain.dispatch cfg bal c (.signed who) (.msa (.createSponsoredAccountWithDelegation r.dk r.proof r.p)) with
    | none =>
      simp only [reduceCtorEq, false_iff]
      rintro ⟨t, ht, _⟩
      rw [(dispatch_msa_iff ..).2 ⟨t, ht, rfl⟩] at h1
      simp at h1
    | some s1 =>
      obtain ⟨t, ht, rfl⟩ := (dispatch_msa_iff ..).1 h1
      simp only
      cases h2 : Chain.dispatch cfg bal { c with msa := t } (.signed who) (.handles (.claim r.dk r.sig r.hp)) with
      | none =>
        simp only [reduceCtorEq, false_iff]
        rintro ⟨t', ht', u, hu, _⟩
        rw [ht] at ht'; injection ht' with ht'; subst ht'
        rw [(dispatch_claim_iff ..).2 ⟨u, hu, rfl⟩] at h2
        simp at h2
      | some s2 =>
        obtain ⟨u, hu, rfl⟩ := (dispatch_claim_iff ..).1 h2
        constructor
        · intro h; exact ⟨t, ht, u, hu, (Option.some.inj h).symm⟩
        · rintro ⟨t', ht', u', hu', rfl⟩
          rw [ht] at ht'; injection ht' with ht'; subst ht'
          change Handles.dispatch cfg.handles c.handles _ = _ at hu
          rw [hu] at hu'; injection hu' with hu'; subst hu'
          rfl
  have hkey : ∀ t, Msa.dispatch cfg.msa (Chain.msaEnv cfg c) c.msa (.signed who)
      (.createSponsoredAccountWithDelegation r.dk r.proof r.p) = .ok t →
      (Chain.handlesEnv cfg { c with msa := t }).msaOf r.dk = some (Msa.issued c.msa + 1) := by
    intro t ht
    have := (heff t ht).1 r.dk
    simp only [Msa.keyAfter, if_true] at this
    exact this
  have hclaim : ∀ t, Msa.dispatch cfg.msa (Chain.msaEnv cfg c) c.msa (.signed who)
      (.createSponsoredAccountWithDelegation r.dk r.proof r.p) = .ok t →
      ((∃ u, Handles.dispatch cfg.handles c.handles ⟨Chain.handlesEnv cfg { c with msa := t }, .claim r.dk r.sig r.hp⟩ = .ok u) ↔
        ∃ base, Handles.Agreed cfg.handles (Chain.handlesEnv cfg { c with msa := t }) c.handles r.dk r.sig r.hp base) := by
    intro t ht
    have h := Handles.C86_accepted_iff_partial cfg.handles cfg.lo cfg.hi hr lh hf
      ⟨Chain.handlesEnv cfg { c with msa := t }, .claim r.dk r.sig r.hp⟩ ⟨rfl, rfl⟩
      (fun base hb => hp base (Option.some.inj hb))
    rw [show Handles.run cfg.handles .init lh = c.handles from hlh.symm] at h
    rw [h]
    constructor
    · rintro ⟨m, base, _, _, h3⟩; exact ⟨base, h3⟩
    · rintro ⟨base, h3⟩; exact ⟨_, base, hkey t ht, hnew, h3⟩
  constructor
  · constructor
    · rintro ⟨c', hc'⟩
      obtain ⟨t, ht, u, hu, _⟩ := (key c').1 hc'
      obtain ⟨g1, g2, g3, g4, g5, g6, g7⟩ := hacc.1 ⟨t, ht⟩
      obtain ⟨base, b1, b2, b3, b4, b5⟩ := (hclaim t ht).1 ⟨u, hu⟩
      exact ⟨base, g1, g2, ⟨g3, g4⟩, g5, g6, g7, b1, ⟨b2, b3⟩, b4, b5⟩
    · rintro ⟨base, g⟩
      obtain ⟨t, ht⟩ := hacc.2 ⟨g.consent, g.unused, g.provider.1, g.provider.2, g.newcomer, g.room, g.schemas⟩
      obtain ⟨u, hu⟩ := (hclaim t ht).2 ⟨base, g.name, g.time.1, g.time.2, g.signature, g.suffix⟩
      exact ⟨_, (key _).2 ⟨t, ht, u, hu, rfl⟩⟩
  · intro c' hc'
    obtain ⟨t, ht, u, hu, rfl⟩ := (key c').1 hc'
    have ho := Handles.C86_claim_effect_partial cfg.handles cfg.lo cfg.hi hr lh hf
      (Chain.handlesEnv cfg { c with msa := t }) ⟨rfl, rfl⟩ r.dk r.sig r.hp u (fun base hb => (hp base hb).1)
    rw [show Handles.run cfg.handles .init lh = c.handles from hlh.symm] at ho
    obtain ⟨m, base, x, hm, hb, ho⟩ := ho hu
    rw [hkey t ht] at hm
    obtain rfl := Option.some.inj hm
    obtain ⟨e1, e2, e3, e4, e5⟩ := heff t ht
    exact ⟨base, x, hb, e1, e2, e3, e4, e5, ho, rfl, rfl, rfl, rfl⟩

/-! ## Theorems -/

/-- C126, good requests: whenever the transaction is included, which takes the next number and a provider that can pay
(C125), a good request signs the user up, and exactly the fee is taken from what the provider can spend. -/
theorem C126_signed_up (cfg : Config) (hcap : 2 ≤ cfg.chain.msa.maxSignatures) (h1k : 1 ≤ cfg.chain.msa.maxKeys)
    (h255 : cfg.chain.msa.maxKeys ≤ 255) (hr : Handles.RangeOk cfg.chain.hi) (n : Nat) (hist : List Chain.Step)
    (l : List Msa.Step) (s : State) (hs : s.chain = Chain.run cfg.chain (.init n) hist)
    (hl : s.chain.msa = Msa.run cfg.chain.msa .init l) (t : Signed) (r : Request) (hcall : t.call = r.call)
    (hp : ∀ base, r.hp.baseHandle = utf8Encode base → Handles.Plain cfg.chain.handles base)
    (hinc : (takeIn cfg s t).isSome = true) (base : Str)
    (hg : Good cfg.chain s.chain (Msa.held cfg.chain.msa l) t.who r base) :
    (∃ x, SignedUp cfg.chain s.chain (submit cfg s t).chain r base x) ∧
    spendable (submit cfg s t).chain r.p.authorizedMsaId + TxPayment.fee cfg.payment (r.calls.map view) t.len =
      spendable s.chain r.p.authorizedMsaId ∧
    ∀ m, m ≠ r.p.authorizedMsaId → spendable (submit cfg s t).chain m = spendable s.chain m := by
  have hc : Carries t.call r.calls := hcall ▸ request_carries r
  have htot := fun m => C125_total cfg m [(t, r.calls)] (by simpa using hc) s
  have hiff := signUp_iff cfg.chain t.bal t.who r hcap h1k h255 hr n hist l (hs ▸ hl) hp
  simp only [← hs] at hiff
  obtain ⟨cs, m, d, d', k, hc', hm, _, _, _, _, _, _, _, _, _, _, _, _, _, _, e⟩ :=
    C125_capacity_effect cfg s t (carries_withCapacity hc).1 hinc
  have := carries_unique hc' hc
  subst this
  refine ⟨?_, ?_, ?_⟩
  · obtain ⟨c', hc'⟩ := hiff.1.2 ⟨base, hg⟩
    obtain ⟨base', x, hb, hx⟩ := hiff.2 c' hc'
    have hbb : base' = base := by
      have h1 := hg.name.encoding
      rw [hb] at h1
      have := congrArg utf8Decode h1
      simpa [utf8Decode_encode] using this
    subst hbb
    refine ⟨x, ?_⟩
    rw [e, if_pos (show r.calls.length ≤ 10 from (by decide : 2 ≤ 10)), hc']
    exact ⟨hx.keys, hx.counts, hx.providers, hx.delegations, hx.grants, hx.handle, hx.rest⟩
  · have := htot r.p.authorizedMsaId
    simp only [List.map_cons, List.map_nil, submitAll, List.foldl_cons, List.foldl_nil, taken, Nat.add_zero] at this
    rw [if_pos ⟨hinc, hg.provider.1⟩] at this
    exact this
  · intro m' hne
    have := htot m'
    simp only [List.map_cons, List.map_nil, submitAll, List.foldl_cons, List.foldl_nil, taken, Nat.add_zero] at this
    rw [if_neg (fun h => hne (Option.some.inj (h.2.symm.trans hg.provider.1)))] at this
    exact this

/-- C126, other requests: the provider pays, and nothing else happens; there is no account without its handle and no
handle without the delegation. -/
theorem C126_not_signed_up (cfg : Config) (hcap : 2 ≤ cfg.chain.msa.maxSignatures) (h1k : 1 ≤ cfg.chain.msa.maxKeys)
    (h255 : cfg.chain.msa.maxKeys ≤ 255) (hr : Handles.RangeOk cfg.chain.hi) (n : Nat) (hist : List Chain.Step)
    (l : List Msa.Step) (s : State) (hs : s.chain = Chain.run cfg.chain (.init n) hist)
    (hl : s.chain.msa = Msa.run cfg.chain.msa .init l) (t : Signed) (r : Request) (hcall : t.call = r.call)
    (hp : ∀ base, r.hp.baseHandle = utf8Encode base → Handles.Plain cfg.chain.handles base)
    (hg : ¬ ∃ base, Good cfg.chain s.chain (Msa.held cfg.chain.msa l) t.who r base) :
    (submit cfg s t).chain = { s.chain with capacity := (submit cfg s t).chain.capacity } := by
  cases hinc : (takeIn cfg s t).isSome with
  | false => rw [C125_refused cfg s t hinc]
  | true =>
    have hc : Carries t.call r.calls := hcall ▸ request_carries r
    have hiff := signUp_iff cfg.chain t.bal t.who r hcap h1k h255 hr n hist l (hs ▸ hl) hp
    simp only [← hs] at hiff
    obtain ⟨cs, m, d, d', k, hc', hm, _, _, _, _, _, _, _, _, _, _, _, _, _, _, e⟩ :=
      C125_capacity_effect cfg s t (carries_withCapacity hc).1 hinc
    have := carries_unique hc' hc
    subst this
    cases hd : dispatchAll cfg.chain t.bal t.who s.chain r.calls with
    | some c' => exact absurd (hiff.1.1 ⟨c', hd⟩) hg
    | none => rw [e, if_pos (show r.calls.length ≤ 10 from (by decide : 2 ≤ 10)), hd]; rfl

/-! ## A concrete chain -/

/-- Every weight costs one, every byte nothing. -/
def exCfg : Config := ⟨Chain.exCfg, ⟨0, 0, ⟨500000000000, 5242880⟩, fun _ => 1, 0, 10, 2 ^ 128 - 1⟩, false⟩

/-- Key 10 has created account 1, a provider with two schemas on the chain and a stake of 500. -/
def exHist : List Chain.Step :=
  [.newBlock,
   .submit Chain.exBal 10 (.msa .create),
   .submit Chain.exBal 10 (.msa (.createProvider [65])),
   .call Chain.exBal .council (.schemas (.createViaGovernance 10 (123 :: List.replicate 10 0) .avroBinary .onChain [])),
   .submit Chain.exBal 30 (.capacity (.stake 1 500))]

/-- The state after it. -/
def exState : State := ⟨Chain.run Chain.exCfg (.init 1024) exHist, ∅⟩

/-- Key 20 asks to be signed up with the name alice. -/
def exRequest : Request := ⟨20, 20, ⟨1, [1], 50⟩, 20, Handles.pl "alice" 30⟩

/-- The same with a wrong signature for the handle. -/
def exBad : Request := { exRequest with sig := 21 }

/-- The transaction of the provider. -/
def exTx (r : Request) : Signed := ⟨10, 0, r.call, 200, Chain.exBal, false⟩

/-- Hypotheses of `C126_signed_up` met, but for those that only state where the history comes from: the transaction is
included, and the user is signed up with a handle; the provider pays two of ten. -/
example : (takeIn exCfg exState (exTx exRequest)).isSome = true ∧
    Chain.msaOf (submit exCfg exState (exTx exRequest)).chain 20 = some 2 ∧
    ((submit exCfg exState (exTx exRequest)).chain.handles.byMsa.get 2).isSome = true ∧
    Msa.schemaRevokedAt (submit exCfg exState (exTx exRequest)).chain.msa 2 1 1 = some 0 ∧
    spendable exState.chain 1 = 10 ∧ spendable (submit exCfg exState (exTx exRequest)).chain 1 = 8 := by
  decide +kernel

/-- With the wrong signature the transaction is included and paid for, and there is no account. The same transaction
once more is refused. -/
example : (takeIn exCfg exState (exTx exBad)).isSome = true ∧
    Chain.msaOf (submit exCfg exState (exTx exBad)).chain 20 = none ∧
    spendable (submit exCfg exState (exTx exBad)).chain 1 = 8 ∧
    (takeIn exCfg (submit exCfg exState (exTx exBad)) (exTx exBad)).isSome = false ∧
    (takeIn exCfg exState { exTx exBad with nonce := 1 }).isSome = false := by
  decide +kernel

/-- The request is good, with no signatures remembered; the name is plain. -/
example : Good exCfg.chain exState.chain [] 10 exRequest "alice".toList ∧
    Handles.Plain exCfg.chain.handles "alice".toList ∧ Handles.RangeOk exCfg.chain.hi := by
  refine ⟨⟨by decide +kernel, ⟨by decide +kernel, by decide +kernel, by simp, Or.inl (by decide +kernel)⟩,
    ⟨by decide +kernel, by decide +kernel⟩, by decide +kernel, by decide +kernel, ⟨by decide +kernel, by decide +kernel⟩, ?_,
    ⟨by decide +kernel, by decide +kernel⟩, by decide +kernel, by decide +kernel⟩, ⟨by decide +kernel, by decide +kernel⟩, show 99 < 65535 by decide⟩
  exact ⟨by decide +kernel, by decide +kernel, by decide +kernel, by decide +kernel, by decide +kernel, by decide +kernel,
    (Handles.supported_iff (by decide +kernel)).1 (by decide +kernel)⟩

/-- The history of the accounts in it: nothing is remembered. -/
example : exState.chain.msa = Msa.run exCfg.chain.msa .init
      [⟨⟨1, 0, fun _ => false⟩, .signed 10, .create⟩, ⟨⟨1, 0, fun _ => false⟩, .signed 10, .createProvider [65]⟩] ∧
    Msa.held exCfg.chain.msa
      [⟨⟨1, 0, fun _ => false⟩, .signed 10, .create⟩, ⟨⟨1, 0, fun _ => false⟩, .signed 10, .createProvider [65]⟩] = [] :=
  ⟨rfl, rfl⟩

/-- C125: a batch of eleven calls is charged and has no effect; one of two takes effect with one fee; a call that may not
be paid with capacity is refused; a transaction paid with tokens uses up its number. -/
example :
    let msg : Chain.Call := .messages (.onchain none 1 [7])
    let batch (k : Nat) : Signed := ⟨10, 0, .payWithCapacityBatchAll ((List.replicate k msg).map .leaf), 200, Chain.exBal, false⟩
    (takeIn exCfg exState (batch 11)).isSome = true ∧ spendable (submit exCfg exState (batch 11)).chain 1 = 8 ∧
    (submit exCfg exState (batch 11)).chain.messages.index = 0 ∧
    spendable (submit exCfg exState (batch 2)).chain 1 = 8 ∧
    (submit exCfg exState (batch 2)).chain.messages.index = 2 ∧
    (takeIn exCfg exState { batch 2 with call := .payWithCapacity (.leaf (.msa .create)) }).isSome = false ∧
    (Nonce.getAccount (submit exCfg exState ⟨40, 0, .leaf (.msa .create), 100, Chain.exBal, true⟩).accounts 40).nonce = 1 := by
  decide +kernel

end Verif.Tx
