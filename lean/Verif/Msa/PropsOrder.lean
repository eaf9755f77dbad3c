import Verif.Msa.PropsAccept
import Mathlib.Logic.Function.Basic
/-!
# C168: consents and withdrawals of different users can come in any order
-/

namespace Verif.Msa

open SigRegistry (Rep)
open SigRegistry.Spec (Queue)

/-! ## Specification -/

/-- A call, as a transaction (which passes the extension first) or within another call. -/
structure Item where
  tx : Bool
  origin : Origin
  call : Call

/-- The state after it, if it succeeds. -/
def exec (cfg : Config) (env : Env) (s : State) (x : Item) : Option State :=
  match x.tx, x.origin with
  | true, .signed who =>
    match validate env s who x.call with
    | .ok _ => (dispatch cfg env s x.origin x.call).toOption
    | .error _ => none
  | _, _ => (dispatch cfg env s x.origin x.call).toOption

/-- The state after all of them, if all succeed, one after the other. -/
def execAll (cfg : Config) (env : Env) : State → List Item → Option State
  | s, [] => some s
  | s, x :: h => (exec cfg env s x).bind (fun t => execAll cfg env t h)

/-- Calls that open or give up no account. -/
def Item.Ordinary (x : Item) : Prop :=
  match x.call with
  | .create | .createSponsoredAccountWithDelegation .. | .retireMsa => False
  | _ => True

/-- The keys whose accounts a call is about. -/
def Item.uses (x : Item) : List AccountId :=
  match x.origin, x.call with
  | .signed who, .grantDelegation dk _ _ => [who, dk]
  | .signed _, .addPublicKeyToMsa ownerKey _ _ _ => [ownerKey]
  | .signed who, _ => [who]
  | .governance, .createProviderViaGovernance key _ => [key]
  | .governance, _ => []

/-- The keys that a call gives to an account or takes away. -/
def Item.changes (x : Item) : List AccountId :=
  match x.call with
  | .addPublicKeyToMsa _ _ _ p => [p.newPublicKey]
  | .deleteMsaPublicKey key => [key]
  | _ => []

/-- The account whose keys it changes. `K` says whose the keys are. -/
def Item.account (K : AccountId → Option MsaId) (x : Item) : Option MsaId :=
  match x.origin, x.call with
  | _, .addPublicKeyToMsa _ _ _ p => some p.msaId
  | .signed who, .deleteMsaPublicKey _ => K who
  | _, _ => none

/-- The delegation that it changes: delegator and provider. -/
def Item.delegation (K : AccountId → Option MsaId) (x : Item) : Option (MsaId × MsaId) :=
  match x.origin, x.call with
  | .signed who, .grantDelegation dk _ _ => (K dk).bind (fun d => (K who).map (fun p => (d, p)))
  | .signed who, .revokeDelegationByDelegator p => (K who).map (fun d => (d, p))
  | .signed who, .revokeDelegationByProvider d => (K who).map (fun p => (d, p))
  | .signed who, .revokeSchemaPermissions p _ => (K who).map (fun d => (d, p))
  | _, _ => none

/-- The account that it registers as provider. -/
def Item.registers (K : AccountId → Option MsaId) (x : Item) : Option MsaId :=
  match x.origin, x.call with
  | .signed who, .createProvider _ => K who
  | .governance, .createProviderViaGovernance key _ => K key
  | _, _ => none

/-- The provider that it gives a grant to. -/
def Item.grantee (K : AccountId → Option MsaId) (x : Item) : Option MsaId :=
  match x.origin, x.call with
  | .signed who, .grantDelegation _ _ _ => K who
  | _, _ => none

/-- The signatures that are registered. -/
def Item.signatures (x : Item) : List Signature :=
  match x.call with
  | .grantDelegation _ proof _ => [proof]
  | .addPublicKeyToMsa _ op np _ => [op, np]
  | _ => []

/-- `x` does not change what `y` is about: no key that `y` uses or changes, no delegation, account or registration that `y`
changes, and no registration of the provider that `y` gives a grant to. -/
structure Clear (K : AccountId → Option MsaId) (x y : Item) : Prop where
  keys : ∀ k ∈ x.changes, k ∉ y.uses ∧ k ∉ y.changes
  account : ∀ m, x.account K = some m → y.account K ≠ some m
  delegation : ∀ p, x.delegation K = some p → y.delegation K ≠ some p
  registers : ∀ m, x.registers K = some m → y.registers K ≠ some m ∧ y.grantee K ≠ some m

/-- Neither changes what the other is about. -/
def Apart (K : AccountId → Option MsaId) (x y : Item) : Prop := Clear K x y ∧ Clear K y x

theorem Apart.symm {K : AccountId → Option MsaId} {x y : Item} (h : Apart K x y) : Apart K y x := ⟨h.2, h.1⟩

/-- The same keys, numbers of keys, delegations, providers and number of accounts. -/
structure Same (s t : State) : Prop where
  keys : ∀ k, s.keyToMsa.get k = t.keyToMsa.get k
  counts : ∀ m, s.keyCount.get m = t.keyCount.get m
  delegations : ∀ p, s.delegations.get p = t.delegations.get p
  providers : ∀ m, s.providers.get m = t.providers.get m
  accounts : s.maxMsaId = t.maxMsaId

/-! ## Calls as changes of cells -/

/-- Places of the storage. -/
inductive Loc
  | key (k : AccountId) | count (m : MsaId) | del (p : MsaId × MsaId) | prov (m : MsaId)
  deriving DecidableEq

/-- What is there. -/
@[reducible] def Val : Loc → Type
  | .key _ => Option MsaId
  | .count _ => Option Nat
  | .del _ => Option Delegation
  | .prov _ => Option Bytes

/-- All of it. -/
abbrev View := (l : Loc) → Val l

/-- That of a state. -/
def view (s : State) : View
  | .key k => s.keyToMsa.get k
  | .count m => s.keyCount.get m
  | .del p => s.delegations.get p
  | .prov m => s.providers.get m

/-- A change at one place, which may fail. -/
structure Cell where
  loc : Loc
  f : Val loc → Option (Val loc)

/-- The effect of it. -/
def Cell.run (c : Cell) (V : View) : Option View := (c.f (V c.loc)).map (fun v => Function.update V c.loc v)

/-- One after the other. -/
def runCells : List Cell → View → Option View
  | [], V => some V
  | c :: l, V => (c.run V).bind (runCells l)

theorem runCells_append (l l' : List Cell) (V : View) : runCells (l ++ l') V = (runCells l V).bind (runCells l') := by
  induction l generalizing V with
  | nil => rfl
  | cons c l ih =>
    simp only [List.cons_append, runCells, Option.bind_assoc]
    congr 1
    funext W
    exact ih W

/-- It only looks. -/
def Cell.Quiet (c : Cell) : Prop := ∀ v w, c.f v = some w → w = v

/-- They do not get in each other's way. -/
def Cell.Free (a b : Cell) : Prop := a.loc ≠ b.loc ∨ (a.Quiet ∧ b.Quiet)

theorem Cell.Quiet.run {c : Cell} (h : c.Quiet) {V W : View} (hr : c.run V = some W) : W = V := by
  simp only [Cell.run, Option.map_eq_some_iff] at hr
  obtain ⟨v, hv, rfl⟩ := hr
  rw [h _ _ hv, Function.update_eq_self]

theorem Cell.swap {a b : Cell} (hf : a.Free b) (V : View) : (a.run V).bind b.run = (b.run V).bind a.run := by
  rcases hf with h | ⟨ha, hb⟩
  · unfold Cell.run
    cases ha : a.f (V a.loc) with
    | none =>
      cases hb : b.f (V b.loc) with
      | none => rfl
      | some w => simp [Function.update_of_ne h, ha, Cell.run]
    | some v =>
      cases hb : b.f (V b.loc) with
      | none => simp [Function.update_of_ne (Ne.symm h), hb, Cell.run]
      | some w =>
        simp [Function.update_of_ne h, Function.update_of_ne (Ne.symm h), ha, hb, Function.update_comm h, Cell.run]
  · cases h1 : a.run V with
    | none =>
      cases h2 : b.run V with
      | none => rfl
      | some W => rw [hb.run h2]; exact h1.symm
    | some W =>
      have e := ha.run h1
      subst e
      cases h2 : b.run W with
      | none => exact h2
      | some X =>
        have e := hb.run h2
        subst e
        exact h2.trans h1.symm

theorem runCells_move {a : Cell} (l : List Cell) (hf : ∀ b ∈ l, a.Free b) (V : View) :
    runCells (a :: l) V = runCells (l ++ [a]) V := by
  induction l generalizing V with
  | nil => rfl
  | cons b l ih =>
    have h1 := Cell.swap (hf b (by simp)) V
    have h2 : runCells (a :: b :: l) V = ((a.run V).bind b.run).bind (runCells l) := by
      simp only [runCells, Option.bind_assoc]
    rw [h2, h1, Option.bind_assoc]
    show (b.run V).bind (fun W => runCells (a :: l) W) = (b.run V).bind (runCells (l ++ [a]))
    congr 1
    funext W
    exact ih (fun c hc => hf c (by simp [hc])) W

theorem runCells_swap (l l' : List Cell) (hf : ∀ a ∈ l, ∀ b ∈ l', a.Free b) (V : View) :
    runCells (l ++ l') V = runCells (l' ++ l) V := by
  induction l generalizing V with
  | nil => simp
  | cons a l ih =>
    have e : a :: l ++ l' = [a] ++ (l ++ l') := rfl
    rw [e, runCells_append]
    have : runCells (l ++ l') = runCells (l' ++ l) := funext (ih (fun x hx => hf x (by simp [hx])))
    rw [this, ← runCells_append]
    have e' : [a] ++ (l' ++ l) = (a :: l') ++ l := rfl
    rw [e', runCells_append, runCells_move l' (hf a (by simp)), ← runCells_append]
    simp

/-! ## Signatures -/

/-- Registration of several signatures, one after the other. -/
def runRegs (cfg : Config) (now : BlockNumber) : List (Signature × BlockNumber) → SigRegistry.Registry →
    Except SigRegistry.RegError SigRegistry.Registry
  | [], r => .ok r
  | x :: l, r => (SigRegistry.register cfg.window cfg.maxSignatures r now x.1 x.2).bind (runRegs cfg now l)

theorem runRegs_append (cfg : Config) (now : BlockNumber) (l l' : List (Signature × BlockNumber)) (r : SigRegistry.Registry) :
    runRegs cfg now (l ++ l') r = (runRegs cfg now l r).bind (runRegs cfg now l') := by
  induction l generalizing r with
  | nil => rfl
  | cons x l ih =>
    simp only [List.cons_append, runRegs]
    cases SigRegistry.register cfg.window cfg.maxSignatures r now x.1 x.2 with
    | error e => rfl
    | ok r' => exact ih r'

/-- There is room for so many more: what has to be forgotten for them has expired. -/
def Room (cfg : Config) (now : BlockNumber) (q : Queue) (n : Nat) : Prop :=
  ∀ i, i < q.length + n - cfg.maxSignatures → ∃ e, q[i]? = some e ∧ e.2 < now

/-- When several new signatures can be registered. -/
def RegsOk (cfg : Config) (now : BlockNumber) (q : Queue) (l : List (Signature × BlockNumber)) : Prop :=
  (∀ x ∈ l, now < x.2 ∧ x.2 < now + cfg.window) ∧ (l.map Prod.fst).Nodup ∧ Room cfg now q l.length

theorem room_step {cfg : Config} {now : BlockNumber} {q : Queue} (hq : q.length ≤ cfg.maxSignatures) {sig : Signature}
    {exp : BlockNumber} (he : now < exp) (hc : 2 ≤ cfg.maxSignatures) (n : Nat) :
    Room cfg now q (n + 1) ↔ (q.length < cfg.maxSignatures ∨ ∃ o rest, q = o :: rest ∧ o.2 < now) ∧
      Room cfg now (remember cfg q sig exp) n := by
  unfold Room remember
  by_cases hl : q.length < cfg.maxSignatures
  · rw [if_pos hl]
    simp only [hl, true_or, true_and, List.length_append, List.length_singleton]
    constructor
    · intro h i hi
      obtain ⟨e, h1, h2⟩ := h i (by omega)
      exact ⟨e, by rw [List.getElem?_append_left (List.getElem?_eq_some_iff.1 h1).1]; exact h1, h2⟩
    · intro h i hi
      obtain ⟨e, h1, h2⟩ := h i (by omega)
      by_cases hi' : i < q.length
      · exact ⟨e, by rw [List.getElem?_append_left hi'] at h1; exact h1, h2⟩
      · exfalso
        rw [List.getElem?_append_right (Nat.le_of_not_lt hi')] at h1
        have h3 : i - q.length = 0 := by
          have := (List.getElem?_eq_some_iff.1 h1).1
          simpa using this
        rw [h3] at h1
        simp at h1
        subst h1
        have : exp < now := h2
        omega
  · rw [if_neg hl]
    simp only [hl, false_or]
    cases q with
    | nil => simp at hl; omega
    | cons o rest =>
      simp only [List.length_cons] at hl hq
      have hlen : rest.length + 1 = cfg.maxSignatures := by omega
      simp only [List.length_append, List.length_singleton, List.tail_cons, List.length_cons, hlen]
      constructor
      · intro h
        refine ⟨⟨o, rest, rfl, ?_⟩, fun i hi => ?_⟩
        · obtain ⟨e, h1, h2⟩ := h 0 (by omega)
          simp at h1
          subst h1
          exact h2
        · simp only [List.length_nil, Nat.zero_add] at hi
          obtain ⟨e, h1, h2⟩ := h (i + 1) (by omega)
          rw [List.getElem?_cons_succ] at h1
          exact ⟨e, by rw [List.getElem?_append_left (List.getElem?_eq_some_iff.1 h1).1]; exact h1, h2⟩
      · rintro ⟨⟨o', rest', h0, h1⟩, h2⟩ i hi
        cases h0
        cases i with
        | zero => exact ⟨o, rfl, h1⟩
        | succ i =>
          obtain ⟨e, h3, h4⟩ := h2 i (by omega)
          rw [List.getElem?_cons_succ]
          by_cases hi' : i < rest.length
          · exact ⟨e, by rw [List.getElem?_append_left hi'] at h3; exact h3, h4⟩
          · exfalso
            rw [List.getElem?_append_right (Nat.le_of_not_lt hi')] at h3
            have h5 : i - rest.length = 0 := by
              have := (List.getElem?_eq_some_iff.1 h3).1
              simpa using this
            rw [h5] at h3
            simp at h3
            subst h3
            have : exp < now := h4
            omega

theorem runRegs_kept {cfg : Config} (hc : 2 ≤ cfg.maxSignatures) (now : BlockNumber) (l : List (Signature × BlockNumber))
    {r r' : SigRegistry.Registry} {q : Queue} (hr : Rep cfg.maxSignatures r q) {x : Signature × BlockNumber} (hx : x ∈ q)
    (he : now < x.2) (h : runRegs cfg now l r = .ok r') : x.1 ∉ l.map Prod.fst := by
  induction l generalizing r q with
  | nil => simp
  | cons y l ih =>
    simp only [runRegs] at h
    cases h1 : SigRegistry.register cfg.window cfg.maxSignatures r now y.1 y.2 with
    | error e => rw [h1] at h; cases h
    | ok r1 =>
      rw [h1] at h
      obtain ⟨g1, g2, g3, g4⟩ := (register_iff hc hr).1 ⟨r1, h1⟩
      have hm : x ∈ remember cfg q y.1 y.2 := by
        unfold remember
        by_cases hl : q.length < cfg.maxSignatures
        · simp [hl, hx]
        · obtain ⟨o, rest, rfl, ho⟩ := g4.resolve_left hl
          rcases List.mem_cons.1 hx with rfl | hx
          · omega
          · rw [if_neg hl]; exact List.mem_append_left _ hx
      have h2 := ih (register_rep hc hr h1) hm h
      simp only [List.map_cons, List.mem_cons, not_or]
      exact ⟨fun e => g3 (List.mem_map.2 ⟨x, hx, e⟩), h2⟩

theorem mem_remember {cfg : Config} {q : Queue} {sig s : Signature} {exp : BlockNumber}
    (h : s ∈ (remember cfg q sig exp).map Prod.fst) : s ∈ q.map Prod.fst ∨ s = sig := by
  unfold remember at h
  rw [List.map_append, List.mem_append] at h
  rcases h with h | h
  · left
    split at h
    · exact h
    · obtain ⟨e, he, rfl⟩ := List.mem_map.1 h
      exact List.mem_map.2 ⟨e, List.mem_of_mem_tail he, rfl⟩
  · right; simpa using h

theorem runRegs_iff {cfg : Config} (hc : 2 ≤ cfg.maxSignatures) (now : BlockNumber) (l : List (Signature × BlockNumber))
    {r : SigRegistry.Registry} {q : Queue} (hr : Rep cfg.maxSignatures r q) (hn : ∀ x ∈ l, x.1 ∉ q.map Prod.fst) :
    (∃ r', runRegs cfg now l r = .ok r') ↔ RegsOk cfg now q l := by
  induction l generalizing r q with
  | nil =>
    refine ⟨fun _ => ⟨by simp, by simp, ?_⟩, fun _ => ⟨r, rfl⟩⟩
    intro i hi
    have := hr.bounded
    simp only [List.length_nil] at hi
    omega
  | cons x l ih =>
    have hx := register_iff hc hr (now := now) (sig := x.1) (exp := x.2)
    have hnew : x.1 ∉ l.map Prod.fst → ∀ y ∈ l, y.1 ∉ (remember cfg q x.1 x.2).map Prod.fst := by
      intro h y hy hm
      rcases mem_remember hm with h' | h'
      · exact hn y (by simp [hy]) h'
      · exact h (h' ▸ List.mem_map.2 ⟨y, hy, rfl⟩)
    constructor
    · rintro ⟨r', h⟩
      simp only [runRegs] at h
      cases h1 : SigRegistry.register cfg.window cfg.maxSignatures r now x.1 x.2 with
      | error e => rw [h1] at h; cases h
      | ok r1 =>
        rw [h1] at h
        obtain ⟨g1, g2, g3, g4⟩ := hx.1 ⟨r1, h1⟩
        have hrep := register_rep hc hr h1
        have hk : x.1 ∉ l.map Prod.fst :=
          runRegs_kept hc now l hrep (x := (x.1, x.2)) (by simp [remember]) g1 h
        obtain ⟨k1, k2, k3⟩ := (ih hrep (hnew hk)).1 ⟨r', h⟩
        refine ⟨?_, ?_, ?_⟩
        · simp only [List.mem_cons, forall_eq_or_imp]; exact ⟨⟨g1, g2⟩, k1⟩
        · rw [List.map_cons, List.nodup_cons]; exact ⟨hk, k2⟩
        · exact (room_step hr.bounded g1 hc _).2 ⟨g4, k3⟩
    · rintro ⟨k1, k2, k3⟩
      simp only [List.mem_cons, forall_eq_or_imp] at k1
      rw [List.map_cons, List.nodup_cons] at k2
      obtain ⟨g4, k3⟩ := (room_step (sig := x.1) hr.bounded k1.1.1 hc _).1 k3
      obtain ⟨r1, h1⟩ := hx.2 ⟨k1.1.1, k1.1.2, hn x (by simp), g4⟩
      obtain ⟨r', h⟩ := (ih (register_rep hc hr h1) (hnew k2.1)).2 ⟨k1.2, k2.2, k3⟩
      exact ⟨r', by simp only [runRegs, h1]; exact h⟩

theorem RegsOk.perm {cfg : Config} {now : BlockNumber} {q : Queue} {l l' : List (Signature × BlockNumber)} (hp : l.Perm l')
    (h : RegsOk cfg now q l) : RegsOk cfg now q l' :=
  ⟨fun x hx => h.1 x (hp.mem_iff.2 hx), (hp.map _).nodup_iff.1 h.2.1, hp.length_eq ▸ h.2.2⟩

/-! ## What a call consists of -/

/-- The provider is registered. -/
def Cell.registered (m : MsaId) : Cell := ⟨.prov m, fun v => if v.isSome then some v else none⟩
/-- A provider is registered now. -/
def Cell.newProvider (m : MsaId) (name : Bytes) : Cell := ⟨.prov m, fun v => if v = none then some (some name) else none⟩
/-- A delegation changes. -/
def Cell.change (p : MsaId × MsaId) (f : Option Delegation → Option Delegation) : Cell := ⟨.del p, fun v => (f v).map some⟩
/-- A key gets its account. -/
def Cell.give (k : AccountId) (m : MsaId) : Cell := ⟨.key k, fun v => if v = none then some (some m) else none⟩
/-- A key loses its account: that one if it is given. -/
def Cell.take (k : AccountId) (m : Option MsaId) : Cell := ⟨.key k, fun v =>
  if v.isSome ∧ (∀ x, m = some x → v = some x) then some none else none⟩
/-- One key more. -/
def Cell.more (cfg : Config) (m : MsaId) : Cell := ⟨.count m, fun v =>
  if v.getD 0 + 1 < 256 ∧ v.getD 0 + 1 ≤ cfg.maxKeys then some (some (v.getD 0 + 1)) else none⟩
/-- One key less. -/
def Cell.less (m : MsaId) : Cell := ⟨.count m, fun v =>
  match v with
  | some 1 => some none
  | some 0 => none
  | some (c + 1) => some (some c)
  | none => some none⟩

/-- A delegation is revoked. -/
def revoked (env : Env) : Option Delegation → Option Delegation
  | some d => if d.revokedAt = 0 then some { d with revokedAt := env.block } else none
  | none => none

/-- Schemas of a delegation are revoked. -/
def schemasRevoked (cfg : Config) (env : Env) (ids : List SchemaId) : Option Delegation → Option Delegation
  | some d => (do ensureAllSchemaIdsAreValid cfg env ids; tryGetMutSchemas d ids env.block : Except Err Delegation).toOption
  | none => none

/-- The signatures to register and the changes to make, given whose the keys are; nothing if the call must fail. -/
def prog (cfg : Config) (env : Env) (K : AccountId → Option MsaId) (x : Item) :
    Option (List (Signature × BlockNumber) × List Cell) :=
  match x.origin, x.call with
  | .signed who, .grantDelegation dk proof p =>
    match K who, K dk with
    | some pr, some d =>
      if cfg.verify proof dk (wrap p.encode) = true ∧ d ≠ pr ∧ p.authorizedMsaId = pr then
        some ([(proof, p.expiration)],
          [.registered pr, .change (d, pr) (fun v => (upsertDelegation cfg env (v.getD .default) p.schemaIds).toOption)])
      else none
    | _, _ => none
  | .signed who, .revokeDelegationByDelegator pr =>
    match K who with
    | some d => some ([], [.change (d, pr) (revoked env)])
    | none => if x.tx then none else some ([], [])
  | .signed who, .revokeDelegationByProvider d =>
    match K who with
    | some pr => some ([], [.change (d, pr) (revoked env)])
    | none => if x.tx then none else some ([], [])
  | .signed who, .revokeSchemaPermissions pr ids =>
    match K who with
    | some d => some ([], [.change (d, pr) (schemasRevoked cfg env ids)])
    | none => none
  | .signed _, .addPublicKeyToMsa ok op np p =>
    if cfg.verify op ok (wrap p.encode) = true ∧ cfg.verify np p.newPublicKey (wrap p.encode) = true ∧ K ok = some p.msaId then
      some ([(op, p.expiration), (np, p.expiration)], [.give p.newPublicKey p.msaId, .more cfg p.msaId])
    else none
  | .signed who, .deleteMsaPublicKey key =>
    match K who with
    | some m => if x.tx ∧ who = key then none else some ([], [.take key (if x.tx then some m else none), .less m])
    | none => if x.tx then none else some ([], [])
  | .signed who, .createProvider name =>
    match K who with
    | some m => if name.length ≤ cfg.maxNameSize then some ([], [.newProvider m name]) else none
    | none => none
  | .signed who, .proposeToBeProvider name =>
    if name.length ≤ cfg.maxNameSize ∧ (K who).isSome then some ([], []) else none
  | .governance, .createProviderViaGovernance key name =>
    match K key with
    | some m => if name.length ≤ cfg.maxNameSize then some ([], [.newProvider m name]) else none
    | none => none
  | _, _ => none

theorem view_key {s t : State} {k : AccountId} {v : Option MsaId} (h1 : ∀ x, t.keyToMsa.get x = if x = k then v else s.keyToMsa.get x)
    (h2 : t.keyCount = s.keyCount) (h3 : t.delegations = s.delegations) (h4 : t.providers = s.providers) :
    view t = Function.update (view s) (.key k) v := by
  funext l
  cases l with
  | key k' =>
    by_cases h : k' = k
    · subst h; simp [view, h1]
    · rw [Function.update_of_ne (by simpa using h)]
      simp [view, h1, h]
  | count m => rw [Function.update_of_ne (by simp)]; simp [view, h2]
  | del p => rw [Function.update_of_ne (by simp)]; simp [view, h3]
  | prov m => rw [Function.update_of_ne (by simp)]; simp [view, h4]

theorem view_count {s t : State} {m : MsaId} {v : Option Nat} (h1 : ∀ x, t.keyCount.get x = if x = m then v else s.keyCount.get x)
    (h2 : t.keyToMsa = s.keyToMsa) (h3 : t.delegations = s.delegations) (h4 : t.providers = s.providers) :
    view t = Function.update (view s) (.count m) v := by
  funext l
  cases l with
  | count m' =>
    by_cases h : m' = m
    · subst h; simp [view, h1]
    · rw [Function.update_of_ne (by simpa using h)]
      simp [view, h1, h]
  | key m => rw [Function.update_of_ne (by simp)]; simp [view, h2]
  | del p => rw [Function.update_of_ne (by simp)]; simp [view, h3]
  | prov m => rw [Function.update_of_ne (by simp)]; simp [view, h4]

theorem view_del {s t : State} {p : MsaId × MsaId} {v : Delegation} (h1 : t.delegations = s.delegations.insert p v)
    (h2 : t.keyToMsa = s.keyToMsa) (h3 : t.keyCount = s.keyCount) (h4 : t.providers = s.providers) :
    view t = Function.update (view s) (.del p) (some v) := by
  funext l
  cases l with
  | del p' =>
    by_cases h : p' = p
    · subst h; simp [view, h1]
    · rw [Function.update_of_ne (by simpa using h)]
      simp [view, h1, SMap.get_insert_ne _ (Ne.symm h)]
  | key m => rw [Function.update_of_ne (by simp)]; simp [view, h2]
  | count p => rw [Function.update_of_ne (by simp)]; simp [view, h3]
  | prov m => rw [Function.update_of_ne (by simp)]; simp [view, h4]

theorem view_prov {s t : State} {m : MsaId} {v : Bytes} (h1 : t.providers = s.providers.insert m v)
    (h2 : t.keyToMsa = s.keyToMsa) (h3 : t.keyCount = s.keyCount) (h4 : t.delegations = s.delegations) :
    view t = Function.update (view s) (.prov m) (some v) := by
  funext l
  cases l with
  | prov m' =>
    by_cases h : m' = m
    · subst h; simp [view, h1]
    · rw [Function.update_of_ne (by simpa using h)]
      simp [view, h1, SMap.get_insert_ne _ (Ne.symm h)]
  | key m => rw [Function.update_of_ne (by simp)]; simp [view, h2]
  | count p => rw [Function.update_of_ne (by simp)]; simp [view, h3]
  | del m => rw [Function.update_of_ne (by simp)]; simp [view, h4]

theorem view_same {s t : State} (h1 : t.keyToMsa = s.keyToMsa) (h2 : t.keyCount = s.keyCount)
    (h3 : t.delegations = s.delegations) (h4 : t.providers = s.providers) : view t = view s := by
  funext l
  cases l <;> simp [view, h1, h2, h3, h4]

/-- What the next lemmas say of a call. -/
structure Matches (cfg : Config) (env : Env) (K : AccountId → Option MsaId) (s : State) (x : Item) : Prop where
  does : ∀ t, exec cfg env s x = some t → ∃ R C, prog cfg env K x = some (R, C) ∧ runRegs cfg env.block R s.registry = .ok t.registry ∧
    runCells C (view s) = some (view t) ∧ t.maxMsaId = s.maxMsaId
  can : ∀ R C r V, prog cfg env K x = some (R, C) → runRegs cfg env.block R s.registry = .ok r → runCells C (view s) = some V →
    ∃ t, exec cfg env s x = some t

theorem toOption_some {α : Type} {x : Except Err α} {a : α} : x.toOption = some a ↔ x = .ok a := by
  cases x <;> simp [Except.toOption]

/-- Calls that the extension lets through. -/
theorem exec_free {cfg : Config} {env : Env} {s : State} {x : Item} (h : ∀ who, validate env s who x.call = .ok ()) :
    exec cfg env s x = (dispatch cfg env s x.origin x.call).toOption := by
  obtain ⟨tx, o, c⟩ := x
  cases tx <;> cases o <;> simp [exec]
  rename_i who
  rw [h who]

theorem matches_grant {cfg : Config} {env : Env} {K : AccountId → Option MsaId} {s : State} {tx : Bool} {who dk : AccountId}
    {proof : Signature} {p : AddProvider} (h1 : s.keyToMsa.get who = K who) (h2 : s.keyToMsa.get dk = K dk) :
    Matches cfg env K s ⟨tx, .signed who, .grantDelegation dk proof p⟩ := by
  have hx : exec cfg env s ⟨tx, .signed who, .grantDelegation dk proof p⟩ =
      (grantDelegation cfg env s who dk proof p).toOption := exec_free (fun _ => rfl)
  constructor
  · intro t h
    rw [hx, toOption_some] at h
    simp only [grantDelegation, verifySignature, bind_eq_ok_iff, ensure_eq_ok_iff, registerSignature_eq, ensureValidRegisteredProvider,
      ensureValidMsaKey, okOr_eq_ok_iff, upsertSchemaPermissions, pure_eq_ok_iff] at h
    obtain ⟨_, hv, s1, ⟨r, hr, rfl⟩, ⟨pr, d⟩, ⟨pr', g1, d', g2, _, g3, _, g4, g5⟩, _, g6, dl, g7, rfl⟩ := h
    obtain ⟨rfl, rfl⟩ := Prod.mk.inj g5
    simp only [h1] at g1
    simp only [h2] at g2
    refine ⟨_, _, by simp only [prog, g1, g2]; rw [if_pos ⟨hv, g3, g6⟩], ?_, ?_, rfl⟩
    · simp only [runRegs, hr]; rfl
    · have g4' : (s.providers.get pr').isSome = true := g4
      have g7' : upsertDelegation cfg env ((s.delegations.get (d', pr')).getD .default) p.schemaIds = .ok dl := g7
      simp only [runCells, Cell.run, Cell.registered, Cell.change, view, g4', if_true, Option.map_some, Option.bind_some]
      rw [Function.update_of_ne (by simp), show view s (.del (d', pr')) = s.delegations.get (d', pr') from rfl, g7']
      simp only [Except.toOption, Option.map_some, Option.bind_some, Option.some.injEq]
      rw [show (s.providers.get pr' : Val (.prov pr')) = view s (.prov pr') from rfl, Function.update_eq_self]
      symm; apply view_del <;> rfl
  · intro R C r V hp hr hc
    simp only [prog] at hp
    cases g1 : K who with
    | none => simp [g1] at hp
    | some pr =>
      cases g2 : K dk with
      | none => simp [g1, g2] at hp
      | some d =>
        simp only [g1, g2] at hp
        split at hp
        · rename_i hs
          obtain ⟨hv, g3, g6⟩ := hs
          obtain ⟨rfl, rfl⟩ := Prod.mk.inj (Option.some.inj hp)
          simp only [runRegs] at hr
          cases hr' : SigRegistry.register cfg.window cfg.maxSignatures s.registry env.block proof p.expiration with
          | error e => rw [hr'] at hr; cases hr
          | ok r' =>
            simp only [runCells, Cell.run, Cell.registered, Cell.change, view] at hc
            by_cases g4 : (s.providers.get pr).isSome = true
            · simp only [g4, if_true, Option.map_some, Option.bind_some] at hc
              rw [Function.update_of_ne (by simp), show view s (.del (d, pr)) = s.delegations.get (d, pr) from rfl] at hc
              cases g7 : upsertDelegation cfg env ((s.delegations.get (d, pr)).getD .default) p.schemaIds with
              | error e => simp [g7, Except.toOption] at hc
              | ok dl =>
                have : ∃ t, grantDelegation cfg env s who dk proof p = .ok t := by
                  simp only [grantDelegation, verifySignature, bind_eq_ok_iff, ensure_eq_ok_iff, registerSignature_eq,
                    ensureValidRegisteredProvider, ensureValidMsaKey, okOr_eq_ok_iff, upsertSchemaPermissions, pure_eq_ok_iff]
                  exact ⟨_, (), hv, _, ⟨r', hr', rfl⟩, (pr, d), ⟨pr, h1.trans g1, d, h2.trans g2, (), g3, (), g4, rfl⟩, (), g6, dl, g7, rfl⟩
                obtain ⟨t, ht⟩ := this
                exact ⟨t, by rw [hx, ht]; rfl⟩
            · simp [g4] at hc
        · cases hp

theorem revokeProvider_does {env : Env} {s t : State} {p d : MsaId} (h : revokeProvider env s p d = .ok t) :
    runCells [.change (d, p) (revoked env)] (view s) = some (view t) ∧ t.registry = s.registry ∧ t.maxMsaId = s.maxMsaId := by
  simp only [revokeProvider, bind_eq_ok_iff, ensure_eq_ok_iff, okOr_eq_ok_iff, pure_eq_ok_iff] at h
  obtain ⟨dl, h1, _, h2, rfl⟩ := h
  refine ⟨?_, rfl, rfl⟩
  simp only [runCells, Cell.run, Cell.change, view, h1, revoked, h2, if_true, Option.map_some, Option.bind_some, Option.some.injEq]
  symm; apply view_del <;> rfl

theorem revokeProvider_can {env : Env} {s : State} {p d : MsaId} {V : View}
    (h : runCells [.change (d, p) (revoked env)] (view s) = some V) :
    ∃ dl, s.delegations.get (d, p) = some dl ∧ dl.revokedAt = 0 ∧ ∃ t, revokeProvider env s p d = .ok t := by
  simp only [runCells, Cell.run, Cell.change, view] at h
  cases h1 : s.delegations.get (d, p) with
  | none => simp [h1, revoked] at h
  | some dl =>
    by_cases h2 : dl.revokedAt = 0
    · refine ⟨dl, rfl, h2, ?_⟩
      simp only [revokeProvider, bind_eq_ok_iff, ensure_eq_ok_iff, okOr_eq_ok_iff, pure_eq_ok_iff]
      exact ⟨_, dl, h1, (), h2, rfl⟩
    · simp [h1, revoked, h2] at h

theorem ensureValidDelegation_of {env : Env} {s : State} {p d : MsaId} {dl : Delegation} (h1 : s.delegations.get (d, p) = some dl)
    (h2 : dl.revokedAt = 0) : ensureValidDelegation env s p d none = .ok dl := by
  simp [ensureValidDelegation, h1, h2, okOr, bind, Except.bind, pure, Except.pure]

theorem matches_revokeD {cfg : Config} {env : Env} {K : AccountId → Option MsaId} {s : State} {tx : Bool} {who : AccountId}
    {p : MsaId} (h1 : s.keyToMsa.get who = K who) :
    Matches cfg env K s ⟨tx, .signed who, .revokeDelegationByDelegator p⟩ := by
  have hd : dispatch cfg env s (.signed who) (.revokeDelegationByDelegator p) = revokeDelegationByDelegator env s who p := rfl
  cases g1 : K who with
  | none =>
    rw [g1] at h1
    constructor
    · intro t h
      cases tx with
      | true => simp [exec, validate, validateDelegationByDelegator, ensureValidMsaKey, h1, okOr, mapErr, bind, Except.bind] at h
      | false =>
        simp only [exec, hd, revokeDelegationByDelegator, h1, Except.toOption, Option.some.injEq] at h
        subst h
        exact ⟨[], [], by simp [prog, g1], rfl, rfl, rfl⟩
    · intro R C r V hp hr hc
      cases tx with
      | true => simp [prog, g1] at hp
      | false => exact ⟨s, by simp [exec, hd, revokeDelegationByDelegator, h1, Except.toOption]⟩
  | some d =>
    rw [g1] at h1
    have hx : ∀ t, revokeProvider env s p d = .ok t → exec cfg env s ⟨tx, .signed who, .revokeDelegationByDelegator p⟩ = some t := by
      intro t h
      simp only [revokeProvider, bind_eq_ok_iff, ensure_eq_ok_iff, okOr_eq_ok_iff] at h
      obtain ⟨dl, h2, _, h3, h4⟩ := h
      have : revokeProvider env s p d = .ok t := by
        simp only [revokeProvider, bind_eq_ok_iff, ensure_eq_ok_iff, okOr_eq_ok_iff]
        exact ⟨dl, h2, (), h3, h4⟩
      cases tx <;> simp [exec, validate, validateDelegationByDelegator, ensureValidMsaKey, h1, okOr, mapErr, bind, Except.bind,
        ensureValidDelegation_of h2 h3, hd, revokeDelegationByDelegator, this, Except.toOption, pure, Except.pure]
    constructor
    · intro t h
      have h2 : revokeProvider env s p d = .ok t := by
        cases tx with
        | false => simpa [exec, hd, revokeDelegationByDelegator, h1, toOption_some] using h
        | true =>
          simp only [exec] at h
          split at h
          · simpa [hd, revokeDelegationByDelegator, h1, toOption_some] using h
          · cases h
      obtain ⟨k1, k2, k3⟩ := revokeProvider_does h2
      exact ⟨[], _, by simp only [prog, g1], by rw [k2]; rfl, k1, k3⟩
    · intro R C r V hp hr hc
      simp only [prog, g1] at hp
      obtain ⟨rfl, rfl⟩ := Prod.mk.inj (Option.some.inj hp)
      obtain ⟨_, _, _, t, ht⟩ := revokeProvider_can hc
      exact ⟨t, hx t ht⟩

theorem matches_revokeP {cfg : Config} {env : Env} {K : AccountId → Option MsaId} {s : State} {tx : Bool} {who : AccountId}
    {d : MsaId} (h1 : s.keyToMsa.get who = K who) :
    Matches cfg env K s ⟨tx, .signed who, .revokeDelegationByProvider d⟩ := by
  have hd : dispatch cfg env s (.signed who) (.revokeDelegationByProvider d) = revokeDelegationByProvider env s who d := rfl
  cases g1 : K who with
  | none =>
    rw [g1] at h1
    constructor
    · intro t h
      cases tx with
      | true => simp [exec, validate, validateDelegationByProvider, ensureValidMsaKey, h1, okOr, mapErr, bind, Except.bind] at h
      | false =>
        simp only [exec, hd, revokeDelegationByProvider, h1, Except.toOption, Option.some.injEq] at h
        subst h
        exact ⟨[], [], by simp [prog, g1], rfl, rfl, rfl⟩
    · intro R C r V hp hr hc
      cases tx with
      | true => simp [prog, g1] at hp
      | false => exact ⟨s, by simp [exec, hd, revokeDelegationByProvider, h1, Except.toOption]⟩
  | some p =>
    rw [g1] at h1
    have hx : ∀ t, revokeProvider env s p d = .ok t → exec cfg env s ⟨tx, .signed who, .revokeDelegationByProvider d⟩ = some t := by
      intro t h
      simp only [revokeProvider, bind_eq_ok_iff, ensure_eq_ok_iff, okOr_eq_ok_iff] at h
      obtain ⟨dl, h2, _, h3, h4⟩ := h
      have : revokeProvider env s p d = .ok t := by
        simp only [revokeProvider, bind_eq_ok_iff, ensure_eq_ok_iff, okOr_eq_ok_iff]
        exact ⟨dl, h2, (), h3, h4⟩
      cases tx <;> simp [exec, validate, validateDelegationByProvider, ensureValidMsaKey, h1, okOr, mapErr, bind, Except.bind,
        ensureValidDelegation_of h2 h3, hd, revokeDelegationByProvider, this, Except.toOption, pure, Except.pure]
    constructor
    · intro t h
      have h2 : revokeProvider env s p d = .ok t := by
        cases tx with
        | false => simpa [exec, hd, revokeDelegationByProvider, h1, toOption_some] using h
        | true =>
          simp only [exec] at h
          split at h
          · simpa [hd, revokeDelegationByProvider, h1, toOption_some] using h
          · cases h
      obtain ⟨k1, k2, k3⟩ := revokeProvider_does h2
      exact ⟨[], _, by simp only [prog, g1], by rw [k2]; rfl, k1, k3⟩
    · intro R C r V hp hr hc
      simp only [prog, g1] at hp
      obtain ⟨rfl, rfl⟩ := Prod.mk.inj (Option.some.inj hp)
      obtain ⟨_, _, _, t, ht⟩ := revokeProvider_can hc
      exact ⟨t, hx t ht⟩

theorem matches_schemas {cfg : Config} {env : Env} {K : AccountId → Option MsaId} {s : State} {tx : Bool} {who : AccountId}
    {p : MsaId} {ids : List SchemaId} (h1 : s.keyToMsa.get who = K who) :
    Matches cfg env K s ⟨tx, .signed who, .revokeSchemaPermissions p ids⟩ := by
  have hx : exec cfg env s ⟨tx, .signed who, .revokeSchemaPermissions p ids⟩ =
      (revokeSchemaPermissions cfg env s who p ids).toOption := exec_free (fun _ => rfl)
  constructor
  · intro t h
    rw [hx, toOption_some] at h
    simp only [revokeSchemaPermissions, revokePermissionsForSchemas, ensureValidMsaKey, bind_eq_ok_iff, okOr_eq_ok_iff,
      pure_eq_ok_iff] at h
    obtain ⟨d, g1, dl, g2, _, g3, dl', g4, rfl⟩ := h
    rw [h1] at g1
    refine ⟨[], _, by simp only [prog, g1]; rfl, rfl, ?_, rfl⟩
    have e : schemasRevoked cfg env ids (some dl) = some dl' := by
      simp only [schemasRevoked, toOption_some, bind_eq_ok_iff]
      exact ⟨_, g3, g4⟩
    simp only [runCells, Cell.run, Cell.change, view, g2, e, Option.map_some, Option.bind_some, Option.some.injEq]
    symm; apply view_del <;> rfl
  · intro R C r V hp hr hc
    cases g1 : K who with
    | none => simp [prog, g1] at hp
    | some d =>
      simp only [prog, g1] at hp
      obtain ⟨rfl, rfl⟩ := Prod.mk.inj (Option.some.inj hp)
      simp only [runCells, Cell.run, Cell.change, view] at hc
      cases g2 : s.delegations.get (d, p) with
      | none => simp [g2, schemasRevoked] at hc
      | some dl =>
        cases g3 : schemasRevoked cfg env ids (some dl) with
        | none => simp [g2, g3] at hc
        | some dl' =>
          simp only [schemasRevoked, toOption_some, bind_eq_ok_iff] at g3
          obtain ⟨_, g3, g4⟩ := g3
          have : ∃ t, revokeSchemaPermissions cfg env s who p ids = .ok t := by
            simp only [revokeSchemaPermissions, revokePermissionsForSchemas, ensureValidMsaKey, bind_eq_ok_iff, okOr_eq_ok_iff,
              pure_eq_ok_iff]
            exact ⟨_, d, h1.trans g1, dl, g2, (), g3, dl', g4, rfl⟩
          obtain ⟨t, ht⟩ := this
          exact ⟨t, by rw [hx, ht]; rfl⟩

theorem createProviderFor_does {cfg : Config} {s t : State} {m : MsaId} {name : Bytes} (h : createProviderFor cfg s m name = .ok t) :
    name.length ≤ cfg.maxNameSize ∧ runCells [.newProvider m name] (view s) = some (view t) ∧ t.registry = s.registry ∧
      t.maxMsaId = s.maxMsaId := by
  simp only [createProviderFor, bind_eq_ok_iff, ensure_eq_ok_iff, pure_eq_ok_iff] at h
  obtain ⟨_, h1, _, h2, rfl⟩ := h
  refine ⟨h1, ?_, rfl, rfl⟩
  simp only [runCells, Cell.run, Cell.newProvider, view, h2, if_true, Option.map_some, Option.bind_some, Option.some.injEq]
  symm; apply view_prov <;> rfl

theorem createProviderFor_can {cfg : Config} {s : State} {m : MsaId} {name : Bytes} {V : View} (hl : name.length ≤ cfg.maxNameSize)
    (h : runCells [.newProvider m name] (view s) = some V) : ∃ t, createProviderFor cfg s m name = .ok t := by
  refine createProviderFor_iff.2 ⟨hl, ?_⟩
  simp only [runCells, Cell.run, Cell.newProvider, view] at h
  cases g : s.providers.get m with
  | none => rfl
  | some v => simp [g] at h

theorem matches_provider {cfg : Config} {env : Env} {K : AccountId → Option MsaId} {s : State} {tx : Bool} {who : AccountId}
    {name : Bytes} (h1 : s.keyToMsa.get who = K who) :
    Matches cfg env K s ⟨tx, .signed who, .createProvider name⟩ := by
  have hx : exec cfg env s ⟨tx, .signed who, .createProvider name⟩ = (createProvider cfg s who name).toOption :=
    exec_free (fun _ => rfl)
  constructor
  · intro t h
    rw [hx, toOption_some] at h
    simp only [createProvider, ensureValidMsaKey, bind_eq_ok_iff, okOr_eq_ok_iff] at h
    obtain ⟨m, g1, h⟩ := h
    rw [h1] at g1
    obtain ⟨k0, k1, k2, k3⟩ := createProviderFor_does h
    exact ⟨[], _, by simp only [prog, g1]; rw [if_pos k0], by rw [k2]; rfl, k1, k3⟩
  · intro R C r V hp hr hc
    cases g1 : K who with
    | none => simp [prog, g1] at hp
    | some m =>
      simp only [prog, g1] at hp
      split at hp
      · rename_i hl
        obtain ⟨rfl, rfl⟩ := Prod.mk.inj (Option.some.inj hp)
        obtain ⟨t, ht⟩ := createProviderFor_can hl hc
        refine ⟨t, ?_⟩
        rw [hx, toOption_some]
        simp only [createProvider, ensureValidMsaKey, bind_eq_ok_iff, okOr_eq_ok_iff]
        exact ⟨m, h1.trans g1, ht⟩
      · cases hp

theorem matches_governance {cfg : Config} {env : Env} {K : AccountId → Option MsaId} {s : State} {tx : Bool} {key : AccountId}
    {name : Bytes} (h1 : s.keyToMsa.get key = K key) :
    Matches cfg env K s ⟨tx, .governance, .createProviderViaGovernance key name⟩ := by
  have hx : exec cfg env s ⟨tx, .governance, .createProviderViaGovernance key name⟩ =
      (createProviderViaGovernance cfg s key name).toOption := exec_free (fun _ => rfl)
  constructor
  · intro t h
    rw [hx, toOption_some] at h
    simp only [createProviderViaGovernance, ensureValidMsaKey, bind_eq_ok_iff, okOr_eq_ok_iff] at h
    obtain ⟨m, g1, h⟩ := h
    rw [h1] at g1
    obtain ⟨k0, k1, k2, k3⟩ := createProviderFor_does h
    exact ⟨[], _, by simp only [prog, g1]; rw [if_pos k0], by rw [k2]; rfl, k1, k3⟩
  · intro R C r V hp hr hc
    cases g1 : K key with
    | none => simp [prog, g1] at hp
    | some m =>
      simp only [prog, g1] at hp
      split at hp
      · rename_i hl
        obtain ⟨rfl, rfl⟩ := Prod.mk.inj (Option.some.inj hp)
        obtain ⟨t, ht⟩ := createProviderFor_can hl hc
        refine ⟨t, ?_⟩
        rw [hx, toOption_some]
        simp only [createProviderViaGovernance, ensureValidMsaKey, bind_eq_ok_iff, okOr_eq_ok_iff]
        exact ⟨m, h1.trans g1, ht⟩
      · cases hp

theorem matches_propose {cfg : Config} {env : Env} {K : AccountId → Option MsaId} {s : State} {tx : Bool} {who : AccountId}
    {name : Bytes} (h1 : s.keyToMsa.get who = K who) :
    Matches cfg env K s ⟨tx, .signed who, .proposeToBeProvider name⟩ := by
  have hx : exec cfg env s ⟨tx, .signed who, .proposeToBeProvider name⟩ = (proposeToBeProvider cfg s who name).toOption :=
    exec_free (fun _ => rfl)
  constructor
  · intro t h
    rw [hx, toOption_some] at h
    simp only [proposeToBeProvider, ensureValidMsaKey, bind_eq_ok_iff, okOr_eq_ok_iff, ensure_eq_ok_iff, pure_eq_ok_iff] at h
    obtain ⟨_, g0, m, g1, rfl⟩ := h
    rw [h1] at g1
    exact ⟨[], [], by simp [prog, g1, g0], rfl, rfl, rfl⟩
  · intro R C r V hp hr hc
    simp only [prog] at hp
    split at hp
    · rename_i hl
      obtain ⟨m, g1⟩ := Option.isSome_iff_exists.1 hl.2
      refine ⟨s, ?_⟩
      rw [hx, toOption_some]
      simp only [proposeToBeProvider, ensureValidMsaKey, bind_eq_ok_iff, okOr_eq_ok_iff, ensure_eq_ok_iff, pure_eq_ok_iff]
      exact ⟨(), hl.1, m, h1.trans g1, trivial⟩
    · cases hp

theorem matches_add {cfg : Config} {env : Env} {K : AccountId → Option MsaId} {s : State} {tx : Bool} {who ok : AccountId}
    {op np : Signature} {p : AddKeyData} (h1 : s.keyToMsa.get ok = K ok) :
    Matches cfg env K s ⟨tx, .signed who, .addPublicKeyToMsa ok op np p⟩ := by
  have hx : exec cfg env s ⟨tx, .signed who, .addPublicKeyToMsa ok op np p⟩ = (addPublicKeyToMsa cfg env s ok op np p).toOption :=
    exec_free (fun _ => rfl)
  constructor
  · intro t h
    rw [hx, toOption_some] at h
    simp only [addPublicKeyToMsa, verifySignature, addKey, bind_eq_ok_iff, ensure_eq_ok_iff, registerSignature_eq,
      ensureValidMsaKey, okOr_eq_ok_iff, pure_eq_ok_iff] at h
    obtain ⟨_, v1, _, v2, _, ⟨r1, hr1, rfl⟩, _, ⟨r2, hr2, rfl⟩, m, g1, _, rfl, _, ⟨_, g2, _, g3, _, g4, rfl⟩, rfl⟩ := h
    have g1' : s.keyToMsa.get ok = some p.msaId := g1
    have g2' : s.keyToMsa.get p.newPublicKey = none := g2
    rw [h1] at g1'
    refine ⟨_, _, by simp only [prog]; rw [if_pos ⟨v1, v2, g1'⟩], ?_, ?_, rfl⟩
    · simp only [runRegs, hr1, Except.bind]
      have hr2' : SigRegistry.register cfg.window cfg.maxSignatures r1 env.block np p.expiration = .ok r2 := hr2
      rw [hr2']
    · simp only [runCells, Cell.run, Cell.give, view, g2', if_true, Option.map_some, Option.bind_some, Cell.more]
      rw [Function.update_of_ne (by simp), show view s (.count p.msaId) = s.keyCount.get p.msaId from rfl, if_pos ⟨g3, g4⟩]
      simp only [Option.map_some, Option.bind_some, Option.some.injEq]
      rw [← view_key (s := s) (t := { s with keyToMsa := s.keyToMsa.insert p.newPublicKey p.msaId })
        (fun x => by simp only [SMap.get_insert, eq_comm]) rfl rfl rfl]
      symm
      apply view_count
      · intro x; simp only [SMap.get_insert, eq_comm]
      all_goals rfl
  · intro R C r V hp hr hc
    simp only [prog] at hp
    split at hp
    · rename_i hs
      obtain ⟨v1, v2, g1⟩ := hs
      obtain ⟨rfl, rfl⟩ := Prod.mk.inj (Option.some.inj hp)
      simp only [runRegs] at hr
      cases hr1 : SigRegistry.register cfg.window cfg.maxSignatures s.registry env.block op p.expiration with
      | error e => rw [hr1] at hr; cases hr
      | ok r1 =>
        simp only [hr1, Except.bind] at hr
        cases hr2 : SigRegistry.register cfg.window cfg.maxSignatures r1 env.block np p.expiration with
        | error e => rw [hr2] at hr; cases hr
        | ok r2 =>
          simp only [runCells, Cell.run, Cell.give, view, Cell.more] at hc
          by_cases g2 : s.keyToMsa.get p.newPublicKey = none
          · simp only [g2, if_true, Option.map_some, Option.bind_some] at hc
            rw [Function.update_of_ne (by simp), show view s (.count p.msaId) = s.keyCount.get p.msaId from rfl] at hc
            by_cases g3 : (s.keyCount.get p.msaId).getD 0 + 1 < 256 ∧ (s.keyCount.get p.msaId).getD 0 + 1 ≤ cfg.maxKeys
            · have : ∃ t, addPublicKeyToMsa cfg env s ok op np p = .ok t := by
                simp only [addPublicKeyToMsa, verifySignature, addKey, bind_eq_ok_iff, ensure_eq_ok_iff, registerSignature_eq,
                  ensureValidMsaKey, okOr_eq_ok_iff, pure_eq_ok_iff]
                exact ⟨_, (), v1, (), v2, _, ⟨r1, hr1, rfl⟩, _, ⟨r2, hr2, rfl⟩, p.msaId, h1.trans g1, (), rfl, _,
                  ⟨(), g2, (), g3.1, (), g3.2, rfl⟩, rfl⟩
              obtain ⟨t, ht⟩ := this
              exact ⟨t, by rw [hx, ht]; rfl⟩
            · rw [if_neg g3] at hc; simp at hc
          · rw [if_neg g2] at hc; simp at hc
    · cases hp

/-- A key goes. -/
theorem deleteKeyForMsa_cells {s : State} {m : MsaId} {k : AccountId} {o : Option MsaId}
    (ho : ∀ x, o = some x → s.keyToMsa.get k = some x) :
    (∀ t, deleteKeyForMsa s m k = .ok t → runCells [.take k o, .less m] (view s) = some (view t) ∧ t.registry = s.registry ∧
      t.maxMsaId = s.maxMsaId) ∧
    (∀ V, runCells [.take k o, .less m] (view s) = some V → ∃ t, deleteKeyForMsa s m k = .ok t) := by
  cases g1 : s.keyToMsa.get k with
  | none =>
    constructor
    · intro t h
      simp [deleteKeyForMsa, g1, ensure, bind, Except.bind] at h
    · intro V h
      simp [runCells, Cell.run, Cell.take, view, g1] at h
  | some v =>
    have ho' : ∀ x, o = some x → (some v : Option MsaId) = some x := fun x hx => g1 ▸ ho x hx
    have hk : ∀ x, (s.keyToMsa.erase k).get x = if x = k then none else s.keyToMsa.get x := by
      intro x; simp only [SMap.get_erase, eq_comm]
    have hv := view_key (s := s) (t := { s with keyToMsa := s.keyToMsa.erase k }) hk rfl rfl rfl
    have e : runCells [.take k o, .less m] (view s) = (Cell.less m).run (view { s with keyToMsa := s.keyToMsa.erase k }) := by
      simp only [runCells]
      have : (Cell.take k o).run (view s) = some (view { s with keyToMsa := s.keyToMsa.erase k }) := by
        simp only [Cell.run, Cell.take, view, g1]
        rw [if_pos ⟨rfl, ho'⟩, Option.map_some]
        exact congrArg some hv.symm
      rw [this, Option.bind_some]
      cases (Cell.less m).run (view { s with keyToMsa := s.keyToMsa.erase k }) <;> rfl
    rw [e]
    have hm : ∀ (t : State), t.keyToMsa = s.keyToMsa.erase k → t.delegations = s.delegations → t.providers = s.providers →
        ∀ w, (∀ x, t.keyCount.get x = if x = m then w else s.keyCount.get x) →
        view t = Function.update (view { s with keyToMsa := s.keyToMsa.erase k }) (.count m) w :=
      fun t a b c w hw => view_count hw a b c
    have hs : (s.keyToMsa.get k).isSome = true := by rw [g1]; rfl
    have hl : (Cell.less m).run (view { s with keyToMsa := s.keyToMsa.erase k }) =
        ((Cell.less m).f (s.keyCount.get m)).map
          (fun w => Function.update (view { s with keyToMsa := s.keyToMsa.erase k }) (.count m) w) := rfl
    rw [hl]
    clear hl e
    have fin : ∀ (t0 : State) (w : Option Nat), deleteKeyForMsa s m k = .ok t0 → (Cell.less m).f (s.keyCount.get m) = some w →
        t0.registry = s.registry → t0.maxMsaId = s.maxMsaId →
        view t0 = Function.update (view { s with keyToMsa := s.keyToMsa.erase k }) (.count m) w →
        (∀ t, deleteKeyForMsa s m k = .ok t → ((Cell.less m).f (s.keyCount.get m)).map
          (fun w => Function.update (view { s with keyToMsa := s.keyToMsa.erase k }) (.count m) w) = some (view t) ∧
          t.registry = s.registry ∧ t.maxMsaId = s.maxMsaId) ∧
        (∀ V, ((Cell.less m).f (s.keyCount.get m)).map
          (fun w => Function.update (view { s with keyToMsa := s.keyToMsa.erase k }) (.count m) w) = some V →
          ∃ t, deleteKeyForMsa s m k = .ok t) := by
      intro t0 w h1 h2 h3 h4 h5
      refine ⟨fun t h => ?_, fun V _ => ⟨t0, h1⟩⟩
      obtain rfl := Except.ok.inj (h1.symm.trans h)
      rw [h2, h5]
      exact ⟨rfl, h3, h4⟩
    match g2 : s.keyCount.get m with
    | none =>
      rw [← g2]
      refine fin { s with keyToMsa := s.keyToMsa.erase k } none
        (by simp [deleteKeyForMsa, hs, ensure, bind, Except.bind, g2, pure, Except.pure]) (by rw [g2]; rfl) rfl rfl
        ?_
      refine hm _ ?_ ?_ ?_ _ ?_
      iterate 3 rfl
      intro x
      split
      · rename_i hx; subst hx; exact g2
      · rfl
    | some 0 =>
      have hd : deleteKeyForMsa s m k = .error .panic := by
        simp [deleteKeyForMsa, hs, ensure, bind, Except.bind, g2, throw, throwThe, MonadExceptOf.throw]
      refine ⟨fun t h => ?_, fun V h => ?_⟩
      · rw [hd] at h; cases h
      · cases h
    | some 1 =>
      rw [← g2]
      refine fin { s with keyToMsa := s.keyToMsa.erase k, keyCount := s.keyCount.erase m } none
        (by simp [deleteKeyForMsa, hs, ensure, bind, Except.bind, g2, pure, Except.pure]) (by rw [g2]; rfl) rfl rfl
        ?_
      refine hm _ ?_ ?_ ?_ _ ?_
      iterate 3 rfl
      intro x
      simp only [SMap.get_erase, eq_comm]
    | some (c + 2) =>
      rw [← g2]
      refine fin { s with keyToMsa := s.keyToMsa.erase k, keyCount := s.keyCount.insert m (c + 1) } (some (c + 1))
        (by simp [deleteKeyForMsa, hs, ensure, bind, Except.bind, g2, pure, Except.pure]) (by rw [g2]; rfl) rfl rfl
        ?_
      refine hm _ ?_ ?_ ?_ _ ?_
      iterate 3 rfl
      intro x
      simp only [SMap.get_insert, eq_comm]

theorem matches_delete {cfg : Config} {env : Env} {K : AccountId → Option MsaId} {s : State} {tx : Bool} {who key : AccountId}
    (h1 : s.keyToMsa.get who = K who) : Matches cfg env K s ⟨tx, .signed who, .deleteMsaPublicKey key⟩ := by
  have hd : dispatch cfg env s (.signed who) (.deleteMsaPublicKey key) = deleteMsaPublicKey s who key := rfl
  cases g1 : K who with
  | none =>
    rw [g1] at h1
    constructor
    · intro t h
      cases tx with
      | true =>
        simp only [exec] at h
        split at h
        · rename_i hv
          simp only [validate, validateKeyDelete, bind_eq_ok_iff, mapErr_iff, ensureValidMsaKey, okOr_eq_ok_iff] at hv
          obtain ⟨_, _, _, hv, _⟩ := hv
          rw [h1] at hv; cases hv
        · cases h
      | false =>
        simp only [exec, hd, deleteMsaPublicKey, h1, Except.toOption, Option.some.injEq] at h
        subst h
        exact ⟨[], [], by simp [prog, g1], rfl, rfl, rfl⟩
    · intro R C r V hp hr hc
      cases tx with
      | true => simp [prog, g1] at hp
      | false => exact ⟨s, by simp [exec, hd, deleteMsaPublicKey, h1, Except.toOption]⟩
  | some m =>
    rw [g1] at h1
    have hd' : ∀ t, (deleteMsaPublicKey s who key).toOption = some t ↔
        ∃ t', deleteKeyForMsa s m key = .ok t' ∧ { t' with events := t'.events ++ [.deleted m key] } = t := by
      intro t
      simp only [toOption_some, deleteMsaPublicKey, h1, bind_eq_ok_iff, pure_eq_ok_iff]
    have hv : validate env s who (.deleteMsaPublicKey key) = .ok () ↔ who ≠ key ∧ s.keyToMsa.get key = some m := by
      simp only [validate, validateKeyDelete, bind_eq_ok_iff, mapErr_iff, ensureValidMsaKey, okOr_eq_ok_iff, ensure_eq_ok_iff, h1]
      constructor
      · rintro ⟨_, a, _, b, _, c, rfl⟩
        exact ⟨a, c.trans b.symm⟩
      · rintro ⟨a, b⟩
        exact ⟨(), a, m, rfl, m, b, rfl⟩
    cases tx with
    | false =>
      have hx : exec cfg env s ⟨false, .signed who, .deleteMsaPublicKey key⟩ = (deleteMsaPublicKey s who key).toOption := rfl
      have hc := deleteKeyForMsa_cells (s := s) (m := m) (k := key) (o := none) (by simp)
      constructor
      · intro t h
        rw [hx, hd'] at h
        obtain ⟨t', h, rfl⟩ := h
        obtain ⟨k1, k2, k3⟩ := hc.1 t' h
        exact ⟨[], _, by simp only [prog, g1]; simp, by rw [show State.registry _ = t'.registry from rfl, k2]; rfl, k1, k3⟩
      · intro R C r V hp hr hc'
        simp only [prog, g1] at hp
        simp at hp
        obtain ⟨rfl, rfl⟩ := hp
        obtain ⟨t, ht⟩ := hc.2 V hc'
        exact ⟨_, by rw [hx, hd']; exact ⟨t, ht, rfl⟩⟩
    | true =>
      have hx : ∀ t, exec cfg env s ⟨true, .signed who, .deleteMsaPublicKey key⟩ = some t ↔
          (who ≠ key ∧ s.keyToMsa.get key = some m) ∧ (deleteMsaPublicKey s who key).toOption = some t := by
        intro t
        rw [← hv]
        simp only [exec, hd]
        cases validate env s who (.deleteMsaPublicKey key) <;> simp
      constructor
      · intro t h
        rw [hx, hd'] at h
        obtain ⟨⟨h2, h3⟩, t', h, rfl⟩ := h
        have hc := deleteKeyForMsa_cells (s := s) (m := m) (k := key) (o := some m) (by simpa using h3)
        obtain ⟨k1, k2, k3⟩ := hc.1 t' h
        exact ⟨[], _, by simp only [prog, g1]; simp [h2], by rw [show State.registry _ = t'.registry from rfl, k2]; rfl, k1, k3⟩
      · intro R C r V hp hr hc'
        simp only [prog, g1] at hp
        split at hp
        · cases hp
        · rename_i h2
          simp at hp
          obtain ⟨rfl, rfl⟩ := hp
          have h3 : s.keyToMsa.get key = some m := by
            cases g : s.keyToMsa.get key with
            | none => simp [runCells, Cell.run, Cell.take, view, g] at hc'
            | some v =>
              by_cases e : v = m
              · rw [e]
              · simp [runCells, Cell.run, Cell.take, view, g, e] at hc'
          obtain ⟨t, ht⟩ := (deleteKeyForMsa_cells (s := s) (m := m) (k := key) (o := some m) (by simpa using h3)).2 V hc'
          exact ⟨_, by rw [hx, hd']; exact ⟨⟨by simpa using h2, h3⟩, t, ht, rfl⟩⟩

theorem matches_all {cfg : Config} {env : Env} {K : AccountId → Option MsaId} {s : State} {x : Item} (ho : x.Ordinary)
    (hk : ∀ k ∈ x.uses, s.keyToMsa.get k = K k) : Matches cfg env K s x := by
  obtain ⟨tx, o, c⟩ := x
  cases o with
  | signed who =>
    cases c with
    | create => exact ho.elim
    | createSponsoredAccountWithDelegation => exact ho.elim
    | retireMsa => exact ho.elim
    | createProvider => exact matches_provider (hk who (by simp [Item.uses]))
    | grantDelegation dk => exact matches_grant (hk who (by simp [Item.uses])) (hk dk (by simp [Item.uses]))
    | revokeDelegationByDelegator => exact matches_revokeD (hk who (by simp [Item.uses]))
    | addPublicKeyToMsa ok => exact matches_add (hk ok (by simp [Item.uses]))
    | deleteMsaPublicKey => exact matches_delete (hk who (by simp [Item.uses]))
    | revokeDelegationByProvider => exact matches_revokeP (hk who (by simp [Item.uses]))
    | revokeSchemaPermissions => exact matches_schemas (hk who (by simp [Item.uses]))
    | proposeToBeProvider => exact matches_propose (hk who (by simp [Item.uses]))
    | createProviderViaGovernance =>
      constructor
      · intro t h
        cases tx <;> simp [exec, dispatch, validate, Except.toOption] at h
      · intro R C r V h
        simp [prog] at h
  | governance =>
    cases c with
    | create => exact ho.elim
    | createSponsoredAccountWithDelegation => exact ho.elim
    | retireMsa => exact ho.elim
    | createProviderViaGovernance key => exact matches_governance (hk key (by simp [Item.uses]))
    | _ =>
      constructor
      · intro t h
        cases tx <;> simp [exec, dispatch, ensureSigned, bind, Except.bind, Except.toOption] at h
      · intro R C r V h
        simp [prog] at h

/-- Where a change is made, and on account of what. -/
def Placed (K : AccountId → Option MsaId) (x : Item) (a : Cell) : Prop :=
  (∃ k ∈ x.changes, a.loc = .key k) ∨ (∃ m, x.account K = some m ∧ a.loc = .count m) ∨
  (∃ p, x.delegation K = some p ∧ a.loc = .del p) ∨ (∃ m, x.registers K = some m ∧ a.loc = .prov m) ∨
  (∃ m, x.grantee K = some m ∧ a.loc = .prov m ∧ a.Quiet)

theorem prog_placed {cfg : Config} {env : Env} {K : AccountId → Option MsaId} {x : Item}
    {R : List (Signature × BlockNumber)} {C : List Cell} (h : prog cfg env K x = some (R, C)) :
    R.map Prod.fst = x.signatures ∧ ∀ a ∈ C, Placed K x a := by
  have hn : ∀ a ∈ ([] : List Cell), Placed K x a := by simp
  obtain ⟨tx, o, c⟩ := x
  unfold prog at h
  split at h
  · rename_i who dk proof p eo ec
    dsimp only at eo ec
    subst eo ec
    split at h
    · rename_i pr d g1 g2
      split at h
      · obtain ⟨rfl, rfl⟩ := Prod.mk.inj (Option.some.inj h)
        refine ⟨rfl, ?_⟩
        simp only [List.mem_cons, List.not_mem_nil, or_false, forall_eq_or_imp, forall_eq]
        refine ⟨.inr (.inr (.inr (.inr ⟨pr, g1, rfl, ?_⟩))), .inr (.inr (.inl ⟨(d, pr), by simp [Item.delegation, g1, g2], rfl⟩))⟩
        intro v w hw
        simp only [Cell.registered] at hw
        split at hw
        · exact (Option.some.inj hw).symm
        · cases hw
      · cases h
    · cases h
  · rename_i who pr eo ec
    dsimp only at eo ec
    subst eo ec
    split at h
    · rename_i d g1
      obtain ⟨rfl, rfl⟩ := Prod.mk.inj (Option.some.inj h)
      refine ⟨rfl, ?_⟩
      simp only [List.mem_cons, List.not_mem_nil, or_false, forall_eq]
      exact .inr (.inr (.inl ⟨(d, pr), by simp [Item.delegation, g1], rfl⟩))
    · split at h
      · cases h
      · obtain ⟨rfl, rfl⟩ := Prod.mk.inj (Option.some.inj h); exact ⟨rfl, hn⟩
  · rename_i who d eo ec
    dsimp only at eo ec
    subst eo ec
    split at h
    · rename_i pr g1
      obtain ⟨rfl, rfl⟩ := Prod.mk.inj (Option.some.inj h)
      refine ⟨rfl, ?_⟩
      simp only [List.mem_cons, List.not_mem_nil, or_false, forall_eq]
      exact .inr (.inr (.inl ⟨(d, pr), by simp [Item.delegation, g1], rfl⟩))
    · split at h
      · cases h
      · obtain ⟨rfl, rfl⟩ := Prod.mk.inj (Option.some.inj h); exact ⟨rfl, hn⟩
  · rename_i who pr ids eo ec
    dsimp only at eo ec
    subst eo ec
    split at h
    · rename_i d g1
      obtain ⟨rfl, rfl⟩ := Prod.mk.inj (Option.some.inj h)
      refine ⟨rfl, ?_⟩
      simp only [List.mem_cons, List.not_mem_nil, or_false, forall_eq]
      exact .inr (.inr (.inl ⟨(d, pr), by simp [Item.delegation, g1], rfl⟩))
    · cases h
  · rename_i who ok op np p eo ec
    dsimp only at eo ec
    subst eo ec
    split at h
    · obtain ⟨rfl, rfl⟩ := Prod.mk.inj (Option.some.inj h)
      refine ⟨rfl, ?_⟩
      simp only [List.mem_cons, List.not_mem_nil, or_false, forall_eq_or_imp, forall_eq]
      exact ⟨.inl ⟨p.newPublicKey, by simp [Item.changes], rfl⟩, .inr (.inl ⟨p.msaId, by simp [Item.account], rfl⟩)⟩
    · cases h
  · rename_i who key eo ec
    dsimp only at eo ec
    subst eo ec
    split at h
    · rename_i m g1
      split at h
      · cases h
      · obtain ⟨rfl, rfl⟩ := Prod.mk.inj (Option.some.inj h)
        refine ⟨rfl, ?_⟩
        simp only [List.mem_cons, List.not_mem_nil, or_false, forall_eq_or_imp, forall_eq]
        exact ⟨.inl ⟨key, by simp [Item.changes], rfl⟩, .inr (.inl ⟨m, by simp [Item.account, g1], rfl⟩)⟩
    · split at h
      · cases h
      · obtain ⟨rfl, rfl⟩ := Prod.mk.inj (Option.some.inj h); exact ⟨rfl, hn⟩
  · rename_i who name eo ec
    dsimp only at eo ec
    subst eo ec
    split at h
    · rename_i m g1
      split at h
      · obtain ⟨rfl, rfl⟩ := Prod.mk.inj (Option.some.inj h)
        refine ⟨rfl, ?_⟩
        simp only [List.mem_cons, List.not_mem_nil, or_false, forall_eq]
        exact .inr (.inr (.inr (.inl ⟨m, g1, rfl⟩)))
      · cases h
    · cases h
  · rename_i who name eo ec
    dsimp only at eo ec
    subst eo ec
    split at h
    · obtain ⟨rfl, rfl⟩ := Prod.mk.inj (Option.some.inj h); exact ⟨rfl, hn⟩
    · cases h
  · rename_i key name eo ec
    dsimp only at eo ec
    subst eo ec
    split at h
    · rename_i m g1
      split at h
      · obtain ⟨rfl, rfl⟩ := Prod.mk.inj (Option.some.inj h)
        refine ⟨rfl, ?_⟩
        simp only [List.mem_cons, List.not_mem_nil, or_false, forall_eq]
        exact .inr (.inr (.inr (.inl ⟨m, g1, rfl⟩)))
      · cases h
    · cases h
  · cases h

theorem Apart.free {K : AccountId → Option MsaId} {x y : Item} (h : Apart K x y) {a b : Cell} (ha : Placed K x a) (hb : Placed K y b) :
    a.Free b := by
  obtain ⟨hx, hy⟩ := h
  rcases ha with ⟨k, h1, e1⟩ | ⟨m, h1, e1⟩ | ⟨m, h1, e1⟩ | ⟨m, h1, e1⟩ | ⟨m, h1, e1, q1⟩ <;>
    rcases hb with ⟨k', h2, e2⟩ | ⟨m', h2, e2⟩ | ⟨m', h2, e2⟩ | ⟨m', h2, e2⟩ | ⟨m', h2, e2, q2⟩
  all_goals first
    | exact .inr ⟨q1, q2⟩
    | (left; rw [e1, e2]; intro e; cases e; done)
    | (left; rw [e1, e2]; intro e; cases e
       first
        | exact (hx.keys _ h1).2 h2
        | exact hx.account _ h1 h2
        | exact hx.delegation _ h1 h2
        | exact (hx.registers _ h1).1 h2
        | exact (hx.registers _ h1).2 h2
        | exact (hy.registers _ h2).2 h1)

theorem runCells_other (C : List Cell) {V W : View} (h : runCells C V = some W) {l : Loc} (hl : ∀ a ∈ C, a.loc ≠ l) : W l = V l := by
  induction C generalizing V with
  | nil => cases h; rfl
  | cons a C ih =>
    simp only [runCells, Option.bind_eq_some_iff] at h
    obtain ⟨X, h1, h2⟩ := h
    rw [ih h2 (fun b hb => hl b (by simp [hb]))]
    simp only [Cell.run, Option.map_eq_some_iff] at h1
    obtain ⟨v, -, rfl⟩ := h1
    exact Function.update_of_ne (Ne.symm (hl a (by simp))) _ _

/-- The signatures a call registers, and its changes. -/
def regsOf (cfg : Config) (env : Env) (K : AccountId → Option MsaId) (x : Item) : List (Signature × BlockNumber) :=
  ((prog cfg env K x).map Prod.fst).getD []
@[inherit_doc regsOf]
def cellsOf (cfg : Config) (env : Env) (K : AccountId → Option MsaId) (x : Item) : List Cell :=
  ((prog cfg env K x).map Prod.snd).getD []

theorem agree_next {cfg : Config} {env : Env} {K : AccountId → Option MsaId} {s t : State} {x y : Item} {R C}
    (hp : prog cfg env K x = some (R, C)) (hc : runCells C (view s) = some (view t)) (hxy : Apart K x y)
    (hy : ∀ k ∈ y.uses, s.keyToMsa.get k = K k) : ∀ k ∈ y.uses, t.keyToMsa.get k = K k := by
  intro k hk
  rw [← hy k hk]
  refine runCells_other C hc (l := .key k) (fun a ha e => ?_)
  rcases (prog_placed hp).2 a ha with ⟨k', h1, e1⟩ | ⟨m, h1, e1⟩ | ⟨m, h1, e1⟩ | ⟨m, h1, e1⟩ | ⟨m, h1, e1, q1⟩ <;>
    rw [e1] at e <;> cases e
  exact (hxy.1.keys _ h1).1 hk

theorem execAll_does {cfg : Config} {env : Env} {K : AccountId → Option MsaId} (h : List Item) {s t : State}
    (ho : ∀ x ∈ h, x.Ordinary) (hp : h.Pairwise (Apart K)) (hk : ∀ x ∈ h, ∀ k ∈ x.uses, s.keyToMsa.get k = K k)
    (he : execAll cfg env s h = some t) :
    (∀ x ∈ h, (prog cfg env K x).isSome) ∧ runRegs cfg env.block (h.flatMap (regsOf cfg env K)) s.registry = .ok t.registry ∧
    runCells (h.flatMap (cellsOf cfg env K)) (view s) = some (view t) ∧ t.maxMsaId = s.maxMsaId := by
  induction h generalizing s with
  | nil => cases he; exact ⟨by simp, rfl, rfl, rfl⟩
  | cons x h ih =>
    simp only [execAll, Option.bind_eq_some_iff] at he
    obtain ⟨s1, h1, h2⟩ := he
    obtain ⟨R, C, g1, g2, g3, g4⟩ := (matches_all (cfg := cfg) (env := env) (ho x (by simp)) (hk x (by simp))).does s1 h1
    have hp' := List.pairwise_cons.1 hp
    obtain ⟨k1, k2, k3, k4⟩ := ih (fun y hy => ho y (by simp [hy])) hp'.2
      (fun y hy => agree_next g1 g3 (hp'.1 y hy) (hk y (by simp [hy]))) h2
    refine ⟨?_, ?_, ?_, k4.trans g4⟩
    · simp only [List.mem_cons, forall_eq_or_imp, g1]; exact ⟨rfl, k1⟩
    · rw [List.flatMap_cons, runRegs_append]
      simp only [regsOf, g1, Option.map_some, Option.getD_some, g2]
      exact k2
    · rw [List.flatMap_cons, runCells_append]
      simp only [cellsOf, g1, Option.map_some, Option.getD_some, g3]
      exact k3

theorem execAll_can {cfg : Config} {env : Env} {K : AccountId → Option MsaId} (h : List Item) {s : State} {r V}
    (ho : ∀ x ∈ h, x.Ordinary) (hp : h.Pairwise (Apart K)) (hk : ∀ x ∈ h, ∀ k ∈ x.uses, s.keyToMsa.get k = K k)
    (hs : ∀ x ∈ h, (prog cfg env K x).isSome) (hr : runRegs cfg env.block (h.flatMap (regsOf cfg env K)) s.registry = .ok r)
    (hc : runCells (h.flatMap (cellsOf cfg env K)) (view s) = some V) : ∃ t, execAll cfg env s h = some t := by
  induction h generalizing s with
  | nil => exact ⟨s, rfl⟩
  | cons x h ih =>
    obtain ⟨⟨R, C⟩, g1⟩ := Option.isSome_iff_exists.1 (hs x (by simp))
    rw [List.flatMap_cons, runRegs_append] at hr
    rw [List.flatMap_cons, runCells_append] at hc
    simp only [regsOf, cellsOf, g1, Option.map_some, Option.getD_some] at hr hc
    cases g2 : runRegs cfg env.block R s.registry with
    | error e => rw [g2] at hr; cases hr
    | ok r1 =>
      cases g3 : runCells C (view s) with
      | none => rw [g3] at hc; cases hc
      | some W =>
        rw [g2] at hr
        rw [g3] at hc
        have hm := matches_all (cfg := cfg) (env := env) (ho x (by simp)) (hk x (by simp))
        obtain ⟨s1, h1⟩ := hm.can R C r1 W g1 g2 g3
        obtain ⟨R', C', g1', g2', g3', -⟩ := hm.does s1 h1
        obtain ⟨rfl, rfl⟩ := Prod.mk.inj (Option.some.inj (g1.symm.trans g1'))
        obtain rfl := Except.ok.inj (g2.symm.trans g2')
        obtain rfl := Option.some.inj (g3.symm.trans g3')
        have hp' := List.pairwise_cons.1 hp
        obtain ⟨t, ht⟩ := ih (fun y hy => ho y (by simp [hy])) hp'.2
          (fun y hy => agree_next g1 g3 (hp'.1 y hy) (hk y (by simp [hy]))) (fun y hy => hs y (by simp [hy])) hr hc
        exact ⟨t, by simp only [execAll, h1, Option.bind_some]; exact ht⟩

theorem cellsOf_placed {cfg : Config} {env : Env} {K : AccountId → Option MsaId} {x : Item} {a : Cell}
    (h : a ∈ cellsOf cfg env K x) : Placed K x a := by
  unfold cellsOf at h
  cases g : prog cfg env K x with
  | none => simp [g] at h
  | some p => obtain ⟨R, C⟩ := p; rw [g] at h; exact (prog_placed g).2 a h

theorem regsOf_map {cfg : Config} {env : Env} {K : AccountId → Option MsaId} {x : Item} (h : (prog cfg env K x).isSome) :
    (regsOf cfg env K x).map Prod.fst = x.signatures := by
  unfold regsOf
  cases g : prog cfg env K x with
  | none => rw [g] at h; cases h
  | some p => obtain ⟨R, C⟩ := p; exact (prog_placed g).1

theorem regsOf_signatures {cfg : Config} {env : Env} {K : AccountId → Option MsaId} {x : Item} {r : Signature × BlockNumber}
    (h : r ∈ regsOf cfg env K x) : r.1 ∈ x.signatures := by
  cases g : prog cfg env K x with
  | none => simp [regsOf, g] at h
  | some p => rw [← regsOf_map (cfg := cfg) (env := env) (K := K) (by rw [g]; rfl)]; exact List.mem_map.2 ⟨r, h, rfl⟩

theorem runCells_perm {cfg : Config} {env : Env} {K : AccountId → Option MsaId} {h h' : List Item} (hp : h.Perm h')
    (hd : h.Pairwise (Apart K)) (V : View) :
    runCells (h.flatMap (cellsOf cfg env K)) V = runCells (h'.flatMap (cellsOf cfg env K)) V := by
  induction hp generalizing V with
  | nil => rfl
  | cons x hp ih =>
    rw [List.flatMap_cons, List.flatMap_cons, runCells_append, runCells_append]
    congr 1
    funext W
    exact ih (List.pairwise_cons.1 hd).2 W
  | swap x y l =>
    simp only [List.flatMap_cons]
    rw [← List.append_assoc, ← List.append_assoc, runCells_append, runCells_append (_ ++ _)]
    congr 1
    refine runCells_swap _ _ (fun a ha b hb => ?_) V
    exact Apart.free ((List.pairwise_cons.1 hd).1 x (by simp)) (cellsOf_placed ha) (cellsOf_placed hb)
  | trans h1 h2 ih1 ih2 => exact (ih1 hd V).trans (ih2 ((h1.pairwise_iff (fun h => h.symm)).1 hd) V)

/-- In any state whose registry holds the signatures `q`. -/
theorem order_any {cfg : Config} (hc : 2 ≤ cfg.maxSignatures) (env : Env) {s t : State} {q : Queue}
    (hr : Rep cfg.maxSignatures s.registry q) {h h' : List Item} (hp : h.Perm h') (ho : ∀ x ∈ h, x.Ordinary)
    (hd : h.Pairwise (Apart s.keyToMsa.get)) (hn : ∀ x ∈ h, ∀ sig ∈ x.signatures, sig ∉ q.map Prod.fst)
    (he : execAll cfg env s h = some t) : ∃ t', execAll cfg env s h' = some t' ∧ Same t t' := by
  obtain ⟨h1, h2, h3, h4⟩ := execAll_does h ho hd (fun _ _ _ _ => rfl) he
  have hnew : ∀ g : List Item, (∀ x ∈ g, x ∈ h) → ∀ x ∈ g.flatMap (regsOf cfg env s.keyToMsa.get), x.1 ∉ q.map Prod.fst := by
    intro g hg x hx
    obtain ⟨y, hy, hx⟩ := List.mem_flatMap.1 hx
    exact hn y (hg y hy) _ (regsOf_signatures hx)
  have hmem : ∀ x ∈ h', x ∈ h := fun x hx => hp.mem_iff.2 hx
  have hok := (runRegs_iff hc env.block _ hr (hnew h (fun _ hx => hx))).1 ⟨_, h2⟩
  obtain ⟨r, hr'⟩ := (runRegs_iff hc env.block _ hr (hnew h' hmem)).2 (hok.perm (hp.flatMap_right _))
  have hd' := (hp.pairwise_iff (fun h => h.symm)).1 hd
  have hcells := (runCells_perm (cfg := cfg) (env := env) hp hd (view s)).symm.trans h3
  obtain ⟨t', ht⟩ := execAll_can h' (fun x hx => ho x (hmem x hx)) hd' (fun _ _ _ _ => rfl)
    (fun x hx => h1 x (hmem x hx)) hr' hcells
  obtain ⟨-, -, k3, k4⟩ := execAll_does h' (fun x hx => ho x (hmem x hx)) hd' (fun _ _ _ _ => rfl) ht
  have e : view t = view t' := Option.some.inj (hcells.symm.trans k3)
  exact ⟨t', ht, fun k => congrFun e (.key k), fun m => congrFun e (.count m), fun p => congrFun e (.del p),
    fun m => congrFun e (.prov m), h4.trans k4.symm⟩

/-! ## Calls that may fail -/

/-- The state after calls, of which some may fail. -/
def after (cfg : Config) (env : Env) (s : State) (h : List Item) : State := h.foldl (fun s x => (exec cfg env s x).getD s) s

/-- Its conditions that depend on no cell: the call is well formed and its signatures are within their period. -/
def Static (cfg : Config) (env : Env) (K : AccountId → Option MsaId) (x : Item) : Prop :=
  (prog cfg env K x).isSome ∧ ∀ r ∈ regsOf cfg env K x, env.block < r.2 ∧ r.2 < env.block + cfg.window

/-- The registry has room for the signatures of these calls, all different and new. -/
def Space (cfg : Config) (env : Env) (s : State) (h : List Item) : Prop :=
  ∃ q, Rep cfg.maxSignatures s.registry q ∧ (∀ x ∈ h, ∀ sig ∈ x.signatures, sig ∉ q.map Prod.fst) ∧
    (h.flatMap Item.signatures).Nodup ∧ Room cfg env.block q (h.flatMap Item.signatures).length

theorem Room.mono {cfg : Config} {now : BlockNumber} {q : Queue} {n m : Nat} (h : Room cfg now q n) (hm : m ≤ n) : Room cfg now q m :=
  fun i hi => h i (by omega)

theorem runRegs_rep {cfg : Config} (hc : 2 ≤ cfg.maxSignatures) (now : BlockNumber) (l : List (Signature × BlockNumber))
    {r r' : SigRegistry.Registry} {q : Queue} (hr : Rep cfg.maxSignatures r q) (h : runRegs cfg now l r = .ok r') {n : Nat}
    (hroom : Room cfg now q (l.length + n)) :
    ∃ q', Rep cfg.maxSignatures r' q' ∧ (∀ s ∈ q'.map Prod.fst, s ∈ q.map Prod.fst ∨ s ∈ l.map Prod.fst) ∧ Room cfg now q' n := by
  induction l generalizing r q with
  | nil => cases h; exact ⟨q, hr, fun s hs => .inl hs, by simpa using hroom⟩
  | cons x l ih =>
    simp only [runRegs] at h
    cases h1 : SigRegistry.register cfg.window cfg.maxSignatures r now x.1 x.2 with
    | error e => rw [h1] at h; cases h
    | ok r1 =>
      rw [h1] at h
      obtain ⟨g1, -⟩ := (register_iff hc hr).1 ⟨r1, h1⟩
      have e : (x :: l).length + n = (l.length + n) + 1 := by simp only [List.length_cons]; omega
      rw [e] at hroom
      obtain ⟨-, h3⟩ := (room_step (sig := x.1) hr.bounded g1 hc _).1 hroom
      obtain ⟨q', k1, k2, k3⟩ := ih (register_rep hc hr h1) h h3
      refine ⟨q', k1, fun s hs => ?_, k3⟩
      rw [List.map_cons, List.mem_cons]
      rcases k2 s hs with h4 | h4
      · rcases mem_remember h4 with h5 | h5
        · exact .inl h5
        · exact .inr (.inl h5)
      · exact .inr (.inr h4)

theorem exec_iff {cfg : Config} (hc : 2 ≤ cfg.maxSignatures) {env : Env} {K : AccountId → Option MsaId} {s : State} {x : Item}
    {h : List Item} (ho : x.Ordinary) (hk : ∀ k ∈ x.uses, s.keyToMsa.get k = K k) (hs : Space cfg env s (x :: h)) :
    (∃ t, exec cfg env s x = some t) ↔ Static cfg env K x ∧ (runCells (cellsOf cfg env K x) (view s)).isSome := by
  obtain ⟨q, hr, hn, hnd, hroom⟩ := hs
  have hm := matches_all (cfg := cfg) (env := env) ho hk
  have hn' : ∀ r ∈ regsOf cfg env K x, r.1 ∉ q.map Prod.fst := fun r hr => hn x (by simp) _ (regsOf_signatures hr)
  constructor
  · rintro ⟨t, ht⟩
    obtain ⟨R, C, g1, g2, g3, -⟩ := hm.does t ht
    have e1 : regsOf cfg env K x = R := by simp [regsOf, g1]
    have e2 : cellsOf cfg env K x = C := by simp [cellsOf, g1]
    rw [e1] at hn'
    refine ⟨⟨by rw [g1]; rfl, ?_⟩, by rw [e2, g3]; rfl⟩
    rw [e1]
    exact ((runRegs_iff hc env.block R hr hn').1 ⟨_, g2⟩).1
  · rintro ⟨⟨h1, h2⟩, h3⟩
    obtain ⟨V, hV⟩ := Option.isSome_iff_exists.1 h3
    have hmap := regsOf_map h1
    rw [List.flatMap_cons] at hnd hroom
    obtain ⟨r, hr'⟩ := (runRegs_iff hc env.block _ hr hn').2 ⟨h2, by rw [hmap]; exact (List.nodup_append.1 hnd).1,
      hroom.mono (by rw [← List.length_map (f := Prod.fst), hmap, List.length_append]; omega)⟩
    obtain ⟨⟨R, C⟩, g1⟩ := Option.isSome_iff_exists.1 h1
    have e1 : regsOf cfg env K x = R := by simp [regsOf, g1]
    have e2 : cellsOf cfg env K x = C := by simp [cellsOf, g1]
    rw [e1] at hr'
    rw [e2] at hV
    exact hm.can R C r V g1 hr' hV

theorem Space.next {cfg : Config} (hc : 2 ≤ cfg.maxSignatures) {env : Env} {s : State} {x : Item} {h : List Item} (ho : x.Ordinary)
    (hs : Space cfg env s (x :: h)) : Space cfg env ((exec cfg env s x).getD s) h := by
  obtain ⟨q, hr, hn, hnd, hroom⟩ := hs
  rw [List.flatMap_cons, List.nodup_append] at hnd
  rw [List.flatMap_cons, List.length_append] at hroom
  cases he : exec cfg env s x with
  | none => exact ⟨q, hr, fun y hy => hn y (by simp [hy]), hnd.2.1, hroom.mono (by omega)⟩
  | some t =>
    obtain ⟨R, C, g1, g2, -⟩ := (matches_all (cfg := cfg) (env := env) (K := s.keyToMsa.get) ho (fun _ _ => rfl)).does t he
    have hmap := (prog_placed g1).1
    have hlen : R.length = x.signatures.length := by rw [← hmap, List.length_map]
    rw [← hlen] at hroom
    obtain ⟨q', k1, k2, k3⟩ := runRegs_rep hc env.block R hr g2 hroom
    refine ⟨q', k1, fun y hy sig hsig hm => ?_, hnd.2.1, k3⟩
    rcases k2 sig hm with h1 | h1
    · exact hn y (by simp [hy]) sig hsig h1
    · rw [hmap] at h1
      exact hnd.2.2 sig h1 sig (List.mem_flatMap.2 ⟨y, hy, hsig⟩) rfl

theorem Cell.keep {a b : Cell} (hf : a.Free b) {V W : View} (h : b.run V = some W) : (a.run W).isSome = (a.run V).isSome := by
  rcases hf with h1 | ⟨-, hb⟩
  · simp only [Cell.run, Option.map_eq_some_iff] at h
    obtain ⟨v, -, rfl⟩ := h
    simp [Cell.run, Function.update_of_ne h1]
  · rw [hb.run h]

theorem Cell.Free.symm {a b : Cell} (h : a.Free b) : b.Free a := h.elim (fun h => .inl (Ne.symm h)) (fun h => .inr ⟨h.2, h.1⟩)

theorem runCells_keep1 (A : List Cell) {b : Cell} (hf : ∀ a ∈ A, a.Free b) {V W : View} (h : b.run V = some W) :
    (runCells A W).isSome = (runCells A V).isSome := by
  induction A generalizing V W with
  | nil => rfl
  | cons a A ih =>
    have hab := hf a (by simp)
    simp only [runCells]
    cases h1 : a.run V with
    | none =>
      have : a.run W = none := by
        have := Cell.keep hab h
        rw [h1] at this
        simpa using this
      rw [this]
    | some V1 =>
      have h2 := Cell.keep hab.symm h1
      rw [h] at h2
      obtain ⟨W1, hW1⟩ := Option.isSome_iff_exists.1 h2
      have h3 := Cell.swap hab V
      rw [h1, h] at h3
      have h4 : a.run W = some W1 := h3.symm.trans hW1
      rw [h4]
      exact ih (fun c hc => hf c (by simp [hc])) hW1

theorem runCells_keep (A B : List Cell) (hf : ∀ a ∈ A, ∀ b ∈ B, a.Free b) {V W : View} (h : runCells B V = some W) :
    (runCells A W).isSome = (runCells A V).isSome := by
  induction B generalizing V with
  | nil => cases h; rfl
  | cons b B ih =>
    simp only [runCells, Option.bind_eq_some_iff] at h
    obtain ⟨X, h1, h2⟩ := h
    rw [ih (fun a ha c hc => hf a ha c (by simp [hc])) h2]
    exact runCells_keep1 A (fun a ha => hf a ha b (by simp)) h1

open Classical in
/-- What a call that may fail does to the cells. -/
noncomputable def stepV (cfg : Config) (env : Env) (K : AccountId → Option MsaId) (V : View) (x : Item) : View :=
  if Static cfg env K x then (runCells (cellsOf cfg env K x) V).getD V else V

theorem stepV_keep {cfg : Config} {env : Env} {K : AccountId → Option MsaId} {x y : Item} (h : Apart K x y) (V : View) :
    (runCells (cellsOf cfg env K x) (stepV cfg env K V y)).isSome = (runCells (cellsOf cfg env K x) V).isSome := by
  unfold stepV
  split
  · cases g : runCells (cellsOf cfg env K y) V with
    | none => rfl
    | some W => exact runCells_keep _ _ (fun a ha b hb => Apart.free h (cellsOf_placed ha) (cellsOf_placed hb)) g
  · rfl

theorem stepV_comm {cfg : Config} {env : Env} {K : AccountId → Option MsaId} {x y : Item} (h : Apart K x y) (V : View) :
    stepV cfg env K (stepV cfg env K V x) y = stepV cfg env K (stepV cfg env K V y) x := by
  have k1 := stepV_keep (cfg := cfg) (env := env) h V
  have k2 := stepV_keep (cfg := cfg) (env := env) h.symm V
  by_cases hx : Static cfg env K x <;> by_cases hy : Static cfg env K y
  · have hsw := runCells_swap (cellsOf cfg env K x) (cellsOf cfg env K y)
      (fun a ha b hb => Apart.free h (cellsOf_placed ha) (cellsOf_placed hb)) V
    rw [runCells_append, runCells_append] at hsw
    simp only [stepV, if_pos hx, if_pos hy] at k1 k2 ⊢
    cases g1 : runCells (cellsOf cfg env K x) V with
    | none =>
      cases g2 : runCells (cellsOf cfg env K y) V with
      | none => simp [g1, g2]
      | some W =>
        rw [g1, g2] at k1
        have e : runCells (cellsOf cfg env K x) W = none := by simpa using k1
        simp [g2, e]
    | some X =>
      cases g2 : runCells (cellsOf cfg env K y) V with
      | none =>
        rw [g1, g2] at k2
        have e : runCells (cellsOf cfg env K y) X = none := by simpa using k2
        simp [g1, e]
      | some W =>
        rw [g1, g2] at hsw k1 k2
        simp only [Option.getD_some, Option.bind_some] at hsw k1 k2 ⊢
        obtain ⟨Y, hY⟩ := Option.isSome_iff_exists.1 (k1.trans (by rfl))
        rw [hsw, hY]
        rfl
  · simp only [stepV, if_pos hx, if_neg hy]
  · simp only [stepV, if_neg hx, if_pos hy]
  · simp only [stepV, if_neg hx, if_neg hy]

theorem exec_view {cfg : Config} (hc : 2 ≤ cfg.maxSignatures) {env : Env} {K : AccountId → Option MsaId} {s : State} {x : Item}
    {h : List Item} (ho : x.Ordinary) (hk : ∀ k ∈ x.uses, s.keyToMsa.get k = K k) (hs : Space cfg env s (x :: h)) :
    view ((exec cfg env s x).getD s) = stepV cfg env K (view s) x ∧ ((exec cfg env s x).getD s).maxMsaId = s.maxMsaId ∧
    ∀ y, Apart K x y → (∀ k ∈ y.uses, s.keyToMsa.get k = K k) → ∀ k ∈ y.uses, ((exec cfg env s x).getD s).keyToMsa.get k = K k := by
  have hi := exec_iff hc ho hk hs
  cases he : exec cfg env s x with
  | none =>
    refine ⟨?_, rfl, fun y _ hy => hy⟩
    unfold stepV
    split
    · rename_i h1
      cases g : runCells (cellsOf cfg env K x) (view s) with
      | none => rfl
      | some W =>
        obtain ⟨t, ht⟩ := hi.2 ⟨h1, by rw [g]; rfl⟩
        rw [he] at ht; cases ht
    · rfl
  | some t =>
    obtain ⟨h1, -⟩ := hi.1 ⟨t, he⟩
    obtain ⟨R, C, g1, -, g3, g4⟩ := (matches_all (cfg := cfg) (env := env) ho hk).does t he
    have e2 : cellsOf cfg env K x = C := by simp [cellsOf, g1]
    refine ⟨?_, g4, fun y hy => agree_next g1 g3 hy⟩
    simp only [stepV, if_pos h1, e2, g3, Option.getD_some]

theorem after_view {cfg : Config} (hc : 2 ≤ cfg.maxSignatures) {env : Env} {K : AccountId → Option MsaId} (h g : List Item) {s : State}
    (ho : ∀ x ∈ h, x.Ordinary) (hd : (h ++ g).Pairwise (Apart K)) (hk : ∀ x ∈ h ++ g, ∀ k ∈ x.uses, s.keyToMsa.get k = K k)
    (hs : Space cfg env s (h ++ g)) :
    view (after cfg env s h) = h.foldl (stepV cfg env K) (view s) ∧ (after cfg env s h).maxMsaId = s.maxMsaId ∧
    (∀ x ∈ g, ∀ k ∈ x.uses, (after cfg env s h).keyToMsa.get k = K k) ∧ Space cfg env (after cfg env s h) g := by
  induction h generalizing s with
  | nil => exact ⟨rfl, rfl, hk, hs⟩
  | cons x h ih =>
    have hd' := List.pairwise_cons.1 hd
    obtain ⟨h1, h2, h3⟩ := exec_view hc (ho x (by simp)) (hk x (by simp)) hs
    obtain ⟨k1, k2, k3, k4⟩ := ih (s := (exec cfg env s x).getD s) (fun y hy => ho y (by simp [hy])) hd'.2
      (fun y hy => h3 y (hd'.1 y hy) (hk y (List.mem_cons_of_mem _ hy))) (Space.next hc (ho x (by simp)) hs)
    refine ⟨?_, k2.trans h2, k3, k4⟩
    rw [List.foldl_cons, ← h1]
    exact k1

theorem foldl_perm {cfg : Config} {env : Env} {K : AccountId → Option MsaId} {h h' : List Item} (hp : h.Perm h')
    (hd : h.Pairwise (Apart K)) (V : View) : h.foldl (stepV cfg env K) V = h'.foldl (stepV cfg env K) V := by
  induction hp generalizing V with
  | nil => rfl
  | cons x hp ih => exact ih (List.pairwise_cons.1 hd).2 _
  | swap x y l =>
    simp only [List.foldl_cons]
    rw [stepV_comm ((List.pairwise_cons.1 hd).1 x (by simp))]
  | trans h1 h2 ih1 ih2 => exact (ih1 hd V).trans (ih2 ((h1.pairwise_iff (fun h => h.symm)).1 hd) V)

theorem foldl_keep {cfg : Config} {env : Env} {K : AccountId → Option MsaId} (h : List Item) {x : Item} (hd : ∀ y ∈ h, Apart K x y)
    (V : View) : (runCells (cellsOf cfg env K x) (h.foldl (stepV cfg env K) V)).isSome = (runCells (cellsOf cfg env K x) V).isSome := by
  induction h generalizing V with
  | nil => rfl
  | cons y h ih => exact (ih (fun z hz => hd z (by simp [hz])) _).trans (stepV_keep (hd y (by simp)) V)

/-! ## The property -/

/-- C168: after any history, calls within a block that open or give up no account, of which none changes what another one is about,
with signatures that the registry does not remember. If all succeed in one order, they do in every order, and keys, delegations and
providers are the same afterwards. -/
theorem C168_all (cfg : Config) (hc : 2 ≤ cfg.maxSignatures) (hist : List Step) (env : Env) (h h' : List Item) (hp : h.Perm h')
    (ho : ∀ x ∈ h, x.Ordinary) (hd : h.Pairwise (Apart (run cfg .init hist).keyToMsa.get))
    (hn : ∀ x ∈ h, ∀ sig ∈ x.signatures, sig ∉ (held cfg hist).map Prod.fst) (t : State)
    (he : execAll cfg env (run cfg .init hist) h = some t) :
    ∃ t', execAll cfg env (run cfg .init hist) h' = some t' ∧ Same t t' :=
  order_any hc env (aInv_run cfg hc hist).rep hp ho hd hn he

/-- C168, outcomes, partial: of such calls, each succeeds just when it would without the others, whichever of the others come
before it and whether they succeed, as long as the registry has room for all of the signatures. -/
theorem C168_alone_partial (cfg : Config) (hc : 2 ≤ cfg.maxSignatures) (hist : List Step) (env : Env) (h : List Item)
    (ho : ∀ x ∈ h, x.Ordinary) (hd : h.Pairwise (Apart (run cfg .init hist).keyToMsa.get))
    (hn : ∀ x ∈ h, ∀ sig ∈ x.signatures, sig ∉ (held cfg hist).map Prod.fst) (hnd : (h.flatMap Item.signatures).Nodup)
    (hroom : Room cfg env.block (held cfg hist) (h.flatMap Item.signatures).length) (a b : List Item) (x : Item)
    (e : h = a ++ x :: b) :
    (exec cfg env (after cfg env (run cfg .init hist) a) x).isSome = (exec cfg env (run cfg .init hist) x).isSome := by
  subst e
  have hs : Space cfg env (run cfg .init hist) (a ++ x :: b) := ⟨_, (aInv_run cfg hc hist).rep, hn, hnd, hroom⟩
  have hs1 : Space cfg env (run cfg .init hist) (x :: b) := by
    obtain ⟨q, k1, k2, k3, k4⟩ := hs
    rw [List.flatMap_append] at k3 k4
    exact ⟨q, k1, fun y hy => k2 y (List.mem_append_right _ hy), (List.nodup_append.1 k3).2.1,
      k4.mono (by rw [List.length_append]; omega)⟩
  obtain ⟨h1, -, h3, h4⟩ := after_view (K := (run cfg .init hist).keyToMsa.get) hc a (x :: b) (fun y hy => ho y (by simp [hy])) hd
    (fun _ _ _ _ => rfl) hs
  have hox : x.Ordinary := ho x (by simp)
  have hda : ∀ y ∈ a, Apart (run cfg .init hist).keyToMsa.get x y :=
    fun y hy => ((List.pairwise_append.1 hd).2.2 y hy x (by simp)).symm
  rw [Bool.eq_iff_iff, Option.isSome_iff_exists, Option.isSome_iff_exists, exec_iff hc hox (h3 x (by simp)) h4,
    exec_iff hc hox (fun _ _ => rfl) hs1, h1, foldl_keep a hda]

/-- C168, contents, partial: and keys, delegations and providers are the same afterwards in whatever order they come. -/
theorem C168_contents_partial (cfg : Config) (hc : 2 ≤ cfg.maxSignatures) (hist : List Step) (env : Env) (h h' : List Item)
    (hp : h.Perm h') (ho : ∀ x ∈ h, x.Ordinary) (hd : h.Pairwise (Apart (run cfg .init hist).keyToMsa.get))
    (hn : ∀ x ∈ h, ∀ sig ∈ x.signatures, sig ∉ (held cfg hist).map Prod.fst) (hnd : (h.flatMap Item.signatures).Nodup)
    (hroom : Room cfg env.block (held cfg hist) (h.flatMap Item.signatures).length) :
    Same (after cfg env (run cfg .init hist) h) (after cfg env (run cfg .init hist) h') := by
  have hr := (aInv_run cfg hc hist).rep
  have hm : ∀ x ∈ h', x ∈ h := fun x hx => hp.mem_iff.2 hx
  have hp2 : (h.flatMap Item.signatures).Perm (h'.flatMap Item.signatures) := hp.flatMap_right _
  obtain ⟨h1, h2, -, -⟩ := after_view (K := (run cfg .init hist).keyToMsa.get) hc h [] ho (by simpa using hd) (fun _ _ _ _ => rfl)
    (by rw [List.append_nil]; exact ⟨_, hr, hn, hnd, hroom⟩)
  obtain ⟨g1, g2, -, -⟩ := after_view (K := (run cfg .init hist).keyToMsa.get) hc h' [] (fun x hx => ho x (hm x hx))
    (by simpa using (hp.pairwise_iff (fun h => h.symm)).1 hd) (fun _ _ _ _ => rfl)
    (by rw [List.append_nil]; exact ⟨_, hr, fun x hx => hn x (hm x hx), hp2.nodup_iff.1 hnd, hp2.length_eq ▸ hroom⟩)
  have e := (h1.trans (foldl_perm hp hd _)).trans g1.symm
  exact ⟨fun k => congrFun e (.key k), fun m => congrFun e (.count m), fun p => congrFun e (.del p), fun m => congrFun e (.prov m),
    h2.trans g2.symm⟩

/-- C168 in full: without the condition that there is room. -/
def C168_full : Prop :=
  ∀ (cfg : Config) (hist : List Step) (env : Env) (h : List Item), 2 ≤ cfg.maxSignatures → (∀ x ∈ h, x.Ordinary) →
    h.Pairwise (Apart (run cfg .init hist).keyToMsa.get) →
    (∀ x ∈ h, ∀ sig ∈ x.signatures, sig ∉ (held cfg hist).map Prod.fst) → (h.flatMap Item.signatures).Nodup →
    ∀ a b x, h = a ++ x :: b →
      (exec cfg env (after cfg env (run cfg .init hist) a) x).isSome = (exec cfg env (run cfg .init hist) x).isSome

/-- Two users, of accounts 2 and 3, give grants to the provider 1. -/
def exGrants : List Item :=
  [⟨true, .signed 100, .grantDelegation 201 4 ⟨1, [5], 60⟩⟩, ⟨true, .signed 100, .grantDelegation 300 5 ⟨1, [7], 60⟩⟩]

theorem exGrants_apart (cfg : Config) (hist : List Step) (h1 : (run cfg .init hist).keyToMsa.get 100 = some 1)
    (h2 : (run cfg .init hist).keyToMsa.get 201 = some 2) (h3 : (run cfg .init hist).keyToMsa.get 300 = some 3) :
    exGrants.Pairwise (Apart (run cfg .init hist).keyToMsa.get) := by
  simp only [exGrants, List.pairwise_cons, List.mem_cons, List.not_mem_nil, or_false, forall_eq, false_imp_iff, implies_true,
    List.Pairwise.nil, and_true]
  constructor <;> constructor <;>
    simp [Item.changes, Item.account, Item.delegation, Item.registers, h1, h2, h3]

/-- C168 fails when the registry is short of room: of two users who give a grant, the second is refused then. -/
theorem C168_full_false : ¬C168_full := by
  intro hf
  have h := hf { exCfg with maxSignatures := 4 } (exHistory.take 6) (exEnv 5) exGrants (by decide) (by simp [exGrants, Item.Ordinary])
    (exGrants_apart _ _ (by decide +kernel) (by decide +kernel) (by decide +kernel)) (by decide +kernel) (by decide +kernel)
    [exGrants[0]] [] exGrants[1] rfl
  revert h
  decide +kernel

/-- With room, both grants, a revocation by the provider and a change of keys: all succeed in both orders. -/
example :
    let hist := exHistory.take 6
    let h : List Item := exGrants ++ [⟨true, .signed 201, .addPublicKeyToMsa 201 6 7 ⟨2, 60, 202⟩⟩]
    h.Pairwise (Apart (run exCfg .init hist).keyToMsa.get) ∧ (∀ x ∈ h, x.Ordinary) ∧
    (∀ x ∈ h, ∀ sig ∈ x.signatures, sig ∉ (held exCfg hist).map Prod.fst) ∧ (h.flatMap Item.signatures).Nodup ∧
    (held exCfg hist).length + (h.flatMap Item.signatures).length ≤ exCfg.maxSignatures ∧
    (execAll exCfg (exEnv 5) (run exCfg .init hist) h).isSome = true ∧
    (execAll exCfg (exEnv 5) (run exCfg .init hist) h.reverse).isSome = true := by
  have h1 : (run exCfg .init (exHistory.take 6)).keyToMsa.get 100 = some 1 := by decide +kernel
  have h2 : (run exCfg .init (exHistory.take 6)).keyToMsa.get 201 = some 2 := by decide +kernel
  have h3 : (run exCfg .init (exHistory.take 6)).keyToMsa.get 300 = some 3 := by decide +kernel
  refine ⟨?_, by simp [exGrants, Item.Ordinary], by decide +kernel, by decide +kernel, by decide +kernel, by decide +kernel,
    by decide +kernel⟩
  rw [List.pairwise_append]
  refine ⟨exGrants_apart _ _ h1 h2 h3, by simp, ?_⟩
  simp only [exGrants, List.mem_cons, List.not_mem_nil, or_false, forall_eq, forall_eq_or_imp]
  refine ⟨?_, ?_⟩ <;> constructor <;> constructor <;>
    simp [Item.changes, Item.uses, Item.account, Item.delegation, Item.registers, Item.grantee, h1, h2, h3]

end Verif.Msa
